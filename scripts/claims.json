{
"C01": {"status": "proved", "theorems": ["c01_states_linked", "c01_lines"], "note": "Every file content that generates states; links, numbering, newline normalisation and the line splitting of text files."},
"C02": {"status": "proved", "theorems": ["c02_comment_harmless"], "note": "Every line, every number syntax. The hypothesis that the whole line parses is needed: 'G90;G1 5' raises although 'G90' parses (example beside the theorem)."},
"C03": {"status": "proved", "theorems": ["c03_wellformed", "c03_plain"], "note": "Command names and argument letters are written down a second time in Spec/Commands.lean. Assumes of float() only that it rejects '' and capital letter + digit/sign/point/e/_."},
"C04": {"status": "proved", "theorems": ["c04_commands_credited"], "note": "Both directions, and no key twice."},
"C05": {"status": "proved", "theorems": ["c05_rejected_lines"], "note": "Exact characterisation of the raising lines, including commands inside comments."},
"C06": {"status": "proved", "theorems": ["c06_unsupported_counts", "c06_unsupported_counts_file"], "note": "The unsupported commands are those named in Spec/Commands.lean."},
"C07": {"status": "proved", "theorems": ["c07_absolute_moves", "c07_position_law"], "note": "c07_position_law is the exact law for every axis of every line, whatever the line contains; displacements by G92 are read off the states (Spec.offset)."},
"C08": {"status": "proved", "theorems": ["c08_relative_accumulates"], "note": "Over any run of lines in relative mode without G92."},
"C09": {"status": "proved", "theorems": ["c09_absolute_forgets", "c09_absolute_forgets_no_g92"], "note": "The G92 displacement in force is read off the states of each run (Spec.offset)."},
"C10": {"status": "partial", "theorems": ["c10_refuted", "c10_g92_displaces", "c10_g92_zero_partial"], "note": "The wanted statement C10Full is false of the code (c10_refuted): G92 displaces the reported position by twice the new value (c10_g92_displaces, exact law). It holds when every G92 value is zero (c10_g92_zero_partial)."},
"C100": {"status": "proved", "theorems": ["c100_speeds", "c100_durations", "c100_print_time"], "note": "C119 has it for feedrates of zero and lines that move and pause."},
"C101": {"status": "proved", "theorems": ["c101_setup", "c101_unknown", "c101_benchy", "c101_simulated", "c101_debugging"], "note": ""},
"C102": {"status": "partial", "theorems": ["c102_refuted", "c102_titles_partial", "c102_default_partial", "c102_titles_sensible_partial", "c102_default_sensible_partial"], "note": "False in full (c102_refuted): \"Triangular\" also stands for accelerate+cruise and cruise+brake. The partial theorems prove everything else, and the full claim for default junction handling. Also for feedrates of zero and lines that move and pause (\u2026_sensible)."},
"C103": {"status": "proved", "theorems": ["c103_summary", "c103_plain_files"], "note": ""},
"C104": {"status": "proved", "theorems": ["c104_vectors", "c104_states", "c104_first_state", "c104_segments", "c104_segments_sensible"], "note": "Also for feedrates of zero and lines that move and pause (\u2026_sensible)."},
"C105": {"status": "partial", "theorems": ["c105_refuted", "c105_no_hint_partial", "c105_hint_partial", "c105_plain"], "note": "False in full (c105_refuted). The partial theorems together say for every ordered list, time and hint what the answer or the exception is."},
"C106": {"status": "partial", "theorems": ["c106_refuted", "c106_no_attribute", "c106_values_partial", "c106_error_partial", "c106_error_sensible_partial"], "note": "False in full: the attribute result is never created, so both methods raise. If a caller sets it, the stored values are as claimed (within the tolerances of np.isclose). Also for feedrates of zero and lines that move and pause (\u2026_sensible)."},
"C107": {"status": "proved", "theorems": ["c107_links", "c107_errors", "c107_complete"], "note": "For every recursion limit: the simulation either exceeds it, or raises what the plan raises, or ends with linked objects that hold the plan."},
"C108": {"status": "partial", "theorems": ["c108_refuted", "c108_short_moves", "c108_short_files_partial", "c108_braking_partial", "c108_default_partial"], "note": "False in full (c108_refuted, with the family of programs c108_short_moves). Proved for programs with no more states than the limit, for programs that can brake to standstill within any `limit` actions in a row, and for the default firmware."},
"C109": {"status": "proved", "theorems": ["c109_ends", "c109_joints", "c109_compared", "c109_size_matters"], "note": "About plans that succeed (C83 shows that planning with doubles can raise). The restriction to usual sizes is needed: c109_size_matters. Overflow and subnormal numbers are not modelled."},
"C11": {"status": "proved", "theorems": ["c11_settings_modal"], "note": ""},
"C110": {"status": "proved", "theorems": ["c110_forward", "c110_feed", "c110_joints", "c110_total", "c110_tolerance"], "note": "About plans that succeed (C83 shows that planning with doubles can raise). c110_tolerance shows that the feedrate needs a tolerance; for the nanosecond of c110_joints no witness is known. Overflow and subnormal numbers are not modelled."},
"C111": {"status": "proved", "theorems": ["c111_documented", "c111_order", "c111_stray", "c111_effects"], "note": "argparse of the standard library is part of the model (version 3.11, compared with the original on 80000 random lines). Which characters count as digits is a parameter."},
"C112": {"status": "proved", "theorems": ["c112_none", "c112_example", "c112_plot", "c112_mistyped", "c112_untouched"], "note": "argparse of the standard library is part of the model (version 3.11, compared with the original on 80000 random lines). Which characters count as digits is a parameter. Mistyped words with a space are left out: argparse takes them for values."},
"C113": {"status": "partial", "theorems": ["c113_refuted", "c113_glued_partial", "c113_printer", "c113_cue", "c113_abbreviated", "c113_ambiguous", "c113_short_cue", "c113_no_file"], "note": "The full statement is false (c113_refuted); what each option does instead is c113_printer and c113_cue. argparse of the standard library is part of the model (version 3.11, compared with the original on 80000 random lines). Which characters count as digits is a parameter."},
"C114": {"status": "proved", "theorems": ["c114_on_path", "c114_gaps"], "note": "For Dbl, the software model of IEEE doubles (trigonometry of junction deviation by a polynomial). That planning succeeds is a hypothesis; C83/C84 say when it is known to."},
"C115": {"status": "proved", "theorems": ["c115_command", "c115_brace_saves_nothing", "c115_brace", "c115_benchy_inside", "c115_benchy", "c115_benchy_plain", "c115_pointers"], "note": "The texts that are printed are not modelled. With files that only push filament in lines that move and pause (nothing is shown then) the end of the benchy example is left open."},
"C116": {"status": "partial", "theorems": ["c116_summary", "c116_layers", "c116_travelled_partial", "c116_refuted"], "note": "The statement about the travel distances is false (c116_refuted); the exact law is c116_layers, and it holds if no line both moves and pauses (c116_travelled_partial). The rest is c116_summary."},
"C117": {"status": "proved", "theorems": ["c117_path", "c117_start", "c117_query"], "note": "Planned with software IEEE doubles; numbers outside the range of doubles (overflow, subnormals) are not modelled."},
"C118": {"status": "proved", "theorems": ["c118_fastest", "c118_moves", "c118_stops", "c118_slowest"], "note": "Competing motions are Spec.Timetable. Junction limits are the firmware's junction speeds (C14 to C17)."},
"C119": {"status": "proved", "theorems": ["c119_speeds", "c119_durations", "c119_print_time"], "note": "Junction limits are the firmware's junction speeds (C14 to C17)."},
"C12": {"status": "proved", "theorems": ["c12_layer_counts", "c12_layer_monotone"], "note": ""},
"C120": {"status": "proved", "theorems": ["c120_only", "c120_before_last", "c120_drawn", "c120_colours", "c120_resolution", "c120_variants", "c120_speed", "c120_position", "c120_marks", "c120_velocity", "c120_default", "c120_steps", "c120_errors"], "note": "The exact velocity curve is shown where no pause takes zero seconds. marlin_jerk can leave out the last segment (c75_refuted). What is passed is the motion of the segments, which is where the machine goes (C87)."},
"C121": {"status": "proved", "theorems": ["c121_least", "c121_print_time"], "note": "Spec.Timetable are the motions, Spec.tasks the steps. With marlin_jerk a move of the filament alone begins with a stale speed in the planner, so the lower bound asks that every move travels."},
"C122": {"status": "partial", "theorems": ["c122_refuted", "c122_reached_partial", "c122_law", "c122_outcome", "c122_missed"], "note": "False of the code in general (c122_refuted): the box is intersected with the lines of the program, and after a move that is lost the machine is elsewhere. Proved if every move starts where the program says (c122_reached_partial); c122_law and c122_outcome are the exact laws for all sensible programs; c122_missed: a box the nozzle passes through may also be missed. Left out: the move asked for by a pausing line starts on the surface, where the code computes 0/0."},
"C123": {"status": "proved", "theorems": ["c123_block", "c123_rejected", "c123_file"], "note": "Positive acceleration assumed."},
"C124": {"status": "proved", "theorems": ["c124_size", "c124_feedrates", "c124_accelerations", "c124_jerk", "c124_tuned", "c124_least", "c124_plannable", "c124_mka_slower"], "note": "c124_tuned is the general statement for all four factors at once. c124_mka_slower shows why MKA is left out for higher feedrates: they can make a print slower there. For marlin_jerk every step has to travel, as in C66."},
"C125": {"status": "proved", "theorems": ["c125_at_least", "c125_longer", "c125_stopping", "c125_at_most", "c125_sharp"], "note": "c125_sharp shows that the upper bound is reached."},
"C126": {"status": "proved", "theorems": ["c126_part", "c126_least", "c126_longer", "c126_shorter"], "note": "c126_shorter shows that the assumption about accelerations in c126_longer cannot be dropped. marlin_jerk is left out."},
"C127": {"status": "proved", "theorems": ["c127_at_least", "c127_at_most", "c127_part", "c127_longer"], "note": "Builds on C67, C125 and C126."},
"C128": {"status": "proved", "theorems": ["c128_idle", "c128_same_doings", "c128_without"], "note": "Errors are the same too. Builds on C67 for files."},
"C129": {"status": "proved", "theorems": ["c129_faster", "c129_setup", "c129_pieces", "c129_shifted", "c129_placed"], "note": "File versions of C66, C70 and C71; the restrictions to some firmwares are those of C66, C70 and C71, where they are shown to be necessary."},
"C13": {"status": "proved", "theorems": ["c13_pause_own_line"], "note": ""},
"C130": {"status": "proved", "theorems": ["c130_waits", "c130_file"], "note": ""},
"C131": {"status": "proved", "theorems": ["c131_nozzle", "c131_plannable", "c131_values", "c131_events", "c131_file", "c131_mka"], "note": "The MKA firmware is outside of the property: its limit looks at the filament axis as well, see c131_mka."},
"C132": {"status": "proved", "theorems": ["c132_simulated", "c132_tuned", "c132_size", "c132_feedrates", "c132_accelerations", "c132_jerk"], "note": ""},
"C133": {"status": "proved", "theorems": ["c133_back"], "note": ""},
"C134": {"status": "proved", "theorems": ["c134_motion", "c134_plannable", "c134_values", "c134_width", "c134_events", "c134_extents", "c134_submodel", "c134_layers", "c134_lines", "c134_file"], "note": "Submodel times, layer metrics, extents and highest speed are proved for programs; motion, queries, widths, event series and drawn lines also for files."},
"C14": {"status": "proved", "theorems": ["c14_inert_keeps", "c14_remove_inert"], "note": ""},
"C15": {"status": "proved", "theorems": ["c15_prefix"], "note": ""},
"C16": {"status": "partial", "theorems": ["c16_refuted", "c16_units_ignored", "c16_millimetres_partial"], "note": "The wanted statement C16Full is false of the code (c16_refuted): G20/G21 only set a flag, positions do not depend on it (c16_units_ignored). It holds for files that never switch to inch (c16_millimetres_partial)."},
"C17": {"status": "proved", "theorems": ["c17_junction_speed"], "note": "All firmware models; feedrate and jerk only need to be non-negative."},
"C18": {"status": "partial", "theorems": ["c18_refuted", "c18_last_stop_partial", "c18_marlin_jerk_end", "c18_last_stop_sensible_partial", "c18_marlin_jerk_law"], "note": "False of the code for marlin_jerk (c18_refuted): a last move that travels never ends at standstill, but with min(feedrate, 2*jerk) or as fast as it can get (c18_marlin_jerk_law, exact law). Proved for all other firmware models (c18_last_stop_partial, also with feedrates of zero: c18_last_stop_sensible_partial)."},
"C19": {"status": "proved", "theorems": ["c19_plannable"], "note": "Also says which shape applies, in terms of the speeds, acceleration and length alone."},
"C20": {"status": "proved", "theorems": ["c20_targets", "c20_targets_sensible"], "note": "For regular programs (Spec.Regular: positive feedrate and acceleration, jerk >= 0, pauses stand still after motion), every firmware. c20_targets_sensible covers every program that can be planned with non-negative feedrates, also with moves of feedrate zero and lines that move and pause (which then begin where the machine really is)."},
"C21": {"status": "proved", "theorems": ["c21_feedrate", "c21_feedrate_sensible"], "note": "For regular programs (Spec.Regular: positive feedrate and acceleration, jerk >= 0, pauses stand still after motion), every firmware. c21_feedrate_sensible covers every program that can be planned with non-negative feedrates, also with moves of feedrate zero and lines that move and pause (which then begin where the machine really is)."},
"C22": {"status": "proved", "theorems": ["c22_acceleration", "c22_acceleration_sensible"], "note": "For regular programs (Spec.Regular: positive feedrate and acceleration, jerk >= 0, pauses stand still after motion), every firmware. c22_acceleration_sensible covers every program that can be planned with non-negative feedrates, also with moves of feedrate zero and lines that move and pause (which then begin where the machine really is)."},
"C23": {"status": "proved", "theorems": ["c23_timeline", "c23_timeline_sensible"], "note": "For regular programs (Spec.Regular: positive feedrate and acceleration, jerk >= 0, pauses stand still after motion), every firmware. c23_timeline_sensible covers every program that can be planned with non-negative feedrates, also with moves of feedrate zero and lines that move and pause (which then begin where the machine really is)."},
"C24": {"status": "proved", "theorems": ["c24_continuous", "c24_continuous_sensible"], "note": "For regular programs (Spec.Regular: positive feedrate and acceleration, jerk >= 0, pauses stand still after motion), every firmware. c24_continuous_sensible covers every program that can be planned with non-negative feedrates, also with moves of feedrate zero and lines that move and pause (which then begin where the machine really is)."},
"C25": {"status": "proved", "theorems": ["c25_speed_continuous", "c25_speed_continuous_sensible"], "note": "For regular programs (Spec.Regular: positive feedrate and acceleration, jerk >= 0, pauses stand still after motion), every firmware. c25_speed_continuous_sensible covers every program that can be planned with non-negative feedrates, also with moves of feedrate zero and lines that move and pause (which then begin where the machine really is)."},
"C26": {"status": "proved", "theorems": ["c26_correction_total", "c86_plannable"], "note": "For regular programs (Spec.Regular: positive feedrate and acceleration, jerk >= 0, pauses stand still after motion), every firmware. Up to Python's recursion limit, see C108. Which other programs can be planned: C86. c86_plannable: with feedrates of zero and lines that move and pause, planning succeeds exactly if every pause is not negative and follows a move."},
"C27": {"status": "proved", "theorems": ["c27_dwell", "c27_dwell_sensible"], "note": "For regular programs (Spec.Regular: positive feedrate and acceleration, jerk >= 0, pauses stand still after motion), every firmware. c27_dwell_sensible covers every program that can be planned with non-negative feedrates, also with moves of feedrate zero and lines that move and pause (which then begin where the machine really is)."},
"C28": {"status": "proved", "theorems": ["c28_blocks", "c87_carried_out"], "note": "For regular programs (Spec.Regular: positive feedrate and acceleration, jerk >= 0, pauses stand still after motion), every firmware. c87_carried_out: the blocks of every program with sensible settings."},
"C29": {"status": "proved", "theorems": ["c29_straight", "c29_straight_sensible"], "note": "For regular programs (Spec.Regular: positive feedrate and acceleration, jerk >= 0, pauses stand still after motion), every firmware. c29_straight_sensible covers every program that can be planned with non-negative feedrates, also with moves of feedrate zero and lines that move and pause (which then begin where the machine really is)."},
"C30": {"status": "proved", "theorems": ["c30_answers", "c93_answers"], "note": "For regular programs; after any history of earlier queries; times before the start and after the end raise. c93_answers: every program with sensible settings."},
"C31": {"status": "proved", "theorems": ["c31_history", "c93_history"], "note": "For regular programs. Position never depends on the history; velocity only at a boundary between two segments, as the statement says. c93_history: every program with sensible settings."},
"C32": {"status": "partial", "theorems": ["c32_refuted", "c32_end_law", "c32_after_query_partial", "c93_end"], "note": "False of the code (c32_refuted): a first query exactly at the end time raises. c32_end_law is the exact condition; directly after any query inside the print the answer is right (c32_after_query_partial). c93_end: every program with sensible settings."},
"C33": {"status": "proved", "theorems": ["c33_derivative", "c93_derivative"], "note": "c93_derivative: every program with sensible settings."},
"C34": {"status": "proved", "theorems": ["c34_scaled_answers", "c34_initial_position", "c34_start_sensible"], "note": "Queries scale by the factor of the unit system for every history; an initial position set in unit u is answered unchanged at time 0 in unit u, for every setup history and every G-code whose state list is regular (no zero-feedrate move, no pause before motion). For other programs the position at time 0 is the one before the first move that is carried out (c34_start_sensible), so that moves with feedrate zero before it shift the start (Demo.lost_start)."},
"C35": {"status": "proved", "theorems": ["c35_width"], "note": ""},
"C36": {"status": "proved", "theorems": ["c36_extent", "c94_extent"], "note": "For regular programs, every firmware, every output unit. For all other sensible settings see C94 (c94_extent)."},
"C37": {"status": "proved", "theorems": ["c37_max_vel", "c94_max_vel"], "note": "For regular programs, every firmware, every output unit. c94_max_vel: every program with sensible settings."},
"C38": {"status": "proved", "theorems": ["c38_sampling", "c38_constrained", "c93_sampling"], "note": "For regular programs, every firmware; any non-decreasing times, and the default sampling in particular. c93_sampling: every program with sensible settings."},
"C39": {"status": "proved", "theorems": ["c39_event_series", "c93_event_series"], "note": "Every block list; times, positions and flags of the event series. c93_event_series: every program with sensible settings."},
"C40": {"status": "partial", "theorems": ["c40_refuted", "c40_error_law", "c40_iff", "c40_constant_partial", "c93_interpolation"], "note": "Refuted as stated: between two events the table is linear while an accelerating segment is quadratic. Proved: the exact error -a/2*(t-t0)*(t1-t) of the interpolation at every time; it vanishes at inner times iff begin and end velocity of the segment are equal. c93_interpolation: every program with sensible settings."},
"C41": {"status": "partial", "theorems": ["c41_refuted", "c41_layer_law", "c41_layer_metrics_partial", "c116_layers"], "note": "Refuted as stated: the last block is not added to the last layer. Law proved: the travel of all rows sums to the travel of all blocks but the last; the durations sum to the print time if the last block belongs to a layer seen before or to layer 0, else to the begin of the last block. The claim holds if the last block neither travels nor opens a layer. c116_layers: every program with sensible settings."},
"C42": {"status": "partial", "theorems": ["c42_refuted", "c42_law", "c42_inverse_partial", "c42_law_sensible"], "note": "Refuted as stated (end of a stopping move). Law proved: the returned time lies in the segment in which the distance is reached; it is exact unless that segment decelerates, there the position falls short by acceleration times the square of the time since the segment's begin. Also for feedrates of zero and lines that move and pause (\u2026_sensible)."},
"C43": {"status": "proved", "theorems": ["c43_crossings"], "note": "Exact set of entry and exit times for every box and block list, both lists sorted; the time of a crossing is the one of inverse_time_at_pos (see C42)."},
"C44": {"status": "proved", "theorems": ["c44_polylines", "c44_vertices", "c44_vertices_sensible"], "note": "Every block list; vertices for every program with sensible settings (feedrates may be zero, a line may move and pause)."},
"C45": {"status": "proved", "theorems": ["c45_precedence", "c45_reads"], "note": "Every sequence of calls incl. failing ones; dictionaries have no key twice and initial position dictionaries have only the keys X, Y, Z, E."},
"C46": {"status": "proved", "theorems": ["c46_validation"], "note": ""},
"C47": {"status": "proved", "theorems": ["c47_guards"], "note": "Every setup history. Further failures of the construction (no printer selected, a shipped machine unknown or without firmware) are characterised too."},
"C48": {"status": "proved", "theorems": ["c48_gcode_file", "c48_out_dir", "c48_resolution"], "note": "The file system is a parameter; answers are the list of input lines."},
"C49": {"status": "proved", "theorems": ["c49_vector_space", "c49_norms", "c49_tolerant_equality", "c49_not_equivalence"], "note": ""},
"C50": {"status": "proved", "theorems": ["c50_refresh"], "note": "Every program with sensible settings and every history of queries, refreshes with state lists of sensible settings that can be planned, and setup calls that do not name the firmware (for those see C51); the object is unchanged as a whole. Lists given to refresh are linked in list order."},
"C51": {"status": "partial", "theorems": ["c51_refuted", "c51_alias_law", "c51_setup_independence_partial"], "note": "Refuted: the simulation's dictionary is the one stored in the setup object and refresh() reads the firmware from it again, so set_property({'firmware': ..}) changes the next refresh. Proved: the exact law, and independence for all setup calls that do not name the firmware. Programs and refreshed lists need sensible settings only."},
"C52": {"status": "proved", "theorems": ["c52_accepted"], "note": "Every machine and every list of parsed lines; both directions."},
"C53": {"status": "proved", "theorems": ["c53_profile", "c53_reaches_feedrate", "c118_moves"], "note": "Regular programs (positive feedrates and accelerations, pauses where a move has happened before). C118 has it for feedrates of zero and lines that move and pause."},
"C54": {"status": "proved", "theorems": ["c54_junction_limit", "c118_moves"], "note": "Aligned with Spec.actions, the list of states that move or pause together with their neighbours. C118 has it for feedrates of zero and lines that move and pause."},
"C55": {"status": "proved", "theorems": ["c55_fastest", "c55_attained", "c118_fastest"], "note": "Competing motions are Spec.Schedule: any differentiable travelled distance with Lipschitz speed per move. Junction limits are the firmware's junction speeds. C118 has it for feedrates of zero and lines that move and pause."},
"C56": {"status": "proved", "theorems": ["c56_firmware_names", "c56_other_names"], "note": ""},
"C57": {"status": "proved", "theorems": ["c57_machine_resolved", "c57_first_state"], "note": ""},
"C58": {"status": "proved", "theorems": ["c58_marlin_jd", "c58_sharper_slower"], "note": ""},
"C59": {"status": "proved", "theorems": ["c59_klipper", "c59_right_angle", "c59_sharper_slower"], "note": ""},
"C60": {"status": "proved", "theorems": ["c60_marlin_jerk", "c60_velocity_change", "c60_sharper_slower"], "note": ""},
"C61": {"status": "proved", "theorems": ["c61_mka_axes", "c61_mka_full_speed", "c61_mka_law"], "note": ""},
"C62": {"status": "proved", "theorems": ["c62_stop", "c62_filament_stop", "c62_marlin_jerk_end"], "note": ""},
"C63": {"status": "proved", "theorems": ["c63_summary", "c63_no_summary", "c116_summary"], "note": "For regular programs; c116_summary: every program with sensible settings."},
"C64": {"status": "proved", "theorems": ["c64_stops", "c64_print_time", "c64_slowest", "c118_stops", "c118_slowest", "c87_print_time"], "note": "C118 has it for feedrates of zero and lines that move and pause."},
"C65": {"status": "proved", "theorems": ["c65_move_time", "c65_rest_to_rest", "c118_moves"], "note": "C118 has it for feedrates of zero and lines that move and pause."},
"C66": {"status": "proved", "theorems": ["c66_any_motion", "c66_raised_limits", "c66_any_motion_sensible", "c66_raised_limits_sensible"], "note": "Raised limits are Spec.Raised; feedrates stay the same for marlin_jerk and MKA, where a larger feedrate can lower the corner speed. The tolerance is 2e-12 * (number of states) * (sum of 1/acceleration) seconds and comes from the planner accepting junction speeds that differ by up to 1e-12. For marlin_jerk, c66_raised_limits asks that every move travels, since a filament-only block inherits a stale start speed there. Also for feedrates of zero, which have to stay zero, and lines that move and pause (\u2026_sensible)."},
"C67": {"status": "proved", "theorems": ["c67_read_as_written", "c67_layers"], "note": "Spec/Files has the file format and a reference printer that does not use the model's parser or state machine."},
"C68": {"status": "proved", "theorems": ["c68_itinerary", "c68_itinerary_sensible"], "note": "Assumes Spec.Regular states and that something moves (otherwise there is no end time). c68_itinerary_sensible has it for feedrates of zero and lines that move and pause, for the places that the machine visits."},
"C69": {"status": "proved", "theorems": ["c69_simulated_as_written"], "note": "End to end over C46, C67 and C68; G92 only to zero (C10 says what other values do), no G20 (C16)."},
"C70": {"status": "partial", "theorems": ["c70_shift", "c70_rigid_partial", "c70_refuted", "c70_shift_sensible", "c70_rigid_sensible_partial"], "note": "Shifts: proved for every firmware (c70_shift). Turns and reflections: proved for all firmwares but MKA (c70_rigid_partial). With MKA the full statement C70Full is false (c70_refuted): the reduction of one axis is multiplied again for every later axis, so a bracket in the XY plane takes longer than the same bracket in the YZ plane. Also for feedrates of zero and lines that move and pause (\u2026_sensible)."},
"C71": {"status": "partial", "theorems": ["c71_not_longer", "c71_not_shorter", "c71_cut_partial", "c71_cuts_partial", "c71_default_law", "c71_refuted", "c71_least_partial", "c71_not_shorter_sensible", "c71_cuts_sensible_partial", "c71_default_law_sensible", "c71_klipper_partial", "c71_klipper_cuts_partial"], "note": "Proved for marlin_jd (jerk not 0), marlin_jerk (if all moves travel) and MKA, for one cut (c71_cut_partial) and any number of cuts (c71_cuts_partial); that a cut never makes the print shorter holds for every firmware (c71_not_shorter; for marlin_jerk if all moves travel). The full statement C71Full is false (c71_refuted): klipper takes a corner slower if the next move is short. Default junction handling stops at the cut; the exact cost is c71_default_law. Also for feedrates of zero and lines that move and pause (\u2026_sensible), where the bound does not grow with the number of cuts; the shortest possible time (C121) does not change at all (c71_least_partial). With klipper it holds if the pieces are at least 2 sqrt(k^2 + 2 k F^2) / a long, k = (sqrt 2 - 1) J^2, and the feedrate is at most 1000 J (c71_klipper_partial, c71_klipper_cuts_partial)."},
"C72": {"status": "proved", "theorems": ["c72_scaled", "c72_least", "c72_scaled_sensible"], "note": "All five firmwares; for marlin_jerk under the stated condition that every move travels (no filament-only move). Also for feedrates of zero and lines that move and pause (c72_scaled_sensible); the shortest possible time (C121) scales exactly (c72_least)."},
"C73": {"status": "proved", "theorems": ["c73_fails_clean", "c73_unsaved", "c73_shown", "c73_inside", "c73_outcome", "c73_outcome_sensible"], "note": "The file system accepts every write; file contents are the values written. Findings: a print without extrusion leaves an empty output directory and a ValueError; with a layer cue and without the locale en_US.utf8 the command stops after the summary. c73_outcome_sensible also covers feedrates of zero and lines that move and pause."},
"C74": {"status": "proved", "theorems": ["c74_queue", "c74_pause", "c74_pause_le", "c74_pause_ge", "c74_append", "c74_least", "c74_append_least", "c74_append_sensible", "c74_queue_sensible", "c74_queue_ge_sensible"], "note": "marlin_jerk is excluded from the upper bounds because it ends a program at up to twice the jerk (C18); c74_pause_ge holds for it if all moves travel. Also for feedrates of zero and lines that move and pause (\u2026_sensible), where the bound does not grow with the number of jobs; the shortest possible times (C121) add up exactly (c74_least)."},
"C75": {"status": "partial", "theorems": ["c75_drawn_partial", "c75_refuted", "c75_only", "c75_before_last", "c75_cruise_end", "c75_colours", "c75_resolution", "c75_variants"], "note": "False of the code for marlin_jerk: if the program ends at constant speed, the whole last segment is missing from the plot (c75_refuted, exact law c75_cruise_end). Proved for all other firmwares (c75_drawn_partial); soundness, colours and resolution for all firmwares. With the colour variable Velocity, show_points raises AttributeError (c75_variants). C120 has it for feedrates of zero and lines that move and pause."},
"C76": {"status": "partial", "theorems": ["c76_speed", "c76_position", "c76_velocity", "c76_smooth", "c76_default_partial", "c76_refuted", "c76_marks", "c76_steps", "c76_errors"], "note": "The axis velocity curves are false of the code behind a corner passed at speed (c76_refuted): the sample at the corner belongs to the old move only, so the curve runs from the old velocity to the end of the first segment of the new move. Exact law for all firmwares without pauses of zero seconds: c76_velocity; exact without such corners: c76_smooth, c76_default_partial. Speed curve, position curves, marks, steps and errors are proved for all firmwares. C120 has it for feedrates of zero and lines that move and pause."},
"C77": {"status": "proved", "theorems": ["c77_construct", "c77_sums", "c77_scaling", "c77_mixed", "c77_methods", "c77_equality", "c77_no_end", "c77_queries", "c77_badly_typed", "c77_planning", "c77_continuity", "c77_coordinates"], "note": "The classes are modelled a second time with their run-time checks (Model/Objects) and shown to give the results of the model without classes (Model/Basic, Model/Planner) wherever the code uses them. Number types are told apart only in * and /; ZeroDivisionError and constructor arguments that are not numbers are not modelled. Findings: division by an int is rejected although documented, a vector_4D never equals a velocity or position, list arguments of is_travel/is_extruding/get_t_distance raise AttributeError although documented, segment without ends and create_initial without position always raise, avoid_overspeed always raises."},
"C78": {"status": "proved", "theorems": ["c78_quiet", "c78_check", "c78_quiet_sensible"], "note": "planW is the planner with the checks written into the correction; it gives the blocks of plan. Exact arithmetic over the reals. Also for feedrates of zero and lines that move and pause (\u2026_sensible)."},
"C79": {"status": "proved", "theorems": ["c79_outcome"], "note": "the statement is the exact law; a box with a face through the start of the print makes the function raise"},
"C80": {"status": "partial", "theorems": ["c80_times_partial", "c80_criterion", "c80_law", "c80_entries", "c80_exits", "c80_count", "c80_general_position", "c80_refuted"], "note": "the position at the reported times is wrong where the nozzle brakes at the surface of the box (c80_refuted, exact law c80_law); proved for all other boxes. Completeness of the lists and the number of filaments are proved without restriction."},
"C81": {"status": "proved", "theorems": ["c81_answers", "c81_width", "c81_history"], "note": "Every program with sensible settings; lists given to refresh have sensible settings and can be planned."},
"C82": {"status": "proved", "theorems": ["c82_end_time", "c82_end_time_sensible"], "note": "The statement is the exact law; for regular programs the answer is the last position, for all sensible settings the last position less the moves that were not executed."},
"C83": {"status": "partial", "theorems": ["c83_default_partial", "c83_exactly_default", "c83_exact", "c83_refuted"], "note": "Holds exactly for default junction handling (c83_exactly_default). False for marlin_jerk and MKA (the moves X2 Y1 and X4 Y2 raise RuntimeError) and for marlin_jd and klipper (from X200 the moves X200.01 F1200 and X205 F600 raise AttributeError). Overflow and subnormal numbers are not modelled."},
"C84": {"status": "partial", "theorems": ["c84_default_partial", "c84_refuted", "c109_compared"], "note": "False for marlin_jerk (c84_refuted: a residue of 0.1 + 0.2 - 0.3 makes a retraction end 0.28 mm of filament too far). Proved for default junction handling and programs of ordinary size, with the bounds (n + 1) * 1e-8 mm and (n + 1) * 1e-9 + 1e-12 t s for block n. For all firmwares the positions hold for programs of usual size (c109_compared); the times are open for the other firmwares."},
"C85": {"status": "partial", "theorems": ["c85_plain_files_partial", "c85_same_states_partial", "c85_refuted"], "note": "False in general (c85_refuted: a retraction of 5 s becomes a travel move of a nanosecond). Proved for default junction handling, either if the states read with rounding are the exact ones, or for every plain file that never returns to absolute coordinates (C95) and whose exact program is executable and of ordinary size; then both simulations succeed. Missing: files that return, other firmwares."},
"C86": {"status": "proved", "theorems": ["c86_plannable", "c86_errors", "c86_exceptions"], "note": "Exact arithmetic. Regular programs are a special case (regular_pausesFollow)."},
"C87": {"status": "proved", "theorems": ["c87_carried_out", "c87_smooth", "c87_displaced", "c87_reached", "c87_print_time", "c87_not_always"], "note": "Exact arithmetic. c87_not_always: it is false that every planned program ends at its last position."},
"C88": {"status": "proved", "theorems": ["c88_program", "c88_program_errors", "c88_simulated", "c88_errors"], "note": "Builds on C67, C86 and C87. The IndexError comes from the summary that the constructor prints."},
"C89": {"status": "partial", "theorems": ["c89_backwards_partial", "c89_refuted", "c89_exactly", "c89_klipper_partial"], "note": "The full claim is wrong (c89_refuted) for klipper, marlin_jerk and MKA. c89_exactly: it holds exactly for marlin_jd and default junction handling. c89_backwards_partial adds MKA with one feedrate. c89_klipper_partial adds klipper if no travel move is shorter than the room its corners need."},
"C90": {"status": "proved", "theorems": ["c90_loop", "c90_current", "c90_few", "c90_text", "c90_arguments"], "note": "Fractions are exact rationals; a value exactly half way between two displayed ones may be rounded to the other side in doubles."},
"C91": {"status": "partial", "theorems": ["c91_refuted", "c91_exactly", "c91_honest_partial", "c91_points"], "note": "False. The end is announced exactly for 2-1333 and 2000-3999 blocks (c91_exactly); the bars that are written are honest for every number of blocks (c91_honest_partial). The bar of the points in the 2D plot never announces its end (c91_points)."},
"C92": {"status": "proved", "theorems": ["c92_print"], "note": ""},
"C93": {"status": "proved", "theorems": ["c93_answers", "c93_history", "c93_end", "c93_derivative", "c93_sampling", "c93_event_series", "c93_interpolation"], "note": "Hypotheses: feedrates and jerk not negative, accelerations positive, and the plan exists (C86 says when)."},
"C94": {"status": "partial", "theorems": ["c94_extent", "c94_enclosed_partial", "c94_refuted", "c94_max_vel"], "note": "False of the code for the extent (C94Full, c94_refuted): it uses the programmed positions, from which the simulated ones differ after a move that is not carried out. c94_extent is the exact law, c94_enclosed_partial the part without such offsets, c94_max_vel the statement about the maximum speed in full."},
"C95": {"status": "proved", "theorems": ["c95_read_with_rounding", "c95_return_matters"], "note": "Doubles with unbounded exponent. c95_return_matters: without the condition that the file never returns to absolute coordinates it is false."},
"C96": {"status": "proved", "theorems": ["c96_event_file", "c96_layer_file", "rounds8_python", "rounds8_numpy"], "note": "The text of a number is a parameter that has to be readable for the numbers in the file; rounding to eight places is proved accurate for Python's and numpy's algorithm on doubles. File system errors are not modelled."},
"C97": {"status": "proved", "theorems": ["c97_extra_entries"], "note": ""},
"C98": {"status": "proved", "theorems": ["c98_answers", "c98_motion", "c98_hypotheses_satisfiable", "c98_answers_sensible", "c98_motion_sensible"], "note": "Also for feedrates of zero and lines that move and pause (\u2026_sensible)."},
"C99": {"status": "partial", "theorems": ["c99_refuted", "c99_near_partial", "c99_gaps_partial", "c99_gap_exists"], "note": "Refuted: where a move is exactly as long as its ramps, the constant-speed segment can be dropped although it has a duration, and a query there raises TypeError. Proved: two answers for the same time differ by at most 2e-7 + 1e-9 V + n (1e-8 + 2e-9 V) + 2e-12 V T mm, for n blocks, speeds up to V and the duration T; and a query without a history raises only in such a gap, in which less than 4e-7 mm are driven. Not covered: velocities, other unit systems, and junction handling other than the default."}
}
