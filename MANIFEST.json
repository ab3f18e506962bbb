{
 "claims": [
  {
   "property": "C01",
   "status": "proved",
   "theorems": [
    "PyGCD.c01_states_linked",
    "PyGCD.c01_lines"
   ],
   "note": "Every file content that generates states; links, numbering, newline normalisation and the line splitting of text files."
  },
  {
   "property": "C02",
   "status": "proved",
   "theorems": [
    "PyGCD.c02_comment_harmless"
   ],
   "note": "Every line, every number syntax. The hypothesis that the whole line parses is needed: 'G90;G1 5' raises although 'G90' parses (example beside the theorem)."
  },
  {
   "property": "C03",
   "status": "proved",
   "theorems": [
    "PyGCD.c03_wellformed",
    "PyGCD.c03_plain"
   ],
   "note": "Command names and argument letters are written down a second time in Spec/Commands.lean. Assumes of float() only that it rejects '' and capital letter + digit/sign/point/e/_."
  },
  {
   "property": "C04",
   "status": "proved",
   "theorems": [
    "PyGCD.c04_commands_credited"
   ],
   "note": "Both directions, and no key twice."
  },
  {
   "property": "C05",
   "status": "proved",
   "theorems": [
    "PyGCD.c05_rejected_lines"
   ],
   "note": "Exact characterisation of the raising lines, including commands inside comments."
  },
  {
   "property": "C06",
   "status": "proved",
   "theorems": [
    "PyGCD.c06_unsupported_counts",
    "PyGCD.c06_unsupported_counts_file"
   ],
   "note": "The unsupported commands are those named in Spec/Commands.lean."
  },
  {
   "property": "C07",
   "status": "proved",
   "theorems": [
    "PyGCD.c07_absolute_moves",
    "PyGCD.c07_position_law"
   ],
   "note": "c07_position_law is the exact law for every axis of every line, whatever the line contains; displacements by G92 are read off the states (Spec.offset)."
  },
  {
   "property": "C08",
   "status": "proved",
   "theorems": [
    "PyGCD.c08_relative_accumulates"
   ],
   "note": "Over any run of lines in relative mode without G92."
  },
  {
   "property": "C09",
   "status": "proved",
   "theorems": [
    "PyGCD.c09_absolute_forgets",
    "PyGCD.c09_absolute_forgets_no_g92"
   ],
   "note": "The G92 displacement in force is read off the states of each run (Spec.offset)."
  },
  {
   "property": "C10",
   "status": "partial",
   "theorems": [
    "PyGCD.c10_refuted",
    "PyGCD.c10_g92_displaces",
    "PyGCD.c10_g92_zero_partial"
   ],
   "note": "The wanted statement C10Full is false of the code (c10_refuted): G92 displaces the reported position by twice the new value (c10_g92_displaces, exact law). It holds when every G92 value is zero (c10_g92_zero_partial)."
  },
  {
   "property": "C11",
   "status": "proved",
   "theorems": [
    "PyGCD.c11_settings_modal"
   ],
   "note": ""
  },
  {
   "property": "C12",
   "status": "proved",
   "theorems": [
    "PyGCD.c12_layer_counts",
    "PyGCD.c12_layer_monotone"
   ],
   "note": ""
  },
  {
   "property": "C13",
   "status": "proved",
   "theorems": [
    "PyGCD.c13_pause_own_line"
   ],
   "note": ""
  },
  {
   "property": "C14",
   "status": "proved",
   "theorems": [
    "PyGCD.c14_inert_keeps",
    "PyGCD.c14_remove_inert"
   ],
   "note": ""
  },
  {
   "property": "C15",
   "status": "proved",
   "theorems": [
    "PyGCD.c15_prefix"
   ],
   "note": ""
  },
  {
   "property": "C16",
   "status": "partial",
   "theorems": [
    "PyGCD.c16_refuted",
    "PyGCD.c16_units_ignored",
    "PyGCD.c16_millimetres_partial"
   ],
   "note": "The wanted statement C16Full is false of the code (c16_refuted): G20/G21 only set a flag, positions do not depend on it (c16_units_ignored). It holds for files that never switch to inch (c16_millimetres_partial)."
  },
  {
   "property": "C17",
   "status": "proved",
   "theorems": [
    "PyGCD.c17_junction_speed"
   ],
   "note": "All firmware models; feedrate and jerk only need to be non-negative."
  },
  {
   "property": "C18",
   "status": "partial",
   "theorems": [
    "PyGCD.c18_refuted",
    "PyGCD.c18_last_stop_partial",
    "PyGCD.c18_marlin_jerk_end",
    "PyGCD.c18_last_stop_sensible_partial",
    "PyGCD.c18_marlin_jerk_law"
   ],
   "note": "False of the code for marlin_jerk (c18_refuted): a last move that travels never ends at standstill, but with min(feedrate, 2*jerk) or as fast as it can get (c18_marlin_jerk_law, exact law). Proved for all other firmware models (c18_last_stop_partial, also with feedrates of zero: c18_last_stop_sensible_partial)."
  },
  {
   "property": "C19",
   "status": "proved",
   "theorems": [
    "PyGCD.c19_plannable"
   ],
   "note": "Also says which shape applies, in terms of the speeds, acceleration and length alone."
  },
  {
   "property": "C20",
   "status": "proved",
   "theorems": [
    "PyGCD.c20_targets",
    "PyGCD.c20_targets_sensible"
   ],
   "note": "For regular programs (Spec.Regular: positive feedrate and acceleration, jerk >= 0, pauses stand still after motion), every firmware. c20_targets_sensible covers every program that can be planned with non-negative feedrates, also with moves of feedrate zero and lines that move and pause (which then begin where the machine really is)."
  },
  {
   "property": "C21",
   "status": "proved",
   "theorems": [
    "PyGCD.c21_feedrate",
    "PyGCD.c21_feedrate_sensible"
   ],
   "note": "For regular programs (Spec.Regular: positive feedrate and acceleration, jerk >= 0, pauses stand still after motion), every firmware. c21_feedrate_sensible covers every program that can be planned with non-negative feedrates, also with moves of feedrate zero and lines that move and pause (which then begin where the machine really is)."
  },
  {
   "property": "C22",
   "status": "proved",
   "theorems": [
    "PyGCD.c22_acceleration",
    "PyGCD.c22_acceleration_sensible"
   ],
   "note": "For regular programs (Spec.Regular: positive feedrate and acceleration, jerk >= 0, pauses stand still after motion), every firmware. c22_acceleration_sensible covers every program that can be planned with non-negative feedrates, also with moves of feedrate zero and lines that move and pause (which then begin where the machine really is)."
  },
  {
   "property": "C23",
   "status": "proved",
   "theorems": [
    "PyGCD.c23_timeline",
    "PyGCD.c23_timeline_sensible"
   ],
   "note": "For regular programs (Spec.Regular: positive feedrate and acceleration, jerk >= 0, pauses stand still after motion), every firmware. c23_timeline_sensible covers every program that can be planned with non-negative feedrates, also with moves of feedrate zero and lines that move and pause (which then begin where the machine really is)."
  },
  {
   "property": "C24",
   "status": "proved",
   "theorems": [
    "PyGCD.c24_continuous",
    "PyGCD.c24_continuous_sensible"
   ],
   "note": "For regular programs (Spec.Regular: positive feedrate and acceleration, jerk >= 0, pauses stand still after motion), every firmware. c24_continuous_sensible covers every program that can be planned with non-negative feedrates, also with moves of feedrate zero and lines that move and pause (which then begin where the machine really is)."
  },
  {
   "property": "C25",
   "status": "proved",
   "theorems": [
    "PyGCD.c25_speed_continuous",
    "PyGCD.c25_speed_continuous_sensible"
   ],
   "note": "For regular programs (Spec.Regular: positive feedrate and acceleration, jerk >= 0, pauses stand still after motion), every firmware. c25_speed_continuous_sensible covers every program that can be planned with non-negative feedrates, also with moves of feedrate zero and lines that move and pause (which then begin where the machine really is)."
  },
  {
   "property": "C26",
   "status": "proved",
   "theorems": [
    "PyGCD.c26_correction_total",
    "PyGCD.c86_plannable"
   ],
   "note": "For regular programs (Spec.Regular: positive feedrate and acceleration, jerk >= 0, pauses stand still after motion), every firmware. Up to Python's recursion limit, see C108. Which other programs can be planned: C86. c86_plannable: with feedrates of zero and lines that move and pause, planning succeeds exactly if every pause is not negative and follows a move."
  },
  {
   "property": "C27",
   "status": "proved",
   "theorems": [
    "PyGCD.c27_dwell",
    "PyGCD.c27_dwell_sensible"
   ],
   "note": "For regular programs (Spec.Regular: positive feedrate and acceleration, jerk >= 0, pauses stand still after motion), every firmware. c27_dwell_sensible covers every program that can be planned with non-negative feedrates, also with moves of feedrate zero and lines that move and pause (which then begin where the machine really is)."
  },
  {
   "property": "C28",
   "status": "proved",
   "theorems": [
    "PyGCD.c28_blocks",
    "PyGCD.c87_carried_out"
   ],
   "note": "For regular programs (Spec.Regular: positive feedrate and acceleration, jerk >= 0, pauses stand still after motion), every firmware. c87_carried_out: the blocks of every program with sensible settings."
  },
  {
   "property": "C29",
   "status": "proved",
   "theorems": [
    "PyGCD.c29_straight",
    "PyGCD.c29_straight_sensible"
   ],
   "note": "For regular programs (Spec.Regular: positive feedrate and acceleration, jerk >= 0, pauses stand still after motion), every firmware. c29_straight_sensible covers every program that can be planned with non-negative feedrates, also with moves of feedrate zero and lines that move and pause (which then begin where the machine really is)."
  },
  {
   "property": "C30",
   "status": "proved",
   "theorems": [
    "PyGCD.c30_answers",
    "PyGCD.c93_answers"
   ],
   "note": "For regular programs; after any history of earlier queries; times before the start and after the end raise. c93_answers: every program with sensible settings."
  },
  {
   "property": "C31",
   "status": "proved",
   "theorems": [
    "PyGCD.c31_history",
    "PyGCD.c93_history"
   ],
   "note": "For regular programs. Position never depends on the history; velocity only at a boundary between two segments, as the statement says. c93_history: every program with sensible settings."
  },
  {
   "property": "C32",
   "status": "partial",
   "theorems": [
    "PyGCD.c32_refuted",
    "PyGCD.c32_end_law",
    "PyGCD.c32_after_query_partial",
    "PyGCD.c93_end"
   ],
   "note": "False of the code (c32_refuted): a first query exactly at the end time raises. c32_end_law is the exact condition; directly after any query inside the print the answer is right (c32_after_query_partial). c93_end: every program with sensible settings."
  },
  {
   "property": "C33",
   "status": "proved",
   "theorems": [
    "PyGCD.c33_derivative",
    "PyGCD.c93_derivative"
   ],
   "note": "c93_derivative: every program with sensible settings."
  },
  {
   "property": "C34",
   "status": "proved",
   "theorems": [
    "PyGCD.c34_scaled_answers",
    "PyGCD.c34_initial_position",
    "PyGCD.c34_start_sensible"
   ],
   "note": "Queries scale by the factor of the unit system for every history; an initial position set in unit u is answered unchanged at time 0 in unit u, for every setup history and every G-code whose state list is regular (no zero-feedrate move, no pause before motion). For other programs the position at time 0 is the one before the first move that is carried out (c34_start_sensible), so that moves with feedrate zero before it shift the start (Demo.lost_start)."
  },
  {
   "property": "C35",
   "status": "proved",
   "theorems": [
    "PyGCD.c35_width"
   ],
   "note": ""
  },
  {
   "property": "C36",
   "status": "proved",
   "theorems": [
    "PyGCD.c36_extent",
    "PyGCD.c94_extent"
   ],
   "note": "For regular programs, every firmware, every output unit. For all other sensible settings see C94 (c94_extent)."
  },
  {
   "property": "C37",
   "status": "proved",
   "theorems": [
    "PyGCD.c37_max_vel",
    "PyGCD.c94_max_vel"
   ],
   "note": "For regular programs, every firmware, every output unit. c94_max_vel: every program with sensible settings."
  },
  {
   "property": "C38",
   "status": "proved",
   "theorems": [
    "PyGCD.c38_sampling",
    "PyGCD.c38_constrained",
    "PyGCD.c93_sampling"
   ],
   "note": "For regular programs, every firmware; any non-decreasing times, and the default sampling in particular. c93_sampling: every program with sensible settings."
  },
  {
   "property": "C39",
   "status": "proved",
   "theorems": [
    "PyGCD.c39_event_series",
    "PyGCD.c93_event_series"
   ],
   "note": "Every block list; times, positions and flags of the event series. c93_event_series: every program with sensible settings."
  },
  {
   "property": "C40",
   "status": "partial",
   "theorems": [
    "PyGCD.c40_refuted",
    "PyGCD.c40_error_law",
    "PyGCD.c40_iff",
    "PyGCD.c40_constant_partial",
    "PyGCD.c93_interpolation"
   ],
   "note": "Refuted as stated: between two events the table is linear while an accelerating segment is quadratic. Proved: the exact error -a/2*(t-t0)*(t1-t) of the interpolation at every time; it vanishes at inner times iff begin and end velocity of the segment are equal. c93_interpolation: every program with sensible settings."
  },
  {
   "property": "C41",
   "status": "partial",
   "theorems": [
    "PyGCD.c41_refuted",
    "PyGCD.c41_layer_law",
    "PyGCD.c41_layer_metrics_partial",
    "PyGCD.c116_layers"
   ],
   "note": "Refuted as stated: the last block is not added to the last layer. Law proved: the travel of all rows sums to the travel of all blocks but the last; the durations sum to the print time if the last block belongs to a layer seen before or to layer 0, else to the begin of the last block. The claim holds if the last block neither travels nor opens a layer. c116_layers: every program with sensible settings."
  },
  {
   "property": "C42",
   "status": "partial",
   "theorems": [
    "PyGCD.c42_refuted",
    "PyGCD.c42_law",
    "PyGCD.c42_inverse_partial",
    "PyGCD.c42_law_sensible"
   ],
   "note": "Refuted as stated (end of a stopping move). Law proved: the returned time lies in the segment in which the distance is reached; it is exact unless that segment decelerates, there the position falls short by acceleration times the square of the time since the segment's begin. Also for feedrates of zero and lines that move and pause (…_sensible)."
  },
  {
   "property": "C43",
   "status": "proved",
   "theorems": [
    "PyGCD.c43_crossings"
   ],
   "note": "Exact set of entry and exit times for every box and block list, both lists sorted; the time of a crossing is the one of inverse_time_at_pos (see C42)."
  },
  {
   "property": "C44",
   "status": "proved",
   "theorems": [
    "PyGCD.c44_polylines",
    "PyGCD.c44_vertices",
    "PyGCD.c44_vertices_sensible"
   ],
   "note": "Every block list; vertices for every program with sensible settings (feedrates may be zero, a line may move and pause)."
  },
  {
   "property": "C45",
   "status": "proved",
   "theorems": [
    "PyGCD.c45_precedence",
    "PyGCD.c45_reads"
   ],
   "note": "Every sequence of calls incl. failing ones; dictionaries have no key twice and initial position dictionaries have only the keys X, Y, Z, E."
  },
  {
   "property": "C46",
   "status": "proved",
   "theorems": [
    "PyGCD.c46_validation"
   ],
   "note": ""
  },
  {
   "property": "C47",
   "status": "proved",
   "theorems": [
    "PyGCD.c47_guards"
   ],
   "note": "Every setup history. Further failures of the construction (no printer selected, a shipped machine unknown or without firmware) are characterised too."
  },
  {
   "property": "C48",
   "status": "proved",
   "theorems": [
    "PyGCD.c48_gcode_file",
    "PyGCD.c48_out_dir",
    "PyGCD.c48_resolution"
   ],
   "note": "The file system is a parameter; answers are the list of input lines."
  },
  {
   "property": "C49",
   "status": "proved",
   "theorems": [
    "PyGCD.c49_vector_space",
    "PyGCD.c49_norms",
    "PyGCD.c49_tolerant_equality",
    "PyGCD.c49_not_equivalence"
   ],
   "note": ""
  },
  {
   "property": "C50",
   "status": "proved",
   "theorems": [
    "PyGCD.c50_refresh"
   ],
   "note": "Every program with sensible settings and every history of queries, refreshes with state lists of sensible settings that can be planned, and setup calls that do not name the firmware (for those see C51); the object is unchanged as a whole. Lists given to refresh are linked in list order."
  },
  {
   "property": "C51",
   "status": "partial",
   "theorems": [
    "PyGCD.c51_refuted",
    "PyGCD.c51_alias_law",
    "PyGCD.c51_setup_independence_partial"
   ],
   "note": "Refuted: the simulation's dictionary is the one stored in the setup object and refresh() reads the firmware from it again, so set_property({'firmware': ..}) changes the next refresh. Proved: the exact law, and independence for all setup calls that do not name the firmware. Programs and refreshed lists need sensible settings only."
  },
  {
   "property": "C52",
   "status": "proved",
   "theorems": [
    "PyGCD.c52_accepted"
   ],
   "note": "Every machine and every list of parsed lines; both directions."
  },
  {
   "property": "C53",
   "status": "proved",
   "theorems": [
    "PyGCD.c53_profile",
    "PyGCD.c53_reaches_feedrate",
    "PyGCD.c118_moves"
   ],
   "note": "Regular programs (positive feedrates and accelerations, pauses where a move has happened before). C118 has it for feedrates of zero and lines that move and pause."
  },
  {
   "property": "C54",
   "status": "proved",
   "theorems": [
    "PyGCD.c54_junction_limit",
    "PyGCD.c118_moves"
   ],
   "note": "Aligned with Spec.actions, the list of states that move or pause together with their neighbours. C118 has it for feedrates of zero and lines that move and pause."
  },
  {
   "property": "C55",
   "status": "proved",
   "theorems": [
    "PyGCD.c55_fastest",
    "PyGCD.c55_attained",
    "PyGCD.c118_fastest"
   ],
   "note": "Competing motions are Spec.Schedule: any differentiable travelled distance with Lipschitz speed per move. Junction limits are the firmware's junction speeds. C118 has it for feedrates of zero and lines that move and pause."
  },
  {
   "property": "C56",
   "status": "proved",
   "theorems": [
    "PyGCD.c56_firmware_names",
    "PyGCD.c56_other_names"
   ],
   "note": ""
  },
  {
   "property": "C57",
   "status": "proved",
   "theorems": [
    "PyGCD.c57_machine_resolved",
    "PyGCD.c57_first_state"
   ],
   "note": ""
  },
  {
   "property": "C58",
   "status": "proved",
   "theorems": [
    "PyGCD.c58_marlin_jd",
    "PyGCD.c58_sharper_slower"
   ],
   "note": ""
  },
  {
   "property": "C59",
   "status": "proved",
   "theorems": [
    "PyGCD.c59_klipper",
    "PyGCD.c59_right_angle",
    "PyGCD.c59_sharper_slower"
   ],
   "note": ""
  },
  {
   "property": "C60",
   "status": "proved",
   "theorems": [
    "PyGCD.c60_marlin_jerk",
    "PyGCD.c60_velocity_change",
    "PyGCD.c60_sharper_slower"
   ],
   "note": ""
  },
  {
   "property": "C61",
   "status": "proved",
   "theorems": [
    "PyGCD.c61_mka_axes",
    "PyGCD.c61_mka_full_speed",
    "PyGCD.c61_mka_law"
   ],
   "note": ""
  },
  {
   "property": "C62",
   "status": "proved",
   "theorems": [
    "PyGCD.c62_stop",
    "PyGCD.c62_filament_stop",
    "PyGCD.c62_marlin_jerk_end"
   ],
   "note": ""
  },
  {
   "property": "C63",
   "status": "proved",
   "theorems": [
    "PyGCD.c63_summary",
    "PyGCD.c63_no_summary",
    "PyGCD.c116_summary"
   ],
   "note": "For regular programs; c116_summary: every program with sensible settings."
  },
  {
   "property": "C64",
   "status": "proved",
   "theorems": [
    "PyGCD.c64_stops",
    "PyGCD.c64_print_time",
    "PyGCD.c64_slowest",
    "PyGCD.c118_stops",
    "PyGCD.c118_slowest",
    "PyGCD.c87_print_time"
   ],
   "note": "C118 has it for feedrates of zero and lines that move and pause."
  },
  {
   "property": "C65",
   "status": "proved",
   "theorems": [
    "PyGCD.c65_move_time",
    "PyGCD.c65_rest_to_rest",
    "PyGCD.c118_moves"
   ],
   "note": "C118 has it for feedrates of zero and lines that move and pause."
  },
  {
   "property": "C66",
   "status": "proved",
   "theorems": [
    "PyGCD.c66_any_motion",
    "PyGCD.c66_raised_limits",
    "PyGCD.c66_any_motion_sensible",
    "PyGCD.c66_raised_limits_sensible"
   ],
   "note": "Raised limits are Spec.Raised; feedrates stay the same for marlin_jerk and MKA, where a larger feedrate can lower the corner speed. The tolerance is 2e-12 * (number of states) * (sum of 1/acceleration) seconds and comes from the planner accepting junction speeds that differ by up to 1e-12. For marlin_jerk, c66_raised_limits asks that every move travels, since a filament-only block inherits a stale start speed there. Also for feedrates of zero, which have to stay zero, and lines that move and pause (…_sensible)."
  },
  {
   "property": "C67",
   "status": "proved",
   "theorems": [
    "PyGCD.c67_read_as_written",
    "PyGCD.c67_layers"
   ],
   "note": "Spec/Files has the file format and a reference printer that does not use the model's parser or state machine."
  },
  {
   "property": "C68",
   "status": "proved",
   "theorems": [
    "PyGCD.c68_itinerary",
    "PyGCD.c68_itinerary_sensible"
   ],
   "note": "Assumes Spec.Regular states and that something moves (otherwise there is no end time). c68_itinerary_sensible has it for feedrates of zero and lines that move and pause, for the places that the machine visits."
  },
  {
   "property": "C69",
   "status": "proved",
   "theorems": [
    "PyGCD.c69_simulated_as_written"
   ],
   "note": "End to end over C46, C67 and C68; G92 only to zero (C10 says what other values do), no G20 (C16)."
  },
  {
   "property": "C70",
   "status": "partial",
   "theorems": [
    "PyGCD.c70_shift",
    "PyGCD.c70_rigid_partial",
    "PyGCD.c70_refuted",
    "PyGCD.c70_shift_sensible",
    "PyGCD.c70_rigid_sensible_partial"
   ],
   "note": "Shifts: proved for every firmware (c70_shift). Turns and reflections: proved for all firmwares but MKA (c70_rigid_partial). With MKA the full statement C70Full is false (c70_refuted): the reduction of one axis is multiplied again for every later axis, so a bracket in the XY plane takes longer than the same bracket in the YZ plane. Also for feedrates of zero and lines that move and pause (…_sensible)."
  },
  {
   "property": "C71",
   "status": "partial",
   "theorems": [
    "PyGCD.c71_not_longer",
    "PyGCD.c71_not_shorter",
    "PyGCD.c71_cut_partial",
    "PyGCD.c71_cuts_partial",
    "PyGCD.c71_default_law",
    "PyGCD.c71_refuted",
    "PyGCD.c71_least_partial",
    "PyGCD.c71_not_shorter_sensible",
    "PyGCD.c71_cuts_sensible_partial",
    "PyGCD.c71_default_law_sensible",
    "PyGCD.c71_klipper_partial",
    "PyGCD.c71_klipper_cuts_partial"
   ],
   "note": "Proved for marlin_jd (jerk not 0), marlin_jerk (if all moves travel) and MKA, for one cut (c71_cut_partial) and any number of cuts (c71_cuts_partial); that a cut never makes the print shorter holds for every firmware (c71_not_shorter; for marlin_jerk if all moves travel). The full statement C71Full is false (c71_refuted): klipper takes a corner slower if the next move is short. Default junction handling stops at the cut; the exact cost is c71_default_law. Also for feedrates of zero and lines that move and pause (…_sensible), where the bound does not grow with the number of cuts; the shortest possible time (C121) does not change at all (c71_least_partial). With klipper it holds if the pieces are at least 2 sqrt(k^2 + 2 k F^2) / a long, k = (sqrt 2 - 1) J^2, and the feedrate is at most 1000 J (c71_klipper_partial, c71_klipper_cuts_partial)."
  },
  {
   "property": "C72",
   "status": "proved",
   "theorems": [
    "PyGCD.c72_scaled",
    "PyGCD.c72_least",
    "PyGCD.c72_scaled_sensible"
   ],
   "note": "All five firmwares; for marlin_jerk under the stated condition that every move travels (no filament-only move). Also for feedrates of zero and lines that move and pause (c72_scaled_sensible); the shortest possible time (C121) scales exactly (c72_least)."
  },
  {
   "property": "C73",
   "status": "proved",
   "theorems": [
    "PyGCD.c73_fails_clean",
    "PyGCD.c73_unsaved",
    "PyGCD.c73_shown",
    "PyGCD.c73_inside",
    "PyGCD.c73_outcome",
    "PyGCD.c73_outcome_sensible"
   ],
   "note": "The file system accepts every write; file contents are the values written. Findings: a print without extrusion leaves an empty output directory and a ValueError; with a layer cue and without the locale en_US.utf8 the command stops after the summary. c73_outcome_sensible also covers feedrates of zero and lines that move and pause."
  },
  {
   "property": "C74",
   "status": "proved",
   "theorems": [
    "PyGCD.c74_queue",
    "PyGCD.c74_pause",
    "PyGCD.c74_pause_le",
    "PyGCD.c74_pause_ge",
    "PyGCD.c74_append",
    "PyGCD.c74_least",
    "PyGCD.c74_append_least",
    "PyGCD.c74_append_sensible",
    "PyGCD.c74_queue_sensible",
    "PyGCD.c74_queue_ge_sensible"
   ],
   "note": "marlin_jerk is excluded from the upper bounds because it ends a program at up to twice the jerk (C18); c74_pause_ge holds for it if all moves travel. Also for feedrates of zero and lines that move and pause (…_sensible), where the bound does not grow with the number of jobs; the shortest possible times (C121) add up exactly (c74_least)."
  },
  {
   "property": "C75",
   "status": "partial",
   "theorems": [
    "PyGCD.c75_drawn_partial",
    "PyGCD.c75_refuted",
    "PyGCD.c75_only",
    "PyGCD.c75_before_last",
    "PyGCD.c75_cruise_end",
    "PyGCD.c75_colours",
    "PyGCD.c75_resolution",
    "PyGCD.c75_variants"
   ],
   "note": "False of the code for marlin_jerk: if the program ends at constant speed, the whole last segment is missing from the plot (c75_refuted, exact law c75_cruise_end). Proved for all other firmwares (c75_drawn_partial); soundness, colours and resolution for all firmwares. With the colour variable Velocity, show_points raises AttributeError (c75_variants). C120 has it for feedrates of zero and lines that move and pause."
  },
  {
   "property": "C76",
   "status": "partial",
   "theorems": [
    "PyGCD.c76_speed",
    "PyGCD.c76_position",
    "PyGCD.c76_velocity",
    "PyGCD.c76_smooth",
    "PyGCD.c76_default_partial",
    "PyGCD.c76_refuted",
    "PyGCD.c76_marks",
    "PyGCD.c76_steps",
    "PyGCD.c76_errors"
   ],
   "note": "The axis velocity curves are false of the code behind a corner passed at speed (c76_refuted): the sample at the corner belongs to the old move only, so the curve runs from the old velocity to the end of the first segment of the new move. Exact law for all firmwares without pauses of zero seconds: c76_velocity; exact without such corners: c76_smooth, c76_default_partial. Speed curve, position curves, marks, steps and errors are proved for all firmwares. C120 has it for feedrates of zero and lines that move and pause."
  },
  {
   "property": "C77",
   "status": "proved",
   "theorems": [
    "PyGCD.c77_construct",
    "PyGCD.c77_sums",
    "PyGCD.c77_scaling",
    "PyGCD.c77_mixed",
    "PyGCD.c77_methods",
    "PyGCD.c77_equality",
    "PyGCD.c77_no_end",
    "PyGCD.c77_queries",
    "PyGCD.c77_badly_typed",
    "PyGCD.c77_planning",
    "PyGCD.c77_continuity",
    "PyGCD.c77_coordinates"
   ],
   "note": "The classes are modelled a second time with their run-time checks (Model/Objects) and shown to give the results of the model without classes (Model/Basic, Model/Planner) wherever the code uses them. Number types are told apart only in * and /; ZeroDivisionError and constructor arguments that are not numbers are not modelled. Findings: division by an int is rejected although documented, a vector_4D never equals a velocity or position, list arguments of is_travel/is_extruding/get_t_distance raise AttributeError although documented, segment without ends and create_initial without position always raise, avoid_overspeed always raises."
  },
  {
   "property": "C78",
   "status": "proved",
   "theorems": [
    "PyGCD.c78_quiet",
    "PyGCD.c78_check",
    "PyGCD.c78_quiet_sensible"
   ],
   "note": "planW is the planner with the checks written into the correction; it gives the blocks of plan. Exact arithmetic over the reals. Also for feedrates of zero and lines that move and pause (…_sensible)."
  },
  {
   "property": "C79",
   "status": "proved",
   "theorems": [
    "PyGCD.c79_outcome"
   ],
   "note": "the statement is the exact law; a box with a face through the start of the print makes the function raise"
  },
  {
   "property": "C80",
   "status": "partial",
   "theorems": [
    "PyGCD.c80_times_partial",
    "PyGCD.c80_criterion",
    "PyGCD.c80_law",
    "PyGCD.c80_entries",
    "PyGCD.c80_exits",
    "PyGCD.c80_count",
    "PyGCD.c80_general_position",
    "PyGCD.c80_refuted"
   ],
   "note": "the position at the reported times is wrong where the nozzle brakes at the surface of the box (c80_refuted, exact law c80_law); proved for all other boxes. Completeness of the lists and the number of filaments are proved without restriction."
  },
  {
   "property": "C81",
   "status": "proved",
   "theorems": [
    "PyGCD.c81_answers",
    "PyGCD.c81_width",
    "PyGCD.c81_history"
   ],
   "note": "Every program with sensible settings; lists given to refresh have sensible settings and can be planned."
  },
  {
   "property": "C82",
   "status": "proved",
   "theorems": [
    "PyGCD.c82_end_time",
    "PyGCD.c82_end_time_sensible"
   ],
   "note": "The statement is the exact law; for regular programs the answer is the last position, for all sensible settings the last position less the moves that were not executed."
  },
  {
   "property": "C83",
   "status": "partial",
   "theorems": [
    "PyGCD.c83_default_partial",
    "PyGCD.c83_exactly_default",
    "PyGCD.c83_exact",
    "PyGCD.c83_refuted"
   ],
   "note": "Holds exactly for default junction handling (c83_exactly_default). False for marlin_jerk and MKA (the moves X2 Y1 and X4 Y2 raise RuntimeError) and for marlin_jd and klipper (from X200 the moves X200.01 F1200 and X205 F600 raise AttributeError). Overflow and subnormal numbers are not modelled."
  },
  {
   "property": "C84",
   "status": "partial",
   "theorems": [
    "PyGCD.c84_default_partial",
    "PyGCD.c84_refuted",
    "PyGCD.c109_compared"
   ],
   "note": "False for marlin_jerk (c84_refuted: a residue of 0.1 + 0.2 - 0.3 makes a retraction end 0.28 mm of filament too far). Proved for default junction handling and programs of ordinary size, with the bounds (n + 1) * 1e-8 mm and (n + 1) * 1e-9 + 1e-12 t s for block n. For all firmwares the positions hold for programs of usual size (c109_compared); the times are open for the other firmwares."
  },
  {
   "property": "C85",
   "status": "partial",
   "theorems": [
    "PyGCD.c85_plain_files_partial",
    "PyGCD.c85_same_states_partial",
    "PyGCD.c85_refuted"
   ],
   "note": "False in general (c85_refuted: a retraction of 5 s becomes a travel move of a nanosecond). Proved for default junction handling, either if the states read with rounding are the exact ones, or for every plain file that never returns to absolute coordinates (C95) and whose exact program is executable and of ordinary size; then both simulations succeed. Missing: files that return, other firmwares."
  },
  {
   "property": "C86",
   "status": "proved",
   "theorems": [
    "PyGCD.c86_plannable",
    "PyGCD.c86_errors",
    "PyGCD.c86_exceptions"
   ],
   "note": "Exact arithmetic. Regular programs are a special case (regular_pausesFollow)."
  },
  {
   "property": "C87",
   "status": "proved",
   "theorems": [
    "PyGCD.c87_carried_out",
    "PyGCD.c87_smooth",
    "PyGCD.c87_displaced",
    "PyGCD.c87_reached",
    "PyGCD.c87_print_time",
    "PyGCD.c87_not_always"
   ],
   "note": "Exact arithmetic. c87_not_always: it is false that every planned program ends at its last position."
  },
  {
   "property": "C88",
   "status": "proved",
   "theorems": [
    "PyGCD.c88_program",
    "PyGCD.c88_program_errors",
    "PyGCD.c88_simulated",
    "PyGCD.c88_errors"
   ],
   "note": "Builds on C67, C86 and C87. The IndexError comes from the summary that the constructor prints."
  },
  {
   "property": "C89",
   "status": "partial",
   "theorems": [
    "PyGCD.c89_backwards_partial",
    "PyGCD.c89_refuted",
    "PyGCD.c89_exactly",
    "PyGCD.c89_klipper_partial"
   ],
   "note": "The full claim is wrong (c89_refuted) for klipper, marlin_jerk and MKA. c89_exactly: it holds exactly for marlin_jd and default junction handling. c89_backwards_partial adds MKA with one feedrate. c89_klipper_partial adds klipper if no travel move is shorter than the room its corners need."
  },
  {
   "property": "C90",
   "status": "proved",
   "theorems": [
    "PyGCD.c90_loop",
    "PyGCD.c90_current",
    "PyGCD.c90_few",
    "PyGCD.c90_text",
    "PyGCD.c90_arguments"
   ],
   "note": "Fractions are exact rationals; a value exactly half way between two displayed ones may be rounded to the other side in doubles."
  },
  {
   "property": "C91",
   "status": "partial",
   "theorems": [
    "PyGCD.c91_refuted",
    "PyGCD.c91_exactly",
    "PyGCD.c91_honest_partial",
    "PyGCD.c91_points"
   ],
   "note": "False. The end is announced exactly for 2-1333 and 2000-3999 blocks (c91_exactly); the bars that are written are honest for every number of blocks (c91_honest_partial). The bar of the points in the 2D plot never announces its end (c91_points)."
  },
  {
   "property": "C92",
   "status": "proved",
   "theorems": [
    "PyGCD.c92_print"
   ],
   "note": ""
  },
  {
   "property": "C93",
   "status": "proved",
   "theorems": [
    "PyGCD.c93_answers",
    "PyGCD.c93_history",
    "PyGCD.c93_end",
    "PyGCD.c93_derivative",
    "PyGCD.c93_sampling",
    "PyGCD.c93_event_series",
    "PyGCD.c93_interpolation"
   ],
   "note": "Hypotheses: feedrates and jerk not negative, accelerations positive, and the plan exists (C86 says when)."
  },
  {
   "property": "C94",
   "status": "partial",
   "theorems": [
    "PyGCD.c94_extent",
    "PyGCD.c94_enclosed_partial",
    "PyGCD.c94_refuted",
    "PyGCD.c94_max_vel"
   ],
   "note": "False of the code for the extent (C94Full, c94_refuted): it uses the programmed positions, from which the simulated ones differ after a move that is not carried out. c94_extent is the exact law, c94_enclosed_partial the part without such offsets, c94_max_vel the statement about the maximum speed in full."
  },
  {
   "property": "C95",
   "status": "proved",
   "theorems": [
    "PyGCD.c95_read_with_rounding",
    "PyGCD.c95_return_matters"
   ],
   "note": "Doubles with unbounded exponent. c95_return_matters: without the condition that the file never returns to absolute coordinates it is false."
  },
  {
   "property": "C96",
   "status": "proved",
   "theorems": [
    "PyGCD.c96_event_file",
    "PyGCD.c96_layer_file",
    "PyGCD.rounds8_python",
    "PyGCD.rounds8_numpy"
   ],
   "note": "The text of a number is a parameter that has to be readable for the numbers in the file; rounding to eight places is proved accurate for Python's and numpy's algorithm on doubles. File system errors are not modelled."
  },
  {
   "property": "C97",
   "status": "proved",
   "theorems": [
    "PyGCD.c97_extra_entries"
   ],
   "note": ""
  },
  {
   "property": "C98",
   "status": "proved",
   "theorems": [
    "PyGCD.c98_answers",
    "PyGCD.c98_motion",
    "PyGCD.c98_hypotheses_satisfiable",
    "PyGCD.c98_answers_sensible",
    "PyGCD.c98_motion_sensible"
   ],
   "note": "Also for feedrates of zero and lines that move and pause (…_sensible)."
  },
  {
   "property": "C99",
   "status": "partial",
   "theorems": [
    "PyGCD.c99_refuted",
    "PyGCD.c99_near_partial",
    "PyGCD.c99_gaps_partial",
    "PyGCD.c99_gap_exists"
   ],
   "note": "Refuted: where a move is exactly as long as its ramps, the constant-speed segment can be dropped although it has a duration, and a query there raises TypeError. Proved: two answers for the same time differ by at most 2e-7 + 1e-9 V + n (1e-8 + 2e-9 V) + 2e-12 V T mm, for n blocks, speeds up to V and the duration T; and a query without a history raises only in such a gap, in which less than 4e-7 mm are driven. Not covered: velocities, other unit systems, and junction handling other than the default."
  },
  {
   "property": "C100",
   "status": "proved",
   "theorems": [
    "PyGCD.c100_speeds",
    "PyGCD.c100_durations",
    "PyGCD.c100_print_time"
   ],
   "note": "C119 has it for feedrates of zero and lines that move and pause."
  },
  {
   "property": "C101",
   "status": "proved",
   "theorems": [
    "PyGCD.c101_setup",
    "PyGCD.c101_unknown",
    "PyGCD.c101_benchy",
    "PyGCD.c101_simulated",
    "PyGCD.c101_debugging"
   ],
   "note": ""
  },
  {
   "property": "C102",
   "status": "partial",
   "theorems": [
    "PyGCD.c102_refuted",
    "PyGCD.c102_titles_partial",
    "PyGCD.c102_default_partial",
    "PyGCD.c102_titles_sensible_partial",
    "PyGCD.c102_default_sensible_partial"
   ],
   "note": "False in full (c102_refuted): \"Triangular\" also stands for accelerate+cruise and cruise+brake. The partial theorems prove everything else, and the full claim for default junction handling. Also for feedrates of zero and lines that move and pause (…_sensible)."
  },
  {
   "property": "C103",
   "status": "proved",
   "theorems": [
    "PyGCD.c103_summary",
    "PyGCD.c103_plain_files"
   ],
   "note": ""
  },
  {
   "property": "C104",
   "status": "proved",
   "theorems": [
    "PyGCD.c104_vectors",
    "PyGCD.c104_states",
    "PyGCD.c104_first_state",
    "PyGCD.c104_segments",
    "PyGCD.c104_segments_sensible"
   ],
   "note": "Also for feedrates of zero and lines that move and pause (…_sensible)."
  },
  {
   "property": "C105",
   "status": "partial",
   "theorems": [
    "PyGCD.c105_refuted",
    "PyGCD.c105_no_hint_partial",
    "PyGCD.c105_hint_partial",
    "PyGCD.c105_plain"
   ],
   "note": "False in full (c105_refuted). The partial theorems together say for every ordered list, time and hint what the answer or the exception is."
  },
  {
   "property": "C106",
   "status": "partial",
   "theorems": [
    "PyGCD.c106_refuted",
    "PyGCD.c106_no_attribute",
    "PyGCD.c106_values_partial",
    "PyGCD.c106_error_partial",
    "PyGCD.c106_error_sensible_partial"
   ],
   "note": "False in full: the attribute result is never created, so both methods raise. If a caller sets it, the stored values are as claimed (within the tolerances of np.isclose). Also for feedrates of zero and lines that move and pause (…_sensible)."
  },
  {
   "property": "C107",
   "status": "proved",
   "theorems": [
    "PyGCD.c107_links",
    "PyGCD.c107_errors",
    "PyGCD.c107_complete"
   ],
   "note": "For every recursion limit: the simulation either exceeds it, or raises what the plan raises, or ends with linked objects that hold the plan."
  },
  {
   "property": "C108",
   "status": "partial",
   "theorems": [
    "PyGCD.c108_refuted",
    "PyGCD.c108_short_moves",
    "PyGCD.c108_short_files_partial",
    "PyGCD.c108_braking_partial",
    "PyGCD.c108_default_partial"
   ],
   "note": "False in full (c108_refuted, with the family of programs c108_short_moves). Proved for programs with no more states than the limit, for programs that can brake to standstill within any `limit` actions in a row, and for the default firmware."
  },
  {
   "property": "C109",
   "status": "proved",
   "theorems": [
    "PyGCD.c109_ends",
    "PyGCD.c109_joints",
    "PyGCD.c109_compared",
    "PyGCD.c109_size_matters"
   ],
   "note": "About plans that succeed (C83 shows that planning with doubles can raise). The restriction to usual sizes is needed: c109_size_matters. Overflow and subnormal numbers are not modelled."
  },
  {
   "property": "C110",
   "status": "proved",
   "theorems": [
    "PyGCD.c110_forward",
    "PyGCD.c110_feed",
    "PyGCD.c110_joints",
    "PyGCD.c110_total",
    "PyGCD.c110_tolerance"
   ],
   "note": "About plans that succeed (C83 shows that planning with doubles can raise). c110_tolerance shows that the feedrate needs a tolerance; for the nanosecond of c110_joints no witness is known. Overflow and subnormal numbers are not modelled."
  },
  {
   "property": "C111",
   "status": "proved",
   "theorems": [
    "PyGCD.c111_documented",
    "PyGCD.c111_order",
    "PyGCD.c111_stray",
    "PyGCD.c111_effects"
   ],
   "note": "argparse of the standard library is part of the model (version 3.11, compared with the original on 80000 random lines). Which characters count as digits is a parameter."
  },
  {
   "property": "C112",
   "status": "proved",
   "theorems": [
    "PyGCD.c112_none",
    "PyGCD.c112_example",
    "PyGCD.c112_plot",
    "PyGCD.c112_mistyped",
    "PyGCD.c112_untouched"
   ],
   "note": "argparse of the standard library is part of the model (version 3.11, compared with the original on 80000 random lines). Which characters count as digits is a parameter. Mistyped words with a space are left out: argparse takes them for values."
  },
  {
   "property": "C113",
   "status": "partial",
   "theorems": [
    "PyGCD.c113_refuted",
    "PyGCD.c113_glued_partial",
    "PyGCD.c113_printer",
    "PyGCD.c113_cue",
    "PyGCD.c113_abbreviated",
    "PyGCD.c113_ambiguous",
    "PyGCD.c113_short_cue",
    "PyGCD.c113_no_file"
   ],
   "note": "The full statement is false (c113_refuted); what each option does instead is c113_printer and c113_cue. argparse of the standard library is part of the model (version 3.11, compared with the original on 80000 random lines). Which characters count as digits is a parameter."
  },
  {
   "property": "C114",
   "status": "proved",
   "theorems": [
    "PyGCD.c114_on_path",
    "PyGCD.c114_gaps"
   ],
   "note": "For Dbl, the software model of IEEE doubles (trigonometry of junction deviation by a polynomial). That planning succeeds is a hypothesis; C83/C84 say when it is known to."
  },
  {
   "property": "C115",
   "status": "proved",
   "theorems": [
    "PyGCD.c115_command",
    "PyGCD.c115_brace_saves_nothing",
    "PyGCD.c115_brace",
    "PyGCD.c115_benchy_inside",
    "PyGCD.c115_benchy",
    "PyGCD.c115_benchy_plain",
    "PyGCD.c115_pointers"
   ],
   "note": "The texts that are printed are not modelled. With files that only push filament in lines that move and pause (nothing is shown then) the end of the benchy example is left open."
  },
  {
   "property": "C116",
   "status": "partial",
   "theorems": [
    "PyGCD.c116_summary",
    "PyGCD.c116_layers",
    "PyGCD.c116_travelled_partial",
    "PyGCD.c116_refuted"
   ],
   "note": "The statement about the travel distances is false (c116_refuted); the exact law is c116_layers, and it holds if no line both moves and pauses (c116_travelled_partial). The rest is c116_summary."
  },
  {
   "property": "C117",
   "status": "proved",
   "theorems": [
    "PyGCD.c117_path",
    "PyGCD.c117_start",
    "PyGCD.c117_query"
   ],
   "note": "Planned with software IEEE doubles; numbers outside the range of doubles (overflow, subnormals) are not modelled."
  },
  {
   "property": "C118",
   "status": "proved",
   "theorems": [
    "PyGCD.c118_fastest",
    "PyGCD.c118_moves",
    "PyGCD.c118_stops",
    "PyGCD.c118_slowest"
   ],
   "note": "Competing motions are Spec.Timetable. Junction limits are the firmware's junction speeds (C14 to C17)."
  },
  {
   "property": "C119",
   "status": "proved",
   "theorems": [
    "PyGCD.c119_speeds",
    "PyGCD.c119_durations",
    "PyGCD.c119_print_time"
   ],
   "note": "Junction limits are the firmware's junction speeds (C14 to C17)."
  },
  {
   "property": "C120",
   "status": "proved",
   "theorems": [
    "PyGCD.c120_only",
    "PyGCD.c120_before_last",
    "PyGCD.c120_drawn",
    "PyGCD.c120_colours",
    "PyGCD.c120_resolution",
    "PyGCD.c120_variants",
    "PyGCD.c120_speed",
    "PyGCD.c120_position",
    "PyGCD.c120_marks",
    "PyGCD.c120_velocity",
    "PyGCD.c120_default",
    "PyGCD.c120_steps",
    "PyGCD.c120_errors"
   ],
   "note": "The exact velocity curve is shown where no pause takes zero seconds. marlin_jerk can leave out the last segment (c75_refuted). What is passed is the motion of the segments, which is where the machine goes (C87)."
  },
  {
   "property": "C121",
   "status": "proved",
   "theorems": [
    "PyGCD.c121_least",
    "PyGCD.c121_print_time"
   ],
   "note": "Spec.Timetable are the motions, Spec.tasks the steps. With marlin_jerk a move of the filament alone begins with a stale speed in the planner, so the lower bound asks that every move travels."
  },
  {
   "property": "C122",
   "status": "partial",
   "theorems": [
    "PyGCD.c122_refuted",
    "PyGCD.c122_reached_partial",
    "PyGCD.c122_law",
    "PyGCD.c122_outcome",
    "PyGCD.c122_missed"
   ],
   "note": "False of the code in general (c122_refuted): the box is intersected with the lines of the program, and after a move that is lost the machine is elsewhere. Proved if every move starts where the program says (c122_reached_partial); c122_law and c122_outcome are the exact laws for all sensible programs; c122_missed: a box the nozzle passes through may also be missed. Left out: the move asked for by a pausing line starts on the surface, where the code computes 0/0."
  },
  {
   "property": "C123",
   "status": "proved",
   "theorems": [
    "PyGCD.c123_block",
    "PyGCD.c123_rejected",
    "PyGCD.c123_file"
   ],
   "note": "Positive acceleration assumed."
  },
  {
   "property": "C124",
   "status": "proved",
   "theorems": [
    "PyGCD.c124_size",
    "PyGCD.c124_feedrates",
    "PyGCD.c124_accelerations",
    "PyGCD.c124_jerk",
    "PyGCD.c124_tuned",
    "PyGCD.c124_least",
    "PyGCD.c124_plannable",
    "PyGCD.c124_mka_slower"
   ],
   "note": "c124_tuned is the general statement for all four factors at once. c124_mka_slower shows why MKA is left out for higher feedrates: they can make a print slower there. For marlin_jerk every step has to travel, as in C66."
  },
  {
   "property": "C125",
   "status": "proved",
   "theorems": [
    "PyGCD.c125_at_least",
    "PyGCD.c125_longer",
    "PyGCD.c125_stopping",
    "PyGCD.c125_at_most",
    "PyGCD.c125_sharp"
   ],
   "note": "c125_sharp shows that the upper bound is reached."
  },
  {
   "property": "C126",
   "status": "proved",
   "theorems": [
    "PyGCD.c126_part",
    "PyGCD.c126_least",
    "PyGCD.c126_longer",
    "PyGCD.c126_shorter"
   ],
   "note": "c126_shorter shows that the assumption about accelerations in c126_longer cannot be dropped. marlin_jerk is left out."
  },
  {
   "property": "C127",
   "status": "proved",
   "theorems": [
    "PyGCD.c127_at_least",
    "PyGCD.c127_at_most",
    "PyGCD.c127_part",
    "PyGCD.c127_longer"
   ],
   "note": "Builds on C67, C125 and C126."
  },
  {
   "property": "C128",
   "status": "proved",
   "theorems": [
    "PyGCD.c128_idle",
    "PyGCD.c128_same_doings",
    "PyGCD.c128_without"
   ],
   "note": "Errors are the same too. Builds on C67 for files."
  },
  {
   "property": "C129",
   "status": "proved",
   "theorems": [
    "PyGCD.c129_faster",
    "PyGCD.c129_setup",
    "PyGCD.c129_pieces",
    "PyGCD.c129_shifted",
    "PyGCD.c129_placed"
   ],
   "note": "File versions of C66, C70 and C71; the restrictions to some firmwares are those of C66, C70 and C71, where they are shown to be necessary."
  },
  {
   "property": "C130",
   "status": "proved",
   "theorems": [
    "PyGCD.c130_waits",
    "PyGCD.c130_file"
   ],
   "note": ""
  },
  {
   "property": "C131",
   "status": "proved",
   "theorems": [
    "PyGCD.c131_nozzle",
    "PyGCD.c131_plannable",
    "PyGCD.c131_values",
    "PyGCD.c131_events",
    "PyGCD.c131_file",
    "PyGCD.c131_mka"
   ],
   "note": "The MKA firmware is outside of the property: its limit looks at the filament axis as well, see c131_mka."
  },
  {
   "property": "C132",
   "status": "proved",
   "theorems": [
    "PyGCD.c132_simulated",
    "PyGCD.c132_tuned",
    "PyGCD.c132_size",
    "PyGCD.c132_feedrates",
    "PyGCD.c132_accelerations",
    "PyGCD.c132_jerk"
   ],
   "note": ""
  },
  {
   "property": "C133",
   "status": "proved",
   "theorems": [
    "PyGCD.c133_back"
   ],
   "note": ""
  },
  {
   "property": "C134",
   "status": "proved",
   "theorems": [
    "PyGCD.c134_motion",
    "PyGCD.c134_plannable",
    "PyGCD.c134_values",
    "PyGCD.c134_width",
    "PyGCD.c134_events",
    "PyGCD.c134_extents",
    "PyGCD.c134_submodel",
    "PyGCD.c134_layers",
    "PyGCD.c134_lines",
    "PyGCD.c134_file"
   ],
   "note": "Submodel times, layer metrics, extents and highest speed are proved for programs; motion, queries, widths, event series and drawn lines also for files."
  }
 ]
}
