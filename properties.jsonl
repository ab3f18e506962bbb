{"id": "C01", "title": "One state per G-code line, linked in file order", "statement": "generate_states returns exactly one initial state followed by one state per line of the file; state i carries line_number i (1-based; none for the initial state), its prev_state is state i-1 and its next_state is state i+1, with the ends open.", "quantifier": "every file (any number of lines, any content for which parsing succeeds) and every machine setup", "why_tests_cant": "the list and its links must be right for files of every length and every line content", "anchors": ["pyGCodeDecode/state_generator.py:read_gcode_to_dict_list", "pyGCodeDecode/state_generator.py:dict_list_traveler", "pyGCodeDecode/state_generator.py:generate_states"]}
{"id": "C02", "title": "Text after ';' never changes the commands of a line", "statement": "If a line with a comment parses, the commands and arguments obtained are exactly those of the part in front of the first ';', plus one comment entry holding everything after it.", "quantifier": "every line prefix without ';' and every comment text", "why_tests_cant": "the space of comment texts (which may contain command-like words) is unbounded", "anchors": ["pyGCodeDecode/state_generator.py:arg_extract"]}
{"id": "C03", "title": "Well-formed commands parse exactly", "statement": "A line made of a command name followed by blank-separated words (a letter of that command plus a number text), each letter at most once, parses to exactly that one command with exactly those letters, each bound to the value of its own number text, in any word order.", "quantifier": "every known command, every set and order of its argument letters, every number text free of capital letters and ';'", "why_tests_cant": "every combination of words, orders and number texts has to be covered", "anchors": ["pyGCodeDecode/state_generator.py:arg_extract", "pyGCodeDecode/state_generator.py:known_commands"]}
{"id": "C04", "title": "A command name is never mistaken for a shorter one", "statement": "A line is credited with command K only if K occurs in front of any comment and its first occurrence is not the beginning of a longer known command name at the same place (G10 is not G1, G28 is not G2); conversely every command whose first occurrence is of that kind is reported.", "quantifier": "every line of text", "why_tests_cant": "the removal loop mutates the list it iterates over; its correctness depends on all combinations of overlapping names in arbitrary text", "anchors": ["pyGCodeDecode/state_generator.py:arg_extract"]}
{"id": "C05", "title": "Exactly which lines the parser rejects", "statement": "arg_extract on a line raises (TypeError) exactly when some command that takes argument letters is directly followed (up to the next command or the end) by text that is just a number; otherwise it returns a dictionary.", "quantifier": "every line of text", "why_tests_cant": "a crash for one odd line aborts a whole simulation; the set of such lines is infinite", "anchors": ["pyGCodeDecode/state_generator.py:arg_extract"]}
{"id": "C06", "title": "Unsupported-command report counts lines exactly", "statement": "check_for_unsupported_commands returns each known-but-unsupported command that occurs in the parsed lines together with the number of lines containing it, and nothing else.", "quantifier": "every list of parsed lines", "why_tests_cant": "counts over arbitrary files", "anchors": ["pyGCodeDecode/state_generator.py:check_for_unsupported_commands"]}
{"id": "C07", "title": "Absolute moves set exactly the named axes", "statement": "In absolute mode a G0/G1 word sets that axis (plus the current G92 offset) to the given value and leaves every axis that is not named unchanged; E follows the M82/M83 mode independently of X, Y, Z.", "quantifier": "every machine state and every move line", "why_tests_cant": "all modes x all subsets of words x all values", "anchors": ["pyGCodeDecode/state_generator.py:dict_list_traveler"]}
{"id": "C08", "title": "Relative moves accumulate", "statement": "In relative mode each axis advances by exactly the sum of its words over any run of relative move lines.", "quantifier": "every machine state and every sequence of relative move lines of any length", "why_tests_cant": "accumulation over sequences of unbounded length", "anchors": ["pyGCodeDecode/state_generator.py:dict_list_traveler"]}
{"id": "C09", "title": "Absolute positioning forgets history", "statement": "Two runs that agree on modes and offsets reach the same X/Y/Z position after an absolute move naming these axes, whatever happened before.", "quantifier": "every pair of histories", "why_tests_cant": "ranges over pairs of unbounded histories", "anchors": ["pyGCodeDecode/state_generator.py:dict_list_traveler"]}
{"id": "C10", "title": "G92 re-labels coordinates without moving the machine", "statement": "A G92 line must leave the physical position unchanged (it only renames coordinates).", "quantifier": "every machine state and every G92 line", "why_tests_cant": "holds for value 0 only: the code adds instead of subtracting the new value, so any non-zero G92 value displaces the axis by twice that value; the property has to be decided for all values and offsets", "anchors": ["pyGCodeDecode/state_generator.py:dict_list_traveler"]}
{"id": "C11", "title": "Settings are modal", "statement": "Feedrate (F/60), acceleration (M204 P), jerk (M205 X), axis limits (M203) and unit flag of a state are those of the latest line up to and including it that set them, else the setup's values.", "quantifier": "every file and every line in it", "why_tests_cant": "history dependence over files of unbounded length", "anchors": ["pyGCodeDecode/state_generator.py:dict_list_traveler"]}
{"id": "C12", "title": "Layer number counts the layer cues seen so far", "statement": "With a layer cue configured, the layer of each line's state equals the number of lines up to and including it whose stripped comment equals the cue; it is monotone along the file. Without a cue no state has a layer.", "quantifier": "every file, every cue", "why_tests_cant": "counting over files of unbounded length", "anchors": ["pyGCodeDecode/state_generator.py:dict_list_traveler"]}
{"id": "C13", "title": "Dwell is attached to its own line only", "statement": "A state has a pause iff its line has G4 with P or S; the pause is S seconds if given, else P/1000 seconds; it never leaks to other lines.", "quantifier": "every file", "why_tests_cant": "history dependence", "anchors": ["pyGCodeDecode/state_generator.py:dict_list_traveler"]}
{"id": "C14", "title": "Lines without known commands are inert", "statement": "A line with no known command yields a state with the same position and settings as its predecessor and does not influence later states: removing such lines changes nothing but line numbers.", "quantifier": "every file and every set of inert lines in it", "why_tests_cant": "insertion at any place of any history", "anchors": ["pyGCodeDecode/state_generator.py:dict_list_traveler"]}
{"id": "C15", "title": "Later lines never change earlier states", "statement": "The states generated for a prefix of a file are the first states generated for the whole file (up to the forward link of the last one).", "quantifier": "every split of every file", "why_tests_cant": "causality over unbounded histories", "anchors": ["pyGCodeDecode/state_generator.py:dict_list_traveler"]}
{"id": "C16", "title": "Inch mode scales lengths", "statement": "After G20 coordinates are interpreted in inches (25.4 mm).", "quantifier": "every file", "why_tests_cant": "the code only records a flag; the property is decided (negatively) for all values", "anchors": ["pyGCodeDecode/state_generator.py:dict_list_traveler"]}
{"id": "C17", "title": "Junction speeds stay between zero and the feedrate", "statement": "For every firmware model the junction speed at the end of a move lies in [0, feedrate of that move].", "quantifier": "every pair of consecutive moves, positive accelerations, non-negative jerk and every firmware name", "why_tests_cant": "real-valued inputs; case distinctions over angles", "anchors": ["pyGCodeDecode/junction_handling.py:junction_handling.get_junction_vel", "pyGCodeDecode/junction_handling.py:junction_handling_marlin_jd.calc_JD", "pyGCodeDecode/junction_handling.py:junction_handling_marlin_jerk.calc_j_vel", "pyGCodeDecode/junction_handling.py:junction_handling_klipper.calc_j_vel", "pyGCodeDecode/junction_handling.py:junction_handling_MKA.calc_j_vel"]}
{"id": "C18", "title": "The last move ends at standstill", "statement": "After the simulation the machine is at rest at the end of the last move.", "quantifier": "every firmware and every list of states", "why_tests_cant": "holds for all firmwares except marlin_jerk, which has to be shown by proof and counterexample", "anchors": ["pyGCodeDecode/junction_handling.py", "pyGCodeDecode/planner_block.py:planner_block.__init__"]}
{"id": "C19", "title": "Every move can be planned", "statement": "For positive distance, feedrate and acceleration and an end speed within [0, feedrate], exactly one of trapezoid, triangle, single ramp applies: planning a move never fails with 'could not be modeled'.", "quantifier": "every start speed, end speed, feedrate, acceleration and distance", "why_tests_cant": "case split on real inequalities", "anchors": ["pyGCodeDecode/planner_block.py:planner_block.move_maker2"]}
{"id": "C20", "title": "Moves end exactly at their target", "statement": "The segments of a move start at the previous state's position and end exactly at the move's target, in X, Y, Z and E, also after all corrections.", "quantifier": "every list of states, every firmware", "why_tests_cant": "accumulates over unbounded move sequences and corrections", "anchors": ["pyGCodeDecode/planner_block.py:planner_block.move_maker2", "pyGCodeDecode/gcode_interpreter.py:generate_planner_blocks", "pyGCodeDecode/gcode_interpreter.py:simulation.trajectory_self_correct"]}
{"id": "C21", "title": "The feedrate is never exceeded", "statement": "At every time during a move the travel speed is at most the feedrate in force for that move.", "quantifier": "every list of states, firmware and time", "why_tests_cant": "continuum of times, unbounded move lists", "anchors": ["pyGCodeDecode/planner_block.py:planner_block.move_maker2", "pyGCodeDecode/planner_block.py:planner_block.self_correction", "pyGCodeDecode/utils.py:segment.get_velocity"]}
{"id": "C22", "title": "Acceleration is the configured one", "statement": "Within each segment the velocity changes at constant rate along the move direction, of magnitude either 0 or exactly the acceleration in force.", "quantifier": "every list of states and firmware", "why_tests_cant": "continuum", "anchors": ["pyGCodeDecode/planner_block.py:planner_block.move_maker2"]}
{"id": "C23", "title": "The timeline is gap-free", "statement": "After construction the first segment begins at time 0, every segment begins exactly when its predecessor ends, and no segment has negative duration (moving segments have positive duration).", "quantifier": "every list of states and firmware", "why_tests_cant": "depends on the whole correction history (recursive back-correction, time shifts)", "anchors": ["pyGCodeDecode/planner_block.py:planner_block.self_correction", "pyGCodeDecode/planner_block.py:planner_block.timeshift", "pyGCodeDecode/gcode_interpreter.py:simulation.trajectory_self_correct"]}
{"id": "C24", "title": "The path is continuous", "statement": "Every segment begins at the position where its predecessor ends.", "quantifier": "every list of states and firmware", "why_tests_cant": "unbounded lists", "anchors": ["pyGCodeDecode/gcode_interpreter.py:generate_planner_blocks", "pyGCodeDecode/planner_block.py:planner_block.self_correction"]}
{"id": "C25", "title": "Speed is continuous across junctions", "statement": "At each junction between two moves the travel speeds agree up to 1e-12 after the corrections; inside a move velocities agree exactly.", "quantifier": "every list of states and firmware", "why_tests_cant": "depends on the recursive back-correction", "anchors": ["pyGCodeDecode/planner_block.py:planner_block.self_correction"]}
{"id": "C26", "title": "Correction terminates and never fails", "statement": "trajectory_self_correct completes on every generated block list: the back-correction recursion ends, never runs past the first block and never reports a discontinuity.", "quantifier": "every list of states and firmware", "why_tests_cant": "recursion over unbounded lists", "anchors": ["pyGCodeDecode/planner_block.py:planner_block.self_correction", "pyGCodeDecode/gcode_interpreter.py:simulation.trajectory_self_correct"]}
{"id": "C27", "title": "Dwell holds position for exactly its duration", "statement": "A G4 line after motion gives one standstill block of exactly the pause duration at the current position.", "quantifier": "every list of states with dwells", "why_tests_cant": "interacts with re-planning of neighbours", "anchors": ["pyGCodeDecode/planner_block.py:planner_block.__init__"]}
{"id": "C28", "title": "Exactly the moving and dwelling states give blocks", "statement": "The block list contains, in order, one block for each state that moves or pauses and none for others.", "quantifier": "every list of states", "why_tests_cant": "unbounded lists", "anchors": ["pyGCodeDecode/gcode_interpreter.py:generate_planner_blocks"]}
{"id": "C29", "title": "Motion follows the straight line with proportional extrusion", "statement": "At every time within a move the reported 4D position (X,Y,Z,E) is on the straight line between the two states' positions.", "quantifier": "every list of states, time", "why_tests_cant": "continuum", "anchors": ["pyGCodeDecode/utils.py:segment.get_position", "pyGCodeDecode/planner_block.py:planner_block.move_maker2"]}
{"id": "C30", "title": "get_values answers everywhere inside the print", "statement": "get_values(t) returns a value for every 0 <= t < end time whatever was queried before, and raises for t > end time and (from a fresh simulation) t < 0.", "quantifier": "every simulation result, every query history and every t", "why_tests_cant": "search cache makes results history dependent", "anchors": ["pyGCodeDecode/gcode_interpreter.py:simulation.get_values", "pyGCodeDecode/gcode_interpreter.py:find_current_segment"]}
{"id": "C31", "title": "Queries are independent of the query history", "statement": "get_values(t) returns the same position regardless of previous queries, and the same velocity except when t is exactly a boundary between two segments.", "quantifier": "every simulation result, every two query histories and every t", "why_tests_cant": "all interleavings of queries", "anchors": ["pyGCodeDecode/gcode_interpreter.py:simulation.get_values", "pyGCodeDecode/gcode_interpreter.py:find_current_segment"]}
{"id": "C32", "title": "The end time itself can be queried", "statement": "get_values(end time) returns the final position.", "quantifier": "every simulation and query history", "why_tests_cant": "fails on a fresh cache, works on a warm one: history dependent", "anchors": ["pyGCodeDecode/gcode_interpreter.py:find_current_segment"]}
{"id": "C33", "title": "Velocity is the derivative of position", "statement": "Within a segment the reported velocity is the time derivative of the reported position, which runs from the segment's begin to its end position.", "quantifier": "every segment and time", "why_tests_cant": "continuum", "anchors": ["pyGCodeDecode/utils.py:segment.get_velocity", "pyGCodeDecode/utils.py:segment.get_position"]}
{"id": "C34", "title": "Unit systems scale consistently", "statement": "Outputs in another unit system are the millimetre outputs times a constant factor, and an initial position given in unit u is reported by the simulation at its start in unit u unchanged.", "quantifier": "every unit system, initial position", "why_tests_cant": "all values", "anchors": ["pyGCodeDecode/gcode_interpreter.py:simulation.get_scaling_factor", "pyGCodeDecode/gcode_interpreter.py:setup.get_scaling_factor", "pyGCodeDecode/gcode_interpreter.py:setup.set_initial_position"]}
{"id": "C35", "title": "Extrusion width conserves volume", "statement": "While moving, width*height*feed rate equals filament cross-section*extrusion rate, independently of the output unit system; the width is 0 at standstill.", "quantifier": "every time and simulation", "why_tests_cant": "real-valued", "anchors": ["pyGCodeDecode/gcode_interpreter.py:simulation.get_width"]}
{"id": "C36", "title": "Extrusion extent encloses all extruding motion tightly", "statement": "Every position reported during an extruding move lies inside extrusion_extent, each of whose bounds is attained by an end point of an extruding move; it raises iff nothing is extruded.", "quantifier": "every simulation result, time", "why_tests_cant": "continuum and unbounded lists", "anchors": ["pyGCodeDecode/gcode_interpreter.py:simulation.extrusion_extent"]}
{"id": "C37", "title": "Extrusion maximum velocity is the true maximum", "statement": "extrusion_max_vel bounds the travel speed at every time of every extruding move and is attained.", "quantifier": "every simulation result", "why_tests_cant": "continuum and unbounded lists", "anchors": ["pyGCodeDecode/gcode_interpreter.py:simulation.extrusion_max_vel", "pyGCodeDecode/planner_block.py:planner_block.extrusion_block_max_vel"]}
{"id": "C38", "title": "Velocity plot sampling never fails", "statement": "Sampling the trajectory at all segment end times, or at any non-decreasing times within the print, through the gap-tolerant search finds a segment containing each time.", "quantifier": "every simulation result, every non-decreasing sequence of times", "why_tests_cant": "unbounded sequences with carried index", "anchors": ["pyGCodeDecode/gcode_interpreter.py:find_current_segment", "pyGCodeDecode/gcode_interpreter.py:simulation.plot_vel"]}
{"id": "C39", "title": "Abaqus event series is faithful", "statement": "The series has one row per segment boundary, starts at time 0, has non-decreasing times, its positions are the segment end points (scaled), and the flag of a row is 1 exactly when E grows by more than the tolerance until the next row; the last flag is 0.", "quantifier": "every simulation result, tolerance, unit system", "why_tests_cant": "unbounded lists with in-place flag rewriting", "anchors": ["pyGCodeDecode/abaqus_file_generator.py:generate_abaqus_event_series"]}
{"id": "C40", "title": "Linear interpolation of the event series is exact", "statement": "Interpolating the Abaqus rows linearly in time reproduces the simulated position (as the module documentation claims).", "quantifier": "every segment, time", "why_tests_cant": "true only for constant-velocity segments; must be decided for all", "anchors": ["pyGCodeDecode/abaqus_file_generator.py:generate_abaqus_event_series"]}
{"id": "C41", "title": "Layer metrics account for the whole print", "statement": "save_layer_metrics lists strictly increasing layers whose durations add up to the print time and whose travel distances add up to the total travel.", "quantifier": "every simulation result with layers", "why_tests_cant": "sums over unbounded lists; fails when the last block opens a layer, and the last block's travel is never counted", "anchors": ["pyGCodeDecode/tools.py:save_layer_metrics"]}
{"id": "C42", "title": "Time at a given distance inverts the motion", "statement": "inverse_time_at_pos(s) is the time at which the simulated motion has travelled s within the block.", "quantifier": "every block, s", "why_tests_cant": "true for accelerating and constant segments, false for decelerating ones", "anchors": ["pyGCodeDecode/planner_block.py:planner_block.inverse_time_at_pos", "pyGCodeDecode/utils.py:segment._interpolate_time_to_space"]}
{"id": "C43", "title": "Submodel crossings are real crossings", "statement": "Every time written by write_submodel_times stems from a point of the move's line on a face of the box and inside it; entry/exit is decided by the direction of motion; the in and out lists are sorted.", "quantifier": "every simulation result and box", "why_tests_cant": "geometry over reals and unbounded lists", "anchors": ["pyGCodeDecode/tools.py:write_submodel_times"]}
{"id": "C44", "title": "3D plot shows exactly the extruding runs", "statement": "With extrusion_only the poly-lines of plot_3d are exactly the maximal runs of consecutive extruding segments, each with one more vertex than segments and with matching speeds.", "quantifier": "every segment list", "why_tests_cant": "unbounded lists; run boundary cases", "anchors": ["pyGCodeDecode/gcode_interpreter.py:simulation.plot_3d"]}
{"id": "C45", "title": "Setup dictionary precedence", "statement": "After any sequence of select_printer, set_property, set_initial_position and get_dict calls, get_dict returns the selected printer's presets overridden by its set properties, then by the initial position, then by the layer cue and printer name; repeated reads return the same.", "quantifier": "every sequence of setup calls", "why_tests_cant": "the returned dictionary aliases internal state, so behaviour depends on the call history", "anchors": ["pyGCodeDecode/gcode_interpreter.py:setup"]}
{"id": "C46", "title": "Setup validation accepts exactly complete setups", "statement": "A setup dictionary is accepted iff it has all required keys and only required or optional keys.", "quantifier": "every dictionary", "why_tests_cant": "all key sets", "anchors": ["pyGCodeDecode/gcode_interpreter.py:simulation.check_initial_setup"]}
{"id": "C47", "title": "Simulation construction guards", "statement": "The constructor rejects exactly: unknown output units; neither machine name nor setup; a machine name that contradicts the setup's printer.", "quantifier": "every argument combination", "why_tests_cant": "all combinations", "anchors": ["pyGCodeDecode/gcode_interpreter.py:simulation.__init__"]}
{"id": "C48", "title": "CLI input resolution", "statement": "The plot command uses the given G-code file if it exists, else exits; without one it uses the unique *.gcode of the directory and exits if there is none or several; the output-directory question repeats until a yes/no answer.", "quantifier": "every directory content and answer sequence", "why_tests_cant": "answer sequences are unbounded", "anchors": ["pyGCodeDecode/cli.py:_plot"]}
{"id": "C49", "title": "4D vectors form a vector space with tolerant equality", "statement": "Vector addition/subtraction/scaling obey the vector-space laws; equality is reflexive and tolerant but is neither symmetric nor transitive.", "quantifier": "all vectors", "why_tests_cant": "all reals", "anchors": ["pyGCodeDecode/utils.py:vector_4D"]}
{"id": "C50", "title": "Re-simulation is idempotent", "statement": "refresh() without arguments reproduces exactly the same blocks, and does not depend on previous queries or refreshes.", "quantifier": "every state list and call history", "why_tests_cant": "call histories", "anchors": ["pyGCodeDecode/gcode_interpreter.py:simulation.refresh"]}
{"id": "C51", "title": "A simulation is independent of its setup object", "statement": "Whatever is done with the setup object after a simulation was made from it, refreshing the simulation gives the same blocks.", "quantifier": "every setup history before and after the construction, every G-code", "why_tests_cant": "the simulation keeps a reference to the dictionary inside the setup object; only one of its entries is read again later", "anchors": ["pyGCodeDecode/gcode_interpreter.py:simulation.refresh", "pyGCodeDecode/gcode_interpreter.py:setup.get_dict"]}
{"id": "C52", "title": "Exactly which parsed files give states", "statement": "dict_list_traveler returns states exactly if, line by line under the positioning modes in force, every word it computes with (axis words of G0/G1/G92, F of G0/G1, P of G4) is a number, where in absolute mode a G1 word replaces the G0 word of the same line unread; otherwise it raises TypeError.", "quantifier": "every machine setup and every list of parsed lines", "why_tests_cant": "which texts are looked at depends on the mode history of the whole file", "anchors": ["pyGCodeDecode/state_generator.py:dict_list_traveler"]}
{"id": "C53", "title": "Each move accelerates fully, cruises at its feedrate and brakes fully", "statement": "The segments of every planned move are first segments that gain speed at exactly the acceleration setting, then segments at constant speed equal to the feedrate, then segments that lose speed at exactly the acceleration setting; each of the three parts may be missing. A move of length d with acceleration * d > feedrate^2 has a part at the feedrate.", "quantifier": "every list of states with positive feedrates and accelerations, every firmware, every move", "why_tests_cant": "trapezoid, triangle and single-ramp cases depend on real-valued inequalities and on the back-correction", "anchors": ["pyGCodeDecode/planner_block.py:planner_block.move_maker2", "pyGCodeDecode/planner_block.py:planner_block.self_correction"]}
{"id": "C54", "title": "No move ends faster than its junction allows", "statement": "The travel speed at the end of the last segment of a planned move is at most the junction speed of the firmware model for this move, the state before it and the states after it, also after all corrections.", "quantifier": "every executable list of states (positive feedrates and accelerations, no negative jerk, pauses not negative and after some move, on lines that do not move), every firmware, every move", "why_tests_cant": "corrections change speeds afterwards and run backwards through the whole program", "anchors": ["pyGCodeDecode/planner_block.py:planner_block.__init__", "pyGCodeDecode/planner_block.py:planner_block.self_correction", "pyGCodeDecode/junction_handling.py"]}
{"id": "C55", "title": "The planned motion is the fastest one within the limits", "statement": "Every other motion that executes the same states from rest, along the same straight lines, with speeds at most the feedrates, with speed changes at most the accelerations, with speeds at the ends of moves at most the junction speeds, continuous speed between moves, and at rest for pauses and filament-only moves, takes at least as long as the simulation's end time. Each planned move is itself such a motion.", "quantifier": "every executable list of states (positive feedrates and accelerations, no negative jerk, pauses not negative and after some move, on lines that do not move), every firmware, every competing motion (any differentiable path with Lipschitz speed)", "why_tests_cant": "quantifies over all competing motions, an infinite-dimensional set", "anchors": ["pyGCodeDecode/planner_block.py:planner_block.move_maker2", "pyGCodeDecode/planner_block.py:planner_block.self_correction", "pyGCodeDecode/gcode_interpreter.py:generate_planner_blocks"]}
{"id": "C56", "title": "Firmware names select the junction handling", "statement": "A simulation plans with the junction handling named by the firmware entry of the setup: marlin_jd, klipper, marlin_jerk and MKA select their models. Any other text, a wrong case, a number or a missing entry selects the default handling, which stops at every junction.", "quantifier": "every setup dictionary, every G-code file that can be simulated", "why_tests_cant": "names and files are unbounded; a misspelt name silently changes the whole simulation", "anchors": ["pyGCodeDecode/planner_block.py:planner_block.__init__", "pyGCodeDecode/gcode_interpreter.py:generate_planner_blocks"]}
{"id": "C57", "title": "The setup reaches the states number by number", "statement": "If a setup dictionary passed the check, the states given to the planner are those which the file gives on a machine whose position, feedrate, acceleration, jerk, axis limits and layer cue are the entries of the dictionary. The first state has exactly the position and settings of the dictionary, no pause and no layer.", "quantifier": "every setup dictionary that passed the check, every file", "why_tests_cant": "all dictionaries and files; mixing up two entries is invisible when they have equal values", "anchors": ["pyGCodeDecode/state_generator.py:generate_states", "pyGCodeDecode/gcode_interpreter.py:check_initial_setup"]}
{"id": "C58", "title": "Corner speed of marlin_jd is the junction deviation law", "statement": "At a corner with turning angle phi between two travelling moves marlin_jd takes the feedrate if phi is at most 18 degrees, stops if phi is at least 162 degrees or the jerk is zero, and else takes the smaller of the feedrate and jerk*sqrt(0.4*c/(1-c)) with c=cos(phi/2). A sharper corner is never taken faster.", "quantifier": "every three states that form a corner, all positive settings", "why_tests_cant": "real-valued geometry; all angles and settings", "anchors": ["pyGCodeDecode/junction_handling.py:junction_handling_marlin_jd"]}
{"id": "C59", "title": "Corner speed of klipper", "statement": "At a corner klipper takes the smallest of the feedrate, the speed of a circle that gives the jerk setting (square corner velocity) at a right angle, and the centripetal limit from the length of the next move; it stops where the path turns back. At a right angle this is the jerk setting unless the feedrate or the short next move asks for less. A sharper corner is never taken faster.", "quantifier": "every three states that form a corner, all positive settings", "why_tests_cant": "real-valued geometry; all angles and settings", "anchors": ["pyGCodeDecode/junction_handling.py:junction_handling_klipper"]}
{"id": "C60", "title": "Corner speed of marlin_jerk", "statement": "At a corner marlin_jerk takes the feedrate if the velocities before and after differ by less than twice the jerk or if the jerk is zero, and else reduces it in the proportion of twice the jerk to the difference. If the jerk is positive and both moves have the same feedrate the velocity changes by at most twice the jerk. A sharper corner is never taken faster.", "quantifier": "every three states that form a corner, all positive settings", "why_tests_cant": "real-valued geometry; all angles and settings", "anchors": ["pyGCodeDecode/junction_handling.py:junction_handling_marlin_jerk"]}
{"id": "C61", "title": "MKA limits the change of each axis", "statement": "With MKA and equal feedrates, no axis (the filament included) changes its velocity at a corner by more than twice the jerk setting. If all velocity components are within the jerk setting, the corner is taken at the feedrate. For every corner, whatever the two feedrates, the corner speed is given in closed form: the smaller feedrate, reduced for each axis in turn; at a right angle taken at 20 mm/s with jerk 5 this is 20/4^4 mm/s.", "quantifier": "every three states that form a corner (equal feedrates for the first two sentences)", "why_tests_cant": "the code multiplies several factors; all sign and size combinations of four axes matter", "anchors": ["pyGCodeDecode/junction_handling.py:junction_handling_MKA"]}
{"id": "C62", "title": "Where a print must stop", "statement": "For every firmware but marlin_jerk the last move of a program, and every travelling move before a filament-only move, ends at standstill. For every firmware a filament-only move ends at standstill. marlin_jerk instead keeps up to twice the jerk at the end of the program, and the whole feedrate if the jerk is zero.", "quantifier": "every firmware, every program", "why_tests_cant": "requires looking ahead over arbitrarily many states without motion", "anchors": ["pyGCodeDecode/junction_handling.py:junction_handling.connect_state", "pyGCodeDecode/junction_handling.py:junction_handling.get_target_vel"]}
{"id": "C63", "title": "The saved summary is consistent", "statement": "The summary that is saved has the end time of the simulation, the tight bounding box of the moves that push filament and the largest travel speed on them, lengths in the unit system of the simulation. A program that never pushes filament cannot be summarised: saving raises.", "quantifier": "every list of states, every firmware, every unit system", "why_tests_cant": "all programs; extreme values are attained at unknown places", "anchors": ["pyGCodeDecode/gcode_interpreter.py:simulation.save_summary", "pyGCodeDecode/gcode_interpreter.py:simulation.extrusion_extent", "pyGCodeDecode/gcode_interpreter.py:simulation.extrusion_max_vel"]}
{"id": "C64", "title": "Default junction handling: the print time is a closed formula", "statement": "With the default junction handling every block begins and ends at rest, and the end time is the sum over the program of the pauses and of d/v + v/a for moves that reach their feedrate and 2*sqrt(d/a) for the others. No other firmware gives a longer print.", "quantifier": "every executable list of states (positive feedrates and accelerations, no negative jerk, pauses not negative and after some move, on lines that do not move)", "why_tests_cant": "all programs; a sum over arbitrarily many moves", "anchors": ["pyGCodeDecode/planner_block.py:planner_block.move_maker2", "pyGCodeDecode/junction_handling.py:junction_handling.get_junction_vel", "pyGCodeDecode/gcode_interpreter.py:generate_planner_blocks"]}
{"id": "C65", "title": "The duration of a move is a closed formula", "statement": "The duration of every planned move is determined by its acceleration, feedrate, length, and speeds at both ends: the top speed is the feedrate or, if the move is too short, sqrt(a*d + (v0^2+v1^2)/2), and the time is the sum of both ramps and the cruise at top speed.", "quantifier": "every executable list of states (positive feedrates and accelerations, no negative jerk, pauses not negative and after some move, on lines that do not move), every firmware, every move", "why_tests_cant": "trapezoid, triangle and single ramps depend on real inequalities and on back-correction", "anchors": ["pyGCodeDecode/planner_block.py:planner_block.move_maker2"]}
{"id": "C66", "title": "A more capable machine is not slower", "statement": "If two runs of the same moves differ only in that accelerations, jerk settings and feedrates are raised (for marlin_jerk and MKA: accelerations and jerk settings), then the second print takes no longer than the first, up to the tolerance of 1e-12 mm/s that the planner leaves at each junction. It takes no longer than any motion at all that keeps to the lower limits.", "quantifier": "every firmware, every two executable lists of states with the same places and pauses (for marlin_jerk, the comparison of the two plans is for programs without filament-only moves)", "why_tests_cant": "the junction speeds interact over the whole program; all programs and all pairs of limits", "anchors": ["pyGCodeDecode/planner_block.py:planner_block.move_maker2", "pyGCodeDecode/junction_handling.py:junction_handling", "pyGCodeDecode/gcode_interpreter.py:generate_planner_blocks"]}
{"id": "C67", "title": "A plain file is read as written", "statement": "For a file of well-formed lines with G0/G1, G4, G21, G90/G91, G92 to zero, M82/M83, M203, M204 P, M205 X, comments and lines in which no command of the tool occurs (such as M104 S200), with any mix of line breaks, the states of the simulation show line by line what a printer does that starts at the place and settings of the setup and executes the lines: position, feedrate per second, acceleration, jerk and waiting time. With a layer cue, the layer of a state is the number of lines so far whose comment is the cue.", "quantifier": "every such file, every number syntax in which no number begins with an upper-case letter, every setup", "why_tests_cant": "all texts; the meaning of a line depends on everything before it", "anchors": ["pyGCodeDecode/gcode_interpreter.py:simulation.__init__", "pyGCodeDecode/state_generator.py:read_gcode_to_dict_list", "pyGCodeDecode/state_generator.py:dict_list_traveler", "pyGCodeDecode/state_generator.py:arg_extract"]}
{"id": "C68", "title": "The machine visits the places of the program in order", "statement": "There are times from 0 to the end of the print, one for each state, at which get_values gives exactly the position of that state. In between the machine goes straight from place to place without turning back; a move takes positive time, a pause exactly its length, and states that neither move nor pause take none. This holds after any earlier queries and in every unit system.", "quantifier": "every list of states that can be executed, every firmware, every time and query history", "why_tests_cant": "all programs and all real times; block-local facts have to fit together over the whole print", "anchors": ["pyGCodeDecode/gcode_interpreter.py:simulation.get_values", "pyGCodeDecode/gcode_interpreter.py:generate_planner_blocks", "pyGCodeDecode/planner_block.py:planner_block"]}
{"id": "C69", "title": "A plain file is simulated as written", "statement": "For an accepted setup and a plain file whose feedrates and accelerations are positive, jerk and waits not negative, with some movement before the first wait, the simulation is created, and get_values shows a machine that visits the places of a printer executing the lines, in order and on straight lines, from time 0 to the end of the print, waiting where and as long as the lines say.", "quantifier": "every such file and setup, every firmware name, every time, unit and query history", "why_tests_cant": "end to end from text to answers, for all texts and all times", "anchors": ["pyGCodeDecode/gcode_interpreter.py:simulation.__init__", "pyGCodeDecode/gcode_interpreter.py:simulation.get_values", "pyGCodeDecode/state_generator.py:generate_states"]}
{"id": "C70", "title": "Where and how a part is placed does not change the print", "statement": "If all positions of a program are shifted, turned or mirrored, the plan has as many blocks, the print takes exactly as long, and get_values gives for every time the same error or the correspondingly placed position with the same travel speed and flow; for a shift the same velocity.", "quantifier": "every list of states that can be executed, every rigid motion, every firmware, time, unit and query history", "why_tests_cant": "all rigid motions of all programs; a test only compares a few placements", "anchors": ["pyGCodeDecode/planner_block.py:planner_block", "pyGCodeDecode/junction_handling.py", "pyGCodeDecode/gcode_interpreter.py:simulation.get_values"]}
{"id": "C71", "title": "Cutting a straight move into pieces does not change the print time", "statement": "If a travel move is cut in two by a state on its straight line, with filament in proportion and the same feedrate, acceleration and jerk, the print takes as long as before, up to the planner's tolerance of 1e-12 mm/s per junction; so also after any number of cuts. No cut makes a print shorter.", "quantifier": "every list of states that can be executed, every cut of every travel move, any number of cuts, every firmware", "why_tests_cant": "the chain of junctions is arbitrarily long and the cut can be anywhere; a test compares a few prints", "anchors": ["pyGCodeDecode/planner_block.py:planner_block.move_maker2", "pyGCodeDecode/planner_block.py:planner_block.self_correction", "pyGCodeDecode/junction_handling.py:junction_handling.calc_vel_next"]}
{"id": "C72", "title": "The print time is consistent with units", "statement": "If all positions are multiplied by k > 0 and all times by 1/r (feedrates and jerks by k r, accelerations by k r^2, pauses by 1/r), the print takes 1/r of the time, up to the planner's tolerance of 1e-12 units/s per junction. In particular a program expressed in inches with all settings in inches takes the same time.", "quantifier": "every list of states that can be executed, every k, r > 0, every firmware (marlin_jerk: every move travels)", "why_tests_cant": "scaling factors and programs are unbounded; a test compares a few prints", "anchors": ["pyGCodeDecode/planner_block.py:planner_block.move_maker2", "pyGCodeDecode/planner_block.py:planner_block.self_correction", "pyGCodeDecode/junction_handling.py:junction_handling.calc_vel_next"]}
{"id": "C73", "title": "The plot command writes exactly its documented outputs, in the right place, or nothing", "statement": "pygcd plot writes and shows nothing unless the input is resolved and the simulation is complete. If the user answers no to the question for an output directory, nothing is written. Whatever is written is the given (or agreed) output directory or a file in it named after the G-code file. With an output directory, a print that pushes filament gives the summary, the layer metrics if and only if a layer cue is known, the VTK file and, if there is a display, the screenshot and the window, each once, with the print time of the simulation in the summary and a non-empty picture; the only other outcomes are a ValueError for a print without extrusion and a locale.Error after the summary where en_US.utf8 is missing and a layer cue is known.", "quantifier": "all files, presets, arguments and answers; the outcome for every simulation whose states can be executed", "why_tests_cant": "combinations of file system, answers, presets and programs are unbounded", "anchors": ["pyGCodeDecode/cli.py:_plot", "pyGCodeDecode/gcode_interpreter.py:simulation.save_summary", "pyGCodeDecode/gcode_interpreter.py:simulation.plot_3d", "pyGCodeDecode/tools.py:save_layer_metrics"]}
{"id": "C74", "title": "Print jobs one after the other take as long as on their own", "statement": "If a program consists of several programs, each beginning where the one before ends, with a pause (G4) between any two, it takes as long as the programs on their own and the pauses together, up to the planner's tolerance of 1e-12 mm/s per junction. If a program is appended without a pause, both take at most as long as on their own. Waiting never makes the parts longer, with any firmware.", "quantifier": "every number of programs that can be executed, every pause, every firmware but marlin_jerk (which ends a program at speed, C18; there the pause only makes the print longer)", "why_tests_cant": "programs and queues are unbounded; a test compares a few prints", "anchors": ["pyGCodeDecode/planner_block.py:planner_block.__init__", "pyGCodeDecode/planner_block.py:planner_block.self_correction", "pyGCodeDecode/junction_handling.py:junction_handling.calc_vel_next"]}
{"id": "C75", "title": "The 2D plot shows exactly where the motion goes", "statement": "plot_2d_position with the default colour variable draws a connected line; a point is on it if and only if the motion passes over it in the XY plane. The colour of each piece is the speed at its begin: never above the true speed (up to the planner's tolerance of 1e-12 mm/s) and below it by at most a quarter of the speed change in that segment; a piece whose ends differ in colour is not longer than the spatial resolution. With any other colour variable the lines are the segments themselves, and markers are the ends of the blocks.", "quantifier": "every list of states that can be executed and moves, every firmware, every positive resolution", "why_tests_cant": "programs and resolutions are unbounded; pictures are compared by eye at best", "anchors": ["pyGCodeDecode/gcode_interpreter.py:simulation.plot_2d_position"]}
{"id": "C76", "title": "The velocity plot shows the true motion", "statement": "plot_vel with its default time steps always succeeds on known, different axes. Its speed curve has a point at every time of the print and lies within the planner's tolerance of 1e-12 mm/s of every speed reported at that time. Each position curve is exact at the ends of segments and elsewhere within an eighth of the velocity change times the duration of the segment. Each axis velocity curve is the true velocity of the axis inside every segment. Vertical lines stand at the ends of blocks and segments; crosses are never below the speed with which a block ends and never above its feedrate. A number of time steps samples at i*T/n. Other arguments raise ValueError or KeyError.", "quantifier": "every list of states that can be executed and moves, every firmware, every choice of axes, marks and steps", "why_tests_cant": "programs and times are unbounded; the plot is only ever looked at", "anchors": ["pyGCodeDecode/gcode_interpreter.py:simulation.plot_vel", "pyGCodeDecode/gcode_interpreter.py:find_current_segment"]}
{"id": "C77", "title": "The vector classes check their arguments, and the planner never trips over it", "statement": "vector_4D, velocity and position can be built from exactly four numbers or one sequence of four. + and - accept a sequence of four numbers, an instance of the left operand's class, or any instance if that is vector_4D, and give the component-wise result in the class of the left operand; everything else is a ValueError. * accepts float, numpy.float64 and int, / only float and numpy.float64; everything else is a TypeError. == holds exactly between instances of one class (or with four numbers) whose coordinates agree up to the tolerance. A segment needs both ends. Segments of the planner always hold positions and velocities where they should, so no class check ever fails while moves, dwells and initial segments are planned, segments are queried, and continuity is checked.", "quantifier": "all vectors, all operands, all number types, all segments and plans", "why_tests_cant": "classes, operand types and coordinates combine without bound", "anchors": ["pyGCodeDecode/utils.py:vector_4D", "pyGCodeDecode/utils.py:segment", "pyGCodeDecode/planner_block.py:planner_block.move_maker2"]}
{"id": "C78", "title": "Planning never warns about machine limits", "statement": "While simulation corrects the trajectory of an executable program, every block is checked against the settings of its state at least once and no check fails: the message that a segment does not adhere to machine limits is never printed, at no intermediate stage of the correction. A check passes exactly if the segment ends where its velocities lead (up to 1e-6), time does not run backwards and neither end is faster than the feedrate (up to the tolerance of numpy.isclose); the limits of the axes are not looked at.", "quantifier": "every list of states that can be executed, every firmware, every stage of the correction", "why_tests_cant": "programs are unbounded and the message is only printed, never returned", "anchors": ["pyGCodeDecode/planner_block.py:planner_block.self_correction", "pyGCodeDecode/utils.py:segment.self_check"]}
{"id": "C79", "title": "When write_submodel_times returns", "statement": "For every executable program and every box, write_submodel_times raises a ValueError exactly if some move that is not wholly inside the box starts from rest on a face of the box which it crosses by more than 1e-6 mm; otherwise it raises an IndexError exactly if no move (that is not wholly inside) meets the surface of the box; otherwise it returns.", "quantifier": "every executable list of states, every firmware, every box", "why_tests_cant": "programs and boxes are unbounded, and the failures depend on exact coincidence of coordinates", "anchors": ["pyGCodeDecode/tools.py:write_submodel_times", "pyGCodeDecode/planner_block.py:planner_block.inverse_time_at_pos", "pyGCodeDecode/utils.py:segment._interpolate_time_to_space"]}
{"id": "C80", "title": "The entry and exit times of a submodel say when the nozzle enters and leaves", "statement": "At every time in time_in (time_out) returned by write_submodel_times the simulated nozzle is on the surface of the box, and before (after) this time it is outside the box during this move. Every move that starts outside and gets inside the box has an entry time not later than any time at which it is inside, and every move that ends outside after having been inside has an exit time, if the crossed extent is more than 1e-6 mm. n_filaments is the number of moves that enter, if no move enters through an edge or a corner.", "quantifier": "every executable list of states, every firmware, every box", "why_tests_cant": "programs and boxes are unbounded", "anchors": ["pyGCodeDecode/tools.py:write_submodel_times", "pyGCodeDecode/planner_block.py:planner_block.inverse_time_at_pos"]}
{"id": "C81", "title": "Queries answer from the current trajectory in every life of a simulation object", "statement": "After any sequence of get_values, get_width and refresh calls on a simulation, and any calls on the setup object it was made from, get_values(t) for 0 <= t < end answers with the velocity and position that a segment of the current block list containing t reports, in the wanted unit system, and get_width(t) with width*height*speed = filament cross-section*extrusion rate there; behind the end both raise AttributeError, before the start TypeError. Two histories that do not change the firmware and end with the same states give equal positions, and equal velocities and widths unless t is exactly a segment boundary.", "quantifier": "every setup, every G-code with executable states, every history of calls, every t, unit system, layer height and filament diameter", "why_tests_cant": "histories of calls are unbounded; the object remembers a search index and shares a dictionary with the setup", "anchors": ["pyGCodeDecode/gcode_interpreter.py:simulation.get_values", "pyGCodeDecode/gcode_interpreter.py:simulation.get_width", "pyGCodeDecode/gcode_interpreter.py:simulation.refresh", "pyGCodeDecode/gcode_interpreter.py:find_current_segment"]}
{"id": "C82", "title": "When a simulation object can be asked for its end time", "statement": "As long as refresh is not called, get_values(end) returns the final position exactly if some earlier get_values or get_width call asked for a time t with 0 <= t < end and no later one asked for a time behind the end; otherwise it raises TypeError.", "quantifier": "every setup, every G-code with executable states, every history of queries and setup calls", "why_tests_cant": "histories of calls are unbounded", "anchors": ["pyGCodeDecode/gcode_interpreter.py:find_current_segment", "pyGCodeDecode/gcode_interpreter.py:simulation.get_values"]}
{"id": "C83", "title": "In double precision, planning an executable program does not raise", "statement": "For every executable list of states of ordinary size (coordinates up to 100 m, moves of at least a nanometre, at most a million states) whose numbers are doubles, generate_planner_blocks and trajectory_self_correct, calculated with doubles, return blocks and raise nothing.", "quantifier": "every firmware, every list of states of doubles", "why_tests_cant": "whether a rounding error turns into an exception depends on the last bits of the coordinates; programs are unbounded", "anchors": ["pyGCodeDecode/planner_block.py:planner_block.move_maker2", "pyGCodeDecode/planner_block.py:planner_block.self_correction", "pyGCodeDecode/gcode_interpreter.py:generate_planner_blocks"]}
{"id": "C84", "title": "In double precision, the blocks end where and when they should", "statement": "If planning succeeds with doubles, the block list has as many blocks as the one calculated without rounding from the same states, and every block ends within 0.01 mm (also of filament) of the position and within 0.01 s of the time at which it ends without rounding.", "quantifier": "every firmware, every executable list of states of doubles", "why_tests_cant": "rounding errors add up over an unbounded number of blocks and are amplified by branches", "anchors": ["pyGCodeDecode/planner_block.py:planner_block.move_maker2", "pyGCodeDecode/utils.py:segment.self_check", "pyGCodeDecode/gcode_interpreter.py:simulation.trajectory_self_correct"]}
{"id": "C85", "title": "The end time of a file does not depend on rounding", "statement": "The end time of the simulation of a G-code file, calculated with doubles from the numbers in the file and in the setup, is within 0.01 s of the end time that the same calculation gives without rounding.", "quantifier": "every file, every setup, every reading of numerals as rational numbers, provided that the exact states are executable", "why_tests_cant": "files are unbounded, and the deviation is caused by residues like 0.1 + 0.2 - 0.3", "anchors": ["pyGCodeDecode/state_generator.py:dict_list_traveler", "pyGCodeDecode/gcode_interpreter.py:simulation.__init__", "pyGCodeDecode/planner_block.py:planner_block.move_maker2"]}
{"id": "C86", "title": "Exactly which programs can be planned", "statement": "For states with non-negative feedrates, positive accelerations and non-negative jerk, constructing the block list succeeds if and only if every pause is not negative and comes after some move with positive feedrate that is not on a line with a pause. Otherwise the first offending pause raises: an AttributeError if no such move precedes it, a ValueError if it is negative. No other exception is possible.", "quantifier": "every firmware, every list of states with such settings; positions, pauses and the place of pauses are arbitrary", "why_tests_cant": "all programs that tests contain are regular; the claim covers feedrate zero and lines that move and pause, anywhere in a program of any length", "anchors": ["pyGCodeDecode/planner_block.py:planner_block.__init__", "pyGCodeDecode/planner_block.py:planner_block.self_correction", "pyGCodeDecode/gcode_interpreter.py:simulation.trajectory_self_correct"]}
{"id": "C87", "title": "What the machine makes of moves with feedrate zero and of lines that move and pause", "statement": "The blocks carry out, in order, exactly the moves with positive feedrate on lines without a pause, and the pauses. Each move begins where the machine is and covers the displacement that the program asks for; a line with a pause only pauses. The motion has no gaps, starts at rest and ends at rest (except with marlin_jerk). It ends at the last position of the program less the displacements of all moves that were not carried out after the first one that was. With default junction handling the print time is the sum of the closed formulas over what is carried out.", "quantifier": "every firmware, every list of states that can be planned, with non-negative feedrates, positive accelerations and non-negative jerk", "why_tests_cant": "the displacement accumulates over the whole program and the plan after a lost move is made with positions at which the machine is not", "anchors": ["pyGCodeDecode/planner_block.py:planner_block.__init__", "pyGCodeDecode/planner_block.py:planner_block.move_maker2", "pyGCodeDecode/junction_handling.py:junction_handling.calc_vel_next"]}
{"id": "C88", "title": "Exactly which plain files can be simulated", "statement": "For an accepted setup and a plain file with non-negative feedrates, positive accelerations and non-negative jerk, the simulation is created if and only if some line changes the place of the printer at a feedrate that is not zero, and every wait is not negative and comes after such a line. Otherwise the first wait that comes too early raises an AttributeError, the first negative one after that a ValueError, and a file in which nothing moves raises an IndexError. For states in general the same holds with the moves that are carried out.", "quantifier": "every such file, setup and firmware name; every list of states with such settings", "why_tests_cant": "an equivalence over all texts", "anchors": ["pyGCodeDecode/gcode_interpreter.py:simulation.__init__", "pyGCodeDecode/gcode_interpreter.py:simulation.print_summary", "pyGCodeDecode/planner_block.py:planner_block.__init__", "pyGCodeDecode/state_generator.py:generate_states"]}
{"id": "C89", "title": "Following a path backwards takes equally long", "statement": "If two programs follow the same path in opposite directions (positions and jerks belong to the points, feedrates, accelerations and pauses to the steps between them), their print times are equal up to the tolerance of 1e-12 mm/s that the planner leaves at each junction.", "quantifier": "every firmware, all regular programs whose jerk does not change while the printer stays where it is", "why_tests_cant": "compares two runs of the whole planner on different inputs of any length", "anchors": ["pyGCodeDecode/planner_block.py:planner_block.move_maker2", "pyGCodeDecode/planner_block.py:planner_block.self_correction", "pyGCodeDecode/junction_handling.py:junction_handling_marlin_jd", "pyGCodeDecode/junction_handling.py:junction_handling_klipper", "pyGCodeDecode/junction_handling.py:junction_handling_MKA", "pyGCodeDecode/junction_handling.py:junction_handling_marlin_jerk"]}
{"id": "C90", "title": "The progress bar is honest", "statement": "A loop over n items that calls update_progress((i + 1) / n, name) after each item writes bars of ten characters; each one shows the number of filled characters and the percentage (one decimal) nearest to the work done, no percentage is shown twice before the end, at most 1002 bars are written, the percentage on display is right after each item, and 'Done...' is written after the last item and only there. Arguments that are no floats are reported as errors at 0 %.", "quantifier": "all loop lengths n > 0, every value of the module global left behind by earlier bars, every name", "why_tests_cant": "the global couples the bars of all loops; which items write depends on n, last and rounding", "anchors": ["pyGCodeDecode/gcode_interpreter.py:update_progress", "pyGCodeDecode/gcode_interpreter.py:generate_planner_blocks"]}
{"id": "C91", "title": "The progress bar of the block correction announces its end", "statement": "trajectory_self_correct shows an honest progress bar over its blocks that ends with 'Done...' after the last block.", "quantifier": "all numbers of blocks, every value of the module global", "why_tests_cant": "whether the end is announced depends on the number of blocks; it works for small prints and for some large ones", "anchors": ["pyGCodeDecode/gcode_interpreter.py:simulation.trajectory_self_correct", "pyGCodeDecode/gcode_interpreter.py:update_progress"]}
{"id": "C92", "title": "Console texts survive ABAQUS", "statement": "custom_print prints its texts unchanged outside ABAQUS; inside it prints each text without exactly its characters beyond ASCII, in the same order, and leaves ASCII texts as they are.", "quantifier": "all texts", "why_tests_cant": "all characters in all positions", "anchors": ["pyGCodeDecode/helpers.py:custom_print"]}
{"id": "C93", "title": "Values, samples and event series are right for every program that can be planned", "statement": "For every program that can be planned, including those with moves of feedrate zero and lines that both move and pause: get_values answers at every time from start to end with what a segment containing that time reports, independently of earlier questions; the end is the last programmed place less the lost displacements; the velocity is the derivative of the position; sampling at any times within the print succeeds; the ABAQUS event series lists the ends of all segments.", "quantifier": "all programs with sensible settings that can be planned, all firmwares, times, query histories, unit systems and tolerances", "why_tests_cant": "all programs and all real times", "anchors": ["pyGCodeDecode/gcode_interpreter.py:simulation.get_values", "pyGCodeDecode/utils.py:segment.get_position", "pyGCodeDecode/abaqus_file_generator.py:generate_abaqus_event_series", "pyGCodeDecode/planner_block.py:planner_block.__init__"]}
{"id": "C94", "title": "Extent and maximum speed of the extrusion describe the simulated motion of every plannable program", "statement": "For every program that can be planned, extrusion_extent encloses every simulated position at which filament is pushed, and extrusion_max_vel bounds the travel speed of every step that extrudes and is attained.", "quantifier": "all programs with sensible settings that can be planned, all firmwares and unit systems", "why_tests_cant": "it needs a program in which the machine is not where the program says", "anchors": ["pyGCodeDecode/gcode_interpreter.py:simulation.extrusion_extent", "pyGCodeDecode/gcode_interpreter.py:simulation.extrusion_max_vel"]}
{"id": "C95", "title": "Reading a file with doubles loses nothing as long as it never returns to absolute coordinates", "statement": "The states that are read from a plain G-code file with double precision are those that are read without rounding, up to this: settings and waits have a relative error of at most 1e-15, every move is right up to 1e-11 mm in every coordinate independently of the length of the file, a coordinate that should rest does rest exactly, and the n-th position is right up to n * 1e-11 mm. Neither reading raises.", "quantifier": "every plain file of less than a million lines with no G90 after G91 and no M82 after M83, every reading of numerals as rational numbers, every setup with numeric entries, provided that no coordinate leaves 10 m", "why_tests_cant": "rounding errors depend on all digits of all numbers before; a bound for every file needs an induction over the lines", "anchors": ["pyGCodeDecode/state_generator.py:dict_list_traveler", "pyGCodeDecode/state_generator.py:read_gcode_to_dict_list", "pyGCodeDecode/state_generator.py:generate_states"]}
{"id": "C96", "title": "The files with event series and layer metrics can be read back", "statement": "The file that generate_abaqus_event_series writes has one line per returned row, in order, with five cells between commas: times and flags are read back exactly, coordinates up to the eighth decimal place. The file that save_layer_metrics writes has the four headings and one line per returned row with four cells between the delimiters, from which the row is read back. If an error is raised, or there is no layer cue or no path, no such file is written.", "quantifier": "all block lists, unit systems, tolerances and delimiters that are no letter, digit, blank, slash or line break; every text format of numbers that can be read back; both rounding functions of Python and numpy", "why_tests_cant": "all numbers and all numbers of rows", "anchors": ["pyGCodeDecode/abaqus_file_generator.py:generate_abaqus_event_series", "pyGCodeDecode/tools.py:save_layer_metrics"]}
{"id": "C97", "title": "Extra entries never hide the submodel times", "statement": "The dictionary that write_submodel_times returns and dumps has the results under time_process, n_filaments, time_in and time_out whatever keyword arguments the caller adds; all other keyword arguments are kept and nothing else is added.", "quantifier": "all keyword arguments, boxes and simulations", "why_tests_cant": "all names of keyword arguments", "anchors": ["pyGCodeDecode/tools.py:write_submodel_times"]}
{"id": "C98", "title": "With default junction handling the whole motion is given by closed formulas", "statement": "With the firmware setting without junction handling, what get_values reports at any time is exactly the position and velocity of closed formulas: find the action at that time by adding up the durations of the moves and pauses; a pause stays where it is; a move covers min(v, sqrt(a d)) as top speed, accelerates and brakes with a and follows the straight line, with E in proportion. At every time from the start to before the end there is such an answer, in every unit system and whatever was asked before.", "quantifier": "all state lists with positive feedrates and accelerations, all times, unit systems and query histories", "why_tests_cant": "all programs and all real times", "anchors": ["pyGCodeDecode/gcode_interpreter.py:get_values", "pyGCodeDecode/planner_block.py:planner_block.move_maker2", "pyGCodeDecode/utils.py:get_position"]}
{"id": "C99", "title": "Queries with double precision", "statement": "With the firmware setting without junction handling and the doubles that Python computes with, every time from the start to before the end can be asked and the reported position is near the one computed without rounding.", "quantifier": "all programs with moderate numbers (coordinates to 100 m, speeds to 1 m/s, moves of at least a nanometre, a million states, 4.6 days) and all times", "why_tests_cant": "all programs and all doubles; the failure needs a move exactly as long as its two ramps", "anchors": ["pyGCodeDecode/gcode_interpreter.py:get_values", "pyGCodeDecode/gcode_interpreter.py:find_current_segment", "pyGCodeDecode/planner_block.py:trapezoid"]}
{"id": "C100", "title": "Junction speeds and print time are closed formulas for every firmware", "statement": "Whatever the firmware setting, the travel speed at which the planned motion passes junction i is the minimum over all junctions j of sqrt(w_j^2 + sum of 2 a d over the moves between i and j), where w_j is what the firmware rule and the next feedrate allow at j alone, zero at the begin of the program, at pauses and at moves of the filament alone. Each block lasts as long as the closed formula for the fastest move with these end speeds says, and the print time is the sum. Both hold up to the planner's tolerance of 1e-12 mm/s per junction.", "quantifier": "all state lists with positive feedrates and accelerations, all firmware settings (durations with marlin_jerk: all moves travel)", "why_tests_cant": "all programs of any length; the planner reaches the values by repeated passes over the list", "anchors": ["pyGCodeDecode/gcode_interpreter.py:generate_planner_blocks", "pyGCodeDecode/planner_block.py:planner_block.move_maker2", "pyGCodeDecode/planner_block.py:self_correction", "pyGCodeDecode/junction_handling.py"]}
{"id": "C101", "title": "The printers that come with the package are accepted and simulated as their table says", "statement": "simulation(gcode, machine_name=n) with one of the four names in data/default_printer_presets.yaml is accepted. It starts at the origin with absolute coordinates, with the feedrate, acceleration and jerk of the table, without layer detection, and with the junction handling of the printer's firmware (an empty firmware entry means the default). Every plain file is then simulated as written. Any other name raises a ValueError. The setup of the benchy example is the printer prusa_mini with the layer cue LAYER_CHANGE.", "quantifier": "all four shipped names and all other strings, all output units, all plain files with something to do", "why_tests_cant": "all files, and all names that are not shipped", "anchors": ["pyGCodeDecode/data/default_printer_presets.yaml", "pyGCodeDecode/examples/benchy.py", "pyGCodeDecode/gcode_interpreter.py:simulation.__init__", "pyGCodeDecode/gcode_interpreter.py:setup.__init__", "pyGCodeDecode/gcode_interpreter.py:setup.select_printer"]}
{"id": "C102", "title": "The printed title of a block tells its shape", "statement": "str() and repr() of a planned block are a title in the middle of 40 characters. \"Trapezoid\" means accelerating, cruising and braking, \"Triangular\" means accelerating and braking, \"Singular\" means one phase; a planned block is never called \"Invalid\".", "quantifier": "all regular programs, all firmwares, all blocks", "why_tests_cant": "all programs and junction speeds", "anchors": ["pyGCodeDecode/planner_block.py:planner_block.__str__", "pyGCodeDecode/planner_block.py:planner_block.__repr__", "pyGCodeDecode/planner_block.py:planner_block.move_maker2"]}
{"id": "C103", "title": "The summary on the console tells the true numbers", "statement": "At the end of a simulation the summary shows the name of the file, the number of states read, the number of blocks planned, and the end time to two places, each as a number that can be read from the text. Printing it changes neither the result nor the exceptions. In double precision, for plain files with default junction handling that never return to absolute coordinates, the numbers of states and blocks are those of exact arithmetic (one state per line and one for the begin) and the time shown is within 0.015 s of the exact one.", "quantifier": "all files, all setups, all firmwares; for the second part all plain files with default junction handling", "why_tests_cant": "all files; comparison with exact arithmetic", "anchors": ["pyGCodeDecode/gcode_interpreter.py:simulation.print_summary", "pyGCodeDecode/gcode_interpreter.py:simulation.__init__"]}
{"id": "C104", "title": "The texts of vectors, states and segments show what they are about", "statement": "The text of a vector is read as its four coordinates; positions and velocities are labelled. The text of a state shows the line number, the layer if there is one, the position, the settings, the comment and the pause. Printing a planned segment does not raise and shows the positions of both ends.", "quantifier": "all vectors, states and segments of planned programs, all faithful number formats", "why_tests_cant": "all values", "anchors": ["pyGCodeDecode/utils.py:vector_4D.__str__", "pyGCodeDecode/utils.py:position.__str__", "pyGCodeDecode/utils.py:velocity.__str__", "pyGCodeDecode/utils.py:segment.__str__", "pyGCodeDecode/state.py:state.__str__"]}
{"id": "C105", "title": "find_current_segment answers for every time, also in gaps", "statement": "On a list of segments in the order of time, find_current_segment(path, t, last_index, keep_position=True) answers for every t from the begin of the first segment to the end of the last one, whatever last_index is: with a segment of the list that contains t, or, if t lies in a gap, with a segment that rests where the previous one ends for as long as the gap lasts. Without keep_position exactly the times in a segment have an answer.", "quantifier": "all lists of segments in order (with gaps and empty segments), all times, all hints", "why_tests_cant": "all lists, times and hints", "anchors": ["pyGCodeDecode/gcode_interpreter.py:find_current_segment"]}
{"id": "C106", "title": "segment.calc_results stores the velocity error", "statement": "calc_results(v_target) on a segment of the simulation stores the speeds at both ends, their relative errors, and the relative velocity error integrated along the way; get_result returns two values for each, and a ValueError for unknown keys.", "quantifier": "all segments of all planned programs, all target speeds", "why_tests_cant": "an integral over all times; all programs", "anchors": ["pyGCodeDecode/utils.py:segment.calc_results", "pyGCodeDecode/utils.py:segment.get_result", "pyGCodeDecode/utils.py:segment.__init__"]}
{"id": "C107", "title": "Blocks are linked in the order of the block list", "statement": "After a simulation, blocklist[i].prev_block is blocklist[i-1] and blocklist[i].next_block is blocklist[i+1], the first block has no previous and the last no next block, no block object occurs twice, and the objects hold the planned blocks: whatever references the correction followed and whatever it replaced on its way back.", "quantifier": "all lists of states, all firmwares, all arithmetics (real or floating point)", "why_tests_cant": "an invariant of mutable object references over all executions", "anchors": ["pyGCodeDecode/gcode_interpreter.py:generate_planner_blocks", "pyGCodeDecode/planner_block.py:planner_block.__init__", "pyGCodeDecode/planner_block.py:planner_block.self_correction", "pyGCodeDecode/gcode_interpreter.py:simulation.trajectory_self_correct"]}
{"id": "C108", "title": "The correction does not exhaust the call stack", "statement": "There is a number of nested calls that suffices for the correction of every executable program, so that Python's recursion limit is never exceeded.", "quantifier": "all executable programs, all firmwares, all recursion limits", "why_tests_cant": "depth of recursion over unbounded programs", "anchors": ["pyGCodeDecode/planner_block.py:planner_block.self_correction", "pyGCodeDecode/gcode_interpreter.py:simulation.trajectory_self_correct"]}
{"id": "C109", "title": "In double precision, whatever the firmware, the blocks of a planned program are where they should be", "statement": "For every executable list of states of usual size (coordinates up to 100 m, at most a million states, moves of at least a nanometre, ramps of at most 10 m, at most 100 mm of filament per mm of travel) whose planning with doubles succeeds, the block list has one block for every move and pause, the n-th block (from 0) begins within n*1e-8 mm of the position of its first state and ends within (n+1)*1e-8 mm of the position of its last state in every coordinate and the filament, consecutive segments of a block join exactly, and consecutive blocks up to 2*(n+1)*1e-8 mm; without rounding the blocks are the same and end at the same places up to (n+1)*1e-8 mm.", "quantifier": "every firmware, every list of states of doubles of usual size", "why_tests_cant": "rounding errors add up over an unbounded number of blocks, and the correction replans blocks in an order that depends on the last bits", "anchors": ["pyGCodeDecode/planner_block.py:planner_block.move_maker2", "pyGCodeDecode/planner_block.py:planner_block.self_correction", "pyGCodeDecode/gcode_interpreter.py:generate_planner_blocks", "pyGCodeDecode/gcode_interpreter.py:simulation.trajectory_self_correct"]}
{"id": "C110", "title": "In double precision, whatever the firmware, time runs forward and feedrates are kept", "statement": "For every executable list of states of usual size (as in C109) whose planning with doubles succeeds: no segment ends before it begins and none begins before the previous segment of its block ends; the squared speed of the nozzle at both ends of every segment, and of the filament where the nozzle rests, is at most 1.0001*F^2 + 3e-8*(a+1) for the feedrate F and acceleration a of the move. If the program is also brief (feedrates of at least 1e-6 mm/s, and at most 400000 s counting for every move three ramps and twice the travel at feedrate), no block begins more than a nanosecond before the previous block ends, and the n-th block (from 0) ends at the latest at the sum of the time allowances of the first n+1 moves and pauses plus (n+1)*2e-8 s. Without a tolerance the feedrate claim is false: rounding lets the nozzle move faster than the feedrate.", "quantifier": "every firmware, every list of states of doubles of usual size", "why_tests_cant": "the correction replans blocks and shifts all the later ones, with a rounding error each time, over an unbounded number of blocks", "anchors": ["pyGCodeDecode/planner_block.py:planner_block.move_maker2", "pyGCodeDecode/planner_block.py:planner_block.self_correction", "pyGCodeDecode/planner_block.py:planner_block.timeshift", "pyGCodeDecode/utils.py:segment", "pyGCodeDecode/gcode_interpreter.py:simulation.trajectory_self_correct"]}
{"id": "C111", "title": "The command line of pygcd plot is read as documented", "statement": "For any list of options of pygcd plot, each given by its documented long or short name with a value joined by = or as the next word (which then does not begin with a dash), in any order and any number of times: the plot command runs with exactly the value given last for each option and None for the others; the order of options given at most once does not matter; a further word without a dash that is no value is refused with a usage error.", "quantifier": "every list of options and values, every stray word", "why_tests_cant": "any number of options in any order with arbitrary words as values", "anchors": ["pyGCodeDecode/cli.py:_main"]}
{"id": "C112", "title": "pygcd runs nothing else, and never ignores a mistyped option", "statement": "For every list of words: the help is printed without an error exactly for the empty line; an example runs exactly for run_example with brace or benchy (and possibly one -- before or after it); the plot command runs only if the first word is plot, and each of its arguments is then one of the other words or the end of one; if some word after plot begins with a dash but is no option (not the beginning of a long name up to a first =, not a short name) then nothing runs and nothing is written or shown.", "quantifier": "every command line", "why_tests_cant": "quantifies over all command lines", "anchors": ["pyGCodeDecode/cli.py:_main"]}
{"id": "C113", "title": "Values in the same word as a short option, abbreviations", "statement": "A short option with its value in the same word means the same as in two words. (False: -pnNAME is read as -p nNAME, so the name of the printer becomes the name of a presets file, and -lcCUE is refused. It holds for -g, -o and, unless the value begins with n, -p.) Long names may be abbreviated exactly as long as only one name begins so, --p and --pr are refused, -l is -lc, and a final -g without a value takes back the file given before.", "quantifier": "every value, every documented line before and after it", "why_tests_cant": "arbitrary values, which may themselves look like names of options", "anchors": ["pyGCodeDecode/cli.py:_main"]}
{"id": "C114", "title": "In double precision, whatever the firmware, every answer is on the programmed path", "statement": "Whenever planning an executable program of usual size (see C109, C110; feedrates up to 100 m/s, accelerations up to 1000 km/s^2) succeeds in double precision, with whatever junction handling, every answer of get_values in millimetres, at whatever time and with whatever history of queries, is about a move or pause number n of the program that is under way at this time: the position is within n*1e-8 + 2e-7 mm (and the way of two nanoseconds at the feedrate) of a point of the straight way of this move, the filament is in the same proportion within a hundred times that, and the velocity points along the way, with a speed that keeps the feedrate up to the tolerances of C110. A query without a history from the begin to before the end of the path that is not answered is at a time between two segments of the path, of which the second begins where the first ends.", "quantifier": "every executable program of usual size, every junction handling, every time and history of queries", "why_tests_cant": "rounding errors of all programs, times and firmwares", "anchors": ["pyGCodeDecode/gcode_interpreter.py:simulation.get_values", "pyGCodeDecode/gcode_interpreter.py:find_current_segment", "pyGCodeDecode/planner_block.py:planner_block.move_maker2", "pyGCodeDecode/utils.py:segment.get_position", "pyGCodeDecode/utils.py:segment.get_velocity"]}
{"id": "C115", "title": "The examples do what they announce", "statement": "pygcd run_example brace simulates brace.gcode of the package with the shipped anisoprint_a4, shows the extrusion in one window if there is a display, and never writes anything. pygcd run_example benchy simulates benchy.gcode with the shipped prusa_mini from the origin, with layers counted at LAYER_CHANGE; in every world it touches only output_benchy_example in the working directory and the five announced files in it. If the simulation fails or nothing is extruded, it ends with that error and has not even made the directory. For a plain file with sensible settings that pushes filament, all five announced files are saved exactly if there is a display and the locale en_US.utf8, and the example ends normally exactly with this locale; the summary and the event series agree on the end time. With the Git LFS pointers that the repository contains, and with every text in which no command can begin, both examples end with an IndexError and have no effect.", "quantifier": "every environment, every content of the files", "why_tests_cant": "quantifies over all contents of the G-code files, displays and locales", "anchors": ["pyGCodeDecode/examples/brace.py:brace_example", "pyGCodeDecode/examples/benchy.py:benchy_example", "pyGCodeDecode/cli.py:_run_example"]}
{"id": "C116", "title": "Summary and layer metrics of unusual programs", "statement": "For every program with sensible settings that can be planned (feedrates may be zero, a line may both move and pause): there is a summary exactly if a step that is carried out extrudes; it has the end time of the path, its box encloses the programmed ends of the extruding steps and is the smallest that does, its speed bounds all travel speeds of these steps and is attained. If the last step does not travel, the travel distances of the layer metrics add up to the distance that the machine travels. (The last is false: a line that moves and pauses does not move the machine, but its move is counted; the exact law is the sum of the programmed distances.)", "quantifier": "every program with sensible settings, every junction handling, every output unit", "why_tests_cant": "all programs", "anchors": ["pyGCodeDecode/gcode_interpreter.py:simulation.save_summary", "pyGCodeDecode/gcode_interpreter.py:simulation.extrusion_extent", "pyGCodeDecode/tools.py:save_layer_metrics"]}
{"id": "C117", "title": "Times without a segment are short in double precision", "statement": "With every firmware setting and the doubles that Python computes with, every segment of the path begins when the one before it ends: at most a nanosecond earlier and at most 2.5e-5/sqrt(a) + 1e-9/F + 2e-9 seconds later, with the feedrate F and the acceleration a of its move in mm and s; so does the first one after the start. A query without a history from the begin of the path to before its end raises nothing but TypeError, and this one only in such a gap.", "quantifier": "all programs of usual size (coordinates to 100 m, moves of at least a nanometre, ramps to 10 m, a million states, 4.6 days) that can be planned, every firmware, all times", "why_tests_cant": "all programs and all doubles; gaps need a ramp or a way at constant speed too short for the coordinates", "anchors": ["pyGCodeDecode/planner_block.py:trapezoid", "pyGCodeDecode/planner_block.py:triang", "pyGCodeDecode/planner_block.py:timeshift", "pyGCodeDecode/gcode_interpreter.py:find_current_segment"]}
{"id": "C118", "title": "The planned motion is the fastest one, also for unusual programs", "statement": "For every program with sensible settings that can be planned (feedrates may be zero, a line may both move and pause): whatever motion does the steps that the machine carries out, from rest and within the same feedrates, accelerations and junction speeds, takes at least as long as the plan. Each planned move accelerates fully, cruises at its feedrate and brakes fully, is itself such a motion, ends no faster than its junction allows, takes as long as the closed formula says and reaches its feedrate if it is long enough. With unknown firmware every block begins and ends at rest, and no firmware is slower.", "quantifier": "every program with sensible settings (feedrates and jerk not negative, positive accelerations) that can be planned, every firmware, every competing motion", "why_tests_cant": "quantifies over all competing motions and all programs", "anchors": ["pyGCodeDecode/planner_block.py:planner_block.self_correction", "pyGCodeDecode/planner_block.py:planner_block.move_maker2", "pyGCodeDecode/junction_handling.py:junction_handling", "pyGCodeDecode/gcode_interpreter.py:generate_planner_blocks"]}
{"id": "C119", "title": "Junction speeds and print time are closed formulas, also for unusual programs", "statement": "For every program with sensible settings that can be planned (feedrates may be zero, a line may both move and pause): the travel speed at which the planned motion passes each junction between the steps that the machine carries out is the closed formula of C100 for these steps, each block lasts as long as the closed formula for its step says, and the print time is the sum. All hold up to the planner's tolerance of 1e-12 mm/s per junction.", "quantifier": "every program with sensible settings (feedrates and jerk not negative, positive accelerations) that can be planned, every firmware (durations with marlin_jerk: all moves that are carried out travel)", "why_tests_cant": "all programs of any length; the planner reaches the values by repeated passes over the list", "anchors": ["pyGCodeDecode/gcode_interpreter.py:generate_planner_blocks", "pyGCodeDecode/planner_block.py:planner_block.move_maker2", "pyGCodeDecode/planner_block.py:planner_block.self_correction", "pyGCodeDecode/junction_handling.py:junction_handling"]}
{"id": "C120", "title": "The plots of unusual programs show the motion of the machine", "statement": "For every program with sensible settings that can be planned and makes the machine do something (feedrates may be zero, a line may both move and pause): plot_2d_position draws only points the motion passes and all of them before the last segment, with every firmware but marlin_jerk exactly the points it passes; a line has the colour of a speed at its begin, within a quarter of the change of speed of the segment; lines along which the colour changes are not longer than the resolution; markers stand where the machine is at the end of each step. plot_vel draws the travel speed at every time within 1e-12, each position within an eighth of the change of velocity times the duration of the segment, each velocity up to the jump at the begin of the segment times the part of the segment that is left (exactly without junction handling), lines at the ends of blocks and segments and crosses at the junction velocities; the errors of wrong arguments are those of C76.", "quantifier": "every program with sensible settings (feedrates and jerk not negative, positive accelerations) that can be planned, every firmware, every resolution and every choice of axes, marks and time steps", "why_tests_cant": "every point of every line of every drawing, for all programs", "anchors": ["pyGCodeDecode/gcode_interpreter.py:simulation.plot_2d_position", "pyGCodeDecode/gcode_interpreter.py:simulation.plot_vel", "pyGCodeDecode/gcode_interpreter.py:generate_planner_blocks"]}
{"id": "C121", "title": "The print takes as long as the fastest motion within the limits", "statement": "Among all motions that do the steps of a program from rest within its feedrates, accelerations and junction speeds there is a fastest one. Its time is the closed formula of C119. The planned print takes no longer than it, and is shorter by no more than the planner's tolerance of 1e-12 mm/s per junction allows. Feedrates of the program may be zero, and a line may both move and pause.", "quantifier": "every program with sensible settings (feedrates and jerk not negative, positive accelerations) that can be planned, every firmware (the lower bound with marlin_jerk: all moves that are carried out travel)", "why_tests_cant": "a comparison with all motions, for programs of any length", "anchors": ["pyGCodeDecode/gcode_interpreter.py:generate_planner_blocks", "pyGCodeDecode/planner_block.py:planner_block.move_maker2", "pyGCodeDecode/planner_block.py:planner_block.self_correction", "pyGCodeDecode/junction_handling.py:junction_handling"]}
{"id": "C122", "title": "Submodel times of unusual programs are times at which the nozzle gets into the box", "statement": "If write_submodel_times lists entry or exit times of a box, the simulated nozzle gets into the box, also when feedrates of the program are zero and lines both move and pause. It says exactly when the call returns, and to which move and which point of its line every listed time belongs.", "quantifier": "every program with sensible settings (feedrates and jerk not negative, positive accelerations) that can be planned, every firmware, every box whose surface is not met by the start of the move that a pausing line asks for", "why_tests_cant": "programs and boxes are unbounded", "anchors": ["pyGCodeDecode/tools.py:write_submodel_times", "pyGCodeDecode/planner_block.py:planner_block.inverse_time_at_pos"]}
{"id": "C123", "title": "A move with a negative feedrate is never simulated", "statement": "A program with a line that asks the machine to move while the feedrate is negative (below -1e-7 mm/s) is rejected with an exception; it never yields a motion. This holds for moves of more than 5e-7 mm and for moves of the filament alone, and for G-code files as for states handed to the planner.", "quantifier": "every program with such a line, whatever the other lines, settings and the firmware; every plain G-code file with such a line", "why_tests_cant": "programs and their settings are unbounded, and the rejection is an accident of consistency checks further down", "anchors": ["pyGCodeDecode/planner_block.py:planner_block.move_maker2", "pyGCodeDecode/planner_block.py:planner_block.__init__", "pyGCodeDecode/utils.py:segment.self_check"]}
{"id": "C124", "title": "How much size, feedrates, accelerations and jerk can matter", "statement": "Apart from the pauses, and up to the planner's tolerance of 1e-12 mm/s per junction: a part c >= 1 times as large takes at least sqrt(c) and at most c times as long; feedrates f times as high make a print at most f times as fast and, except with MKA, not slower; accelerations g times as high make it at most sqrt(g) times as fast and not slower; jerk settings j times as high make it not slower and, except with MKA, at most j times as fast. All these programs can be planned exactly if the original can.", "quantifier": "every program with sensible settings (also feedrates of zero, lines that move and pause), every firmware (marlin_jerk: every step travels), every factor >= 1", "why_tests_cant": "junction speeds interact over the whole program; programs and factors are unbounded", "anchors": ["pyGCodeDecode/planner_block.py:planner_block.move_maker2", "pyGCodeDecode/junction_handling.py:junction_handling", "pyGCodeDecode/gcode_interpreter.py:generate_planner_blocks"]}
{"id": "C125", "title": "Print times against lengths divided by feedrates", "statement": "The print time is at least the estimate that adds up the pauses and length divided by feedrate of all moves that are carried out, and longer if the first of them travels. It is at most the sum of the times with a stop after every step, and so at most one ramp (feedrate divided by acceleration) per move longer than the estimate. With unknown firmware and moves long enough to reach their feedrate it is exactly that.", "quantifier": "every program with sensible settings that can be planned (also feedrates of zero, lines that move and pause), every firmware", "why_tests_cant": "programs, settings and junction speeds are unbounded; the bounds hold without a tolerance", "anchors": ["pyGCodeDecode/planner_block.py:planner_block.move_maker2", "pyGCodeDecode/gcode_interpreter.py:generate_planner_blocks", "pyGCodeDecode/gcode_interpreter.py:simulation.get_values"]}
{"id": "C126", "title": "Programs that go on", "statement": "When a program goes on with further lines, then what it did before is done no later than in the program without them (up to the planner's tolerance at junctions); and if the accelerations of the program are all the same and those of the further lines are not higher, the whole print takes no less time. With a higher acceleration in the added lines the whole print can be shorter: a move of 10 mm at 10 mm/s takes at least 0.04 s less when a move of 0.01 mm with hundred times the acceleration is added.", "quantifier": "all programs with sensible settings that can be planned, all programs they can be continued by, and all firmware settings except marlin_jerk (whose programs may end at speed)", "why_tests_cant": "programs and their continuations are unbounded; the refuting program for unequal accelerations was found by the proof", "anchors": ["pyGCodeDecode/planner_block.py:planner_block.move_maker2", "pyGCodeDecode/planner_block.py:planner_block.self_correction", "pyGCodeDecode/gcode_interpreter.py:generate_planner_blocks", "pyGCodeDecode/junction_handling.py"]}
{"id": "C127", "title": "How long a G-code file takes", "statement": "A plain G-code file takes at least its waits plus the length of every move divided by its feedrate, and at most one ramp (feedrate divided by acceleration) per moving line longer. If lines are appended to a file, what the file did before is done no later (up to the planner's tolerance at junctions), and if no line contains M204 the whole file takes no less time.", "quantifier": "all plain files with non-negative feedrates, positive accelerations and non-negative jerk that give a simulation, all setups, all firmware names (for appended lines all but marlin_jerk), all lines that may be appended", "why_tests_cant": "files, setups and appended lines are unbounded; the bounds hold for every junction handling", "anchors": ["pyGCodeDecode/gcode_interpreter.py:simulation.__init__", "pyGCodeDecode/gcode_interpreter.py:generate_planner_blocks", "pyGCodeDecode/state_generator.py", "pyGCodeDecode/planner_block.py"]}
{"id": "C128", "title": "Lines that neither move nor wait, and other ways to write a file", "statement": "States that neither move nor pause, the settings of the first state and the layers do not matter for the motion: with and without them a simulation has the same segments in the same blocks, which extrude alike, or fails with the same error. So two plain G-code files that make their printers do the same moves and waits with the same settings from the same place have the same simulation, however they are written: with absolute or relative coordinates, after any G92, with settings on the line of the move or before it, with any comments and other lines. Lines without effect can be left out.", "quantifier": "all lists of states; all pairs of plain files and accepted setups with the same firmware; all firmware names, including the look-ahead for the next move", "why_tests_cant": "states, files and the places where lines can be left out are unbounded; tests compare a few written files", "anchors": ["pyGCodeDecode/gcode_interpreter.py:generate_planner_blocks", "pyGCodeDecode/planner_block.py:planner_block.__init__", "pyGCodeDecode/junction_handling.py:junction_handling.calc_vel_next", "pyGCodeDecode/state_generator.py"]}
{"id": "C129", "title": "Comparing the prints of two G-code files", "statement": "Take two plain G-code files, each with its own accepted setup for the same firmware, written in any way. If the second makes its printer do the same moves and waits with no lower feedrates, accelerations and jerks, its print takes no longer, up to the planner's tolerance; so does the same file with a setup with no lower settings. If it does the same with some straight travel moves in several pieces, the print takes no less time, and with marlin_jd (positive jerk), marlin_jerk and MKA no more, up to the tolerance. If it does the same in another place, it is simulated as well, takes exactly as long, and answers to all queries differ by the shift only; the same holds for turned and mirrored prints except with MKA.", "quantifier": "all pairs of plain files and accepted setups with the same firmware and with non-negative feedrates and jerks and positive accelerations in the first; with marlin_jerk all moves must travel for the first two statements", "why_tests_cant": "files, setups, ways to write the same moves, cuts and placements are unbounded, and the planner's tolerance must be bounded for all of them", "anchors": ["pyGCodeDecode/gcode_interpreter.py:simulation.__init__", "pyGCodeDecode/gcode_interpreter.py:generate_planner_blocks", "pyGCodeDecode/state_generator.py", "pyGCodeDecode/junction_handling.py"]}
{"id": "C130", "title": "Longer and shorter waits", "statement": "Take a program and the same program with other durations of its dwells (none negative). Either both are simulated or both fail with the same error. The blocks of both correspond one to one. Every move runs exactly as much later as the machine has waited longer before; every dwell holds the same place in both, at rest, and lasts as long as asked for. Path and velocities are the same, and the print takes exactly as much longer as the waits are longer in total. The same holds for two plain G-code files, written in any way, that make their printers do the same except for how long they wait.", "quantifier": "all firmwares; all lists of states in which pausing states stay in place, without conditions on feedrates, accelerations and jerks; all pairs of plain files with accepted setups for the same firmware", "why_tests_cant": "durations, programs and files are unbounded, corrections of earlier blocks run across dwells, and the statement covers failing programs as well", "anchors": ["pyGCodeDecode/planner_block.py:planner_block.__init__", "pyGCodeDecode/planner_block.py:planner_block.self_correction", "pyGCodeDecode/planner_block.py:planner_block.timeshift", "pyGCodeDecode/gcode_interpreter.py:generate_planner_blocks", "pyGCodeDecode/gcode_interpreter.py:simulation.trajectory_self_correct"]}
{"id": "C131", "title": "More or less filament", "statement": "Take a program and the same program with other amounts of filament, where neither of them moves the filament alone. With sensible settings one can be planned if and only if the other one can. In both the nozzle does exactly the same: the segments correspond one to one, with the same times, places and velocities in X, Y and Z, and both prints end at the same time. Asked for the values at any time, in any unit and after any earlier questions, both give the same velocity and position in X, Y and Z, or fail in the same way. The event series for ABAQUS have the same times and places; only the extrusion flags can differ. The same holds for two plain G-code files that make their printers do the same except for the filament: if the first one is simulated, so is the second one.", "quantifier": "every firmware but MKA (which limits the filament axis as well: with it a program is given that takes longer with more filament); all lists of states with any feedrates, accelerations and jerks; all times, units and histories of questions; all pairs of plain files with accepted setups for the same firmware", "why_tests_cant": "amounts of filament, programs and files are unbounded; directions, junctions and corrections of earlier blocks are computed with vectors that contain the filament", "anchors": ["pyGCodeDecode/planner_block.py:planner_block.__init__", "pyGCodeDecode/planner_block.py:planner_block.self_correction", "pyGCodeDecode/planner_block.py:planner_block.move_maker2", "pyGCodeDecode/utils.py:vector_4D.get_norm", "pyGCodeDecode/junction_handling.py:junction_handling.connect_state", "pyGCodeDecode/gcode_interpreter.py:generate_planner_blocks", "pyGCodeDecode/gcode_interpreter.py:simulation.get_values", "pyGCodeDecode/abaqus_file_generator.py:generate_abaqus_event_series"]}
{"id": "C132", "title": "G-code files with other sizes and settings", "statement": "Take two plain G-code files, however they are written, where the second one makes its printer do the same as the first one with all places multiplied by c, the feedrates by f, the accelerations by g and the jerks by j. If the first file is simulated, so is the second one. Apart from the waits and up to the planner's tolerance: if the factors leave room for a motion r times as fast, the second print takes at most 1/r of the time; a part c ≥ 1 times as large takes between √c and c times as long; feedrates f ≥ 1 times as high make the print at most f times as fast and, except with MKA, not slower; accelerations g ≥ 1 times as high make it at most √g times as fast and not slower; jerks j ≥ 1 times as high do not make it slower and, except with MKA, at most j times as fast.", "quantifier": "all pairs of plain files with accepted setups for the same firmware, positive accelerations, no negative feedrates and jerks; all firmwares (with marlin_jerk no move of the filament alone); all positive factors", "why_tests_cant": "files and factors are unbounded, and the bounds compare two separate prints with all their corners", "anchors": ["pyGCodeDecode/gcode_interpreter.py:simulation.__init__", "pyGCodeDecode/gcode_interpreter.py:generate_planner_blocks", "pyGCodeDecode/planner_block.py:planner_block.move_maker2", "pyGCodeDecode/junction_handling.py:junction_handling", "pyGCodeDecode/state_generator.py:generate_states"]}
{"id": "C133", "title": "G-code files that go there and back", "statement": "Take two plain G-code files, however they are written, where the second one makes its printer go the way of the first one in the opposite direction, with the feedrate and the acceleration of each step, without waits and with the same jerk everywhere. Then both prints take equally long, up to the planner's tolerance.", "quantifier": "all pairs of plain files with accepted setups for the same firmware, positive feedrates and accelerations and a jerk that is not negative; marlin_jd, default junction handling, and MKA if there is only one feedrate (C89 shows that it fails for the others)", "why_tests_cant": "files are unbounded; the planner works forwards, with corrections of earlier moves, and nothing in it is symmetric in time", "anchors": ["pyGCodeDecode/gcode_interpreter.py:simulation.__init__", "pyGCodeDecode/gcode_interpreter.py:generate_planner_blocks", "pyGCodeDecode/planner_block.py:planner_block.move_maker2", "pyGCodeDecode/planner_block.py:planner_block.self_correction", "pyGCodeDecode/junction_handling.py:junction_handling_marlin_jd"]}
{"id": "C134", "title": "A factor for the filament", "statement": "Multiply the filament positions of a program by a number. Then the nozzle does exactly the same at the same times, and the filament moves by that factor farther and faster: every query about position and velocity agrees in X, Y and Z and differs by the factor in E, and the reported line width is multiplied by the factor. If the factor is positive, the event series for ABAQUS is the same when its tolerance is multiplied as well, and so are the extrusion extent, the highest speed while extruding, and the lines that plot_3d draws with their speeds. The times at which the nozzle enters and leaves a submodel box and the layer metrics are the same for every factor. Motion, queries, widths and event series of two plain G-code files, however they are written, are related in the same way if the second file makes its printer do the same with a multiple of the filament; if the first one is simulated, the second one is as well.", "quantifier": "all programs and pairs of plain files that never move the filament alone, all factors, all query times, units, tolerances, layer heights and filament diameters; every firmware but MKA (C131 shows that it fails there)", "why_tests_cant": "programs and factors are unbounded; the planner compares, normalises and corrects four-dimensional vectors, and the filament takes part in all of it", "anchors": ["pyGCodeDecode/gcode_interpreter.py:simulation.get_width", "pyGCodeDecode/gcode_interpreter.py:simulation.get_values", "pyGCodeDecode/gcode_interpreter.py:simulation.extrusion_extent", "pyGCodeDecode/gcode_interpreter.py:simulation.extrusion_max_vel", "pyGCodeDecode/planner_block.py:planner_block.move_maker2", "pyGCodeDecode/utils.py:position.is_extruding", "pyGCodeDecode/abaqus_file_generator.py:generate_abaqus_event_series", "pyGCodeDecode/tools.py:write_submodel_times", "pyGCodeDecode/tools.py:save_layer_metrics", "pyGCodeDecode/gcode_interpreter.py:simulation.plot_3d"]}
