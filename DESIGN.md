# A Lean 4 model of pyGCodeDecode

## 1. What is modelled, and how

Everything is a shallow, branch-by-branch transcription of the Python into total Lean functions.
Python exceptions are values (`Except PyErr α`). Python objects that are mutated become values that
are returned. The doubly linked lists of states and planner blocks become Lean lists (the planner's
back-correction walks a zipper). Every definition cites the file and lines it transcribes, and says
where it simplifies.

Arithmetic. Every model function is *polymorphic in the number type* `K` and only asks for the
operations it uses (`+ - * /`, `<`, literals, `sqrt`, `sin`, `pi`, …). It therefore has

* a `Float` instance, with which `Verif/Exec.lean` runs the model against the numbers that the
  repository's own unit tests assert (a test of faithfulness, not a proof);
* a `ℝ` instance, about which the kinematic theorems are proved (exact arithmetic);
* a `Dbl` instance, IEEE doubles in software (every operation rounds to 53 bits), about which C83-C85, C95, C99, C109,
  C110, C114 and C117 are proved and
  which agrees bit for bit with the processor on the programs in `Verif/Exec.lean`;
* for the bookkeeping parts (parser, state machine, searches, tables) theorems that use *no*
  arithmetic law at all, so that they also apply to IEEE doubles.

| Lean module | Python modelled |
|---|---|
| `Model/Basic` | `utils.py`: `vector_4D`, `velocity`, `position`, `segment` |
| `Model/Parser` | `state_generator.py`: tables, `arg_extract`, `read_gcode_to_dict_list`, `check_for_unsupported_commands` |
| `Model/Traveler` | `state_generator.py`: `dict_list_traveler`, `generate_states`; `state.py` |
| `Model/Junction` | `junction_handling.py` (all five classes and `get_handler`) |
| `Model/Planner` | `planner_block.py` |
| `Model/Sim` | `gcode_interpreter.py`: block generation, correction, segment search, queries, extents, width |
| `Model/Setup` | `gcode_interpreter.py`: `setup`, `check_initial_setup`, constructor guards, from file to blocks |
| `Model/Session` | the life of a `simulation` object: construction, queries, `refresh`, and the setup dictionary it shares |
| `Model/Output` | `abaqus_file_generator.py`, `tools.py`, `plot_3d` poly-lines, `plot_vel` sampling, `save_summary` |
| `Model/Cli` | `cli.py`: input resolution of the `plot` command |
| `Model/Plot2d` | `gcode_interpreter.py:242-345`: lines, colours and markers of `plot_2d_position` |
| `Model/PlotVel` | `gcode_interpreter.py:456-564`: sample times, curves, lines and crosses of `plot_vel` |
| `Model/Objects` | `utils.py` and the move shapes of `planner_block.py` once more, with the run-time checks of classes and number types |
| `Model/Warnings` | `planner_block.py:239-244`: the check against the settings in `self_correction` and what it prints |
| `Model/Plot` | `cli.py`: the `plot` command: what it writes and shows, in which order, and how it ends |
| `Model/Console` | `gcode_interpreter.py:22-60`, the loops around `update_progress` (75-81, 300-330, 393, 509-523, 574-578), `helpers.py:13-23` |
| `Model/Written` | the text that `generate_abaqus_event_series` and `save_layer_metrics` write, the dictionary of `write_submodel_times`, `round(·, 8)` on doubles |
| `Model/Presets` | `data/default_printer_presets.yaml:3-61` as dictionaries (an empty entry is `None`), `examples/benchy.py:32-43` |
| `Model/Texts` | `__str__` of `vector_4D`, `position`, `velocity`, `segment`, `planner_block`, `p_settings`, `state`; `print_summary` (gcode_interpreter.py:674-684) |
| `Model/Results` | `segment.calc_results`, `segment.get_result` (utils.py:484-546) |
| `Model/Linked` | block objects and their references: `generate_planner_blocks` (gcode_interpreter.py), `planner_block.self_correction`, `trajectory_self_correct`, with the recursion limit |
| `Model/Args` | `cli.py`: `_main`: which command runs with which arguments for which words; `argparse` of Python 3.11 as far as its three parsers use it (abbreviations, joined and glued values, grouped flags, `--`) |
| `Model/Examples` | `examples/brace.py`, `examples/benchy.py`, `cli.py:_run_example`: what the examples write and show, in which order, and how they end |
| `Model/Double` | binary64 arithmetic: rounding to 53 bits, correctly rounded root, the literals |

Not modelled: drawing (matplotlib, pyvista), the wording of console messages (except
`print_summary`), YAML
reading and writing (a preset file is the dictionary it contains, a summary the record that is dumped),
the file system except as a parameter, locales except whether `en_US.utf8` is installed.

## 2. Specifications

Statements are written against `Verif/Spec/*`, which does not use the model's functions, only its data
types (segments, states, blocks as records):

| Spec | Content |
|---|---|
| `Commands` | the supported commands and argument letters, written down a second time |
| `Text`, `Lines` | lines of text files, well-formed G-code lines, comments |
| `Programs` | regular state lists, the states that move or pause (`active`), modal settings |
| `Motion` | unit directions, lengths of moves |
| `Timeline` | the path of a simulation, gap-free timelines, end time, unit systems |
| `Optimal` | competing motions: any differentiable travelled distance with Lipschitz speed |
| `Faster` | the same program on a machine with higher limits |
| `Itinerary` | which places a machine visits, when and how |
| `Placement` | rigid motions, and answers that agree up to one |
| `Cuts` | programs with points inserted on straight moves |
| `Scaling` | programs in other units of length and time |
| `Sequels` | print jobs one after the other, with pauses in between |
| `Drawings` | points on lines of a drawing, points the motion passes over |
| `Curves` | points on a curve through samples, axes, junction marks |
| `Objects` | which operands the vector classes accept, segments with classes |
| `Plots` | places touched by an effect of the `plot` command |
| `Executed` | which moves of an unusual program are carried out, from where, and which are lost |
| `Files` | plain G-code files and a reference printer that executes them |
| `Runnable` | the plain files in which the printer travels, and does so before it waits |
| `Backwards` | two programs that follow the same path in opposite directions |
| `Console` | an honest progress bar for a loop, and how its text reads |
| `Irregular` | which steps extrude, how far they are from where the program says, boxes |
| `Rounded` | files that never return to absolute coordinates, programs of ordinary size, states that are others up to rounding |
| `Tables` | how a table is read from a text: lines, cells, numbers that can be read back |
| `Rest` | closed formulas for the way, speed, position and velocity of a program that stops at every junction |
| `Speeds` | closed formulas for the speeds at the junctions and for the time of a program; the firmware rule is a parameter |
| `Shipped` | the table of the shipped printers, written down a second time |
| `Printed` | reading decimal numbers from a text; what the summary and the texts of objects are supposed to tell |
| `Gaps` | a list of segments with gaps, resting in a gap |
| `Results` | the velocity error integrated along the way |
| `Linked` | a doubly linked list of objects, braking distances of consecutive actions |
| `Usual` | programs of usual size for double precision, being near in every coordinate, segments that lead from one place to another |
| `Pace` | keeping a feedrate up to the tolerances of the planner, segments that follow each other in time, a generous allowance of time for a move, brief programs |
| `Args` | documented command lines, mistyped words |
| `OnPath` | being on the way of a move and moving along it; feedrates and accelerations that are not too large |
| `Examples` | an installed package, the announced files, the Git LFS pointers of the repository |
| `Lulls` | the longest time between two segments |
| `Tasks` | the steps of `Executed` with the states behind them, and all ways to do them within the limits |
| `TaskSpeeds` | the closed formulas of `Speeds` for the steps of `Executed` |
| `Journey` | what a machine carries out of any sensible program, and the places it visits (C34, C68, C98) |
| `Metered` | programs, motions and answers that differ by a factor for the filament |
| `Retraced` | files that follow a path in opposite directions |
| `Retuned` | what a file does with other sizes and settings |
| `Flow` | programs and files that differ in the amounts of filament |
| `Waits` | programs and files that differ in how long they wait |
| `FilePairs` | pairs of files that do the same with other settings, in pieces, or elsewhere |
| `LongPieces` | cuts into pieces that are long enough for klipper |
| `Idle` | states and lines that do not matter for the motion; what the lines of a file make a printer do |
| `FileTime` | the estimate of a print time from the lines of a G-code file |
| `Estimate` | the estimate of a print time from lengths, feedrates and pauses, and one ramp per move |
| `Tuning` | programs with places, feedrates, accelerations and jerks multiplied by factors, and their pauses |
| `Resumes`, `Jobs` | print jobs one after the other for sensible programs: which programs, with which pauses in between |
| `Corners` | turning angle and the published corner-speed laws of the firmwares |
| `Times` | closed formulas for the duration of moves |
| `Outputs` | runs of a list, poly-lines, crossings of a box, first and last point of a line in a box |
| `Doubles` | representable numbers, programs of ordinary size, the real numbers that doubles denote |
| `Setups`, `Sessions` | bookkeeping of setup calls, what a simulation object remembers |

Proof modules (`Verif/Proofs/*`) hold lemmas; property theorems are in `Verif/Props/*`, one file per
area. Theorem names start with the property id (`c17_...`). Beside the theorems are examples that show
that their hypotheses are met by a program with moves, a pause and an extrusion-only move (`Demo.prog`),
or by concrete texts and setups.

"Regular" state lists (`Spec.Regular`) have positive feedrates and accelerations, non-negative jerk, and
pauses that stand still after some motion. Theorems about planning assume this, except C86 and C87, which say what
happens otherwise; C57 and the examples connect it to files and setups.

## 3. Plan per property

| Id | Model | Proof |
|---|---|---|
| C01 | traveler with index links | induction over lines |
| C02-C06 | parser | first-occurrence lemmas; loop = filter; iff for raising lines |
| C07-C15 | traveler | case analysis of a step, induction over lines, "last setter" specification |
| C16 | traveler | refuted: positions after G20 are those after G21 |
| C17, C58-C62 | junctions over ℝ | inequalities, half-angle formulas |
| C18 | planner | invariant; refuted for `marlin_jerk` |
| C19 | `moveMaker` over ℝ | case split |
| C20-C29 | whole pipeline over ℝ | one invariant over generation and the correction zipper; `Props/SensibleMotion` extends C18 and C20–C29 to feedrates of zero and lines that move and pause |
| C30-C32 | search with cache | linear-order reasoning on gap-free paths |
| C33 | segment | `HasDerivAt` |
| C34-C37, C63 | queries, summary | ℝ algebra and list folds |
| C38 | gap-tolerant search | induction over the sample times |
| C39-C44 | outputs | list inductions; C40, C41, C42 partly refuted |
| C45-C48, C56, C57 | setup, guards, CLI | refinement / decision logic |
| C49 | vectors | algebra, witnesses |
| C50, C51 | sessions | invariant of the object; C51 refuted by aliasing |
| C52 | parser and traveler | exact characterisation of accepted files |
| C53-C55, C64, C65 | planner over ℝ | ramps, Grönwall-free comparison of squared speeds along the way |
| C66 | planner over ℝ | the slower motion, extended by ramps at the junctions, competes with the faster plan |
| C67 | text to states | simulation relation between the traveler and a reference printer |
| C68 | planner and queries over ℝ | times of the blocks glued along the states |
| C69 | everything from text to answers | C46, C67 and C68 |
| C70 | planner and queries over ℝ | every function of the planner commutes with rigid motions; partial, false for MKA |
| C71 | planner over ℝ | motions of the program and of the cut program are converted into each other, then C55/C66; partial, false for default and, if a piece is short, for klipper (pieces of length `roomLength` are long enough). For sensible programs the shortest times (C121) are compared |
| C72 | planner over ℝ | junction speeds are homogeneous; a motion of the program scales to a motion of the scaled program, then C55/C66 in both directions |
| C73 | `plot` command | case analysis of the command; C63, C41, C44 and C12 show that only the named errors are possible; `Props/PlotSensible` extends C44 and C73 to feedrates of zero and lines that move and pause |
| C74 | planner over ℝ | motions of two programs join at standstill and split at a pause; then C55/C66 in both directions. For sensible programs the shortest times (C121) add up |
| C75 | drawing over ℝ | grid of parameters without gap on each segment; intermediate value theorem for the motion; refuted for `marlin_jerk` |
| C76 | curves over ℝ | all segments at a time agree in speed and position; straight lines between samples; refuted for the axes at corners passed at speed, with the exact law |
| C77 | classes over any number type, equality over ℝ | the model with classes simulates the model without, shape by shape |
| C78 | planner over ℝ | every checked block is returned by the correction, and all returned blocks are well-formed |
| C79 | submodel over ℝ | distances 0 and > 0 within a move, then the loop over faces and blocks |
| C80 | submodel over ℝ | partial: false where the nozzle brakes at the surface (`c80_refuted`); `c80_law` is exact for all times, `c80_criterion` says in terms of the program when the times are right |
| C81 | session over ℝ | C30/C31/C35 on top of the object's bookkeeping (C50) |
| C82 | session over ℝ | induction over the calls: the index is remembered iff `Primed` |
| C83 | planner over `Dbl` | partial: holds exactly for default junction handling (calculus of relative errors); refuted for every other firmware by running the model in the kernel |
| C84 | planner over `Dbl` and ℝ | partial: likewise; the errors of the blocks add up, the correction changes nothing |
| C85 | from file to end time, over `Dbl` and ℝ | partial: refuted by a file in which `0.1 + 0.2` meets `0.3`; proved for default junction handling and plain files that never return to absolute coordinates, and if the states are the exact ones |
| C86 | planner, all settings | proved, both directions; the exception is determined |
| C87 | planner, all settings | proved: plan compared with one whose states are moved to where the machine is |
| C88 | everything from text to blocks | proved: C67, C86 and that a plan is empty exactly if nothing is carried out |
| C89 | planner over ℝ | partial: the motion is turned around in time and compared with the plan of the reversed program (C55/C66); true exactly for marlin_jd and default, for MKA at one feedrate, and for klipper without short moves |
| C90 | progress bar over ℚ | proved: what is written is the bars of some of the items; neighbours differ and percentages grow, so none is repeated |
| C91 | progress bar over ℚ | partial: false; the correction reports after block i iff i/n rounded to thousandths grows, so the end is announced exactly for 2-1333 and 2000-3999 blocks |
| C92 | `custom_print` | proved directly |
| C93 | all plannable programs | proved by generalising the proofs of C30-C33 and C38-C40 to every timeline |
| C94 | all plannable programs | partial: the extent is that of the programmed ends of the steps that extrude, not of the simulated ones; they agree up to the offset of the step, so it encloses the print if no extruding step is offset; the maximum speed is right |
| C95 | plain files read over `Dbl` and ℝ | proved for files without `G90` after `G91` and `M82` after `M83`; a file that returns is a counterexample (`c95_return_matters`) |
| C96 | event series over `Dbl`, layer metrics over any number type | proved for every number format that can be read back |
| C97 | any number type | proved |
| C98 | ℝ, `Regular`, default junction handling | proved |
| C99 | doubles, `Regular` and `Moderate`, default junction handling | partial: refuted by a query that raises; answers are near, and only queries in gaps raise |
| C100 | ℝ, `Regular`; durations with `marlin_jerk` only if all moves travel | proved |
| C101 | ℝ, plain files | proved |
| C102 | ℝ | refuted; proved for default junction handling; exact law for all firmwares |
| C103 | any numbers; doubles for plain files | proved |
| C104 | any numbers; segments over ℝ | proved |
| C105 | ℝ | refuted with hints; exact law, by cases |
| C106 | ℝ | refuted (missing attribute); proved if a caller sets it |
| C107 | any | proved (refinement between objects with references and lists) |
| C108 | ℝ | refuted; proved for short files, for programs that can brake within the limit, and without junction handling |
| C109 | Dbl | proved (all firmwares; positions, not times) |
| C110 | Dbl | proved (all firmwares) |
| C111 | words | proved |
| C112 | words | proved |
| C113 | words | refuted; law for each short option, abbreviations |
| C114 | Dbl | proved (all firmwares) |
| C115 | every environment and content; real numbers | proved |
| C116 | sensible programs | refuted; exact law, holds if no line moves and pauses |
| C117 | doubles, programs of usual size, every firmware | proved |
| C118 | sensible programs that can be planned, all competing motions | proved |
| C119 | sensible programs that can be planned, all firmware settings | proved |
| C120 | sensible programs that can be planned, all firmware settings (whole drawing: not `marlin_jerk`; exact velocities: no junction handling) | proved |
| C121 | sensible programs that can be planned, all firmware settings (lower bound: with `marlin_jerk` every move travels) | proved |
| C122 | sensible programs that can be planned, all firmware settings, all boxes but those whose surface is met by the start of the move of a pausing line (the code computes `0 / 0` there) | partial (refuted) |
| C123 | all programs with a move of negative feedrate and positive acceleration (any other lines, any firmware), all plain files | proved |
| C124 | sensible programs that can be planned, all firmware settings (`marlin_jerk`: all steps travel), all factors at least 1 | proved |
| C125 | sensible programs that can be planned, all firmware settings | proved |
| C126 | sensible programs and continuations that can be planned, all firmware settings but marlin_jerk | proved |
| C127 | plain files with sensible settings that give a simulation, all setups (appended lines: all firmware names but marlin_jerk) | proved |
| C128 | all lists of states; all pairs of plain files and accepted setups with the same firmware | proved |
| C129 | all pairs of plain files and accepted setups with the same firmware | proved |
| C130 | all states in which pausing states stay in place, also failing programs; all pairs of plain files | proved |
| C131 | all states in which the filament never moves alone, every firmware but MKA; all pairs of plain files | proved |
| C132 | all pairs of plain files that differ by factors for places, feedrates, accelerations and jerks | proved |
| C133 | all pairs of plain files without waits that follow a path in opposite directions; `marlin_jd`, default, `MKA` with one feedrate | proved |
| C134 | all programs and pairs of plain files that never move the filament alone, all factors; every firmware but `MKA` | proved |

## 4. Trusted base

* Lean 4.33.0's kernel; axioms `propext`, `Classical.choice`, `Quot.sound` only. No axioms of our own, no
  `sorry`, no `native_decide`, no `bv_decide`.
* The reading of the Python code into the model (every definition cites its lines).
* Except for C83-C85, C95, C99, C109, C110, C114 and C117 the kinematic theorems are about exact real arithmetic.
  `Model/Double` has no
  overflow, no subnormal numbers, no infinities, NaN or negative zero, and sums products from the left without
  fused multiply-add. Python's `float()` is an arbitrary parameter `pf : List Char → Option K` of the parser; theorems that need
  something of it say so.
* Numpy's `isclose` is modelled with its default tolerances over ℝ.

## 5. Findings: wanted properties that are false of the code

For these `CNNFull` is the wanted statement, `cNN_refuted` its refutation with a witness, and there is the
exact law and the part that holds (`…_partial`).

* C10: `G92` displaces the reported position by twice the new value unless it is 0.
* C16: `G20` is ignored.
* C18/C62: `marlin_jerk` ends a program at up to twice the jerk, with jerk 0 at full feedrate.
* C32: the end time cannot be queried first; after the end the search index is lost.
* C40: the event series is linear between events while accelerating segments are quadratic.
* C41: the last block is missing in the last layer's metrics.
* C42: `inverse_time_at_pos` is wrong in decelerating segments.
* C51: `set_property({"firmware": …})` on the setup object changes the next `refresh()` of a simulation.
* C70: with `MKA` a bracket in the XY plane takes longer than in the YZ plane, as the reduction of one axis is
  applied again for every later axis.
* C71: with `klipper` a point shortly after a corner slows the corner down, as the corner speed depends on the
  length of the next move; default junction handling stops at every point.
* C75: with `marlin_jerk` the 2D plot misses the last segment if it has constant speed.
* C77: vectors cannot be divided by an `int`, `vector_4D` never equals a `velocity` or `position` with the same
  coordinates, positions do not accept lists in `is_travel`, `is_extruding`, `get_t_distance`, a `segment` without ends and
  `create_initial()` always raise, `avoid_overspeed` always raises; the documentation says otherwise in each case.
* C76: behind a corner passed at speed `plot_vel` shows the axis velocities of the old direction fading out over the
  first segment of the new one.

Smaller ones, stated in the laws: a pause before any motion raises (C52, `Regular`); a program without motion
cannot be constructed; moves with feedrate 0 are skipped silently; a move and `G4` on one line lose the move;
unknown firmware names mean a stop at every junction (C56); a print without extrusion has no summary (C63);
`set_property` cannot set `X`, `Y`, `Z`, `E` (C45); `pygcd plot` leaves an empty output directory for a print
without extrusion, and with a layer cue stops after the summary where `en_US.utf8` is not installed (C73); the 2D plot
with speed colours and block markers raises `AttributeError` (C75).
* C79/C80: a print that starts on a face of the submodel box and leaves it makes `write_submodel_times` raise
  `ValueError`; a box that is never met makes it raise `IndexError`; entry times are too early where the nozzle
  brakes at the surface; an entry through an edge or a corner counts as two or three filaments; moves without
  extrusion are counted as filaments too.
* C82: a new simulation cannot be asked for its end time; it can after a query inside the print, until a query
  behind the end (which raises) makes it forget the index again.
* C83: with doubles every firmware except default junction handling (`c83_exactly_default`) fails on programs of
  ordinary size. `marlin_jerk` and `MKA`: two moves in the same direction often cannot be planned (`RuntimeError`),
  such as `X2 Y1` then `X4 Y2` with F3000, 1000 mm/s² and jerk 10. The junction speed and the target speed differ in
  the last bit, so that no shape fits, or a segment ends before it begins. About 4 % of random prints with moves of
  1 mm end like this with `marlin_jerk`, 1 in 10000 with `MKA`. `marlin_jd` and `klipper` (and `marlin_jerk`): from
  X200, `G1 X200.01 F1200` then `G1 X205 F600` with 5000 mm/s² raise an `AttributeError`. The first move just fails to
  reach 10 mm/s because 200.01 is rounded, the second begins with 10 mm/s all the same, and the correction asks for the
  block before the first one.
* C84/C85: where a relative move and an absolute one meet, `0.1 + 0.2` is not `0.3` and a retraction becomes a travel
  move of 5.6e-17 mm, which takes a nanosecond instead of seconds (all firmwares); with `marlin_jerk` it also ends at
  the wrong E (-1.28 instead of -1), because the ramp is longer than the move.
* C86: `G4` before the first move raises an `AttributeError` (`prev_block` is `None`), also when the line itself moves.
* C87: a move with feedrate zero and the move on a line with `G4` are silently left out, but the states go on from
  their targets. Everything behind is printed displaced by the lost moves, without any warning.
* C88: a file without motion (only temperatures, say) cannot be simulated: the summary printed by the constructor raises
  an `IndexError`.
* C89: the way back does not take as long as the way there with `klipper` (only the length of the move behind a corner
  matters), `marlin_jerk` (the program may end, but not begin, at speed) and `MKA` (the corner between two feedrates
  depends on their order).
* C91: the bar "Block Correction" writes "Done..." exactly for 2 to 1333 and 2000 to 3999 blocks: `trajectory_self_correct`
  calls `update_progress` only when `round(n / n_max, 3)` has grown since the last call. One block gives no bar at all. The bar
  "2D Plot Points" never announces its end (it reports `i / n`).
* C94: after a move that is not carried out (feedrate zero, or a line that moves and pauses) `extrusion_extent` reports
  where the program says the print is, although the simulation puts it elsewhere: it reads `state_A.state_position` and
  `state_B.state_position` of the blocks and not their segments.
* C96: the `locale` argument of `save_layer_metrics` has no influence on the file, as `%s` does not use locales.
* C99: if a move is as long as its two ramps, rounding can place the end of the constant-speed segment after its begin in
  time but not in space. `trapezoid` then drops the segment, the timeline has a gap, and a `get_values` without a history
  for a time in the gap raises `TypeError`. The move from (31.59, 124.26) to (33.09, 126.26) with 50 mm/s and 1000 mm/s² is
  an example: `get_values(0.05)` raises.
* C102: `planner_block.__str__` goes by the number of segments alone. A move that accelerates and cruises (or cruises
  and brakes), which happens with every firmware except the default, is also called "Triangular".
* C105: `find_current_segment` with `keep_position` looks, when it has a hint, only at the gap behind the hinted segment
  (`path[last_index + 1]` instead of `path[last_index + id + 1]`): a time in a later gap gives `None`, which callers unpack
  (`TypeError`). The end of the last segment raises an `IndexError` without a hint, because there is no next segment to
  look at.
* C106: `segment.__init__` does not create `self.result`, so `calc_results` and `get_result` always raise an
  `AttributeError`. The formula itself is right, except that `segm_error` is 0 for a segment of constant speed whatever the
  target is.
* C108: `self_correction` calls itself on the previous block, once for every block that is too short to brake in, and
  nothing raises Python's recursion limit (1000). A straight run at feedrate that ends in a thousand moves of five
  micrometres at 100 mm/s and 500 mm/s² ends in a `RecursionError`. C26 (the correction terminates) is therefore a
  statement up to the recursion limit.
* C110: in double precision the nozzle can be faster than the feedrate: klipper, 50 mm/s, from (0, 0) to (5, 1). The excess is bounded by the tolerances of the planner.
* C113: `pygcd plot -pnNAME` is read as `-p nNAME` and stops because there is no presets file `nNAME`; `-lcCUE` is an error, although `-gFILE`, `-oDIR` and `-pFILE` work. `-pn` and `-lc` are options of two letters with one dash, which `argparse` cannot glue.
* C115: `examples/data/benchy.gcode` and `brace.gcode` are Git LFS pointers at this commit; in a checkout without LFS both examples raise `IndexError`. Without the locale `en_US.utf8` the benchy example stops after the summary, without a display it does not save the announced screenshot.
* C116: the layer metrics count the move of a line that moves and pauses (`G0 X20 G4 P1`), which is not carried out.
* C117: the gaps of C99 and C114, in which a query raises `TypeError`, last microseconds at most: the time of a ramp or way that rounding hides in the coordinates.
* C34: moves with feedrate zero at the begin of a program shift the initial position: at time 0 the simulation is where the program is before the first move that is carried out (`c34_start_sensible`, `Demo.lost_start`).
* C122: `write_submodel_times` intersects the box with the lines of the program, but takes the times from the motion. After a
  move that is lost (feedrate zero, or a move on a pausing line, C87) the machine is elsewhere: times are listed for a box that
  the nozzle does not get to (`c122_refuted`), and for a box that it passes through there is an `IndexError`
  (`c122_missed`). If the move that a pausing line asks for meets the box, there is a `ValueError` (`c122_outcome`).
* C123: nothing in the program checks that a feedrate is positive. A negative one (`G1 F-600`) is noticed only because the
  trapezoid made from it fails the self check of a segment (`RuntimeError`) or because no case of the planner applies
  (`NameError`, from a name that is not defined); the message does not mention the feedrate. Moves of less than 5e-7 mm or
  slower than 1e-7 mm/s are below the tolerances of these checks.
* C124: with `MKA` raising all feedrates alike can make a print slower (`c124_mka_slower`: a corner of two moves of 1 mm takes
  0.30 s at 10 mm/s and more than 0.35 s at 20 mm/s). The corner speed is multiplied by the reduction of one axis again for
  every later axis (C61), so it falls with the cube of the feedrate.
* C126: a move is braked with its own acceleration. If a short move with a high acceleration is added to a program, the
  machine need not brake in the last move any more, and the whole print takes less time than without the added move.

## 6. Testing the theorems

`seeded/LOG.jsonl` has one line per wrong program: the model is edited like a realistic bug in a scratch copy,
rebuilt with every broken proof replaced by `sorry`, and the property theorems that depend on `sorry` are the
ones that noticed. Mutants that survived although the English claim was false led to the tightened theorems
named in the log (for example `Spec/Commands`, `Spec.path`, `Spec.InUnit`, C56, C57, C63 exist because of
survivors).
