import Verif.Model.Written
import Verif.Model.Console
import Verif.Model.Traveler
import Verif.Model.Setup

/-!
# Texts of objects and the summary on the console

Models the methods `__str__` of `/repo/pyGCodeDecode/utils.py`, `planner_block.py` and `state.py`, and `print_summary` of
`gcode_interpreter.py`. `__repr__` returns the same texts (utils.py:356-358, planner_block.py:370-372, state.py:56-58,
144-146; `vector_4D` has none).

`num` is the text of a number (`str` of a `float`).
-/

namespace PyGCD

/-- `"{:c^w}".format(t)`: centred; if the padding is odd, the right side gets one more. -/
def centred (c : Char) (w : Nat) (t : List Char) : List Char :=
  let pad := w - t.length
  List.replicate (pad / 2) c ++ t ++ List.replicate (pad - pad / 2) c

/-- planner_block.py:359-368 `planner_block.__str__`. -/
def Block.text {K : Type} (b : Block K) : List Char :=
  match b.segments.length with
  | 3 => centred '-' 40 "Trapezoid Planner Block".toList
  | 2 => centred '-' 40 "Triangular Planner Block".toList
  | 1 => centred '-' 40 "Singular Planner Block".toList
  | _ => centred '#' 40 "Invalid Planner Block".toList

section
variable {K : Type} (num : K → List Char)

/-- utils.py:49-51 `vector_4D.__str__`. -/
def Vec4.text (v : Vec4 K) : List Char :=
  ['['] ++ num v.x ++ [',', ' '] ++ num v.y ++ [',', ' '] ++ num v.z ++ [',', ' '] ++ num v.e ++ [']']

/-- utils.py:197-199 `velocity.__str__`. -/
def velocityText (v : Vec4 K) : List Char := "velocity: ".toList ++ v.text num

/-- utils.py:255-257 `position.__str__`. -/
def positionText (v : Vec4 K) : List Char := "position: ".toList ++ v.text num

/-- `str` of an optional value: `None` if there is none. -/
def optText {α : Type} (f : α → List Char) : Option α → List Char
  | none => "None".toList
  | some a => f a

/-- `str` of a value of the state machine: a number, or the text it is. -/
def Val.text : Val K → List Char
  | .num v => num v
  | .str s => s

/-- utils.py:352-354 `segment.__str__`. The text contains what `self_check` returns, which is `None`, or the exception of
`self_check` is raised. -/
def Segment.text [Add K] [Sub K] [Mul K] [Div K] [Neg K] [LT K] [LE K] [DecidableLT K] [DecidableLE K] [OfNat K 0]
    [OfNat K 1] [OfNat K 2] [OfScientific K] [PyMath K] (s : Segment K) : Except PyErr (List Char) :=
  if s.selfCheckOk then .ok ("\nSegment from: \n".toList ++ positionText num s.posBegin ++ " to \n".toList ++ positionText num s.posEnd ++
    " Self check: None.\n".toList)
  else .error .valueError

/-- state.py:34-54 `p_settings.__str__`. -/
def PSettings.text (units : Units → List Char) (p : PSettings K) : List Char :=
  "jerk: ".toList ++ p.jerk.text num ++ ", p_acc: ".toList ++ p.pAcc.text num ++ ", max_ax_vel: [".toList ++
    (p.vAx .X).text num ++ [',', ' '] ++ (p.vAx .Y).text num ++ [',', ' '] ++ (p.vAx .Z).text num ++ [',', ' '] ++
    (p.vAx .E).text num ++ [']'] ++ ", p_vel: ".toList ++ num p.speed ++ ", units: ".toList ++ units p.units

/-- state.py:137-142 `state.__str__`. -/
def GState.text (units : Units → List Char) (s : GState K) : List Char :=
  "<state: line: ".toList ++ optText natText s.lineNumber ++
    (match s.layer with
      | none => []
      | some l => ", layer: ".toList ++ natText l) ++
    ", ".toList ++ positionText num s.position ++ ", settings: ".toList ++ s.settings.text num units ++
    ", comment: ".toList ++ optText id s.comment ++ ", pause: ".toList ++ optText (Val.text num) s.pause ++ ['>', '\n']

end

/-- The digits of `n` hundredths. -/
def hundredthsText (n : Nat) : List Char :=
  natText (n / 100) ++ ['.'] ++ natText (n / 10 % 10) ++ natText (n % 10)

/-- `f"{x:.2f}"`: the nearest multiple of a hundredth, the even one of two equally near, with the sign of `x`. -/
def fixed2 (x : Rat) : List Char :=
  if x < 0 then '-' :: hundredthsText (pyRound (-x * 100)).toNat else hundredthsText (pyRound (x * 100)).toNat

/-- gcode_interpreter.py:674-684 `print_summary`: the text handed to `custom_print`. `states` and `blocks` are the numbers of
states and blocks, `tEnd` is the end of the last segment, `took` the time since the start of the run. -/
def summaryText (states : Nat) (filename : List Char) (blocks : Nat) (tEnd took : Rat) : List Char :=
  " >> pyGCodeDecode extracted ".toList ++ natText states ++ " states from ".toList ++ filename ++
    " and generated ".toList ++ natText blocks ++ " planner blocks.\n".toList ++
    "Estimated time to travel all states with provided printer settings is ".toList ++ fixed2 tEnd ++ " seconds.\n".toList ++
    "The Simulation took ".toList ++ fixed2 took ++ " s.".toList

/-- gcode_interpreter.py:226-240 with what `print_summary` prints at the end. `val` is the value of a number. -/
def simulateFileText {K : Type} [Add K] [Sub K] [Mul K] [Div K] [Neg K] [LT K] [LE K] [DecidableLT K] [DecidableLE K]
    [DecidableEq K] [OfNat K 0] [OfNat K 1] [OfNat K 2] [OfNat K 10] [OfNat K 18] [OfNat K 30] [OfNat K 33] [OfNat K 35]
    [OfNat K 60] [OfNat K 180] [OfNat K 200] [OfNat K 1000] [OfScientific K] [PyMath K]
    (val : K → Rat) (pf : List Char → Option K) (filename : List Char) (took : Rat) (d : Dict (SVal K))
    (content : List Char) : Except PyErr (List (Block K) × List Char) := do
  checkInitialSetup d
  let ps ← fileStates pf d content
  let bs ← plan (firmwareOf d) ps
  let t ← endTime bs
  .ok (bs, summaryText ps.length filename bs.length (val t) took)

end PyGCD
