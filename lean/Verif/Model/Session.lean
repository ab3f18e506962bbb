import Verif.Model.Setup

/-!
# The life of a simulation object: construction, queries and refreshes

Models `/repo/pyGCodeDecode/gcode_interpreter.py` lines 168-240, 582-629 and 686-698 as operations on the
object's attributes.

`self.initial_machine_setup` is what `setup.get_dict()` returned, i.e. the *same* dictionary object that the
setup object keeps for that printer (lines 908-920). Later calls on the setup object therefore change it;
the model keeps the setup object and the printer's name instead of a copy of the dictionary.
-/

namespace PyGCD

/-- The attributes of a `simulation` object that change or matter later. -/
structure Session (K : Type) where
  setup : Setup K
  printer : String
  own : String
  states : List (PState K)
  blocks : List (Block K)
  last : Option Nat

section
variable {K : Type} [Add K] [Sub K] [Mul K] [Div K] [Neg K] [LT K] [LE K] [DecidableLT K]
  [DecidableLE K] [DecidableEq K] [OfNat K 0] [OfNat K 1] [OfNat K 2] [OfNat K 4] [OfNat K 10] [OfNat K 18]
  [OfNat K 30] [OfNat K 33] [OfNat K 35] [OfNat K 60] [OfNat K 180] [OfNat K 200] [OfNat K 1000]
  [OfScientific K] [PyMath K]

/-- gcode_interpreter.py:168-240 `simulation.__init__`. -/
def Session.create (pf : List Char → Option K) (shipped : Dict (Dict (SVal K))) (content : List Char)
    (machineName : Option String) (given : Option (Setup K)) (unit : String) :
    Except PyErr (Session K) := do
  let r ← simulationGuards unit machineName given shipped
  checkInitialSetup r.1
  let ps ← fileStates pf r.1 content
  let bs ← simulate (firmwareOf r.1) ps
  .ok ⟨r.2, r.2.printer.getD "", unit, ps, bs, none⟩

/-- gcode_interpreter.py:696: `self.initial_machine_setup["firmware"]`, read when it is needed. A value that
is no text selects the default junction handling (planner_block.py:299-308). -/
def Session.firmware (s : Session K) : Except PyErr Firmware :=
  match s.setup.presets.lookup s.printer with
  | none => .error .keyError
  | some d => if (d.lookup "firmware").isSome then .ok (firmwareOf d) else .error .keyError

/-- gcode_interpreter.py:686-698 `refresh`. Simplification: the states of a given list are linked to each
other in the order of the list (Python follows `state.prev_state`). If planning raises, Python has stored the
new states already and keeps the old blocks; an exception during the self-correction, which would leave
half-corrected blocks, is modelled the same way. -/
def Session.refresh (s : Session K) (new : Option (List (PState K))) : Except PyErr Unit × Session K :=
  let s := { s with states := new.getD s.states }
  match s.firmware with
  | .error e => (.error e, s)
  | .ok fw =>
    match plan fw s.states with
    | .error e => (.error e, s)
    | .ok bs => (.ok (), { s with blocks := bs })

/-- gcode_interpreter.py:582-605 `get_values` as a method. -/
def Session.values (s : Session K) (t : K) (u : Option String) : Except PyErr (Vec4 K × Vec4 K) × Session K :=
  let r := getValues (unpack s.blocks) s.own u t s.last
  (r.1, { s with last := r.2 })

/-- gcode_interpreter.py:607-629 `get_width` as a method. -/
def Session.width (s : Session K) (t h dia : K) : Except PyErr K × Session K :=
  let r := getWidth (unpack s.blocks) s.own t h dia s.last
  (r.1, { s with last := r.2 })

end
end PyGCD
