import Verif.Model.Sim

/-!
# The setup class, its validation, and the constructor guards of the simulation

Models `/repo/pyGCodeDecode/gcode_interpreter.py` lines 197-228, 631-672, 799-936 and the merge with
the default machine in `/repo/pyGCodeDecode/state_generator.py` lines 81-104 and 224-239.
-/

namespace PyGCD

/-- A value of the setup dictionary (YAML scalars; `null` is what an empty entry gives). -/
inductive SVal (K : Type) where
  | num (v : K)
  | text (s : String)
  | null
  deriving DecidableEq, Repr

/-- A Python dictionary with string keys, in insertion order. -/
abbrev Dict (V : Type) := List (String × V)

/-- `d[k] = v`: replace in place or append. -/
def dictSet {V : Type} : Dict V → String → V → Dict V
  | [], k, v => [(k, v)]
  | (k', v') :: d, k, v => if k' = k then (k, v) :: d else (k', v') :: dictSet d k v

/-- `d.update(u)`. -/
def dictUpdate {V : Type} (d u : Dict V) : Dict V := u.foldl (fun d p => dictSet d p.1 p.2) d

/-- gcode_interpreter.py:820-830, the attributes of a `setup` object. `presets` is `setup_dict`. -/
structure Setup (K : Type) where
  presets : Dict (Dict (SVal K))
  initialPosition : Dict K
  printer : Option String
  layerCue : Option String

/-- gcode_interpreter.py:861: the argument of `set_initial_position`. -/
inductive PosArg (K : Type) where
  | dict (d : Dict K)
  | tuple (l : List K)
  | other

section
variable {K : Type}

/-- gcode_interpreter.py:850-859 `select_printer`. -/
def Setup.selectPrinter (s : Setup K) (name : String) : Except PyErr (Setup K) :=
  if (s.presets.lookup name).isSome then .ok { s with printer := some name } else .error .valueError

/-- gcode_interpreter.py:891-906 `set_property`. (The selected printer exists in the presets, see
`selectPrinter` and the constructor; otherwise Python raises `KeyError`.) -/
def Setup.setProperty (s : Setup K) (props : Dict (SVal K)) : Except PyErr (Setup K) :=
  match s.printer with
  | none => .error .valueError
  | some p =>
    match s.presets.lookup p with
    | none => .error .keyError
    | some d => .ok { s with presets := dictSet s.presets p (dictUpdate d props) }

/-- gcode_interpreter.py:908-920 `get_dict`. It returns the *stored* dictionary after updating it, so
the call changes the presets. -/
def Setup.getDict (s : Setup K) : Except PyErr (Dict (SVal K) × Setup K) :=
  match s.printer with
  | none => .error .keyError
  | some p =>
    match s.presets.lookup p with
    | none => .error .keyError
    | some d =>
      let d := dictUpdate d (s.initialPosition.map fun q => (q.1, SVal.num q.2))
      let d := match s.layerCue with
        | some c => dictSet d "layer_cue" (.text c)
        | none => d
      let d := dictSet d "printer_name" (.text p)
      .ok (d, { s with presets := dictSet s.presets p d })

variable [OfNat K 1] [OfNat K 1000] [OfScientific K] [Mul K]

/-- gcode_interpreter.py:817 `available_unit_systems` and 922-936 `get_scaling_factor`. -/
def setupScaling (u : String) : Except PyErr K :=
  if u = "SI" then .ok 1000 else if u = "SImm" then .ok 1 else if u = "inch" then .ok 25.4
  else .error .keyError

/-- gcode_interpreter.py:861-889 `set_initial_position`; `input_unit_system` defaults to `"SImm"`
(line 818). -/
def Setup.setInitialPosition (s : Setup K) (a : PosArg K) (u : Option String) :
    Except PyErr (Setup K) := do
  let f ← setupScaling (u.getD "SImm")
  match a with
  | .dict d =>
    if ["X", "Y", "Z", "E"].all fun k => (d.lookup k).isSome then
      .ok { s with
        initialPosition :=
        dictUpdate s.initialPosition (d.map fun q => (q.1, f * q.2)) }
    else .error .valueError
  | .tuple [x, y, z, e] =>
    .ok { s with
      initialPosition := [("X", f * x), ("Y", f * y), ("Z", f * z), ("E", f * e)] }
  | .tuple _ => .error .valueError
  | .other => .error .valueError

/-- gcode_interpreter.py:802-834 `setup.__init__` on loaded presets. -/
def Setup.create {K : Type} [OfNat K 0] (presets : Dict (Dict (SVal K))) (printer layerCue : Option String) :
    Except PyErr (Setup K) := do
  let s : Setup K :=
    { presets, initialPosition := [("X", 0), ("Y", 0), ("Z", 0), ("E", 0)], printer, layerCue }
  match printer with
  | none => .ok s
  | some p => do
    let s ← s.selectPrinter p
    let r ← s.getDict
    if (r.1.lookup "firmware").isSome then .ok r.2 else .error .keyError

end

/-- gcode_interpreter.py:637-651. -/
def requiredKeys : List String :=
  ["p_vel", "p_acc", "jerk", "vX", "vY", "vZ", "vE", "X", "Y", "Z", "E", "printer_name", "firmware"]

/-- gcode_interpreter.py:652-656. -/
def optionalKeys : List String := ["layer_cue", "nozzle_diam", "filament_diam"]

/-- gcode_interpreter.py:631-672 `check_initial_setup`. -/
def checkInitialSetup {V : Type} (d : Dict V) : Except PyErr Unit :=
  if (d.map Prod.fst).any fun k => !(requiredKeys ++ optionalKeys).contains k then
    .error .valueError
  else if requiredKeys.any fun k => !(d.map Prod.fst).contains k then .error .valueError
  else .ok ()

/-- gcode_interpreter.py:198-226: the guards of `simulation.__init__` and the final `get_dict()`. `given` is
the setup object that was passed, `machineName` the other argument, `shipped` the content of
`data/default_printer_presets.yaml`. Returns the dictionary to be used and the setup object it belongs to. -/
def simulationGuards {K : Type} [DecidableEq K] [OfNat K 0] (unit : String)
    (machineName : Option String) (given : Option (Setup K)) (shipped : Dict (Dict (SVal K))) :
    Except PyErr (Dict (SVal K) × Setup K) :=
  if ¬ (unit = "SI" ∨ unit = "SImm" ∨ unit = "inch") then .error .valueError
  else
    match given with
    | some s =>
      match machineName with
      | none => s.getDict
      | some n => do
        let r ← s.getDict
        match r.1.lookup "printer_name" with
        | none => .error .keyError
        | some v => if v = .text n then r.2.getDict else .error .valueError
    | none =>
      match machineName with
      | none => .error .valueError
      | some n => do
        let s ← Setup.create shipped (some n) none
        s.getDict

section
variable {K : Type} [OfNat K 0] [OfNat K 10] [OfNat K 30] [OfNat K 33] [OfNat K 35] [OfNat K 180]
  [OfNat K 200]

/-- A numeric entry with default. Simplification: a text or an empty entry where Python later needs a number is
rejected here with the `TypeError` it causes there. -/
def numEntry (d : Dict (SVal K)) (k : String) (dflt : K) : Except PyErr K :=
  match d.lookup k with
  | none => .ok dflt
  | some (.num v) => .ok v
  | some (.text _) => .error .typeError
  | some .null => .error .typeError

/-- state_generator.py:81-104 and 231-239: merge of the setup with `default_virtual_machine`.
`absolute_position`, `absolute_extrusion` and `units` cannot be given in a checked setup
(`checkInitialSetup`), so their defaults apply. A layer cue that is not a text is compared with the stripped comments
(state_generator.py:362-363) like any other and equals none of them; here it is a text that begins with a line break, which
no stripped comment does. -/
def resolveMachine (d : Dict (SVal K)) : Except PyErr (Machine K) := do
  let x ← numEntry d "X" 0
  let y ← numEntry d "Y" 0
  let z ← numEntry d "Z" 0
  let e ← numEntry d "E" 0
  let pVel ← numEntry d "p_vel" 35
  let pAcc ← numEntry d "p_acc" 200
  let jerk ← numEntry d "jerk" 10
  let vX ← numEntry d "vX" 180
  let vY ← numEntry d "vY" 180
  let vZ ← numEntry d "vZ" 30
  let vE ← numEntry d "vE" 33
  let cue := match d.lookup "layer_cue" with
    | none => none
    | some (.text c) => some c.toList
    | some _ => some ['\n']
  .ok { pos := fun | .X => x | .Y => y | .Z => z | .E => e
        pVel, pAcc, jerk
        vAx := fun | .X => vX | .Y => vY | .Z => vZ | .E => vE
        absPos := true, absExt := true, units := .SImm, layerCue := cue }

/-- gcode_interpreter.py:228: the firmware entry (required by `checkInitialSetup`). -/
def firmwareOf (d : Dict (SVal K)) : Firmware :=
  match d.lookup "firmware" with
  | some (.text f) => Firmware.ofName (some f)
  | _ => .default

end

section
variable {K : Type} [Add K] [Sub K] [Mul K] [Div K] [Neg K] [LT K] [LE K] [DecidableLT K]
  [DecidableLE K] [DecidableEq K] [OfNat K 0] [OfNat K 1] [OfNat K 2] [OfNat K 10] [OfNat K 18]
  [OfNat K 30] [OfNat K 33] [OfNat K 35] [OfNat K 60] [OfNat K 180] [OfNat K 200] [OfNat K 1000]
  [OfScientific K] [PyMath K]

/-- gcode_interpreter.py:230-232: the states of the simulation, from the checked setup dictionary and the
decoded content of the G-code file, as the planner sees them. -/
def fileStates (pf : List Char → Option K) (d : Dict (SVal K)) (content : List Char) :
    Except PyErr (List (PState K)) := do
  let m ← resolveMachine d
  let gs ← generateStates pf m content
  gs.mapM GState.toPState

/-- gcode_interpreter.py:226-240: the whole construction of a simulation from a setup dictionary and the
decoded content of the G-code file. -/
def simulateFile (pf : List Char → Option K) (d : Dict (SVal K)) (content : List Char) :
    Except PyErr (List (Block K)) := do
  checkInitialSetup d
  let ps ← fileStates pf d content
  simulate (firmwareOf d) ps

end
end PyGCD
