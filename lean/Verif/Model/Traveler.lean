import Verif.Model.Parser

/-!
# From parsed lines to states

Models `/repo/pyGCodeDecode/state_generator.py` lines 81-104, 198-378, 412-426 and
`/repo/pyGCodeDecode/state.py`.
-/

namespace PyGCD

/-- The axis letters `X`, `Y`, `Z`, `E`. -/
inductive Axis where
  | X | Y | Z | E
  deriving DecidableEq, Repr

/-- The letter of an axis in a command's argument dictionary. -/
def Axis.letter : Axis → Char
  | X => 'X' | Y => 'Y' | Z => 'Z' | E => 'E'

/-- state_generator.py:84, 282, 284: the unit flag. -/
inductive Units where
  | SImm | inch
  deriving DecidableEq, Repr

/-- The machine parameters after lines 231-239 of state_generator.py have merged the setup with
`default_virtual_machine` (see `Verif/Model/Setup.lean` for the merge). -/
structure Machine (K : Type) where
  pos : Axis → K
  pVel : K
  pAcc : K
  jerk : K
  vAx : Axis → K
  absPos : Bool
  absExt : Bool
  units : Units
  layerCue : Option (List Char)

/-- state.py:9-58 `p_settings`. Acceleration, jerk and axis limits may be strings if the G-code has
text where a number belongs (state_generator.py:157-160, 318-329). -/
structure PSettings (K : Type) where
  speed : K
  pAcc : Val K
  jerk : Val K
  vAx : Axis → Val K
  units : Units

/-- state.py:6-76 `state`. `prev`/`next` are the links `prev_state`/`next_state`, as indices into the
state list. -/
structure GState (K : Type) where
  position : Vec4 K
  settings : PSettings K
  lineNumber : Option Nat
  comment : Option (List Char)
  layer : Option Nat
  pause : Option (Val K)
  prev : Option Nat
  next : Option Nat

/-- state_generator.py:212-221: the dictionary `virtual_machine`. `pos` are the entries `X…E`, `off`
the entries `_X…_E`. -/
structure VM (K : Type) where
  pos : Axis → Val K
  off : Axis → Val K
  absPos : Bool
  absExt : Bool
  units : Units
  pVel : K
  pAcc : Val K
  jerk : Val K
  vAx : Axis → Val K

variable {K : Type}

/-- Characters removed by `str.strip()` (Python's `str.isspace`). -/
def pyIsSpace (c : Char) : Bool :=
  let n := c.toNat
  (9 ≤ n && n ≤ 13) || (28 ≤ n && n ≤ 32) || n == 0x85 || n == 0xa0 || n == 0x1680 ||
  (0x2000 ≤ n && n ≤ 0x200a) || n == 0x2028 || n == 0x2029 || n == 0x202f || n == 0x205f ||
  n == 0x3000

/-- `str.strip()`. -/
def pyStrip (s : List Char) : List Char :=
  ((s.dropWhile pyIsSpace).reverse.dropWhile pyIsSpace).reverse

/-- Python `a + b` on parsed values: numbers add, strings concatenate, mixing is a `TypeError`. -/
def Val.add [Add K] : Val K → Val K → Except PyErr (Val K)
  | .num a, .num b => .ok (.num (a + b))
  | .str a, .str b => .ok (.str (a ++ b))
  | _, _ => .error .typeError

/-- Python `a / c` with a number `c`. -/
def Val.divNum [Div K] (c : K) : Val K → Except PyErr K
  | .num a => .ok (a / c)
  | .str _ => .error .typeError

/-- `cmd in line_dict`. -/
def hasCmd (d : LineDict K) (c : Cmd) : Bool := (d.lookup c).isSome

/-- `line_dict[cmd]` for a command that takes arguments, `none` if absent. (For such commands the
parser always stores a dictionary, so the second branch is never taken for parsed lines.) -/
def cmdArgs (d : LineDict K) (c : Cmd) : Option (List (Char × Val K)) :=
  match d.lookup c with
  | some (.args l) => some l
  | some (.val _) => some []
  | none => none

/-- `line_dict[cmd][letter]` if present. -/
def word (d : LineDict K) (c : Cmd) (l : Char) : Option (Val K) :=
  (cmdArgs d c).bind (·.lookup l)

section Step
variable [Add K]

/-- state_generator.py:293-297 (X, Y, Z) and 300-304 (E): one axis word of a move command; `abs` is
the mode in force for that axis. -/
def moveAxis (abs : Bool) (w : Option (Val K)) (old : Val K) : Except PyErr (Val K) :=
  match w with
  | none => .ok old
  | some v => if abs then .ok v else old.add v

/-- `if cmd in line_dict: …`. -/
def onCmd (d : LineDict K) (c : Cmd) (f : VM K → VM K) (vm : VM K) : VM K :=
  if hasCmd d c then f vm else vm

/-- state_generator.py:268-284: positioning mode, extrusion mode and unit flag. -/
def stepModes (vm : VM K) (d : LineDict K) : VM K :=
  vm |> onCmd d .G90 (fun vm => { vm with absPos := true })
    |> onCmd d .G91 (fun vm => { vm with absPos := false })
    |> onCmd d .M82 (fun vm => { vm with absExt := true })
    |> onCmd d .M83 (fun vm => { vm with absExt := false })
    |> onCmd d .G20 (fun vm => { vm with units := .inch })
    |> onCmd d .G21 (fun vm => { vm with units := .SImm })

variable [Div K] [OfNat K 60] [OfNat K 1000]

/-- state_generator.py:290-306: one of `G0`, `G1`. -/
def stepMove (d : LineDict K) (c : Cmd) (vm : VM K) : Except PyErr (VM K) := do
  let x ← moveAxis vm.absPos (word d c 'X') (vm.pos .X)
  let y ← moveAxis vm.absPos (word d c 'Y') (vm.pos .Y)
  let z ← moveAxis vm.absPos (word d c 'Z') (vm.pos .Z)
  let e ← moveAxis vm.absExt (word d c 'E') (vm.pos .E)
  let f ← match word d c 'F' with
    | none => .ok vm.pVel
    | some v => v.divNum 60
  .ok { vm with
    pos := fun | .X => x | .Y => y | .Z => z | .E => e
    pVel := f }

/-- state_generator.py:309-315, one axis of `G92`: returns the new (`K`, `_K`) entries. -/
def setPosAxis (w : Option (Val K)) (cur off : Val K) : Except PyErr (Val K × Val K) :=
  match w with
  | none => .ok (cur, off)
  | some v => do
    let s ← cur.add v
    let o ← s.add off
    .ok (v, o)

/-- state_generator.py:309-315: `G92`. -/
def stepSetPos (d : LineDict K) (vm : VM K) : Except PyErr (VM K) := do
  let x ← setPosAxis (word d .G92 'X') (vm.pos .X) (vm.off .X)
  let y ← setPosAxis (word d .G92 'Y') (vm.pos .Y) (vm.off .Y)
  let z ← setPosAxis (word d .G92 'Z') (vm.pos .Z) (vm.off .Z)
  let e ← setPosAxis (word d .G92 'E') (vm.pos .E) (vm.off .E)
  .ok { vm with
    pos := fun | .X => x.1 | .Y => y.1 | .Z => z.1 | .E => e.1
    off := fun | .X => x.2 | .Y => y.2 | .Z => z.2 | .E => e.2 }

/-- state_generator.py:318-329: `M204 P`, `M203`, `M205 X`. -/
def stepSettings (d : LineDict K) (vm : VM K) : VM K :=
  { vm with
    pAcc := (word d .M204 'P').getD vm.pAcc
    vAx := fun a => (word d .M203 a.letter).getD (vm.vAx a)
    jerk := (word d .M205 'X').getD vm.jerk }

/-- state_generator.py:332-337: dwell. -/
def pauseOf (d : LineDict K) : Except PyErr (Option (Val K)) := do
  let p ← match word d .G4 'P' with
    | none => .ok none
    | some v => (v.divNum 1000).map fun r => some (.num r)
  match word d .G4 'S' with
  | none => .ok p
  | some v => .ok (some v)

/-- state_generator.py:267-337: everything a line does to `virtual_machine`, `G0` before `G1` before
`G92` whatever their order in the text. -/
def vmStep (vm : VM K) (d : LineDict K) : Except PyErr (VM K) := do
  let vm ← stepMove d .G0 (stepModes vm d)
  let vm ← stepMove d .G1 vm
  let vm ← stepSetPos d vm
  .ok (stepSettings d vm)

/-- `virtual_machine[a] + virtual_machine["_" + a]`, which must be a number to become a coordinate.
(A string coordinate always meets a numeric offset here, hence a `TypeError`.) -/
def coord (vm : VM K) (a : Axis) : Except PyErr K :=
  match vm.pos a, vm.off a with
  | .num p, .num o => .ok (p + o)
  | _, _ => .error .typeError

/-- state_generator.py:242-247 and 339-344: the position stored in a state. -/
def vmPosition (vm : VM K) : Except PyErr (Vec4 K) := do
  let x ← coord vm .X
  let y ← coord vm .Y
  let z ← coord vm .Z
  let e ← coord vm .E
  .ok ⟨x, y, z, e⟩

/-- state_generator.py:346-355: the settings stored in a state. -/
def vmSettings (vm : VM K) : PSettings K :=
  { speed := vm.pVel, pAcc := vm.pAcc, jerk := vm.jerk, vAx := vm.vAx, units := vm.units }

/-- state_generator.py:359: the stripped comment. -/
def commentOf (d : LineDict K) : Option (List Char) :=
  match d.lookup .comment with
  | some (.val (.str s)) => some (pyStrip s)
  | _ => none

/-- state_generator.py:362-365: the layer counter after this line. -/
def layerStep (cue : Option (List Char)) (counter : Nat) (d : LineDict K) : Nat :=
  if cue.isSome ∧ commentOf d = cue then counter + 1 else counter

/-- state_generator.py:267-378, the loop over all lines. `n` is the number of states so far (so the
state for this line gets index `n`, line number `n`, and `state_list[-1]` has index `n - 1`);
`isLast` decides the forward link, which Python sets when the following state is appended. -/
def travelLoop (cue : Option (List Char)) :
    Nat → Nat → VM K → List (LineDict K) → Except PyErr (List (GState K))
  | _, _, _, [] => .ok []
  | n, counter, vm, d :: ds => do
    let vm' ← vmStep vm d
    let pause ← pauseOf d
    let p ← vmPosition vm'
    let counter' := layerStep cue counter d
    let s : GState K :=
      { position := p
        settings := vmSettings vm'
        lineNumber := some n
        comment := commentOf d
        layer := if cue.isSome then some counter' else none
        pause := pause
        prev := some (n - 1)
        next := if ds.isEmpty then none else some (n + 1) }
    let rest ← travelLoop cue (n + 1) counter' vm' ds
    .ok (s :: rest)

/-- state_generator.py:212-239: the initial `virtual_machine`. -/
def initVM [OfNat K 0] (m : Machine K) : VM K :=
  { pos := fun a => .num (m.pos a), off := fun _ => .num 0, absPos := m.absPos,
    absExt := m.absExt, units := m.units, pVel := m.pVel, pAcc := .num m.pAcc,
    jerk := .num m.jerk, vAx := fun a => .num (m.vAx a) }

/-- state_generator.py:261: `"Initial state created by pyGCD."` -/
def initialComment : List Char := "Initial state created by pyGCD.".toList

/-- state_generator.py:198-378 `dict_list_traveler`. -/
def dictListTraveler [OfNat K 0] (m : Machine K) (ds : List (LineDict K)) :
    Except PyErr (List (GState K)) := do
  let vm := initVM m
  let p ← vmPosition vm
  let s : GState K :=
    { position := p
      settings := { vmSettings vm with units := .SImm }  -- line 249-257: units not passed
      lineNumber := none
      comment := some initialComment
      layer := none
      pause := none
      prev := none
      next := if ds.isEmpty then none else some 1 }
  let rest ← travelLoop m.layerCue 1 0 vm ds
  .ok (s :: rest)

/-- state_generator.py:412-426 `generate_states`, from the decoded content of the file. (The warning
about unsupported commands is `checkUnsupported`; it does not influence the result.) -/
def generateStates [OfNat K 0] (pf : List Char → Option K) (m : Machine K) (content : List Char) :
    Except PyErr (List (GState K)) := do
  let ds ← readLines pf (fileLines content)
  dictListTraveler m ds

end Step
end PyGCD
