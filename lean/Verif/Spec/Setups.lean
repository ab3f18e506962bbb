import Verif.Model.Setup
import Verif.Proofs.RealLemmas

/-!
# Specification of the setup object: a book of what was set

Nothing here refers to how dictionaries are updated.
-/

namespace PyGCD.Spec
open PyGCD

/-- A call on a setup object. -/
inductive SetupOp where
  | select (name : String)
  | setProps (props : Dict (SVal ℝ))
  | setPos (a : PosArg ℝ) (unit : Option String)
  | read

/-- Is it a call of `get_dict`? -/
def SetupOp.isRead : SetupOp → Bool
  | .read => true
  | _ => false

/-- Python dictionaries have no key twice. -/
def SetupOp.WellFormed : SetupOp → Prop
  | .setProps props => (props.map Prod.fst).Nodup
  | .setPos (.dict d) _ => (d.map Prod.fst).Nodup ∧ ∀ k ∈ d.map Prod.fst, k ∈ ["X", "Y", "Z", "E"]
  | _ => True

/-- What is remembered of the calls: the selected printer, for every printer the last value given for every
property, and the initial position in millimetres. -/
structure Book where
  selected : Option String
  props : String → String → Option (SVal ℝ)
  pos : String → ℝ

/-- Millimetres per unit. -/
noncomputable def mmPer (u : String) : Option ℝ :=
  if u = "SI" then some 1000 else if u = "SImm" then some 1 else if u = "inch" then some 25.4 else none

open Classical in
/-- The bookkeeping of one call. Calls that fail change nothing. -/
noncomputable def Book.note (presets : Dict (Dict (SVal ℝ))) (bk : Book) : SetupOp → Book
  | .select n => if (presets.lookup n).isSome then { bk with selected := some n } else bk
  | .setProps props =>
    match bk.selected with
    | none => bk
    | some p => { bk with props := fun q k => if q = p then (props.lookup k).or (bk.props q k) else bk.props q k }
  | .setPos a u =>
    match mmPer (u.getD "SImm"), a with
    | some f, .tuple [x, y, z, e] =>
      { bk with
        pos := fun k => f * (if k = "X" then x else if k = "Y" then y else if k = "Z" then z else e) }
    | some f, .dict d =>
      if ∀ k ∈ ["X", "Y", "Z", "E"], (d.lookup k).isSome then { bk with pos := fun k => f * (d.lookup k).getD 0 }
      else bk
    | _, _ => bk
  | .read => bk

/-- The value a setup dictionary should have under a key: name and given layer cue first, then the initial
position, then the set properties, then the presets. -/
def Book.wanted (presets : Dict (Dict (SVal ℝ))) (cue : Option String) (bk : Book) (p k : String) :
    Option (SVal ℝ) :=
  if k = "printer_name" then some (.text p)
  else if k = "layer_cue" ∧ cue.isSome then cue.map .text
  else if k ∈ ["X", "Y", "Z", "E"] then some (.num (bk.pos k))
  else (bk.props p k).or ((presets.lookup p).bind fun d => d.lookup k)

/-- The junction handling that a firmware entry asks for. -/
def firmwareFor : Option (SVal ℝ) → Firmware
  | some (.text f) =>
    if f = "marlin_jd" then .marlinJd
    else if f = "klipper" then .klipper
    else if f = "marlin_jerk" then .marlinJerk
    else if f = "MKA" then .mka
    else .default
  | _ => .default

/-- The machine parameters are those of the setup dictionary; positions are absolute, lengths in
millimetres. -/
structure MachineOf (d : Dict (SVal ℝ)) (m : Machine ℝ) : Prop where
  x : d.lookup "X" = some (.num (m.pos .X))
  y : d.lookup "Y" = some (.num (m.pos .Y))
  z : d.lookup "Z" = some (.num (m.pos .Z))
  e : d.lookup "E" = some (.num (m.pos .E))
  pVel : d.lookup "p_vel" = some (.num m.pVel)
  pAcc : d.lookup "p_acc" = some (.num m.pAcc)
  jerk : d.lookup "jerk" = some (.num m.jerk)
  vX : d.lookup "vX" = some (.num (m.vAx .X))
  vY : d.lookup "vY" = some (.num (m.vAx .Y))
  vZ : d.lookup "vZ" = some (.num (m.vAx .Z))
  vE : d.lookup "vE" = some (.num (m.vAx .E))
  cue : ∀ c : String, d.lookup "layer_cue" = some (.text c) → m.layerCue = some c.toList
  noCue : d.lookup "layer_cue" = none ↔ m.layerCue = none
  otherCue : ∀ v, d.lookup "layer_cue" = some v → (∀ c, v ≠ .text c) → ∃ c, m.layerCue = some ('\n' :: c)
  abs : m.absPos = true ∧ m.absExt = true ∧ m.units = .SImm

/-- The planner's view `p` of a state `g` has the same numbers. -/
structure SameNumbers (g : GState ℝ) (p : PState ℝ) : Prop where
  position : p.position = g.position
  speed : p.speed = g.settings.speed
  pAcc : g.settings.pAcc = .num p.pAcc
  jerk : g.settings.jerk = .num p.jerk
  pause : g.pause = p.pause.map .num
  layer : p.layer = g.layer

end PyGCD.Spec
