import Verif.Model.Parser

/-!
# The command language: names and argument letters

Written down a second time, independently of the tables of the model, after the Marlin reference that the
tool follows. Only the type of command tags is shared with the model.
-/

namespace PyGCD.Spec
open PyGCD

/-- The name of a command as it is written in a file. -/
def name : Cmd → List Char
  | .G0 => "G0".toList
  | .G1 => "G1".toList
  | .G2 => "G2".toList
  | .G3 => "G3".toList
  | .G4 => "G4".toList
  | .G10 => "G10".toList
  | .G11 => "G11".toList
  | .G20 => "G20".toList
  | .G21 => "G21".toList
  | .G28 => "G28".toList
  | .G29 => "G29".toList
  | .G90 => "G90".toList
  | .G91 => "G91".toList
  | .G92 => "G92".toList
  | .M82 => "M82".toList
  | .M83 => "M83".toList
  | .M203 => "M203".toList
  | .M204 => "M204".toList
  | .M205 => "M205".toList
  | .comment => ";".toList

/-- The command takes the argument `c`. -/
def Takes (k : Cmd) (c : Char) : Prop :=
  match k with
  | .G0 | .G1 => c ∈ "XYZEF".toList
  | .G2 | .G3 => c ∈ "XYEFIJPRS".toList
  | .G4 => c ∈ "PS".toList
  | .G10 => c ∈ "S".toList
  | .G28 => c ∈ "LORXYZ".toList
  | .G29 => c ∈ "ABCDEFHIJKLPQRSTUVWXY".toList
  | .G92 | .M203 => c ∈ "XYZE".toList
  | .M204 => c ∈ "PRST".toList
  | .M205 => c ∈ "EJSXYZ".toList
  | .G11 | .G20 | .G21 | .G90 | .G91 | .M82 | .M83 | .comment => False

/-- Commands that are recognised but not simulated: arcs, firmware retraction, homing, bed levelling. -/
def Unsupported (k : Cmd) : Prop :=
  k = .G2 ∨ k = .G3 ∨ k = .G10 ∨ k = .G11 ∨ k = .G28 ∨ k = .G29

/-- The names agree with the table of the model. -/
theorem name_eq (k : Cmd) : name k = k.chars := by cases k <;> rfl

/-- The argument letters agree with the table of the model. -/
theorem takes_iff (k : Cmd) (c : Char) : Takes k c ↔ ∃ ls, k.table = some ls ∧ c ∈ ls := by
  cases k <;> simp [Takes, Cmd.table] <;> grind

/-- So do the unsupported commands. -/
theorem unsupported_iff (k : Cmd) : Unsupported k ↔ k ∈ Cmd.unsupported := by
  cases k <;> simp [Unsupported, Cmd.unsupported]

end PyGCD.Spec
