import Verif.Spec.Files

/-!
# Specification of the plain files that can be simulated

In terms of what the lines make a printer do. Nothing here refers to the parser, the state machine or the planner.
-/

namespace PyGCD.Spec
open PyGCD

section
variable (pf : List Char → Option ℝ)

/-- The printer after some lines. -/
noncomputable def Printer.after (q : Printer) (ls : List Line) : Printer := ls.foldl (Printer.exec pf) q

/-- Some line makes the printer travel: the place changes, and the feedrate is not zero. -/
def Drives (q : Printer) (ls : List Line) : Prop :=
  ∃ pre l post, ls = pre ++ l :: post ∧ ((q.after pf pre).exec pf l).point ≠ (q.after pf pre).point ∧
    0 < ((q.after pf pre).exec pf l).feed

/-- Every wait is not negative and comes after a line that makes the printer travel. -/
def WaitsFollow (q : Printer) (ls : List Line) : Prop :=
  ∀ pre l post, ls = pre ++ l :: post → ∀ v ∈ l.wait pf, 0 ≤ v ∧ Drives pf q pre

/-- The settings make sense: feedrates are not negative, accelerations are positive, jerk is not negative. -/
structure Decent (q : Printer) (ls : List Line) : Prop where
  settings : 0 ≤ q.feed ∧ 0 < q.acc ∧ 0 ≤ q.jerk
  feed : ∀ l ∈ ls, l.cmd = some .G0 ∨ l.cmd = some .G1 → ∀ v ∈ l.value pf 'F', 0 ≤ v
  acc : ∀ l ∈ ls, l.cmd = some .M204 → ∀ v ∈ l.value pf 'P', 0 < v
  jerk : ∀ l ∈ ls, l.cmd = some .M205 → ∀ v ∈ l.value pf 'X', 0 ≤ v

end
end PyGCD.Spec
