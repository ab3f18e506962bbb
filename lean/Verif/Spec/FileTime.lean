import Verif.Spec.Runnable
import Verif.Spec.Motion

/-!
# Specification of the estimate of a print time from the lines of a G-code file

Nothing here refers to states of the simulation or to the planner.
-/

namespace PyGCD.Spec
open PyGCD

section
variable (pf : List Char → Option ℝ)

/-- What a line would take if the printer had its feedrate at once: the wait, or the length by the feedrate. With feedrate
zero the printer does not move. -/
noncomputable def lineTime (q : Printer) (l : Line) : ℝ :=
  match l.wait pf with
  | some v => v
  | none =>
    if 0 < (q.exec pf l).feed then moveLength q.point (q.exec pf l).point / (q.exec pf l).feed else 0

/-- What the lines would take if the printer had its feedrate at once. -/
noncomputable def fileTime (q : Printer) : List Line → ℝ
  | [] => 0
  | l :: ls => lineTime pf q l + fileTime (q.exec pf l) ls

open Classical in
/-- The time from rest to the feedrate, for a line that moves the printer. -/
noncomputable def lineRamp (q : Printer) (l : Line) : ℝ :=
  if (q.exec pf l).point ≠ q.point ∧ l.wait pf = none then (q.exec pf l).feed / (q.exec pf l).acc else 0

/-- One ramp for every line that moves the printer. -/
noncomputable def fileRamps (q : Printer) : List Line → ℝ
  | [] => 0
  | l :: ls => lineRamp pf q l + fileRamps (q.exec pf l) ls

/-- How much the planner's tolerance of `1e-12` mm/s at each junction may matter for the print time of a file. -/
noncomputable def fileSlack (q : Printer) (ls : List Line) : ℝ :=
  7e-12 * (ls.length + 1) * (1 / q.acc + ((q.run pf ls).map fun x => 1 / x.1.acc).sum)

end
end PyGCD.Spec
