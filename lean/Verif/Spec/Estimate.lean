import Verif.Spec.Executed

/-!
# Specification of the estimate of a print time from lengths and feedrates

Nothing here refers to the planner.
-/

namespace PyGCD.Spec
open PyGCD

/-- How long a step would take if the machine had its feedrate at once: length by feedrate, or the pause. -/
noncomputable def bareTime (x : Step) : ℝ :=
  match x.B.pause with
  | some p => p
  | none => moveLength x.src x.dst / x.B.speed

/-- The time from rest to the feedrate of a move. A pause needs none. -/
noncomputable def speedUpTime (x : Step) : ℝ :=
  match x.B.pause with
  | some _ => 0
  | none => x.B.speed / x.B.pAcc

/-- The move is long enough to reach its feedrate from rest and to brake to rest. -/
def LongEnough (x : Step) : Prop := x.B.pause = none → x.B.speed ^ 2 ≤ x.B.pAcc * moveLength x.src x.dst

/-- The estimate: what all steps of a program would take with the feedrate at once. -/
noncomputable def estimate (states : List (PState ℝ)) : ℝ := ((executed none none states).map bareTime).sum

/-- One ramp for every move of a program. -/
noncomputable def speedUpTimes (states : List (PState ℝ)) : ℝ := ((executed none none states).map speedUpTime).sum

end PyGCD.Spec
