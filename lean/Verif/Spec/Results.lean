import Verif.Spec.Timeline
import Mathlib.MeasureTheory.Integral.IntervalIntegral.Basic

/-!
# Specification of the velocity error of a segment
-/

namespace PyGCD.Spec
open PyGCD

/-- `f` is the travel speed in the segment. -/
def SpeedOf (s : Segment ℝ) (f : ℝ → ℝ) : Prop := ∀ t, Covers s t → ∃ v, s.getVelocity t = .ok v ∧ f t = v.norm3

/-- The relative velocity error, integrated along the way. `f` is the speed; `f t * dt` is the way in the time `dt`. -/
noncomputable def errorOnTheWay (s : Segment ℝ) (f : ℝ → ℝ) (vTarget : ℝ) : ℝ :=
  ∫ t in s.tBegin..s.tEnd, (vTarget - f t) / vTarget * f t

end PyGCD.Spec
