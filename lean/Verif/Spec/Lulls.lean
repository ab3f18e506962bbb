import Verif.Spec.Pace
import Mathlib.Analysis.Real.Sqrt

/-!
# Times that no segment of a plan covers
-/

namespace PyGCD.Spec
open PyGCD

/-- The longest time between two segments, if the second one is for a move with feedrate `F` and acceleration `a`: what
the acceleration takes for a way too short to be seen in the coordinates of doubles, what the feedrate takes for such a
way, and the rounding of times. -/
noncomputable def lull (F a : ℝ) : ℝ := 2.5e-5 / √a + 1e-9 / F + 2e-9

end PyGCD.Spec
