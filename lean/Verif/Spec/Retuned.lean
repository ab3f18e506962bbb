import Verif.Spec.Idle

/-!
# Specification of what a file does with other sizes and settings
-/

namespace PyGCD.Spec
open PyGCD

/-- The same with all places multiplied by `c`, the feedrate by `f`, the acceleration by `g` and the jerk by `j`. Waits stay as
they are. -/
noncomputable def Doing.tuned (c f g j : ℝ) (x : Doing) : Doing := ⟨x.place.mul c, x.feed * f, x.acc * g, x.jerk * j, x.wait⟩

end PyGCD.Spec
