import Verif.Spec.Idle

/-!
# Specification of files that follow the same path in opposite directions
-/

namespace PyGCD.Spec
open PyGCD

/-- The printers go the same way in opposite directions, without waits; one is at `p` before, the other one at `p'`. Feedrates and
accelerations belong to the steps. The jerk is `J` everywhere. -/
structure Retraced (p : Vec4 ℝ) (l : List Doing) (p' : Vec4 ℝ) (l' : List Doing) (J : ℝ) : Prop where
  places : p' :: l'.map Doing.place = (p :: l.map Doing.place).reverse
  feeds : l'.map Doing.feed = (l.map Doing.feed).reverse
  accs : l'.map Doing.acc = (l.map Doing.acc).reverse
  jerk : ∀ x ∈ l ++ l', x.jerk = J
  wait : ∀ x ∈ l ++ l', x.wait = none

end PyGCD.Spec
