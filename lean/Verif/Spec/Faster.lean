import Verif.Spec.Optimal

/-!
# Specification of raised limits
-/

namespace PyGCD.Spec
open PyGCD

/-- State `s'` asks for the same as `s`, on a machine that may do more: same place, same pause, and no lower
acceleration, jerk or feedrate. With `marlin_jerk` and `MKA`, where the corner speed depends on both feedrates,
the feedrate is the same; jerk zero means no limit with `marlin_jerk`, so it stays zero. -/
structure Raised (fw : Firmware) (s s' : PState ℝ) : Prop where
  position : s'.position = s.position
  pause : s'.pause = s.pause
  acc : s.pAcc ≤ s'.pAcc
  jerk : s.jerk ≤ s'.jerk
  speed : s.speed ≤ s'.speed
  sameSpeed : fw = .marlinJerk ∨ fw = .mka → s'.speed = s.speed
  unlimited : fw = .marlinJerk → s.jerk = 0 → s'.jerk = 0

end PyGCD.Spec
