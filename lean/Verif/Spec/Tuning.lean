import Verif.Spec.Tasks

/-!
# Specification of resized and retuned programs

Nothing here refers to the planner.
-/

namespace PyGCD.Spec
open PyGCD

/-- The state with all places multiplied by `c`, the feedrate by `f`, the acceleration by `g` and the jerk by `j`. Pauses stay
as they are. -/
noncomputable def tuned (c f g j : ℝ) (s : PState ℝ) : PState ℝ :=
  { s with position := s.position.mul c, speed := s.speed * f, pAcc := s.pAcc * g, jerk := s.jerk * j }

/-- The seconds that a program pauses. The first state is where the machine is switched on; it asks for nothing. -/
noncomputable def pauseTime (states : List (PState ℝ)) : ℝ := (states.tail.map fun s => s.pause.getD 0).sum

/-- Factors that leave enough room for a motion stretched by `c` in space that runs `r` times as fast: feedrate, jerk and
acceleration are not exceeded. With `MKA` higher feedrates can mean slower corners, so the jerk has to go with them. -/
structure Room (fw : Firmware) (c f g j r : ℝ) : Prop where
  size : 0 < c
  rate : 0 < r
  speed : c * r ≤ f
  acc : c * r ^ 2 ≤ g
  jerk : c * r ≤ j
  both : fw = .mka → f ≤ j

end PyGCD.Spec
