import Verif.Spec.Cuts

/-!
# Specification of a path that is followed in the opposite direction
-/

namespace PyGCD.Spec
open PyGCD

/-- The programs `p` and `q` follow the same path in opposite directions. Positions and jerks belong to the
points of the path. Feedrates, accelerations and pauses belong to the steps between them, so the ones of the
first state, which is not reached by a step, do not matter. -/
structure Backwards (p q : List (PState ℝ)) : Prop where
  positions : q.map (·.position) = (p.map (·.position)).reverse
  jerks : q.map (·.jerk) = (p.map (·.jerk)).reverse
  speeds : q.tail.map (·.speed) = (p.tail.map (·.speed)).reverse
  accs : q.tail.map (·.pAcc) = (p.tail.map (·.pAcc)).reverse
  pauses : q.tail.map (·.pause) = (p.tail.map (·.pause)).reverse

/-- The jerk does not change while the printer stays where it is. -/
def SteadyJerk (states : List (PState ℝ)) : Prop :=
  states.IsChain fun A B => A.position = B.position → A.jerk = B.jerk

end PyGCD.Spec
