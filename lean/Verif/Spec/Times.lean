import Verif.Spec.Motion
import Verif.Spec.Programs

/-!
# Specification of durations: closed formulas for the time of moves and programs

Nothing here refers to the planner.
-/

namespace PyGCD.Spec
open PyGCD

/-- The top speed of a move of length `d` that accelerates and brakes with `a`, begins with speed `v`, ends
with speed `v'` and respects the feedrate `vT`. -/
noncomputable def topSpeed (a vT d v v' : ℝ) : ℝ := min vT √(a * d + (v ^ 2 + v' ^ 2) / 2)

/-- The duration of such a move: accelerate to the top speed and brake from it, and drive at top speed the
part of the distance that this leaves. -/
noncomputable def moveTime (a vT d v v' : ℝ) : ℝ :=
  let w := topSpeed a vT d v v'
  (w - v) / a + (w - v') / a + (d - ((w ^ 2 - v ^ 2) / (2 * a) + (w ^ 2 - v' ^ 2) / (2 * a))) / w

/-- The time of one action of a program when every move begins and ends at rest. -/
noncomputable def restTime : Option (PState ℝ) × PState ℝ → ℝ
  | (pa, B) =>
    match B.pause, pa with
    | some p, _ => p
    | none, some A => moveTime B.pAcc B.speed (moveLength A.position B.position) 0 0
    | none, none => 0

end PyGCD.Spec
