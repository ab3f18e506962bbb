import Verif.Spec.Times

/-!
# Specification of motions from rest to rest: closed formulas for positions and velocities

Nothing here refers to the planner.
-/

namespace PyGCD.Spec
open PyGCD

/-- The way covered a time `x` after the begin of a move from rest to rest of the length `D`, with the feedrate `v` and
the acceleration `a`: accelerate to the top speed `w`, drive with it, brake. -/
noncomputable def restWay (a v D x : ℝ) : ℝ :=
  let w := min v √(a * D)
  let T := D / w + w / a
  if x ≤ 0 then 0
  else if x ≤ w / a then a * x ^ 2 / 2
  else if x ≤ D / w then w * x - w ^ 2 / (2 * a)
  else if x ≤ T then D - a * (T - x) ^ 2 / 2
  else D

/-- The speed a time `x` after the begin of such a move. -/
noncomputable def restSpeed (a v D x : ℝ) : ℝ :=
  let w := min v √(a * D)
  let T := D / w + w / a
  max 0 (min w (min (a * x) (a * (T - x))))

/-- Position and velocity a time `x` after the begin of an action when every move begins and ends at rest. -/
noncomputable def restPoint : Option (PState ℝ) × PState ℝ → ℝ → Vec4 ℝ × Vec4 ℝ
  | (none, B), _ => (B.position, Vec4.zero)
  | (some A, B), x =>
    match B.pause with
    | some _ => (A.position, Vec4.zero)
    | none =>
      let L := moveLength A.position B.position
      let way := B.position.sub A.position
      (A.position.add (way.mul (restWay B.pAcc B.speed L x / L)), way.mul (restSpeed B.pAcc B.speed L x / L))

/-- Position and velocity a time `t` after the begin of a sequence of actions, one after the other; `none` after the
end. -/
noncomputable def restMotion : List (Option (PState ℝ) × PState ℝ) → ℝ → Option (Vec4 ℝ × Vec4 ℝ)
  | [], _ => none
  | a :: acts, t => if t ≤ restTime a then some (restPoint a t) else restMotion acts (t - restTime a)

end PyGCD.Spec
