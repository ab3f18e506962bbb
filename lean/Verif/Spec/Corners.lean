import Verif.Proofs.RealLemmas
import Verif.Model.Junction
import Mathlib.Analysis.SpecialFunctions.Trigonometric.Inverse

/-!
# Specification of corners: turning angle, next move, and how fast a firmware takes a corner
-/

namespace PyGCD.Spec
open PyGCD Real

/-- Scalar product of the travel parts. -/
def dot3 (a b : Vec4 ℝ) : ℝ := a.x * b.x + a.y * b.y + a.z * b.z

/-- The angle by which the direction of travel turns at `B` on the way from `A` over `B` to `C`: `0` is
straight on, `π` is back. -/
noncomputable def turn (A B C : Vec4 ℝ) : ℝ :=
  arccos (dot3 (B.sub A) (C.sub B) / ((B.sub A).norm3 * (C.sub B).norm3))

/-- After state `B` the program `rest` first changes the position by going to state `C`. -/
def NextMove (B : PState ℝ) (rest : List (PState ℝ)) (C : PState ℝ) : Prop :=
  ∃ pre post, rest = pre ++ C :: post ∧ (∀ s ∈ pre, s.position = B.position) ∧ C.position ≠ B.position

/-- Corner speed of Marlin with junction deviation: full speed up to 18 degrees, standstill from 162 degrees
on, and in between the speed of a circle whose deviation from the corner is `0.4 jerk² / acc`, with
centripetal acceleration `acc` (which cancels). -/
noncomputable def marlinJd (speed jerk φ : ℝ) : ℝ :=
  if jerk = 0 ∨ 9 * π / 10 ≤ φ then 0
  else if φ ≤ π / 10 then speed
  else min speed (jerk * √(0.4 * cos (φ / 2) / (1 - cos (φ / 2))))

/-- Angles below this one count as straight on for Klipper (about 0.08 degrees). -/
noncomputable def klipperLeast : ℝ := arccos 0.999999

/-- Corner speed of Klipper: `jerk` is the speed for a right angle; the approximating circle must not touch the
next move behind its middle. -/
noncomputable def klipper (speed acc jerk next φ : ℝ) : ℝ :=
  if π - klipperLeast < φ then 0
  else
    min speed (min
      (jerk * √((√2 - 1) * cos (max φ klipperLeast / 2) / (1 - cos (max φ klipperLeast / 2))))
      (√(acc * next / (2 * tan (max φ klipperLeast / 2)))))

/-- Length of the difference of two velocities with speeds `v`, `w` and angle `φ` between them. -/
noncomputable def jump (v w φ : ℝ) : ℝ := √(v ^ 2 + w ^ 2 - 2 * v * w * cos φ)

/-- Corner speed of Marlin with classic jerk: the feedrate, scaled such that a velocity change at feedrate of
more than `2 jerk` becomes `2 jerk`. -/
noncomputable def marlinJerk (speed next jerk φ : ℝ) : ℝ :=
  if 0 < jerk ∧ 2 * jerk ≤ jump speed next φ then speed * (2 * jerk / jump speed next φ) else speed

/-- The change of one axis from velocity `a` to `b`, as MKA measures it: the difference if the axis keeps its
direction, otherwise the faster of the two speeds. -/
noncomputable def axisJump (a b : ℝ) : ℝ := if 0 < a * b then |a - b| else max |a| |b|

/-- The factor `f`, reduced if an axis that changes by `J` would still change by more than `jerk`. -/
noncomputable def cap (jerk f J : ℝ) : ℝ := if f * J ≤ jerk then f else jerk / J

/-- Corner speed of MKA from the changes of the four axes: the speed is reduced for each axis in turn, by the
factor that is left after the axes so far. -/
noncomputable def mka (speed jerk jx jy jz je : ℝ) : ℝ :=
  let fx := cap jerk 1 jx
  let fy := cap jerk fx jy
  let fz := cap jerk fy jz
  let fe := cap jerk fz je
  speed * fx * fy * fz * fe

end PyGCD.Spec
