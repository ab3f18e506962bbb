import Verif.Spec.Usual
import Verif.Spec.Pace

/-!
# Being on the programmed path
-/

namespace PyGCD.Spec
open PyGCD

/-- A program with feedrates up to 100 m/s and accelerations up to 1000 km/s². -/
structure Calm (states : List (PState ℝ)) : Prop where
  speed : ∀ s ∈ states, s.speed ≤ 100000
  acc : ∀ s ∈ states, s.pAcc ≤ 1e9

/-- The position `p` is within `δ` of a point of the way from `A` to `B`, in x, y and z, and the filament is within `100 * δ`
of where it is at this point. -/
def OnWay (δ : ℝ) (p : Vec4 Dbl) (A B : Vec4 ℝ) : Prop :=
  ∃ x, 0 ≤ x ∧ x ≤ 1 ∧ |p.x.r - (A.x + x * (B.x - A.x))| ≤ δ ∧ |p.y.r - (A.y + x * (B.y - A.y))| ≤ δ ∧
    |p.z.r - (A.z + x * (B.z - A.z))| ≤ δ ∧ |p.e.r - (A.e + x * (B.e - A.e))| ≤ 100 * δ

/-- The velocity `v` points from `A` to `B`, with a speed that keeps the feedrate `F`. -/
def AlongWay (F a : ℝ) (v : Vec4 Dbl) (A B : Vec4 ℝ) : Prop :=
  ∃ s, 0 ≤ s ∧ WithinFeed F a s ∧ Near4 (1e-11 * (F + 10)) v ((B.sub A).mul (s / moveLength A B))

end PyGCD.Spec
