import Verif.Spec.Drawings

/-!
# Specification of curves over time

Nothing here refers to how the samples are gathered.
-/

namespace PyGCD.Spec
open PyGCD

/-- The point `q` lies on the curve that joins consecutive points by straight lines. -/
def Plotted (pts : List (ℝ × ℝ)) (q : ℝ × ℝ) : Prop :=
  ∃ i a b, pts[i]? = some a ∧ pts[i + 1]? = some b ∧ OnLine (a, b) q

/-- `f` reads the coordinate that belongs to an axis name. -/
def AxisOf (a : String) (f : Vec4 ℝ → ℝ) : Prop :=
  (a = "x" ∧ f = Vec4.x) ∨ (a = "y" ∧ f = Vec4.y) ∨ (a = "z" ∧ f = Vec4.z) ∨ (a = "e" ∧ f = Vec4.e)

/-- A choice of axes: known names, none twice. -/
def Axes (axis : List String) : Prop := axis.Nodup ∧ ∀ a ∈ axis, a = "x" ∨ a = "y" ∨ a = "z" ∨ a = "e"

/-- The junction velocity drawn for a block: the velocity at its end is a fraction of it. -/
structure Mark (b : Block ℝ) (tj : ℝ × Vec4 ℝ) : Prop where
  time : ∃ s, b.segments.getLast? = some s ∧ tj.1 = s.tEnd ∧ ∃ c, 0 ≤ c ∧ c ≤ 1 ∧ s.velEnd = tj.2.mul c
  feed : tj.2.norm3 ≤ b.stateB.speed

end PyGCD.Spec
