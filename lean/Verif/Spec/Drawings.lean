import Verif.Spec.Timeline

/-!
# Specification of a drawing of the motion in the XY plane

Nothing here refers to how the points are interpolated.
-/

namespace PyGCD.Spec
open PyGCD

/-- A line of a drawing: its two end points. -/
abbrev Stroke := (ℝ × ℝ) × (ℝ × ℝ)

/-- The point lies on the line. -/
def OnLine (l : Stroke) (q : ℝ × ℝ) : Prop :=
  ∃ c, 0 ≤ c ∧ c ≤ 1 ∧ q.1 = l.1.1 + (l.2.1 - l.1.1) * c ∧ q.2 = l.1.2 + (l.2.2 - l.1.2) * c

/-- The point lies on one of the lines. -/
def Drawn (ls : List Stroke) (q : ℝ × ℝ) : Prop := ∃ l ∈ ls, OnLine l q

/-- Segment `s` is at time `t` over the point `q` and has the travel speed `v`. -/
def Over (s : Segment ℝ) (t : ℝ) (q : ℝ × ℝ) (v : ℝ) : Prop :=
  Covers s t ∧ ∃ p w, s.getPosition t = .ok p ∧ s.getVelocity t = .ok w ∧ q = (p.x, p.y) ∧ v = w.norm3

/-- The motion passes over the point. -/
def Passed (path : List (Segment ℝ)) (q : ℝ × ℝ) : Prop := ∃ s ∈ path, ∃ t v, Over s t q v

/-- The length of a line. -/
noncomputable def Stroke.length (l : Stroke) : ℝ := √((l.2.1 - l.1.1) ^ 2 + (l.2.2 - l.1.2) ^ 2)

end PyGCD.Spec
