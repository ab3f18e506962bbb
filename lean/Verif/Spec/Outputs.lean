import Verif.Model.Basic
import Verif.Proofs.RealLemmas

/-!
# Specification vocabulary for outputs: runs in a list, and crossings of a box

Nothing here is used by the model.
-/

namespace PyGCD.Spec
open PyGCD

/-- `rs` are the maximal runs of elements with property `P` in a list: between them (and before and after)
are only elements without the property, and every run is followed by one, or by the end. -/
inductive Runs {α : Type} (P : α → Prop) : List α → List (List α) → Prop
  | done {gap : List α} (h : ∀ x ∈ gap, ¬ P x) : Runs P gap []
  | run {gap r rest : List α} {rs : List (List α)} (hgap : ∀ x ∈ gap, ¬ P x) (hne : r ≠ [])
      (hr : ∀ x ∈ r, P x) (hrest : ∀ x ∈ rest.head?, ¬ P x) (h : Runs P rest rs) :
      Runs P (gap ++ r ++ rest) (r :: rs)

/-- The points of a chain of segments with the speeds there: the begin of the first one, then all ends. -/
noncomputable def polyline : List (Segment ℝ) → List (Vec4 ℝ × ℝ)
  | [] => []
  | s :: ss => (s.posBegin, s.velBegin.norm3) :: (s :: ss).map fun x => (x.posEnd, x.velEnd.norm3)

/-- The point lies in the closed axis-parallel box with centre `o` and sides `d`. -/
def InBox (o d p : Vec4 ℝ) : Prop :=
  (o.x - d.x / 2 ≤ p.x ∧ p.x ≤ o.x + d.x / 2) ∧ (o.y - d.y / 2 ≤ p.y ∧ p.y ≤ o.y + d.y / 2) ∧
    (o.z - d.z / 2 ≤ p.z ∧ p.z ≤ o.z + d.z / 2)

/-- Along one axis, the line from coordinate `a` to `b` meets the upper or lower face of the box at the
coordinate `q`; it enters iff it runs towards the inside. Lines almost parallel to the face do not count. -/
def OnFace (o d a b q : ℝ) (enters : Bool) : Prop :=
  1e-6 < |b - a| ∧ ((q = o + d / 2 ∧ (enters = true ↔ b < a)) ∨ (q = o - d / 2 ∧ (enters = true ↔ a < b)))

/-- The straight line from `A` to `B` meets the surface of the box in the point with the fraction `c`. -/
def Crossing (o d A B : Vec4 ℝ) (c : ℝ) (enters : Bool) : Prop :=
  0 ≤ c ∧ c ≤ 1 ∧ InBox o d (A.add ((B.sub A).mul c)) ∧
    (OnFace o.x d.x A.x B.x (A.x + (B.x - A.x) * c) enters ∨
      OnFace o.y d.y A.y B.y (A.y + (B.y - A.y) * c) enters ∨
      OnFace o.z d.z A.z B.z (A.z + (B.z - A.z) * c) enters)

/-- The point lies on the surface of the box. -/
def Surface (o d p : Vec4 ℝ) : Prop :=
  InBox o d p ∧ (p.x = o.x + d.x / 2 ∨ p.x = o.x - d.x / 2 ∨ p.y = o.y + d.y / 2 ∨ p.y = o.y - d.y / 2 ∨
    p.z = o.z + d.z / 2 ∨ p.z = o.z - d.z / 2)

/-- The first point of the straight line from `A` to `B` that lies in the box has the fraction `f`. -/
def FirstIn (o d A B : Vec4 ℝ) (f : ℝ) : Prop :=
  0 ≤ f ∧ f ≤ 1 ∧ InBox o d (A.add ((B.sub A).mul f)) ∧
    ∀ g, 0 ≤ g → g < f → ¬ InBox o d (A.add ((B.sub A).mul g))

/-- The last point of the straight line from `A` to `B` that lies in the box has the fraction `f`. -/
def LastIn (o d A B : Vec4 ℝ) (f : ℝ) : Prop :=
  0 ≤ f ∧ f ≤ 1 ∧ InBox o d (A.add ((B.sub A).mul f)) ∧
    ∀ g, f < g → g ≤ 1 → ¬ InBox o d (A.add ((B.sub A).mul g))

/-- Along every axis along which `p` lies beside the box, `p` and `q` differ by more than `1e-6`. -/
def Steep (o d p q : Vec4 ℝ) : Prop :=
  (p.x < o.x - d.x / 2 ∨ o.x + d.x / 2 < p.x → 1e-6 < |q.x - p.x|) ∧
    (p.y < o.y - d.y / 2 ∨ o.y + d.y / 2 < p.y → 1e-6 < |q.y - p.y|) ∧
    (p.z < o.z - d.z / 2 ∨ o.z + d.z / 2 < p.z → 1e-6 < |q.z - p.z|)

/-- The straight line from `A` to `B` meets the upper (lower) face of the box normal to the axis `ax`, entering
or leaving. -/
def FaceMet (o d A B : Vec4 ℝ) (ax : Vec4 ℝ → ℝ) (upper enters : Bool) : Prop :=
  ∃ f, 0 ≤ f ∧ f ≤ 1 ∧ InBox o d (A.add ((B.sub A).mul f)) ∧ 1e-6 < |ax B - ax A| ∧
    ax A + (ax B - ax A) * f = (if upper then ax o + ax d / 2 else ax o - ax d / 2) ∧
    (enters = true ↔ if upper then ax B < ax A else ax A < ax B)

open Classical in
/-- The number of faces which the straight line from `A` to `B` meets, entering or leaving. -/
noncomputable def facesMet (o d A B : Vec4 ℝ) (enters : Bool) : ℕ :=
  ([(Vec4.x, true), (Vec4.x, false), (Vec4.y, true), (Vec4.y, false), (Vec4.z, true), (Vec4.z, false)].filter
    fun f => decide (FaceMet o d A B f.1 f.2 enters)).length

end PyGCD.Spec
