import Verif.Model.Planner
import Verif.Proofs.RealLemmas

/-!
# Specification of motion: what it means to follow a straight line with bounded speed and the given
acceleration

Nothing here refers to how the planner computes its segments.
-/

namespace PyGCD.Spec
open PyGCD

/-- A chain of segments that runs from position `p` at time `t` with speed `v` along direction `u` to
position `p'` at time `t'` with speed `v'`: each segment begins where, when and as fast as the previous one
ended, takes positive time, has speeds between `0` and `vT`, its acceleration is `0`, `a` or `-a`, and the
distance covered is mean speed times duration. -/
inductive Ramp (u : Vec4 ℝ) (a vT : ℝ) : Vec4 ℝ → ℝ → ℝ → List (Segment ℝ) → Vec4 ℝ → ℝ → ℝ → Prop
  | nil (p : Vec4 ℝ) (t v : ℝ) : Ramp u a vT p t v [] p t v
  | cons {t t₁ v v₁ t' v' : ℝ} {p p₁ p' : Vec4 ℝ} {ss : List (Segment ℝ)}
      (hv : 0 ≤ v ∧ v ≤ vT) (hv₁ : 0 ≤ v₁ ∧ v₁ ≤ vT) (ht : t < t₁)
      (hacc : v₁ - v = 0 ∨ v₁ - v = a * (t₁ - t) ∨ v₁ - v = -a * (t₁ - t))
      (hpos : 0 < v + v₁)
      (hp : p₁ = p.add (u.mul ((v + v₁) / 2 * (t₁ - t))))
      (hrest : Ramp u a vT p₁ t₁ v₁ ss p' t' v') :
      Ramp u a vT p t v (⟨t, t₁, p, u.mul v, p₁, u.mul v₁⟩ :: ss) p' t' v'

/-- Full acceleration first, then cruising at the feedrate `vT`, then full braking; each phase is one segment or
missing. -/
def Profile (u : Vec4 ℝ) (a vT : ℝ) (segs : List (Segment ℝ)) : Prop :=
  ∃ up cruise down, segs = up ++ cruise ++ down ∧
    (∀ s ∈ up, s.velEnd = s.velBegin.add (u.mul (a * (s.tEnd - s.tBegin)))) ∧
    (∀ s ∈ cruise, s.velBegin = u.mul vT ∧ s.velEnd = u.mul vT) ∧
    (∀ s ∈ down, s.velBegin = s.velEnd.add (u.mul (a * (s.tEnd - s.tBegin)))) ∧
    up.length ≤ 1 ∧ cruise.length ≤ 1 ∧ down.length ≤ 1

/-- A direction: travel speed one, or pure extrusion with unit speed. -/
def UnitDir (u : Vec4 ℝ) (eOnly : Bool) : Prop :=
  if eOnly then u.x = 0 ∧ u.y = 0 ∧ u.z = 0 ∧ |u.e| = 1 else u.norm3 = 1

/-- The length of a move as the printer sees it: travelled distance, or length of filament if there is no
travel. -/
noncomputable def moveLength (p q : Vec4 ℝ) : ℝ :=
  if (q.sub p).norm3 = 0 then |q.e - p.e| else (q.sub p).norm3

end PyGCD.Spec
