import Verif.Proofs.RampLemmas

/-!
# C19: planning a single move
-/

set_option linter.unusedSectionVars false

namespace PyGCD
open Vec4 Spec

variable {u : Vec4 ℝ} {eo : Bool}

theorem mem_keepSeg {s x : Segment ℝ} (h : s ∈ keepSeg x) : s = x := by
  unfold keepSeg at h
  split at h
  · exact List.mem_singleton.1 h
  · cases h

theorem keepSeg_length (x : Segment ℝ) : (keepSeg x).length ≤ 1 := by
  unfold keepSeg
  split <;> simp

theorem mul_add_mul (u : Vec4 ℝ) (x y : ℝ) : (u.mul x).add (u.mul y) = u.mul (x + y) := by
  ext <;> simp only [Vec4.add, Vec4.mul] <;> ring

theorem trapezoid_spec (hu : UnitDir u eo) (prev : Segment ℝ) {a vT vb ve d : ℝ} (ha : 0 < a)
    (hT : 0 < vT) (hb : 0 ≤ vb ∧ vb ≤ vT) (he : 0 ≤ ve ∧ ve ≤ vT)
    (hd : (vT - vb) * (vb + vT) / (2 * a) + (ve - vT) * (ve + vT) / (2 * -a) < d) :
    ∃ segs t', trapezoid prev u a vT vb ve d eo = .ok segs ∧
      Ramp u a vT prev.posEnd prev.tEnd vb segs (prev.posEnd.add (u.mul d)) t' ve ∧
      Profile u a vT segs := by
  obtain ⟨hn3, _, hn4⟩ := hu.norms
  have hconst : (if eo then (u.mul vT).norm4 else (u.mul vT).norm3) = vT := by
    cases eo with
    | true => rw [if_pos rfl, norm4_mul, hn4 rfl, one_mul, abs_of_pos hT]
    | false =>
      simp only [Bool.false_eq_true, if_false] at hn3 ⊢
      rw [norm3_mul, hn3, one_mul, abs_of_pos hT]
  have htc : 0 < d - (ve - vT) * (ve + vT) / (2 * -a) - (vT - vb) * (vb + vT) / (2 * a) := by
    linarith
  have hne : a ≠ 0 := ha.ne'
  have t01 : prev.tEnd ≤ prev.tEnd + (vT - vb) / a := by
    have : 0 ≤ (vT - vb) / a := div_nonneg (by linarith) ha.le
    linarith
  have t12 : prev.tEnd + (vT - vb) / a ≤ prev.tEnd + (vT - vb) / a +
      (d - (ve - vT) * (ve + vT) / (2 * -a) - (vT - vb) * (vb + vT) / (2 * a)) / vT := by
    have : 0 ≤ (d - (ve - vT) * (ve + vT) / (2 * -a) - (vT - vb) * (vb + vT) / (2 * a)) / vT :=
      div_nonneg htc.le hT.le
    linarith
  have t23 : ∀ t : ℝ, t ≤ t + (vT - ve) / a := by
    intro t
    have : 0 ≤ (vT - ve) / a := div_nonneg (by linarith) ha.le
    linarith
  have l1 : (vT - vb) * (vb + vT) / (2 * a) =
      (vb + vT) / 2 * (prev.tEnd + (vT - vb) / a - prev.tEnd) := by
    rw [add_sub_cancel_left]
    field_simp
  have l2 : d - (ve - vT) * (ve + vT) / (2 * -a) - (vT - vb) * (vb + vT) / (2 * a) =
      (vT + vT) / 2 * (prev.tEnd + (vT - vb) / a +
      (d - (ve - vT) * (ve + vT) / (2 * -a) - (vT - vb) * (vb + vT) / (2 * a)) / vT -
      (prev.tEnd + (vT - vb) / a)) := by
    rw [add_sub_cancel_left]
    field_simp
    ring
  have l3 : ∀ t : ℝ, (ve - vT) * (ve + vT) / (2 * -a) =
      (vT + ve) / 2 * (t + (vT - ve) / a - t) := by
    intro t
    rw [add_sub_cancel_left]
    field_simp
    ring
  have r1 : Ramp u a vT _ _ _ _ _ _ _ := Ramp.one (a := a) (vT := vT) hu prev.posEnd hb
    ⟨hT.le, le_refl _⟩ t01 l1 (fun _ => by linarith) (Or.inr (Or.inl (by
      rw [add_sub_cancel_left]
      field_simp)))
  have r2 : Ramp u a vT _ _ _ _ _ _ _ := Ramp.one (a := a) (vT := vT) hu
    (prev.posEnd.add (u.mul ((vT - vb) * (vb + vT) / (2 * a))))
    ⟨hT.le, le_refl _⟩ ⟨hT.le, le_refl _⟩ t12 l2 (fun _ => by linarith)
    (Or.inl (sub_self _))
  have r3 : Ramp u a vT _ _ _ _ _ _ _ := Ramp.one (a := a) (vT := vT) hu
    ((prev.posEnd.add (u.mul ((vT - vb) * (vb + vT) / (2 * a)))).add
      (u.mul (d - (ve - vT) * (ve + vT) / (2 * -a) - (vT - vb) * (vb + vT) / (2 * a))))
    ⟨hT.le, le_refl _⟩ he (t23 (prev.tEnd + (vT - vb) / a +
      (d - (ve - vT) * (ve + vT) / (2 * -a) - (vT - vb) * (vb + vT) / (2 * a)) / vT))
    (l3 _) (fun _ => by linarith) (Or.inr (Or.inr (by
      rw [add_sub_cancel_left]
      field_simp
      ring)))
  have r := (r1.append r2).append r3
  have e : ((prev.posEnd.add (u.mul ((vT - vb) * (vb + vT) / (2 * a)))).add
      (u.mul (d - (ve - vT) * (ve + vT) / (2 * -a) - (vT - vb) * (vb + vT) / (2 * a)))).add
      (u.mul ((ve - vT) * (ve + vT) / (2 * -a))) = prev.posEnd.add (u.mul d) := by
    rw [add_mul_add, add_mul_add]
    congr 2
    ring
  rw [e] at r
  refine ⟨_, _, ?_, r, _, _, _, rfl, ?_, ?_, ?_, keepSeg_length _, keepSeg_length _, keepSeg_length _⟩
  rotate_left
  · intro s hs
    rw [mem_keepSeg hs]
    simp only [mul_add_mul]
    congr 1
    rw [add_sub_cancel_left]
    field_simp
    ring
  · intro s hs
    rw [mem_keepSeg hs]
    exact ⟨rfl, rfl⟩
  · intro s hs
    rw [mem_keepSeg hs]
    simp only [mul_add_mul]
    congr 1
    rw [add_sub_cancel_left]
    field_simp
    ring
  unfold trapezoid
  simp only [hconst]
  rw [make_ok _ t01 l1]
  simp only [bind, Except.bind]
  rw [make_ok _ t12 l2]
  simp only
  rw [make_ok _ (t23 _) (l3 _), e]

theorem triang_spec (hu : UnitDir u eo) (prev : Segment ℝ) {a vT vp vb ve d : ℝ} (ha : 0 < a)
    (hp : vp ≤ vT) (hb : 0 ≤ vb ∧ vb < vp) (he : 0 ≤ ve ∧ ve < vp)
    (hd : vp ^ 2 = a * d + vb * vb / 2 + ve * ve / 2) :
    ∃ segs t', triang prev u a vp vb ve = .ok segs ∧
      Ramp u a vT prev.posEnd prev.tEnd vb segs (prev.posEnd.add (u.mul d)) t' ve ∧
      Profile u a vT segs := by
  have hne : a ≠ 0 := ha.ne'
  have hp0 : 0 ≤ vp := by linarith
  have t1 : ∀ t v : ℝ, v < vp → t ≤ t + (vp - v) / a := by
    intro t v h
    have : 0 ≤ (vp - v) / a := div_nonneg (by linarith) ha.le
    linarith
  have l1 : (vp - vb) * (vb + vp) / (2 * a) =
      (vb + vp) / 2 * (prev.tEnd + (vp - vb) / a - prev.tEnd) := by
    rw [add_sub_cancel_left]
    field_simp
  have l2 : ∀ t : ℝ, (vp - ve) * (ve + vp) / (2 * a) =
      (vp + ve) / 2 * (t + (vp - ve) / a - t) := by
    intro t
    rw [add_sub_cancel_left]
    field_simp
    ring
  have r1 : Ramp u a vT _ _ _ _ _ _ _ := Ramp.one (a := a) (vT := vT) hu prev.posEnd
    ⟨hb.1, by linarith⟩ ⟨hp0, hp⟩ (t1 _ _ hb.2) l1 (fun _ => by linarith) (Or.inr (Or.inl (by
      rw [add_sub_cancel_left]
      field_simp)))
  have r2 : Ramp u a vT _ _ _ _ _ _ _ := Ramp.one (a := a) (vT := vT) hu
    (prev.posEnd.add (u.mul ((vp - vb) * (vb + vp) / (2 * a))))
    ⟨hp0, hp⟩ ⟨he.1, by linarith⟩ (t1 (prev.tEnd + (vp - vb) / a) _ he.2) (l2 _) (fun _ => by linarith)
    (Or.inr (Or.inr (by
      rw [add_sub_cancel_left]
      field_simp
      ring)))
  have r := r1.append r2
  have e : (prev.posEnd.add (u.mul ((vp - vb) * (vb + vp) / (2 * a)))).add
      (u.mul ((vp - ve) * (ve + vp) / (2 * a))) = prev.posEnd.add (u.mul d) := by
    rw [add_mul_add]
    congr 2
    field_simp
    linarith
  rw [e] at r
  refine ⟨_, _, ?_, r, _, [], _, congrArg (· ++ _) (List.append_nil _).symm, ?_, by simp, ?_, keepSeg_length _, by simp,
    keepSeg_length _⟩
  rotate_left
  · intro s hs
    rw [mem_keepSeg hs]
    simp only [mul_add_mul]
    congr 1
    rw [add_sub_cancel_left]
    field_simp
    ring
  · intro s hs
    rw [mem_keepSeg hs]
    simp only [mul_add_mul]
    congr 1
    rw [add_sub_cancel_left]
    field_simp
    ring
  unfold triang
  simp only
  rw [make_ok _ (t1 _ _ hb.2) l1]
  simp only [bind, Except.bind]
  rw [make_ok _ (t1 _ _ he.2) (l2 _), e]

theorem singlUp_spec (hu : UnitDir u eo) (prev : Segment ℝ) {a vT vb ve d : ℝ} (ha : 0 < a)
    (he : ve ≤ vT) (hb : 0 ≤ vb ∧ vb < ve) (hd : ve ^ 2 = vb ^ 2 + 2 * a * d) :
    ∃ segs t', singlUp prev u a ve vb = .ok segs ∧
      Ramp u a vT prev.posEnd prev.tEnd vb segs (prev.posEnd.add (u.mul d)) t' ve ∧
      Profile u a vT segs := by
  have hne : a ≠ 0 := ha.ne'
  have t1 : prev.tEnd ≤ prev.tEnd + (ve - vb) / a := by
    have : 0 ≤ (ve - vb) / a := div_nonneg (by linarith) ha.le
    linarith
  have l1 : (ve - vb) * (vb + ve) / (2 * a) =
      (vb + ve) / 2 * (prev.tEnd + (ve - vb) / a - prev.tEnd) := by
    rw [add_sub_cancel_left]
    field_simp
  have r1 : Ramp u a vT _ _ _ _ _ _ _ := Ramp.one (a := a) (vT := vT) hu prev.posEnd
    ⟨hb.1, by linarith⟩ ⟨by linarith, he⟩ t1 l1 (fun _ => by linarith) (Or.inr (Or.inl (by
      rw [add_sub_cancel_left]
      field_simp)))
  have e : (ve - vb) * (vb + ve) / (2 * a) = d := by
    field_simp
    linarith
  rw [e] at r1
  refine ⟨_, _, ?_, r1, _, [], [], ((List.append_nil _).trans (List.append_nil _)).symm, ?_, by simp, by simp,
    keepSeg_length _, by simp, by simp⟩
  rotate_left
  · intro s hs
    rw [mem_keepSeg hs]
    simp only [mul_add_mul]
    congr 1
    rw [add_sub_cancel_left]
    field_simp
    ring
  unfold singlUp
  simp only
  rw [make_ok _ t1 l1, e]
  rfl

theorem singlDwn_spec (hu : UnitDir u eo) (prev : Segment ℝ) {a vT vb ve d : ℝ} (ha : 0 < a)
    (hb : vb ≤ vT) (he : 0 ≤ ve ∧ ve < vb) (hd : vb ^ 2 = ve ^ 2 + 2 * a * d) :
    ∃ segs t', singlDwn prev u a vb ve = .ok segs ∧
      Ramp u a vT prev.posEnd prev.tEnd vb segs (prev.posEnd.add (u.mul d)) t' ve ∧
      Profile u a vT segs := by
  have hne : a ≠ 0 := ha.ne'
  have t1 : prev.tEnd ≤ prev.tEnd + (vb - ve) / a := by
    have : 0 ≤ (vb - ve) / a := div_nonneg (by linarith) ha.le
    linarith
  have l1 : (vb - ve) * (vb + ve) / (2 * a) =
      (vb + ve) / 2 * (prev.tEnd + (vb - ve) / a - prev.tEnd) := by
    rw [add_sub_cancel_left]
    field_simp
  have r1 : Ramp u a vT _ _ _ _ _ _ _ := Ramp.one (a := a) (vT := vT) hu prev.posEnd
    ⟨by linarith, hb⟩ ⟨he.1, by linarith⟩ t1 l1 (fun _ => by linarith) (Or.inr (Or.inr (by
      rw [add_sub_cancel_left]
      field_simp
      ring)))
  have e : (vb - ve) * (vb + ve) / (2 * a) = d := by
    field_simp
    linarith
  rw [e] at r1
  refine ⟨_, _, ?_, r1, [], [], _, rfl, by simp, by simp, ?_, by simp, by simp, keepSeg_length _⟩
  rotate_left
  · intro s hs
    rw [mem_keepSeg hs]
    simp only [mul_add_mul]
    congr 1
    rw [add_sub_cancel_left]
    field_simp
    ring
  unfold singlDwn
  simp only
  rw [make_ok _ t1 l1, e]
  rfl

/-- The result of planning a move of length `d` entered with speed `vb` (the smaller of the speed reached
before and the feedrate) and wanted end speed `ve`: which shape is chosen and with which speeds `b`, `e` the
segments begin and end. -/
inductive Shape (a vT vb ve d : ℝ) : BlockType → ℝ → ℝ → Prop
  | trapezoid (h : (vT ^ 2 - vb ^ 2) + (vT ^ 2 - ve ^ 2) < 2 * a * d) :
      Shape a vT vb ve d .trapezoid vb ve
  | triangle (h : 2 * a * d ≤ (vT ^ 2 - vb ^ 2) + (vT ^ 2 - ve ^ 2))
      (h1 : |ve ^ 2 - vb ^ 2| < 2 * a * d) : Shape a vT vb ve d .triangle vb ve
  | up {e : ℝ} (h : 2 * a * d ≤ ve ^ 2 - vb ^ 2) (he : 0 ≤ e ∧ e ≤ ve)
      (h1 : e ^ 2 = vb ^ 2 + 2 * a * d) : Shape a vT vb ve d .single vb e
  | down {b : ℝ} (h : 2 * a * d ≤ vb ^ 2 - ve ^ 2) (hb : 0 ≤ b ∧ b ≤ vb)
      (h1 : b ^ 2 = ve ^ 2 + 2 * a * d) : Shape a vT vb ve d .single b ve

/-- Planning a move: it succeeds, the shape is the one dictated by the speeds, and the segments are a chain
from the previous position over exactly the distance. -/
theorem planMove_spec (hu : UnitDir u eo) (prev : Segment ℝ) (B : PState ℝ) {d ve : ℝ}
    (ha : 0 < B.pAcc) (hT : 0 < B.speed) (hd : 0 < d) (he : 0 ≤ ve ∧ ve ≤ B.speed) :
    ∃ segs bt t' b e, planMove prev u B d eo ve = .ok (segs, bt) ∧
      Shape B.pAcc B.speed (min prev.velEnd.norm3 B.speed) ve d bt b e ∧
      Ramp u B.pAcc B.speed prev.posEnd prev.tEnd b segs (prev.posEnd.add (u.mul d)) t' e ∧
      Profile u B.pAcc B.speed segs := by
  have hvb : (if prev.velEnd.norm3 < B.speed then prev.velEnd.norm3 else B.speed) =
      min prev.velEnd.norm3 B.speed := by
    split
    · rw [min_eq_left (by linarith)]
    · rw [min_eq_right (by linarith)]
  have hb : 0 ≤ min prev.velEnd.norm3 B.speed ∧ min prev.velEnd.norm3 B.speed ≤ B.speed :=
    ⟨le_min (norm3_nonneg _) hT.le, min_le_right _ _⟩
  unfold planMove
  simp only [hvb]
  generalize min prev.velEnd.norm3 B.speed = vb at hb
  generalize B.pAcc = a at ha
  generalize B.speed = vT at hT he hb
  have htu : (vT - vb) * (vb + vT) / (2 * a) = (vT ^ 2 - vb ^ 2) / (2 * a) := by ring
  have htd : (ve - vT) * (ve + vT) / (2 * -a) = (vT ^ 2 - ve ^ 2) / (2 * a) := by
    field_simp
    ring
  have htu0 : 0 ≤ (vT - vb) * (vb + vT) / (2 * a) :=
    div_nonneg (mul_nonneg (by linarith) (by linarith)) (by linarith)
  have htd0 : 0 ≤ (ve - vT) * (ve + vT) / (2 * -a) := by
    rw [htd]
    exact div_nonneg (by nlinarith) (by linarith)
  have c2 : ∀ x : ℝ, 0 ≤ x → (0 < x ∨ isClose x 0 = true) := by
    intro x hx
    rcases eq_or_lt_of_le hx with h | h
    · right
      rw [← h]
      exact isClose_self 0
    · exact Or.inl h
  have c3 : ∀ x y : ℝ, x ≤ y → (x < y ∨ isClose x y = true) := by
    intro x y hx
    rcases eq_or_lt_of_le hx with h | h
    · right
      rw [h]
      exact isClose_self y
    · exact Or.inl h
  have had : 0 < a * d := mul_pos ha hd
  have hsq : 0 ≤ vb * vb ∧ 0 ≤ ve * ve := ⟨mul_self_nonneg _, mul_self_nonneg _⟩
  have hvp : 0 ≤ a * d + vb * vb / 2 + ve * ve / 2 := by linarith [hsq.1, hsq.2]
  have hvp2 := Real.sq_sqrt hvp
  have hvp0 := Real.sqrt_nonneg (a * d + vb * vb / 2 + ve * ve / 2)
  by_cases hc1 : (vT - vb) * (vb + vT) / (2 * a) + (ve - vT) * (ve + vT) / (2 * -a) < d
  · rw [if_pos ⟨hc1, c2 _ htu0, c2 _ htd0⟩]
    obtain ⟨segs, t', h1, h2, h3'⟩ := trapezoid_spec hu prev ha hT hb he hc1
    refine ⟨segs, .trapezoid, t', vb, ve, ?_, .trapezoid ?_, h2, h3'⟩
    · rw [h1]
      rfl
    · rw [htu, htd, ← add_div, div_lt_iff₀ (by linarith)] at hc1
      linarith
  rw [if_neg (fun h => hc1 h.1)]
  rw [htu, htd, ← add_div, div_lt_iff₀ (by linarith)] at hc1
  push Not at hc1
  rw [sqrt_real (a * d + vb * vb / 2 + ve * ve / 2)]
  generalize Real.sqrt (a * d + vb * vb / 2 + ve * ve / 2) = vp at hvp2 hvp0
  have hvpT : vp ≤ vT := (sq_le_sq₀ hvp0 hT.le).1 (by linarith)
  by_cases hc2 : ve < vp ∧ vb < vp
  · rw [if_pos ⟨hc2.1, hc2.2, c3 _ _ hvpT⟩]
    obtain ⟨segs, t', h1, h2, h3'⟩ := triang_spec (d := d) hu prev ha hvpT ⟨hb.1, hc2.2⟩ ⟨he.1, hc2.1⟩ hvp2
    refine ⟨segs, .triangle, t', vb, ve, ?_, .triangle ?_ ?_, h2, h3'⟩
    · rw [h1]
      rfl
    · linarith
    · have h3 := (sq_lt_sq₀ he.1 hvp0).2 hc2.1
      have h4 := (sq_lt_sq₀ hb.1 hvp0).2 hc2.2
      rw [abs_lt]
      constructor <;> linarith
  rw [if_neg (fun h => hc2 ⟨h.1, h.2.1⟩)]
  by_cases hc3 : vp ≤ ve
  · -- single ramp up
    have h2ad : 2 * a * d ≤ ve ^ 2 - vb ^ 2 := by
      have := (sq_le_sq₀ hvp0 he.1).2 hc3
      linarith
    have hlt : vb < ve := (sq_lt_sq₀ hb.1 he.1).1 (by linarith)
    have hnn : 0 ≤ vb * vb + 2 * a * d := by linarith [hsq.1]
    rw [if_neg (not_lt.2 hlt.le), if_pos hnn, sqrt_real]
    have hs0 := Real.sqrt_nonneg (vb * vb + 2 * a * d)
    have hs2 := Real.sq_sqrt (x := vb * vb + 2 * a * d) hnn
    generalize Real.sqrt (vb * vb + 2 * a * d) = w at hs0 hs2
    have hw1 : vb < w := (sq_lt_sq₀ hb.1 hs0).1 (by linarith)
    have hw2 : w ≤ ve := (sq_le_sq₀ hs0 he.1).1 (by linarith)
    rw [if_pos ⟨hw1, c3 _ _ (by linarith)⟩]
    obtain ⟨segs, t', h1, h2, h3'⟩ := singlUp_spec (d := d) (vT := vT) hu prev ha (by linarith : w ≤ vT)
      ⟨hb.1, hw1⟩ (by rw [hs2]; ring)
    refine ⟨segs, .single, t', vb, w, ?_, .up h2ad ⟨hs0, hw2⟩ (by rw [hs2]; ring), h2, h3'⟩
    rw [h1]
    rfl
  · -- single ramp down
    have hc4 : vp ≤ vb := by
      by_contra h
      exact hc2 ⟨by linarith, by linarith⟩
    have h2ad : 2 * a * d ≤ vb ^ 2 - ve ^ 2 := by
      have := (sq_le_sq₀ hvp0 hb.1).2 hc4
      linarith
    have hlt : ve < vb := (sq_lt_sq₀ he.1 hb.1).1 (by linarith)
    have hnn : 0 ≤ vb * vb - 2 * a * d := by linarith [hsq.2]
    rw [if_pos hlt, if_pos hnn, sqrt_real (vb * vb - 2 * a * d), sqrt_real (2 * a * d + ve * ve)]
    have hs0 := Real.sqrt_nonneg (vb * vb - 2 * a * d)
    have hs2 := Real.sq_sqrt (x := vb * vb - 2 * a * d) hnn
    generalize Real.sqrt (vb * vb - 2 * a * d) = w at hs0 hs2
    have hw1 : w < vb := (sq_lt_sq₀ hs0 hb.1).1 (by linarith)
    rw [if_neg (fun h => absurd h.1 (by linarith)), if_pos hw1]
    have hr0 := Real.sqrt_nonneg (2 * a * d + ve * ve)
    have hr2 := Real.sq_sqrt (x := 2 * a * d + ve * ve) (by linarith [hsq.2])
    generalize Real.sqrt (2 * a * d + ve * ve) = r at hr0 hr2
    have hr1 : ve < r := (sq_lt_sq₀ he.1 hr0).1 (by linarith)
    have hr3 : r ≤ vb := (sq_le_sq₀ hr0 hb.1).1 (by linarith)
    obtain ⟨segs, t', h1, h2, h3'⟩ := singlDwn_spec (d := d) (vT := vT) hu prev ha (by linarith : r ≤ vT)
      ⟨he.1, hr1⟩ (by rw [hr2]; ring)
    refine ⟨segs, .single, t', r, ve, ?_, .down h2ad ⟨hr0, hr3⟩ (by rw [hr2]; ring), h2, h3'⟩
    rw [h1]
    rfl

end PyGCD
