import Verif.Spec.Motion
import Mathlib.Data.List.Chain

set_option linter.unusedSectionVars false

namespace PyGCD
open Vec4 Spec

variable {u : Vec4 ℝ} {a vT : ℝ}

theorem Spec.Ramp.append {p p' p'' : Vec4 ℝ} {t t' t'' v v' v'' : ℝ} {ss ss' : List (Segment ℝ)}
    (h : Ramp u a vT p t v ss p' t' v') (h' : Ramp u a vT p' t' v' ss' p'' t'' v'') :
    Ramp u a vT p t v (ss ++ ss') p'' t'' v'' := by
  induction h with
  | nil => exact h'
  | cons hv hv₁ ht hacc hpos hp hrest ih => exact .cons hv hv₁ ht hacc hpos hp (ih h')

theorem Spec.Ramp.nil_pos {p p' : Vec4 ℝ} {t t' v v' : ℝ} (h : Ramp u a vT p t v [] p' t' v') :
    p' = p := by
  cases h
  rfl

/-- Length, speed change and order of a chain. -/
theorem Spec.Ramp.facts {p p' : Vec4 ℝ} {t t' v v' : ℝ} {ss : List (Segment ℝ)} (ha : 0 ≤ a)
    (h : Ramp u a vT p t v ss p' t' v') :
    ∃ l, 0 ≤ l ∧ p' = p.add (u.mul l) ∧ |v' ^ 2 - v ^ 2| ≤ 2 * a * l ∧ t ≤ t' ∧
      (ss = [] → l = 0) ∧ (ss ≠ [] → 0 < l ∧ 0 ≤ v ∧ v ≤ vT ∧ 0 ≤ v' ∧ v' ≤ vT ∧ t < t') := by
  induction h with
  | nil p t v => exact ⟨0, le_refl _, by rw [Vec4.mul_zero, Vec4.add_zero], by simp, le_refl _,
      fun _ => rfl, fun h => absurd rfl h⟩
  | @cons t t₁ v v₁ t' v' p p₁ p' ss hv hv₁ ht hacc hpos hp hrest ih =>
    obtain ⟨l, h1, h2, h3, h4, h5, h6⟩ := ih
    have hl : 0 < (v + v₁) / 2 * (t₁ - t) := by
      have := sub_pos.2 ht
      positivity
    refine ⟨(v + v₁) / 2 * (t₁ - t) + l, by linarith, ?_, ?_, by linarith, by simp, fun _ => ?_⟩
    · rw [h2, hp, add_mul_add]
    · have e : v₁ ^ 2 - v ^ 2 = (v + v₁) * (v₁ - v) := by ring
      have h7 : |v₁ ^ 2 - v ^ 2| ≤ 2 * a * ((v + v₁) / 2 * (t₁ - t)) := by
        have e2 : 2 * a * ((v + v₁) / 2 * (t₁ - t)) = (v + v₁) * (a * (t₁ - t)) := by ring
        have h8 : 0 ≤ a * (t₁ - t) := mul_nonneg ha (by linarith)
        rw [e, abs_mul, abs_of_pos hpos, e2]
        refine mul_le_mul_of_nonneg_left ?_ hpos.le
        rcases hacc with h | h | h
        · rw [h, abs_zero]
          exact h8
        · rw [h, abs_of_nonneg h8]
        · rw [h, neg_mul, abs_neg, abs_of_nonneg h8]
      have := abs_sub_le (v' ^ 2) (v₁ ^ 2) (v ^ 2)
      rw [mul_add]
      linarith
    · refine ⟨by linarith, hv.1, hv.2, ?_, ?_, by linarith⟩
      all_goals
        cases ss with
        | nil => cases hrest; first | exact hv₁.1 | exact hv₁.2
        | cons s ss => first | exact (h6 (by simp)).2.2.2.1 | exact (h6 (by simp)).2.2.2.2.1

theorem Spec.Ramp.shift {p p' : Vec4 ℝ} {t t' v v' : ℝ} {ss : List (Segment ℝ)} (d : ℝ)
    (h : Ramp u a vT p t v ss p' t' v') :
    Ramp u a vT p (t + d) v (ss.map (Segment.shift d)) p' (t' + d) v' := by
  induction h with
  | nil => exact .nil _ _ _
  | cons hv hv₁ ht hacc hpos hp hrest ih =>
    refine .cons hv hv₁ (by linarith) ?_ hpos ?_ ih
    · rw [add_sub_add_right_eq_sub]
      exact hacc
    · rw [add_sub_add_right_eq_sub]
      exact hp

/-- First and last segment of a non-empty chain. -/
theorem Spec.Ramp.ends {p p' : Vec4 ℝ} {t t' v v' : ℝ} {ss : List (Segment ℝ)}
    (h : Ramp u a vT p t v ss p' t' v') (hne : ss ≠ []) :
    ∃ s s', ss.head? = some s ∧ ss.getLast? = some s' ∧ s.tBegin = t ∧ s.posBegin = p ∧
      s.velBegin = u.mul v ∧ s'.tEnd = t' ∧ s'.posEnd = p' ∧ s'.velEnd = u.mul v' := by
  induction h with
  | nil => exact absurd rfl hne
  | @cons t t₁ v v₁ t' v' p p₁ p' ss hv hv₁ ht hacc hpos hp hrest ih =>
    cases ss with
    | nil =>
      cases hrest
      exact ⟨_, _, rfl, rfl, rfl, rfl, rfl, rfl, rfl, rfl⟩
    | cons s ss =>
      obtain ⟨s₁, s', h1, h2, _, _, _, h6, h7, h8⟩ := ih (by simp)
      refine ⟨_, s', rfl, ?_, rfl, rfl, rfl, h6, h7, h8⟩
      rw [List.getLast?_cons_cons]
      exact h2

theorem Spec.UnitDir.norms {eo : Bool} (h : UnitDir u eo) :
    u.norm3 = (if eo then 0 else 1) ∧ 1 ≤ u.norm4 ∧ (eo = true → u.norm4 = 1) := by
  unfold UnitDir at h
  have h4 := norm4_sq u
  have h4' := norm4_nonneg u
  cases eo with
  | true =>
    simp only [if_true] at h
    obtain ⟨hx, hy, hz, he⟩ := h
    have : u.norm4 ^ 2 = 1 := by
      rw [h4, hx, hy, hz, ← sq_abs u.e, he]
      norm_num
    have h1 : u.norm4 = 1 := by nlinarith
    refine ⟨by simp [norm3_eq_zero.2 ⟨hx, hy, hz⟩], h1.ge, fun _ => h1⟩
  | false =>
    simp only [Bool.false_eq_true, if_false] at h ⊢
    refine ⟨h, ?_, fun h => by cases h⟩
    have h3 := norm3_sq u
    rw [h] at h3
    nlinarith [sq_nonneg u.e]

/-- Along a direction, a segment is stored exactly when it covers distance. -/
theorem keepSeg_eq {eo : Bool} (hu : UnitDir u eo) (t t' : ℝ) (p : Vec4 ℝ) (w w' : Vec4 ℝ) (l : ℝ) :
    keepSeg ⟨t, t', p, w, p.add (u.mul l), w'⟩ =
      if l = 0 then [] else [⟨t, t', p, w, p.add (u.mul l), w'⟩] := by
  have hd : ((p.add (u.mul l)).isTravel p || (p.add (u.mul l)).isExtrudingTo p false) = true ↔
      l ≠ 0 := by
    simp only [isTravel, isExtrudingTo, pyAbs_real, Bool.or_eq_true, decide_eq_true_eq,
      Bool.false_eq_true, if_false, Vec4.add, Vec4.mul]
    have e : ∀ x y : ℝ, |x - (x + y * l)| = |y| * |l| := by
      intro x y
      rw [← abs_mul, ← abs_neg]
      congr 1
      ring
    simp only [e]
    constructor
    · rintro h rfl
      simp at h
    · intro hl
      have hl' := abs_pos.2 hl
      have := hu
      unfold UnitDir at this
      cases eo with
      | true =>
        simp only [if_true] at this
        right
        rw [this.2.2.2]
        linarith
      | false =>
        simp only [Bool.false_eq_true, if_false] at this
        left
        by_contra hn
        have hx := abs_nonneg u.x
        have hy := abs_nonneg u.y
        have hz := abs_nonneg u.z
        have hs : |u.x| + |u.y| + |u.z| ≤ 0 := by
          by_contra hc
          push Not at hc
          exact hn (by nlinarith)
        have hx0 : u.x = 0 := abs_eq_zero.1 (by linarith)
        have hy0 : u.y = 0 := abs_eq_zero.1 (by linarith)
        have hz0 : u.z = 0 := abs_eq_zero.1 (by linarith)
        rw [norm3_eq_zero.2 ⟨hx0, hy0, hz0⟩] at this
        norm_num at this
  unfold keepSeg
  by_cases hl : l = 0
  · rw [if_pos hl, if_neg]
    intro h
    exact hd.1 h hl
  · rw [if_neg hl, if_pos (hd.2 hl)]

/-- A segment whose distance is mean speed times duration passes the check of the constructor. -/
theorem make_ok {t t' v v' l : ℝ} (p : Vec4 ℝ) (ht : t ≤ t') (hl : l = (v + v') / 2 * (t' - t)) :
    Segment.make t t' p (u.mul v) (p.add (u.mul l)) (u.mul v') =
      .ok ⟨t, t', p, u.mul v, p.add (u.mul l), u.mul v'⟩ := by
  unfold Segment.make
  rw [if_pos]
  simp only [Segment.selfCheckOk, Bool.and_eq_true, Bool.not_eq_true', decide_eq_false_iff_not,
    not_lt]
  refine ⟨?_, ht⟩
  have : ((p.add (u.mul l)).sub (p.add ((((u.mul v).add (u.mul v')).mul (t' - t)).div 2))) =
      Vec4.zero := by
    rw [Vec4.sub_eq_zero]
    ext <;> simp only [Vec4.add, Vec4.mul, Vec4.div, hl] <;> ring
  rw [this, norm3_zero]
  norm_num

/-- One stored or dropped segment as a chain. -/
theorem Spec.Ramp.one {eo : Bool} (hu : UnitDir u eo) {t t' v v' l : ℝ} (p : Vec4 ℝ)
    (hv : 0 ≤ v ∧ v ≤ vT) (hv' : 0 ≤ v' ∧ v' ≤ vT) (ht : t ≤ t')
    (hl : l = (v + v') / 2 * (t' - t)) (hpos : t < t' → 0 < v + v')
    (hacc : v' - v = 0 ∨ v' - v = a * (t' - t) ∨ v' - v = -a * (t' - t)) :
    Ramp u a vT p t v (keepSeg ⟨t, t', p, u.mul v, p.add (u.mul l), u.mul v'⟩)
      (p.add (u.mul l)) t' v' := by
  rw [keepSeg_eq hu]
  rcases eq_or_lt_of_le ht with h | h
  · subst h
    have hl0 : l = 0 := by rw [hl]; ring
    have hv0 : v' = v := by
      rcases hacc with h | h | h
      · linarith
      · simp only [sub_self, mul_zero] at h
        linarith
      · simp only [sub_self, mul_zero] at h
        linarith
    rw [if_pos hl0, hl0, Vec4.mul_zero, Vec4.add_zero, hv0]
    exact .nil _ _ _
  · have hp := hpos h
    have hd := sub_pos.2 h
    have hl0 : 0 < l := by rw [hl]; positivity
    rw [if_neg hl0.ne']
    refine .cons hv hv' h hacc hp ?_ (.nil _ _ _)
    rw [hl]

/-- Consecutive segments fit together. -/
theorem Spec.Ramp.chain {p p' : Vec4 ℝ} {t t' v v' : ℝ} {ss : List (Segment ℝ)}
    (h : Ramp u a vT p t v ss p' t' v') :
    ss.IsChain fun s s' => s'.tBegin = s.tEnd ∧ s'.posBegin = s.posEnd ∧ s'.velBegin = s.velEnd := by
  induction h with
  | nil => exact List.IsChain.nil
  | @cons t t₁ v v₁ t' v' p p₁ p' ss hv hv₁ ht hacc hpos hp hrest ih =>
    cases ss with
    | nil => exact List.isChain_singleton _
    | cons s ss =>
      obtain ⟨s₁, _, h1, _, h3, h4, h5, _⟩ := hrest.ends (by simp)
      cases h1
      exact List.isChain_cons_cons.2 ⟨⟨h3, h4, h5⟩, ih⟩

/-- What is known about one segment of a chain: scalar speeds `w`, `w₁` and the distances `l`, `l₁` from
the start of the chain. -/
structure SegOn (u : Vec4 ℝ) (a vT : ℝ) (p : Vec4 ℝ) (L : ℝ) (s : Segment ℝ) (w w₁ l l₁ : ℝ) :
    Prop where
  hw : 0 ≤ w ∧ w ≤ vT
  hw₁ : 0 ≤ w₁ ∧ w₁ ≤ vT
  ht : s.tBegin < s.tEnd
  hacc : w₁ - w = 0 ∨ w₁ - w = a * (s.tEnd - s.tBegin) ∨ w₁ - w = -a * (s.tEnd - s.tBegin)
  hpos : 0 < w + w₁
  hvb : s.velBegin = u.mul w
  hve : s.velEnd = u.mul w₁
  hpb : s.posBegin = p.add (u.mul l)
  hpe : s.posEnd = p.add (u.mul l₁)
  hl : 0 ≤ l
  hl₁ : l₁ ≤ L
  hlen : l₁ = l + (w + w₁) / 2 * (s.tEnd - s.tBegin)

theorem Spec.Ramp.mem {p p' : Vec4 ℝ} {t t' v v' : ℝ} {ss : List (Segment ℝ)}
    (h : Ramp u a vT p t v ss p' t' v') :
    ∃ L, 0 ≤ L ∧ p' = p.add (u.mul L) ∧ ∀ s ∈ ss, ∃ w w₁ l l₁, SegOn u a vT p L s w w₁ l l₁ := by
  induction h with
  | nil p t v => exact ⟨0, le_refl _, by rw [Vec4.mul_zero, Vec4.add_zero], by simp⟩
  | @cons t t₁ v v₁ t' v' p p₁ p' ss hv hv₁ ht hacc hpos hp hrest ih =>
    obtain ⟨L, h1, h2, h3⟩ := ih
    have hl : 0 < (v + v₁) / 2 * (t₁ - t) := by
      have := sub_pos.2 ht
      positivity
    refine ⟨(v + v₁) / 2 * (t₁ - t) + L, by linarith, by rw [h2, hp, add_mul_add], ?_⟩
    intro s hs
    rcases List.mem_cons.1 hs with rfl | hs
    · exact ⟨v, v₁, 0, _, hv, hv₁, ht, hacc, hpos, rfl, rfl, by rw [Vec4.mul_zero, Vec4.add_zero],
        hp, le_refl _, by linarith, by rw [zero_add]⟩
    · obtain ⟨w, w₁, l, l₁, g⟩ := h3 s hs
      refine ⟨w, w₁, (v + v₁) / 2 * (t₁ - t) + l, (v + v₁) / 2 * (t₁ - t) + l₁, g.hw, g.hw₁, g.ht, g.hacc,
        g.hpos, g.hvb, g.hve, ?_, ?_, ?_, ?_, ?_⟩
      · rw [g.hpb, hp, add_mul_add]
      · rw [g.hpe, hp, add_mul_add]
      · linarith [g.hl]
      · linarith [g.hl₁]
      · rw [g.hlen]
        ring

/-- Scalar speed inside a segment. -/
noncomputable def SegOn.speed (s : Segment ℝ) (w w₁ t : ℝ) : ℝ :=
  w + (w₁ - w) / (s.tEnd - s.tBegin) * (t - s.tBegin)

theorem SegOn.getVelocity {p : Vec4 ℝ} {L w w₁ l l₁ : ℝ} {s : Segment ℝ}
    (g : SegOn u a vT p L s w w₁ l l₁) {t : ℝ} (h : s.tBegin ≤ t ∧ t ≤ s.tEnd) :
    s.getVelocity t = .ok (u.mul (SegOn.speed s w w₁ t)) := by
  unfold Segment.getVelocity
  rw [if_neg (by push Not; exact h)]
  simp only
  rw [if_pos (sub_pos.2 g.ht), g.hvb, g.hve]
  congr 1
  have := (sub_pos.2 g.ht).ne'
  ext <;> simp only [Vec4.add, Vec4.mul, Vec4.sub, Vec4.div, SegOn.speed] <;> field_simp

theorem SegOn.speed_bounds {p : Vec4 ℝ} {L w w₁ l l₁ : ℝ} {s : Segment ℝ}
    (g : SegOn u a vT p L s w w₁ l l₁) {t : ℝ} (h : s.tBegin ≤ t ∧ t ≤ s.tEnd) :
    0 ≤ SegOn.speed s w w₁ t ∧ SegOn.speed s w w₁ t ≤ vT := by
  have hd := sub_pos.2 g.ht
  set x := (t - s.tBegin) / (s.tEnd - s.tBegin) with hx
  have hx0 : 0 ≤ x := div_nonneg (by linarith) hd.le
  have hx1 : x ≤ 1 := (div_le_one hd).2 (by linarith)
  have e : SegOn.speed s w w₁ t = w * (1 - x) + w₁ * x := by
    unfold SegOn.speed
    rw [hx]
    field_simp
    ring
  rw [e]
  obtain ⟨a1, a2⟩ := g.hw
  obtain ⟨b1, b2⟩ := g.hw₁
  have h1 : 0 ≤ 1 - x := by linarith
  constructor
  · positivity
  · nlinarith

theorem SegOn.getPosition {p : Vec4 ℝ} {L w w₁ l l₁ : ℝ} {s : Segment ℝ}
    (g : SegOn u a vT p L s w w₁ l l₁) {t : ℝ} (h : s.tBegin ≤ t ∧ t ≤ s.tEnd) :
    s.getPosition t =
      .ok (p.add (u.mul (l + (w + SegOn.speed s w w₁ t) / 2 * (t - s.tBegin)))) := by
  unfold Segment.getPosition
  rw [if_neg (by push Not; exact h), g.getVelocity h]
  simp only [bind, Except.bind]
  rw [g.hvb, g.hpb]
  congr 1
  ext <;> simp only [Vec4.add, Vec4.mul, Vec4.div] <;> ring

theorem SegOn.dist_bounds {p : Vec4 ℝ} {L w w₁ l l₁ : ℝ} {s : Segment ℝ}
    (g : SegOn u a vT p L s w w₁ l l₁) {t : ℝ} (h : s.tBegin ≤ t ∧ t ≤ s.tEnd) :
    l ≤ l + (w + SegOn.speed s w w₁ t) / 2 * (t - s.tBegin) ∧
      l + (w + SegOn.speed s w w₁ t) / 2 * (t - s.tBegin) ≤ l₁ := by
  have hb := (g.speed_bounds h).1
  have h1 : 0 ≤ t - s.tBegin := by linarith
  have h2 : 0 ≤ s.tEnd - t := by linarith
  have h3 := g.hw.1
  have h4 := g.hw₁.1
  constructor
  · have : 0 ≤ (w + SegOn.speed s w w₁ t) / 2 * (t - s.tBegin) := by positivity
    linarith
  · have e : l₁ - (l + (w + SegOn.speed s w w₁ t) / 2 * (t - s.tBegin)) =
        (SegOn.speed s w w₁ t + w₁) / 2 * (s.tEnd - t) := by
      rw [g.hlen]
      unfold SegOn.speed
      have := (sub_pos.2 g.ht).ne'
      field_simp
      ring
    have : 0 ≤ (SegOn.speed s w w₁ t + w₁) / 2 * (s.tEnd - t) := by positivity
    linarith

end PyGCD
