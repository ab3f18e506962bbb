import Verif.Model.Results
import Verif.Spec.Results
import Verif.Props.Query
import Mathlib.MeasureTheory.Integral.IntervalIntegral.FundThmCalculus

/-!
# Property C106: results of a segment
-/

set_option linter.unusedSectionVars false
set_option linter.unusedSimpArgs false

namespace PyGCD
open Spec

theorem norm3_mul_nonneg (u : Vec4 ℝ) {k : ℝ} (hk : 0 ≤ k) : (u.mul k).norm3 = u.norm3 * k := by
  have h : (u.mul k).norm3 = Real.sqrt (u.norm3 ^ 2 * k ^ 2) := by
    rw [Vec4.norm3_sq]
    unfold Vec4.norm3 Vec4.mul
    rw [sqrt_real]
    congr 1
    ring
  rw [h, Real.sqrt_mul (sq_nonneg _), Real.sqrt_sq (Vec4.norm3_nonneg u), Real.sqrt_sq hk]

theorem isClose_zero (x : ℝ) : isClose x 0 = true ↔ |x| ≤ 1e-8 := by
  simp [isClose, pyAbs_real]

/-- A segment along `u` whose speed goes from `v` to `w`. -/
structure Along (s : Segment ℝ) (u : Vec4 ℝ) (v w : ℝ) : Prop where
  hv : 0 ≤ v
  hw : 0 ≤ w
  ht : s.tBegin < s.tEnd
  hb : s.velBegin = u.mul v
  he : s.velEnd = u.mul w
  hp : s.posEnd = s.posBegin.add (u.mul ((v + w) / 2 * (s.tEnd - s.tBegin)))

namespace Along
variable {s : Segment ℝ} {u : Vec4 ℝ} {v w : ℝ}

theorem normBegin (h : Along s u v w) : s.velBegin.norm3 = u.norm3 * v := by rw [h.hb, norm3_mul_nonneg u h.hv]

theorem normEnd (h : Along s u v w) : s.velEnd.norm3 = u.norm3 * w := by rw [h.he, norm3_mul_nonneg u h.hw]

theorem len_eq (h : Along s u v w) : s.len = (u.norm3 * v + u.norm3 * w) / 2 * (s.tEnd - s.tBegin) := by
  have h0 : 0 ≤ (v + w) / 2 * (s.tEnd - s.tBegin) :=
    mul_nonneg (by linarith [h.hv, h.hw]) (by linarith [h.ht])
  have e : s.len = u.norm3 * ((v + w) / 2 * (s.tEnd - s.tBegin)) := by
    rw [← norm3_mul_nonneg u h0, Segment.len, h.hp]
    congr 1
    ext <;> simp [Vec4.sub, Vec4.add]
  rw [e]
  ring

theorem speed (h : Along s u v w) {f : ℝ → ℝ} (hf : SpeedOf s f) {t : ℝ} (ht : Covers s t) :
    f t = u.norm3 * v + (u.norm3 * w - u.norm3 * v) / (s.tEnd - s.tBegin) * (t - s.tBegin) := by
  obtain ⟨x, h1, h2⟩ := hf t ht
  have hd : 0 < s.tEnd - s.tBegin := by linarith [h.ht]
  have h3 := ht.1
  have h4 := ht.2
  unfold Segment.getVelocity at h1
  rw [if_neg (by rintro (hc | hc) <;> linarith)] at h1
  simp only [if_pos hd, Except.ok.injEq] at h1
  have e : x = u.mul (v + (w - v) / (s.tEnd - s.tBegin) * (t - s.tBegin)) := by
    rw [← h1, h.hb, h.he]
    ext <;> simp only [Vec4.add, Vec4.mul, Vec4.div, Vec4.sub] <;> ring
  have hr : (t - s.tBegin) / (s.tEnd - s.tBegin) ≤ 1 := by rw [div_le_one hd]; linarith
  have hr' : 0 ≤ (t - s.tBegin) / (s.tEnd - s.tBegin) := div_nonneg (by linarith) hd.le
  have h0 : 0 ≤ v + (w - v) / (s.tEnd - s.tBegin) * (t - s.tBegin) := by
    have : v + (w - v) / (s.tEnd - s.tBegin) * (t - s.tBegin) =
        (1 - (t - s.tBegin) / (s.tEnd - s.tBegin)) * v + (t - s.tBegin) / (s.tEnd - s.tBegin) * w := by
      field_simp
      ring
    rw [this]
    exact add_nonneg (mul_nonneg (by linarith) h.hv) (mul_nonneg hr' h.hw)
  rw [h2, e, norm3_mul_nonneg u h0]
  ring

/-- The error along the way in closed form. -/
theorem error (h : Along s u v w) {f : ℝ → ℝ} (hf : SpeedOf s f) {vT : ℝ} (hT : vT ≠ 0) :
    errorOnTheWay s f vT = s.len - ((u.norm3 * v) ^ 2 + (u.norm3 * v) * (u.norm3 * w) + (u.norm3 * w) ^ 2) / 3 *
      (s.tEnd - s.tBegin) / vT := by
  have hd : 0 < s.tEnd - s.tBegin := by linarith [h.ht]
  rw [h.len_eq]
  generalize hV : u.norm3 * v = V
  generalize hW : u.norm3 * w = W
  generalize hD : s.tEnd - s.tBegin = D at *
  have e1 : errorOnTheWay s f vT = ∫ t in s.tBegin..s.tEnd,
      (V + (W - V) / D * (t - s.tBegin)) - (V + (W - V) / D * (t - s.tBegin)) ^ 2 / vT := by
    unfold errorOnTheWay
    refine intervalIntegral.integral_congr fun t ht => ?_
    rw [Set.uIcc_of_le h.ht.le] at ht
    have := h.speed hf ⟨ht.1, ht.2⟩
    rw [hV, hW, hD] at this
    simp only [this]
    field_simp
  have e2 : ∀ t ∈ Set.uIcc s.tBegin s.tEnd, HasDerivAt (fun t => V * (t - s.tBegin) + (W - V) / D * (t - s.tBegin) ^ 2 / 2 -
      (V ^ 2 * (t - s.tBegin) + V * ((W - V) / D) * (t - s.tBegin) ^ 2 + ((W - V) / D) ^ 2 * (t - s.tBegin) ^ 3 / 3) / vT)
      ((V + (W - V) / D * (t - s.tBegin)) - (V + (W - V) / D * (t - s.tBegin)) ^ 2 / vT) t := by
    intro t _
    have d1 : HasDerivAt (fun t => t - s.tBegin) 1 t := (hasDerivAt_id t).sub_const _
    have d2 := (((d1.const_mul V).add (((d1.pow 2).const_mul ((W - V) / D)).div_const 2)).sub
      ((((d1.const_mul (V ^ 2)).add ((d1.pow 2).const_mul (V * ((W - V) / D)))).add
        (((d1.pow 3).const_mul (((W - V) / D) ^ 2)).div_const 3)).div_const vT))
    refine d2.congr_deriv ?_
    field_simp
    ring
  rw [e1, intervalIntegral.integral_eq_sub_of_hasDerivAt e2 (Continuous.intervalIntegrable (by fun_prop) _ _)]
  simp only [sub_self, hD]
  field_simp
  ring

/-- The value of `segm_error` in closed form. -/
theorem avgError_eq (h : Along s u v w) {vT : ℝ} (hT : 1e-8 < |vT|) (hd : 1e-8 < s.tEnd - s.tBegin)
    (hv : 1e-8 < |u.norm3 * w - u.norm3 * v|) {f : ℝ → ℝ} (hf : SpeedOf s f) :
    s.avgError vT = errorOnTheWay s f vT + if |u.norm3 * w| ≤ 1e-8 then
      (u.norm3 * w) ^ 3 / (3 * ((u.norm3 * w - u.norm3 * v) / (s.tEnd - s.tBegin)) * vT) else 0 := by
  have hT0 : vT ≠ 0 := fun e => by rw [e, abs_zero] at hT; norm_num at hT
  have hd0 : 0 < s.tEnd - s.tBegin := by linarith [h.ht]
  have hv0 : u.norm3 * w - u.norm3 * v ≠ 0 := fun e => by rw [e, abs_zero] at hv; norm_num at hv
  have c1 : isClose vT 0 = false := by rw [← Bool.not_eq_true, isClose_zero]; exact not_le.2 hT
  have c2 : isClose s.duration 0 = false := by
    rw [← Bool.not_eq_true, isClose_zero, Segment.duration, abs_of_pos hd0]; exact not_le.2 hd
  have c3 : isClose (s.velEnd.norm3 - s.velBegin.norm3) 0 = false := by
    rw [← Bool.not_eq_true, isClose_zero, h.normBegin, h.normEnd]; exact not_le.2 hv
  unfold Segment.avgError
  simp only [c1, c2, c3, Bool.not_false, Bool.and_self, if_true]
  rw [h.error hf hT0, Segment.errorIntegral, h.len_eq, h.normBegin, h.normEnd, Segment.duration]
  have hW0 : 0 ≤ u.norm3 * w := mul_nonneg (Vec4.norm3_nonneg u) h.hw
  generalize hV : u.norm3 * v = V at *
  generalize hW : u.norm3 * w = W at *
  generalize hD : s.tEnd - s.tBegin = D at *
  have hs : 2 * ((W - V) / D) * ((V + W) / 2 * D) + V * V = W ^ 2 := by
    field_simp
    ring
  by_cases hc : |W| ≤ 1e-8
  · rw [if_pos ((isClose_zero W).2 hc), if_pos hc, hs]
    simp only [sqrt_real, Real.sqrt_zero]
    field_simp
    ring
  · rw [if_neg (fun hh => hc ((isClose_zero W).1 hh)), if_neg hc, hs]
    rw [sqrt_real, Real.sqrt_sq hW0]
    field_simp
    ring

theorem avgError_close (h : Along s u v w) {vT : ℝ}
    (hc : s.tEnd - s.tBegin ≤ 1e-8 ∨ |u.norm3 * w - u.norm3 * v| ≤ 1e-8) : s.avgError vT = 0 := by
  have hd0 : 0 < s.tEnd - s.tBegin := by linarith [h.ht]
  unfold Segment.avgError
  simp only
  rw [if_neg]
  rw [h.normBegin, h.normEnd, Segment.duration]
  rcases hc with hc | hc
  · simp [(isClose_zero _).2 ((abs_of_pos hd0).trans_le hc)]
  · simp [(isClose_zero _).2 hc]

/-- The error of `segm_error` for a phase of a planned move. -/
theorem bound (h : Along s u v w) (hn : u.norm3 = 0 ∨ u.norm3 = 1) {S a : ℝ} (hS : 1e-8 < S) (ha : 0 < a) (hv : v ≤ S)
    (hw : w ≤ S) (hphase : (v = S ∧ w = S) ∨ |w - v| = a * (s.tEnd - s.tBegin)) {f : ℝ → ℝ} (hf : SpeedOf s f) :
    |s.avgError S - errorOnTheWay s f S| ≤ 1e-8 * S * (1 + 1 / a) + 1e-24 / (3 * a * S) := by
  have hS0 : 0 < S := by linarith [show (0 : ℝ) < 1e-8 by norm_num]
  have hdt : 0 < s.tEnd - s.tBegin := by linarith [h.ht]
  have hE := h.error hf hS0.ne'
  rw [h.len_eq] at hE
  have hA := fun x y => h.avgError_eq (vT := S) (by rw [abs_of_pos hS0]; exact hS) x y hf
  have hC := h.avgError_close (vT := S)
  have b1 : 0 ≤ 1e-8 * S := by positivity
  have b2 : 0 ≤ 1e-24 / (3 * a * S) := by positivity
  have b3 : 0 ≤ 1e-8 * S * (1 / a) := by positivity
  rw [mul_add, mul_one]
  have hv0 := h.hv
  have hw0 := h.hw
  generalize s.avgError S = e at *
  generalize errorOnTheWay s f S = E at *
  generalize s.tEnd - s.tBegin = D at *
  rcases hn with hn | hn
  · rw [hn] at hE hC
    simp only [zero_mul, sub_self, abs_zero, add_zero, zero_div, mul_zero, ne_eq, OfNat.ofNat_ne_zero, not_false_eq_true,
      zero_pow] at hE hC
    rw [hC (.inr (by norm_num)), hE]
    simp only [sub_self, abs_zero]
    linarith
  rw [hn] at hE hC hA
  simp only [one_mul] at hE hC hA
  have hq : (v ^ 2 + v * w + w ^ 2) / 3 / S ≤ (v + w) / 2 := by
    rw [div_le_iff₀ hS0]
    nlinarith [mul_nonneg hv0 (sub_nonneg.2 hv), mul_nonneg hw0 (sub_nonneg.2 hw), mul_nonneg hv0 (sub_nonneg.2 hw),
      mul_nonneg hw0 (sub_nonneg.2 hv)]
  have hq0 : 0 ≤ (v ^ 2 + v * w + w ^ 2) / 3 / S := by positivity
  have hE' : E = ((v + w) / 2 - (v ^ 2 + v * w + w ^ 2) / 3 / S) * D := by rw [hE]; ring
  have hE0 : 0 ≤ E := by rw [hE']; exact mul_nonneg (by linarith) hdt.le
  have hE1 : E ≤ S * D := by rw [hE']; exact mul_le_mul_of_nonneg_right (by linarith) hdt.le
  by_cases c1 : D ≤ 1e-8
  · rw [hC (.inl c1), zero_sub, abs_neg, abs_of_nonneg hE0]
    have := mul_le_mul_of_nonneg_left c1 hS0.le
    linarith
  by_cases c2 : |w - v| ≤ 1e-8
  · rw [hC (.inr c2), zero_sub, abs_neg, abs_of_nonneg hE0]
    rcases hphase with ⟨rfl, rfl⟩ | hp
    · have : E = 0 := by
        rw [hE]
        field_simp
        ring
      linarith
    · rw [hp] at c2
      have h1 : D ≤ 1e-8 * (1 / a) := by rw [mul_one_div, le_div_iff₀ ha]; linarith
      have := mul_le_mul_of_nonneg_left h1 hS0.le
      linarith
  · rw [hA (not_le.1 c1) (not_le.1 c2), add_sub_cancel_left]
    by_cases c3 : |w| ≤ 1e-8
    · rw [if_pos c3]
      rcases hphase with ⟨rfl, rfl⟩ | hp
      · exact absurd (by norm_num) c2
      have e1 : |w ^ 3 / (3 * ((w - v) / D) * S)| = w ^ 3 / (3 * a * S) := by
        rw [abs_div, abs_mul, abs_mul, abs_div, hp, abs_of_pos hdt, abs_of_pos hS0, abs_of_nonneg (pow_nonneg hw0 3)]
        rw [mul_div_cancel_right₀ _ hdt.ne']
        norm_num
      rw [e1]
      have e2 : w ^ 3 ≤ 1e-24 := by
        rw [abs_of_nonneg hw0] at c3
        calc w ^ 3 ≤ (1e-8) ^ 3 := pow_le_pow_left₀ hw0 c3 3
          _ = 1e-24 := by norm_num
      have := div_le_div_of_nonneg_right e2 (by positivity : (0:ℝ) ≤ 3 * a * S)
      linarith
    · rw [if_neg c3, abs_zero]
      linarith

end Along

theorem Spec.Ramp.along {u : Vec4 ℝ} {a vT : ℝ} {p p' : Vec4 ℝ} {t t' v v' : ℝ} {l : List (Segment ℝ)}
    (h : Ramp u a vT p t v l p' t' v') : ∀ s ∈ l, ∃ w w₁, Along s u w w₁ ∧ w ≤ vT ∧ w₁ ≤ vT := by
  induction h with
  | nil => simp
  | cons hv hv₁ ht hacc hpos hp hrest ih =>
    intro s hs
    rcases List.mem_cons.1 hs with rfl | hs
    · exact ⟨_, _, ⟨hv.1, hv₁.1, ht, rfl, rfl, hp⟩, hv.2, hv₁.2⟩
    · exact ih s hs

theorem lookup_dictSet_str {V : Type} (d : Dict V) (k : String) (v : V) (k' : String) :
    (dictSet d k v).lookup k' = if k' = k then some v else d.lookup k' := by
  induction d with
  | nil =>
    by_cases h : k' = k
    · simp [dictSet, List.lookup, h]
    · have : (k' == k) = false := by simpa using h
      simp [dictSet, List.lookup, h, this]
  | cons x d ih =>
    obtain ⟨a, b⟩ := x
    unfold dictSet
    by_cases h : a = k
    · subst h
      by_cases h' : k' = a
      · simp [List.lookup, h']
      · have : (k' == a) = false := by simpa using h'
        simp [List.lookup, h', this]
    · rw [if_neg h]
      by_cases h' : k' = a
      · subst h'
        simp [List.lookup, h]
      · have : (k' == a) = false := by simpa using h'
        simp only [List.lookup, this, ih]

/-- **C106, in full** (refuted): the results of every segment can be calculated. -/
def C106Full : Prop := ∀ (fw : Firmware) (states : List (PState ℝ)) (bs : List (Block ℝ)), Regular states →
  plan fw states = .ok bs → ∀ b ∈ bs, ∀ s ∈ b.segments, ∃ r, s.calcResults none b.stateB.speed = .ok r

/-- **C106** is false of the code: no segment has the attribute `result`, so that both methods raise. -/
theorem c106_no_attribute (s : Segment ℝ) (vT : ℝ) (key : String) :
    s.calcResults none vT = .error .attributeError ∧ getResult (K := ℝ) none key = .error .attributeError := ⟨rfl, rfl⟩

/-- **C106** is false of the code. -/
theorem c106_refuted : ¬ C106Full := by
  intro hfull
  obtain ⟨_, bs, _, _, h, _⟩ := c26_correction_total .default Demo.regular
  have hne : bs ≠ [] := by
    rintro rfl
    have := c28_blocks Demo.regular h
    rw [Demo.active_prog] at this
    cases this
  obtain ⟨b, bs, rfl⟩ := List.exists_cons_of_ne_nil hne
  obtain ⟨A, x, _, _, h2, _⟩ := ((plan_ok Demo.regular h).1 b (by simp)).facts
  obtain ⟨r, hr⟩ := hfull _ _ _ Demo.regular h b (by simp) x (List.mem_of_head? h2)
  cases hr

/-- **C106**, if a caller sets the attribute: `vel` are the speeds at both ends, `rel_vel_err` their relative errors, other
entries are kept and an unknown key is a `ValueError`. Missing: the attribute. -/
theorem c106_values_partial (s : Segment ℝ) (r : Dict (List ℝ)) (vT : ℝ) :
    ∃ r', s.calcResults (some r) vT = .ok r' ∧
      getResult (some r') "vel" = .ok (some [s.velBegin.norm3, s.velEnd.norm3]) ∧
      (0 < vT → getResult (some r') "rel_vel_err" =
        .ok (some [1 - s.velBegin.norm3 / vT, 1 - s.velEnd.norm3 / vT])) ∧
      (vT ≤ 0 → getResult (some r') "rel_vel_err" = .ok (some [0, 0])) ∧
      (∃ e, getResult (some r') "segm_error" = .ok (some [e, e])) ∧
      (∀ k, k ≠ "vel" → k ≠ "rel_vel_err" → k ≠ "segm_error" → getResult (some r') k = getResult (some r) k) ∧
      ∀ k, k ≠ "vel" → k ≠ "rel_vel_err" → k ≠ "segm_error" → (∀ x ∈ r, x.1 ≠ k) →
        getResult (some r') k = .error .valueError := by
  have key : ∀ k, k ≠ "vel" → k ≠ "rel_vel_err" → k ≠ "segm_error" → ∀ a b c : List ℝ,
      getResult (some (dictSet (dictSet (dictSet r "segm_error" a) "rel_vel_err" b) "vel" c)) k = getResult (some r) k := by
    intro k h1 h2 h3 a b c
    unfold getResult
    simp only [lookup_dictSet_str, if_neg h1, if_neg h2, if_neg h3]
  refine ⟨_, rfl, ?_, ?_, ?_, ⟨s.avgError vT, ?_⟩, ?_, ?_⟩
  · simp [getResult, lookup_dictSet_str]
  · intro h
    simp [getResult, lookup_dictSet_str, h, sub_div, h.ne']
  · intro h
    simp [getResult, lookup_dictSet_str, not_lt.2 h]
  · simp [getResult, lookup_dictSet_str]
  · exact fun k h1 h2 h3 => key k h1 h2 h3 _ _ _
  · intro k h1 h2 h3 h4
    rw [key k h1 h2 h3]
    have : r.lookup k = none := by
      rw [List.lookup_eq_none_iff]
      intro x hx
      simpa using fun e => h4 x hx e.symm
    simp [getResult, this]

theorem good_error {b : Block ℝ} (hg : Good b) (hpause : b.stateB.pause = none) (hsp : 1e-8 < b.stateB.speed) :
    ∀ s ∈ b.segments, ∀ r f,
      SpeedOf s f → ∃ r' e, s.calcResults (some r) b.stateB.speed = .ok r' ∧ getResult (some r') "segm_error" = .ok (some [e, e]) ∧
        |e - errorOnTheWay s f b.stateB.speed| ≤
          1e-8 * b.stateB.speed * (1 + 1 / b.stateB.pAcc) + 1e-24 / (3 * b.stateB.pAcc * b.stateB.speed) := by
  intro s hs r f hf
  refine ⟨_, s.avgError b.stateB.speed, rfl, by simp [getResult, lookup_dictSet_str], ?_⟩
  rcases hg with ⟨A, u, s0, s1, hm⟩ | ⟨A, p, hd⟩
  swap
  · rw [hd.hpause] at hpause; cases hpause
  obtain ⟨v, w, ha, hv, hw⟩ := hm.hramp.along s hs
  have hu := hm.toHdr.unit.1
  have hn := hu.norms.1
  have hacc := hm.ha
  obtain ⟨up, cr, dn, e, h1, h2, h3, _⟩ := hm.hprof
  have hphase : (v = b.stateB.speed ∧ w = b.stateB.speed) ∨ |w - v| = b.stateB.pAcc * (s.tEnd - s.tBegin) := by
    have hdt : 0 < s.tEnd - s.tBegin := by linarith [ha.ht]
    rw [e, List.mem_append, List.mem_append] at hs
    rcases hs with (hs | hs) | hs
    · right
      have := h1 s hs
      rw [ha.hb, ha.he, mul_add_mul] at this
      have := unit_cancel hu (p := Vec4.zero) (congrArg _ this)
      rw [show w - v = b.stateB.pAcc * (s.tEnd - s.tBegin) by linarith, abs_of_pos (mul_pos hacc hdt)]
    · left
      have := h2 s hs
      rw [ha.hb, ha.he] at this
      exact ⟨unit_cancel hu (p := Vec4.zero) (congrArg _ this.1), unit_cancel hu (p := Vec4.zero) (congrArg _ this.2)⟩
    · right
      have := h3 s hs
      rw [ha.hb, ha.he, mul_add_mul] at this
      have := unit_cancel hu (p := Vec4.zero) (congrArg _ this)
      rw [show w - v = -(b.stateB.pAcc * (s.tEnd - s.tBegin)) by linarith, abs_neg, abs_of_pos (mul_pos hacc hdt)]
  refine ha.bound ?_ hsp hacc hv hw hphase hf
  rw [hn]
  split
  · exact .inl rfl
  · exact .inr rfl

/-- **C106**, if a caller sets the attribute: for the segments of a planned move, with its feedrate as target, `segm_error` is
the relative velocity error integrated along the way, up to the tolerances of `np.isclose`. Missing: the attribute. -/
theorem c106_error_partial {fw : Firmware} {states : List (PState ℝ)} {bs : List (Block ℝ)} (hreg : Regular states)
    (h : plan fw states = .ok bs) : ∀ b ∈ bs, b.stateB.pause = none → 1e-8 < b.stateB.speed → ∀ s ∈ b.segments, ∀ r f,
      SpeedOf s f → ∃ r' e, s.calcResults (some r) b.stateB.speed = .ok r' ∧ getResult (some r') "segm_error" = .ok (some [e, e]) ∧
        |e - errorOnTheWay s f b.stateB.speed| ≤
          1e-8 * b.stateB.speed * (1 + 1 / b.stateB.pAcc) + 1e-24 / (3 * b.stateB.pAcc * b.stateB.speed) := fun b hb hpause hsp =>
  good_error ((plan_ok hreg h).1 b hb) hpause hsp

/-- The hypotheses hold for the first move of the demo program. -/
example : ∃ bs b s, plan .default Demo.prog = .ok bs ∧ b ∈ bs ∧ b.stateB.pause = none ∧ 1e-8 < b.stateB.speed ∧
    s ∈ b.segments ∧ ∃ f, SpeedOf s f := by
  obtain ⟨_, bs, _, _, h, _⟩ := c26_correction_total .default Demo.regular
  have hb := c28_blocks Demo.regular h
  rw [Demo.active_prog] at hb
  obtain ⟨b, bs, rfl⟩ : ∃ b bs', bs = b :: bs' := by
    cases bs with
    | nil => cases hb
    | cons b bs => exact ⟨b, bs, rfl⟩
  rw [List.map_cons, List.cons.injEq, Prod.mk.injEq] at hb
  obtain ⟨A, x, _, _, h2, _⟩ := ((plan_ok Demo.regular h).1 b (by simp)).facts
  refine ⟨_, b, x, h, by simp, by rw [hb.1.2]; rfl, by rw [hb.1.2]; norm_num [Demo.s1], List.mem_of_head? h2,
    fun t => match x.getVelocity t with
      | .ok v => v.norm3
      | .error _ => 0, fun t ht => ?_⟩
  obtain ⟨v, hv⟩ := getVelocity_total ht
  exact ⟨v, hv, by simp only [hv]⟩

end PyGCD
