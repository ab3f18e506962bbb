import Verif.Proofs.PlanLemmas
import Verif.Props.Plannable
import Verif.Spec.Optimal
import Mathlib.Analysis.Calculus.Deriv.MeanValue
import Mathlib.Analysis.Calculus.Deriv.Pow
import Mathlib.Analysis.Calculus.Deriv.Comp
import Mathlib.Analysis.Calculus.Deriv.Shift

/-!
# No motion within the limits is faster than the planned one
-/

set_option linter.unusedSectionVars false
set_option linter.unusedSimpArgs false

namespace PyGCD
open Vec4 Spec Set

/-! ## The planned profile in numbers -/

theorem mul_inj {u : Vec4 ℝ} {eo : Bool} (hu : UnitDir u eo) {x y : ℝ} (h : u.mul x = u.mul y) : x = y :=
  unit_cancel hu (p := Vec4.zero) (by rw [h])

theorem Spec.Ramp.split {u : Vec4 ℝ} {a vT : ℝ} : ∀ {l1 l2 : List (Segment ℝ)} {p p' : Vec4 ℝ}
    {t t' v v' : ℝ}, Ramp u a vT p t v (l1 ++ l2) p' t' v' →
    ∃ p₁ t₁ v₁, Ramp u a vT p t v l1 p₁ t₁ v₁ ∧ Ramp u a vT p₁ t₁ v₁ l2 p' t' v' := by
  intro l1
  induction l1 with
  | nil => intro l2 p p' t t' v v' h; exact ⟨p, t, v, .nil _ _ _, h⟩
  | cons s l1 ih =>
    intro l2 p p' t t' v v' h
    cases h with
    | cons hv hv₁ ht hacc hpos hp hrest =>
      obtain ⟨p₂, t₂, v₂, h1, h2⟩ := ih hrest
      exact ⟨p₂, t₂, v₂, .cons hv hv₁ ht hacc hpos hp h1, h2⟩

section
variable {u : Vec4 ℝ} {eo : Bool} {a vT : ℝ}

theorem up_ramp (hu : UnitDir u eo) {l : List (Segment ℝ)} {p p' : Vec4 ℝ} {t t' v v' : ℝ}
    (h : Ramp u a vT p t v l p' t' v')
    (hl : ∀ s ∈ l, s.velEnd = s.velBegin.add (u.mul (a * (s.tEnd - s.tBegin)))) :
    t ≤ t' ∧ v' = v + a * (t' - t) ∧
      p' = p.add (u.mul (v * (t' - t) + a * (t' - t) ^ 2 / 2)) := by
  induction h with
  | nil p t v => exact ⟨le_refl _, by ring, by simp [Vec4.mul_zero, Vec4.add_zero]⟩
  | @cons t t₁ v v₁ t' v' p p₁ p' ss hv hv₁ ht hacc hpos hp hrest ih =>
    obtain ⟨h1, h2, h3⟩ := ih fun s hs => hl s (by simp [hs])
    have h4 := hl _ (List.mem_cons_self)
    simp only [mul_add_mul] at h4
    have h5 := mul_inj hu h4
    refine ⟨by linarith, by rw [h2, h5]; ring, ?_⟩
    rw [h3, hp, add_mul_add, h5]
    congr 2
    ring

theorem cruise_ramp (hu : UnitDir u eo) {l : List (Segment ℝ)} {p p' : Vec4 ℝ} {t t' v v' : ℝ}
    (h : Ramp u a vT p t v l p' t' v')
    (hl : ∀ s ∈ l, s.velBegin = u.mul vT ∧ s.velEnd = u.mul vT) :
    t ≤ t' ∧ v' = v ∧ (t < t' → v = vT) ∧ p' = p.add (u.mul (v * (t' - t))) := by
  induction h with
  | nil p t v => exact ⟨le_refl _, rfl, fun h => absurd h (lt_irrefl _), by
      simp [Vec4.mul_zero, Vec4.add_zero]⟩
  | @cons t t₁ v v₁ t' v' p p₁ p' ss hv hv₁ ht hacc hpos hp hrest ih =>
    obtain ⟨h1, h2, _, h3⟩ := ih fun s hs => hl s (by simp [hs])
    obtain ⟨h4, h5⟩ := hl _ (List.mem_cons_self)
    have e1 := mul_inj hu h4
    have e2 := mul_inj hu h5
    refine ⟨by linarith, by rw [h2, e1, e2], fun _ => e1, ?_⟩
    rw [h3, hp, add_mul_add, e1, e2]
    congr 2
    ring

theorem down_ramp (hu : UnitDir u eo) {l : List (Segment ℝ)} {p p' : Vec4 ℝ} {t t' v v' : ℝ}
    (h : Ramp u a vT p t v l p' t' v')
    (hl : ∀ s ∈ l, s.velBegin = s.velEnd.add (u.mul (a * (s.tEnd - s.tBegin)))) :
    t ≤ t' ∧ v = v' + a * (t' - t) ∧
      p' = p.add (u.mul (v' * (t' - t) + a * (t' - t) ^ 2 / 2)) := by
  induction h with
  | nil p t v => exact ⟨le_refl _, by ring, by simp [Vec4.mul_zero, Vec4.add_zero]⟩
  | @cons t t₁ v v₁ t' v' p p₁ p' ss hv hv₁ ht hacc hpos hp hrest ih =>
    obtain ⟨h1, h2, h3⟩ := ih fun s hs => hl s (by simp [hs])
    have h4 := hl _ (List.mem_cons_self)
    simp only [mul_add_mul] at h4
    have h5 := mul_inj hu h4
    refine ⟨by linarith, by rw [h5, h2]; ring, ?_⟩
    rw [h3, hp, add_mul_add, h5, h2]
    congr 2
    ring

/-- A planned move in numbers: `ta`, `tc`, `td` are the durations of the three phases, `vp` is the speed in
between. -/
structure Phases (a vT d v v' T ta tc td vp : ℝ) : Prop where
  hta : 0 ≤ ta
  htc : 0 ≤ tc
  htd : 0 ≤ td
  hup : vp = v + a * ta
  hdown : vp = v' + a * td
  hcruise : 0 < tc → vp = vT
  hT : T = ta + tc + td
  hd : d = (v * ta + a * ta ^ 2 / 2) + vp * tc + (v' * td + a * td ^ 2 / 2)

theorem Ramp.le_of_cons {p p' : Vec4 ℝ} {t t' v v' : ℝ} {s : Segment ℝ} {l : List (Segment ℝ)}
    (h : Spec.Ramp u a vT p t v (s :: l) p' t' v') : v' ≤ vT := by
  generalize hl : s :: l = l' at h
  induction h generalizing s l with
  | nil => cases hl
  | @cons t t₁ v v₁ t' v' p p₁ p' ss hv hv₁ ht hacc hpos hp hrest ih =>
    cases ss with
    | nil =>
      cases hrest
      exact hv₁.2
    | cons s ss => exact ih rfl

theorem profile_phases (hu : UnitDir u eo) {l : List (Segment ℝ)} {p p' : Vec4 ℝ} {t t' v v' d : ℝ}
    (h : Ramp u a vT p t v l p' t' v') (hl : Profile u a vT l) (hd : p' = p.add (u.mul d)) :
    ∃ ta tc td vp, Phases a vT d v v' (t' - t) ta tc td vp ∧
      (0 < tc → ∃ s ∈ l, s.velBegin = u.mul vT ∧ s.velEnd = u.mul vT) ∧ (v ≤ vT → vp ≤ vT) := by
  obtain ⟨l1, l2, l3, rfl, h1, h2, h3, -⟩ := hl
  obtain ⟨q, r, w, hr, hr3⟩ := h.split
  obtain ⟨q1, r1, w1, hr1, hr2⟩ := hr.split
  obtain ⟨a1, a2, a3⟩ := up_ramp hu hr1 h1
  obtain ⟨b1, b2, b3, b4⟩ := cruise_ramp hu hr2 h2
  obtain ⟨c1, c2, c3⟩ := down_ramp hu hr3 h3
  refine ⟨r1 - t, r - r1, t' - r, w1, ⟨by linarith, by linarith, by linarith, a2, b2.symm.trans c2,
    fun h => b3 (by linarith), by ring, ?_⟩, ?_, ?_⟩
  rotate_left
  rotate_left
  · intro hv
    cases hr1 with
    | nil => exact hv
    | cons g1 g2 g3 g4 g5 g6 g7 =>
      rename_i ss
      cases ss with
      | nil =>
        cases g7
        exact g2.2
      | cons s ss => exact (Ramp.le_of_cons g7)
  rotate_left
  · intro hc
    cases l2 with
    | nil =>
      cases hr2
      exact absurd hc (by simp)
    | cons s l2 => exact ⟨s, by simp, h2 s (by simp)⟩
  refine unit_cancel hu (p := p) ?_
  rw [← hd, c3, b4, a3, add_mul_add, add_mul_add]
  congr 2
  ring

end

/-! ## Comparing a drive with the profile -/

theorem gain_le {x w F f : ℝ → ℝ} {T p q : ℝ} (hp : 0 ≤ p) (hpq : p ≤ q) (hq : q ≤ T)
    (hx : ∀ t ∈ Icc 0 T, HasDerivWithinAt x (w t) (Icc 0 T) t)
    (hF : ∀ t, HasDerivAt F (f t) t) (hle : ∀ t ∈ Icc p q, w t ≤ f t) : x q - x p ≤ F q - F p := by
  have hsub : Icc p q ⊆ Icc 0 T := Icc_subset_Icc hp hq
  have hmono : MonotoneOn (fun t => F t - x t) (Icc p q) := by
    refine monotoneOn_of_hasDerivWithinAt_nonneg (f' := fun t => f t - w t) (convex_Icc p q) ?_ ?_ ?_
    · intro t ht
      exact ((hF t).continuousAt.continuousWithinAt).sub
        ((hx t (hsub ht)).mono hsub).continuousWithinAt
    · intro t ht
      have ht' : t ∈ Icc p q := interior_subset ht
      exact ((hF t).hasDerivWithinAt).sub
        ((hx t (hsub ht')).mono (interior_subset.trans hsub))
    · intro t ht
      have := hle t (interior_subset ht)
      linarith
  have := hmono (left_mem_Icc.2 hpq) (right_mem_Icc.2 hpq) hpq
  linarith

theorem hasDeriv_up (c a p : ℝ) (t : ℝ) :
    HasDerivAt (fun t => c * (t - p) + a * (t - p) ^ 2 / 2) (c + a * (t - p)) t := by
  have h1 : HasDerivAt (fun t : ℝ => t - p) 1 t := (hasDerivAt_id t).sub_const p
  have h2 := ((h1.const_mul c).add (((h1.pow 2).const_mul a).div_const 2))
  refine h2.congr_deriv ?_
  norm_num
  try ring

theorem hasDeriv_down (c a q : ℝ) (t : ℝ) :
    HasDerivAt (fun t => -(c * (q - t) + a * (q - t) ^ 2 / 2)) (c + a * (q - t)) t := by
  have h1 : HasDerivAt (fun t : ℝ => q - t) (-1) t := (hasDerivAt_id t).const_sub q
  have h2 := ((h1.const_mul c).add (((h1.pow 2).const_mul a).div_const 2)).neg
  refine h2.congr_deriv ?_
  norm_num
  try ring

/-- What a drive can cover: accelerating until `m`, cruising until `n`, braking afterwards. -/
theorem Spec.Drive.bound {a vT d v v' T : ℝ} (h : Drive a vT d v v' T) {m n : ℝ} (h0 : 0 ≤ m)
    (hmn : m ≤ n) (hn : n ≤ T) :
    d ≤ (v * m + a * m ^ 2 / 2) + vT * (n - m) + (v' * (T - n) + a * (T - n) ^ 2 / 2) := by
  obtain ⟨hT, x, w, hx, hL, hb, x0, xT, w0, wT⟩ := h
  have g1 := gain_le (F := fun t => v * (t - 0) + a * (t - 0) ^ 2 / 2) (le_refl 0) h0 (by linarith) hx
    (hasDeriv_up v a 0) (by
      intro t ht
      have := hL 0 ⟨le_refl _, hT⟩ t ⟨ht.1, by linarith [ht.2]⟩
      rw [w0, sub_zero, abs_of_nonneg ht.1] at this
      have := le_trans (le_abs_self _) this
      rw [sub_zero]
      linarith)
  have g2 := gain_le (F := fun t => vT * t) (f := fun _ => vT) h0 hmn hn hx
    (fun t => by simpa using (hasDerivAt_id t).const_mul vT)
    (by
      intro t ht
      exact (hb t ⟨by linarith [ht.1], by linarith [ht.2]⟩).2)
  have g3 := gain_le (F := fun t => -(v' * (T - t) + a * (T - t) ^ 2 / 2)) (by linarith) hn (le_refl T) hx
    (hasDeriv_down v' a T) (by
      intro t ht
      have := hL T ⟨hT, le_refl _⟩ t ⟨by linarith [ht.1], ht.2⟩
      rw [wT, abs_sub_comm t T, abs_of_nonneg (a := T - t) (by linarith [ht.2])] at this
      have := le_trans (le_abs_self _) this
      linarith)
  rw [x0] at g1
  rw [xT] at g3
  have e : (0 : ℝ) - 0 = 0 := by ring
  simp only [e, sub_zero, sub_self, mul_zero] at g1 g3
  norm_num at g1 g3
  linarith

/-- Speeds and distance of a drive. -/
theorem Spec.Drive.facts {a vT d v v' T : ℝ} (ha : 0 < a) (h : Drive a vT d v v' T) :
    0 ≤ v ∧ v ≤ vT ∧ 0 ≤ v' ∧ v' ≤ vT ∧ v' ^ 2 ≤ v ^ 2 + 2 * a * d ∧ v ^ 2 ≤ v' ^ 2 + 2 * a * d := by
  have h' := h
  obtain ⟨hT, x, w, hx, hL, hb, x0, xT, w0, wT⟩ := h
  have b0 := hb 0 ⟨le_refl _, hT⟩
  have bT := hb T ⟨hT, le_refl _⟩
  rw [w0] at b0
  rw [wT] at bT
  have key : ∀ t ∈ Icc 0 T, ∀ s ∈ Icc 0 T, |w t - w s| ≤ a * |t - s| := fun t ht s hs => hL s hs t ht
  -- the speed at least `v' - a (T - t)`, integrated
  have lower : ∀ (f F : ℝ → ℝ), (∀ t, HasDerivAt F (f t) t) → ∀ p q, 0 ≤ p → p ≤ q → q ≤ T →
      (∀ t ∈ Icc p q, f t ≤ w t) → F q - F p ≤ x q - x p := by
    intro f F hF p q hp hpq hq hle
    have hx' : ∀ t ∈ Icc 0 T, HasDerivWithinAt (fun t => -x t) (-w t) (Icc 0 T) t :=
      fun t ht => (hx t ht).neg
    have := gain_le (F := fun t => -F t) (f := fun t => -f t) hp hpq hq hx' (fun t => (hF t).neg)
      (fun t ht => by linarith [hle t ht])
    linarith
  have nonneg : ∀ p q, 0 ≤ p → p ≤ q → q ≤ T → x p ≤ x q := by
    intro p q hp hpq hq
    have := lower (fun _ => 0) (fun _ => 0) (fun t => hasDerivAt_const t 0) p q hp hpq hq
      (fun t ht => (hb t ⟨by linarith [ht.1], by linarith [ht.2]⟩).1)
    linarith
  refine ⟨b0.1, b0.2, bT.1, bT.2, ?_, ?_⟩
  · by_contra hc
    push Not at hc
    have hlt : v < v' := by
      by_contra hh
      push Not at hh
      have hdn : 0 ≤ d := by
        have := nonneg 0 T (le_refl _) hT (le_refl _)
        rw [x0, xT] at this
        exact this
      have := mul_self_le_mul_self bT.1 hh
      nlinarith [mul_nonneg ha.le hdn]
    -- it takes at least (v' - v) / a at the end to become that fast
    set τ := (v' - v) / a with hτ
    have hτ0 : 0 < τ := div_pos (by linarith) ha
    have haτ : a * τ = v' - v := by rw [hτ]; field_simp
    have hτT : τ ≤ T := by
      have := hL 0 ⟨le_refl _, hT⟩ T ⟨hT, le_refl _⟩
      rw [w0, wT, sub_zero, abs_of_nonneg hT, abs_of_pos (by linarith)] at this
      rw [hτ, div_le_iff₀ ha]
      linarith
    have h2 := lower _ _ (fun t => hasDeriv_up (v' - a * T) a 0 t) (T - τ) T (by linarith) (by linarith)
      (le_refl _) (by
        intro t ht
        have := hL T ⟨hT, le_refl _⟩ t ⟨by linarith [ht.1], ht.2⟩
        rw [wT, abs_sub_comm t T, abs_of_nonneg (a := T - t) (by linarith [ht.2])] at this
        have := neg_le_of_abs_le this
        nlinarith)
    have h3 := nonneg 0 (T - τ) (le_refl _) (by linarith) (by linarith)
    rw [x0] at h3
    rw [xT] at h2
    have e : 2 * a * ((v' - a * T) * (T - 0) + a * (T - 0) ^ 2 / 2 -
        ((v' - a * T) * (T - τ - 0) + a * (T - τ - 0) ^ 2 / 2)) = v' ^ 2 - v ^ 2 := by
      have : 2 * a * ((v' - a * T) * (T - 0) + a * (T - 0) ^ 2 / 2 -
        ((v' - a * T) * (T - τ - 0) + a * (T - τ - 0) ^ 2 / 2)) = 2 * v' * (a * τ) - (a * τ) ^ 2 := by ring
      rw [this, haτ]
      ring
    nlinarith
  · by_contra hc
    push Not at hc
    have hlt : v' < v := by
      by_contra hh
      push Not at hh
      have hdn : 0 ≤ d := by
        have := nonneg 0 T (le_refl _) hT (le_refl _)
        rw [x0, xT] at this
        exact this
      have := mul_self_le_mul_self b0.1 hh
      nlinarith [mul_nonneg ha.le hdn]
    set τ := (v - v') / a with hτ
    have hτ0 : 0 < τ := div_pos (by linarith) ha
    have haτ : a * τ = v - v' := by rw [hτ]; field_simp
    have hτT : τ ≤ T := by
      have := hL 0 ⟨le_refl _, hT⟩ T ⟨hT, le_refl _⟩
      rw [w0, wT, sub_zero, abs_of_nonneg hT, abs_sub_comm, abs_of_pos (by linarith)] at this
      rw [hτ, div_le_iff₀ ha]
      linarith
    have h2 := lower _ _ (fun t => hasDeriv_up v (-a) 0 t) 0 τ (le_refl _) hτ0.le hτT (by
        intro t ht
        have := hL 0 ⟨le_refl _, hT⟩ t ⟨ht.1, by linarith [ht.2]⟩
        rw [w0, sub_zero, abs_of_nonneg ht.1] at this
        have := neg_le_of_abs_le this
        nlinarith)
    have h3 := nonneg τ T hτ0.le hτT (le_refl _)
    rw [x0] at h2
    rw [xT] at h3
    have e : 2 * a * (v * (τ - 0) + -a * (τ - 0) ^ 2 / 2 - (v * (0 - 0) + -a * (0 - 0) ^ 2 / 2)) =
        v ^ 2 - v' ^ 2 := by
      have : 2 * a * (v * (τ - 0) + -a * (τ - 0) ^ 2 / 2 - (v * (0 - 0) + -a * (0 - 0) ^ 2 / 2)) =
        2 * v * (a * τ) - (a * τ) ^ 2 := by ring
      rw [this, haτ]
      ring
    nlinarith

/-- No drive over at least the same distance with the same limits that begins and ends at most as fast takes less
time than the three phases. -/
theorem Phases.fastest_far {a vT d v v' T ta tc td vp : ℝ} (ha : 0 < a) (hvT : 0 < vT) (hv : 0 ≤ v)
    (h : Phases a vT d v v' T ta tc td vp) {w w' T' : ℝ} (hw : w ≤ v) (hw' : w' ≤ v')
    {D : ℝ} (hdD : d ≤ D) (hD : Drive a vT D w w' T') : T ≤ T' := by
  by_contra hc
  push Not at hc
  obtain ⟨w0, _, w0', _⟩ := hD.facts ha
  have hT' := hD.1
  have g : ∀ c c' m n : ℝ, 0 ≤ c → c ≤ c' → 0 ≤ m → m ≤ n →
      c * m + a * m ^ 2 / 2 ≤ c' * n + a * n ^ 2 / 2 := by
    intro c c' m n h1 h2 h3 h4
    have e1 : c * m ≤ c' * n := mul_le_mul h2 h4 h3 (le_trans h1 h2)
    have e2 : m ^ 2 ≤ n ^ 2 := pow_le_pow_left₀ h3 h4 2
    nlinarith
  have gs : ∀ c c' m n : ℝ, 0 ≤ c → c ≤ c' → 0 ≤ m → m < n →
      c * m + a * m ^ 2 / 2 < c' * n + a * n ^ 2 / 2 := by
    intro c c' m n h1 h2 h3 h4
    have e1 : c * m ≤ c' * n := mul_le_mul h2 h4.le h3 (le_trans h1 h2)
    have e2 : m ^ 2 < n ^ 2 := pow_lt_pow_left₀ h4 h3 two_ne_zero
    nlinarith
  have hvp : 0 ≤ vp := by
    rw [h.hup]
    have := mul_nonneg ha.le h.hta
    linarith
  have hcr : 0 ≤ vp * tc := mul_nonneg hvp h.htc
  rcases le_total (ta + td) T' with hcase | hcase
  · have htc : 0 < tc := by
      have := h.hT
      linarith
    have b := hD.bound h.hta (show ta ≤ T' - td by linarith) (by linarith [h.htd])
    have e : T' - (T' - td) = td := by ring
    rw [e] at b
    have g1 := g w v ta ta w0 hw h.hta (le_refl _)
    have g2 := g w' v' td td w0' hw' h.htd (le_refl _)
    have g3 : vT * (T' - td - ta) < vT * tc := mul_lt_mul_of_pos_left (by linarith [h.hT]) hvT
    have hd := h.hd
    rw [h.hcruise htc] at hd
    linarith
  · rcases le_total ta T' with h1 | h1
    · have b := hD.bound h.hta (le_refl ta) h1
      rw [sub_self, mul_zero] at b
      have g1 := g w v ta ta w0 hw h.hta (le_refl _)
      rcases eq_or_lt_of_le (show T' - ta ≤ td by linarith) with h2 | h2
      · have htc : 0 < tc := by
          have := h.hT
          linarith
        have g2 := g w' v' (T' - ta) td w0' hw' (by linarith) h2.le
        have g3 : 0 < vp * tc := by
          rw [h.hcruise htc]
          exact mul_pos hvT htc
        linarith [h.hd]
      · have g2 := gs w' v' (T' - ta) td w0' hw' (by linarith) h2
        linarith [h.hd]
    · have b := hD.bound hT' (le_refl T') (le_refl T')
      rw [sub_self, mul_zero, mul_zero] at b
      have g0 := g w' v' 0 td w0' hw' (le_refl _) h.htd
      rcases eq_or_lt_of_le h1 with h2 | h2
      · have g1 := g w v T' ta w0 hw hT' h1
        rcases eq_or_lt_of_le h.htd with h3 | h3
        · have htc : 0 < tc := by
            have := h.hT
            linarith
          have g3 : 0 < vp * tc := by
            rw [h.hcruise htc]
            exact mul_pos hvT htc
          norm_num at b g0
          linarith [h.hd]
        · have g2 := gs w' v' 0 td w0' hw' (le_refl _) h3
          norm_num at b g2
          linarith [h.hd]
      · have g1 := gs w v T' ta w0 hw hT' h2
        norm_num at b g0
        linarith [h.hd]

theorem Phases.fastest {a vT d v v' T ta tc td vp : ℝ} (ha : 0 < a) (hvT : 0 < vT) (hv : 0 ≤ v)
    (h : Phases a vT d v v' T ta tc td vp) {w w' T' : ℝ} (hw : w ≤ v) (hw' : w' ≤ v')
    (hD : Drive a vT d w w' T') : T ≤ T' :=
  h.fastest_far ha hvT hv hw hw' le_rfl hD

/-! ## The planned motion is a drive -/

/-- Two drives, one after the other. -/
theorem Spec.Drive.append {a vT d d' v v₁ v' T T' : ℝ} (h : Drive a vT d v v₁ T)
    (h' : Drive a vT d' v₁ v' T') : Drive a vT (d + d') v v' (T + T') := by
  obtain ⟨hT, x, w, hx, hL, hb, x0, xT, w0, wT⟩ := h
  obtain ⟨hT', x', w', hx', hL', hb', x0', xT', w0', wT'⟩ := h'
  have e1 : ∀ t ∈ Icc 0 T, (if t ≤ T then x t else d + x' (t - T)) = x t := fun t ht => if_pos ht.2
  have e2 : ∀ t ∈ Icc T (T + T'), (if t ≤ T then x t else d + x' (t - T)) = d + x' (t - T) := by
    intro t ht
    by_cases h : t ≤ T
    · have : t = T := le_antisymm h ht.1
      rw [if_pos h, this, sub_self, xT, x0', add_zero]
    · exact if_neg h
  have f1 : ∀ t ∈ Icc 0 T, (if t ≤ T then w t else w' (t - T)) = w t := fun t ht => if_pos ht.2
  have f2 : ∀ t ∈ Icc T (T + T'), (if t ≤ T then w t else w' (t - T)) = w' (t - T) := by
    intro t ht
    by_cases h : t ≤ T
    · have : t = T := le_antisymm h ht.1
      rw [if_pos h, this, sub_self, wT, w0']
    · exact if_neg h
  have hmem : ∀ t ∈ Icc 0 (T + T'), t ∈ Icc 0 T ∨ t ∈ Icc T (T + T') := by
    intro t ht
    rcases le_total t T with h | h
    · exact Or.inl ⟨ht.1, h⟩
    · exact Or.inr ⟨h, ht.2⟩
  have hsh : ∀ t ∈ Icc T (T + T'), t - T ∈ Icc 0 T' := fun t ht =>
    ⟨by linarith [ht.1], by linarith [ht.2]⟩
  have hd1 : ∀ t ∈ Icc 0 T, HasDerivWithinAt (fun t => if t ≤ T then x t else d + x' (t - T)) (w t)
      (Icc 0 T) t := fun t ht => (hx t ht).congr e1 (e1 t ht)
  have hd2 : ∀ t ∈ Icc T (T + T'), HasDerivWithinAt (fun t => if t ≤ T then x t else d + x' (t - T))
      (w' (t - T)) (Icc T (T + T')) t := by
    intro t ht
    have g1 : HasDerivWithinAt (fun t : ℝ => t - T) 1 (Icc T (T + T')) t :=
      ((hasDerivAt_id t).sub_const T).hasDerivWithinAt
    have g2 := (hx' (t - T) (hsh t ht)).comp t g1 hsh
    rw [mul_one] at g2
    exact (g2.const_add d).congr e2 (e2 t ht)
  have hU : Icc 0 (T + T') = Icc 0 T ∪ Icc T (T + T') := (Icc_union_Icc_eq_Icc hT (by linarith)).symm
  have hmono : ∀ s ∈ Icc 0 (T + T'), ∀ t ∈ Icc 0 (T + T'), s ≤ t →
      |(if t ≤ T then w t else w' (t - T)) - (if s ≤ T then w s else w' (s - T))| ≤ a * |t - s| := by
    intro s hs t ht hst
    rcases hmem s hs with hs1 | hs1 <;> rcases hmem t ht with ht1 | ht1
    · rw [f1 s hs1, f1 t ht1]
      exact hL s hs1 t ht1
    · rw [f1 s hs1, f2 t ht1]
      have k1 := hL s hs1 T ⟨hT, le_refl _⟩
      have k2 := hL' 0 ⟨le_refl _, hT'⟩ (t - T) (hsh t ht1)
      rw [wT, abs_of_nonneg (a := T - s) (by linarith [hs1.2])] at k1
      rw [w0', sub_zero, abs_of_nonneg (a := t - T) (by linarith [ht1.1])] at k2
      have k3 := abs_sub_le (w' (t - T)) v₁ (w s)
      rw [abs_of_nonneg (a := t - s) (by linarith)]
      linarith
    · have h1 : s = T := le_antisymm (hst.trans ht1.2) hs1.1
      have h2 : t = T := le_antisymm ht1.2 (hs1.1.trans hst)
      subst h1
      rw [h2]
      simp
    · rw [f2 s hs1, f2 t ht1]
      have := hL' (s - T) (hsh s hs1) (t - T) (hsh t ht1)
      rwa [sub_sub_sub_cancel_right] at this
  refine ⟨by linarith, fun t => if t ≤ T then x t else d + x' (t - T),
    fun t => if t ≤ T then w t else w' (t - T), ?_, ?_, ?_, ?_, ?_, ?_, ?_⟩
  · intro t ht
    beta_reduce
    rw [hU]
    by_cases h1 : t ∈ Icc 0 T
    · have g1 := hd1 t h1
      by_cases h2 : t ∈ Icc T (T + T')
      · have g2 := hd2 t h2
        have : w' (t - T) = w t := (f2 t h2).symm.trans (f1 t h1)
        rw [this] at g2
        rw [f1 t h1]
        exact g1.union g2
      · rw [f1 t h1]
        refine g1.union (HasFDerivWithinAt.of_notMem_closure ?_)
        rwa [isClosed_Icc.closure_eq]
    · have h2 : t ∈ Icc T (T + T') := (hmem t ht).resolve_left h1
      rw [f2 t h2]
      refine HasDerivWithinAt.union (HasFDerivWithinAt.of_notMem_closure ?_) (hd2 t h2)
      rwa [isClosed_Icc.closure_eq]
  · intro s hs t ht
    rcases le_total s t with h | h
    · exact hmono s hs t ht h
    · rw [abs_sub_comm, abs_sub_comm t s]
      exact hmono t ht s hs h
  · intro t ht
    rcases hmem t ht with h | h
    · simp only [f1 t h]
      exact hb t h
    · simp only [f2 t h]
      exact hb' _ (hsh t h)
  · exact (e1 0 ⟨le_refl _, hT⟩).trans x0
  · refine (e2 (T + T') ⟨by linarith, le_refl _⟩).trans ?_
    rw [add_sub_cancel_left, xT']
  · exact (f1 0 ⟨le_refl _, hT⟩).trans w0
  · refine (f2 (T + T') ⟨by linarith, le_refl _⟩).trans ?_
    rw [add_sub_cancel_left, wT']

/-- Constant acceleration is a drive. -/
theorem drive_one {a vT v v' T k : ℝ} (hv : 0 ≤ v ∧ v ≤ vT) (hv' : 0 ≤ v' ∧ v' ≤ vT) (hT : 0 ≤ T)
    (hk : |k| ≤ a) (he : v' = v + k * T) : Drive a vT ((v + v') / 2 * T) v v' T := by
  refine ⟨hT, fun t => v * (t - 0) + k * (t - 0) ^ 2 / 2, fun t => v + k * (t - 0), ?_, ?_, ?_, by simp, ?_,
    by simp, by simp [he]⟩
  · intro t _
    exact (hasDeriv_up v k 0 t).hasDerivWithinAt
  · intro s _ t _
    have : v + k * (t - 0) - (v + k * (s - 0)) = k * (t - s) := by ring
    rw [this, abs_mul]
    exact mul_le_mul_of_nonneg_right hk (abs_nonneg _)
  · intro t ht
    rcases eq_or_lt_of_le hT with h | h
    · have : t = 0 := le_antisymm (by rw [h]; exact ht.2) ht.1
      rw [this]
      simpa using hv
    · have e : v + k * (t - 0) = v * (1 - t / T) + v' * (t / T) := by
        rw [he]
        field_simp
        ring
      have hx0 : 0 ≤ t / T := div_nonneg ht.1 hT
      have hx1 : t / T ≤ 1 := (div_le_one h).2 ht.2
      have h1 : 0 ≤ 1 - t / T := by linarith
      simp only [e]
      obtain ⟨a1, a2⟩ := hv
      obtain ⟨b1, b2⟩ := hv'
      constructor
      · positivity
      · nlinarith
  · simp only [sub_zero, he]
    ring

/-- A chain of segments is a drive. -/
theorem Spec.Ramp.drive {u : Vec4 ℝ} {a vT : ℝ} (ha : 0 ≤ a) {p p' : Vec4 ℝ} {t t' v v' : ℝ}
    {ss : List (Segment ℝ)} (h : Ramp u a vT p t v ss p' t' v') (hv : 0 ≤ v ∧ v ≤ vT) :
    ∃ d, Drive a vT d v v' (t' - t) ∧ p' = p.add (u.mul d) := by
  induction h with
  | nil p t v =>
    refine ⟨0, ?_, by rw [Vec4.mul_zero, Vec4.add_zero]⟩
    have := drive_one (k := 0) hv hv (le_refl (0 : ℝ)) (by simpa using ha) (by ring)
    simpa using this
  | @cons t t₁ v v₁ t' v' p p₁ p' ss hv hv₁ ht hacc hpos hp hrest ih =>
    obtain ⟨d, h1, h2⟩ := ih hv₁
    have hd := sub_pos.2 ht
    have h0 : Drive a vT ((v + v₁) / 2 * (t₁ - t)) v v₁ (t₁ - t) := by
      refine drive_one (k := (v₁ - v) / (t₁ - t)) hv hv₁ hd.le ?_ (by field_simp; ring)
      rw [abs_div, abs_of_pos hd, div_le_iff₀ hd]
      rcases hacc with h | h | h
      · rw [h, abs_zero]
        exact mul_nonneg ha hd.le
      · rw [h, abs_of_nonneg (mul_nonneg ha hd.le)]
      · rw [h, neg_mul, abs_neg, abs_of_nonneg (mul_nonneg ha hd.le)]
    refine ⟨_, by simpa using h0.append h1, ?_⟩
    rw [h2, hp, add_mul_add]

end PyGCD
