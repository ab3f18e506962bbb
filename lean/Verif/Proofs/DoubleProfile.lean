import Verif.Proofs.DoubleEval
import Verif.Spec.Times

/-!
# The way covered from rest to rest, exactly and with rounding errors in the times
-/

namespace PyGCD
open PyGCD.Spec Vec4

/-- The way covered after the time `x` of a move from rest to rest over the distance `D`. -/
noncomputable def restDist (a v D x : ℝ) : ℝ :=
  topSpeed a v D 0 0 * covered (topSpeed a v D 0 0 / a) (D / topSpeed a v D 0 0) (topSpeed a v D 0 0 / a) x

theorem topSpeed_rest (a v D : ℝ) : topSpeed a v D 0 0 = min v √(a * D) := by
  unfold topSpeed
  norm_num

theorem profile_near {ρ w r r' m E₁ E₃ M x : ℝ} (hρ : 0 ≤ ρ) (h1 : 0 ≤ E₁) (h3 : 0 ≤ E₃) (hr : 0 ≤ r) (hm : 0 ≤ m)
    (hrr : r' = r) :
    |ρ * covered E₁ M E₃ x - w * covered r m r' x| ≤
      ρ * (|E₁ - r| / 2 + |E₃ - r| / 2 + |M - m|) + |ρ - w| * m := by
  subst hrr
  have n := covered_near (m := M) (n := m) h1 h3 hr hr x
  obtain ⟨b1, b2⟩ := covered_bounds (x := x) hr hm
  rw [show ρ * covered E₁ M E₃ x - w * covered r' m r' x =
    ρ * (covered E₁ M E₃ x - covered r' m r' x) + (ρ - w) * covered r' m r' x by ring]
  refine (abs_add_le _ _).trans ?_
  rw [abs_mul, abs_mul, abs_of_nonneg hρ, abs_of_nonneg b1]
  gcongr

/-- The trapezoid with rounding errors. -/
theorem trap_profile {a v D E₁ E₂ E₃ : ℝ} (ha : 0 < a) (hv : 0 < v) (hD : 0 < D) (hD' : D ≤ 400000)
    (h : v * v / a ≤ D * (1 + 40 * eps)) (g1 : 0 ≤ E₁) (g3 : 0 ≤ E₃)
    (h1 : |E₁ - v / a| ≤ 1.3e-10 + 4 * eps * (v / a)) (h3 : |E₃ - v / a| ≤ 1.3e-10 + 4 * eps * (v / a))
    (h2 : |E₁ + E₂ - D / v| ≤ 2.6e-10 + 300 * eps * (D / v)) (x : ℝ) :
    |v * covered E₁ (E₁ + E₂) E₃ x - restDist a v D x| ≤ 5e-10 * v + 5e-8 := by
  have he := eps_pos
  have he' := eps_lt
  have hp := mul_pos he hD
  have haD : 0 < a * D := by positivity
  set w := topSpeed a v D 0 0 with hw
  have hwe : w = min v √(a * D) := topSpeed_rest a v D
  have hw1 : w ≤ v := by rw [hwe]; exact min_le_left _ _
  have hw2 : v * (1 - 40 * eps) ≤ w := by
    rw [hwe]
    apply le_min
    · nlinarith
    · apply Real.le_sqrt_of_sq_le
      have e1 : v * v ≤ a * D * (1 + 40 * eps) := by
        rw [div_le_iff₀ ha] at h
        linarith
      have e2 : (1 - 40 * eps) ^ 2 * (1 + 40 * eps) ≤ 1 := by
        have : (1 - 40 * eps) ^ 2 * (1 + 40 * eps) = (1 - 40 * eps) * (1 - 1600 * (eps * eps)) := by ring
        rw [this]
        have : 0 < eps * eps := by positivity
        have : eps * eps ≤ 1e-4 * eps := by gcongr; linarith
        apply mul_le_one₀ <;> linarith
      have e3 : 0 ≤ (1 - 40 * eps) ^ 2 := sq_nonneg _
      calc (v * (1 - 40 * eps)) ^ 2 = v * v * (1 - 40 * eps) ^ 2 := by ring
        _ ≤ a * D * (1 + 40 * eps) * (1 - 40 * eps) ^ 2 := by gcongr
        _ = a * D * ((1 - 40 * eps) ^ 2 * (1 + 40 * eps)) := by ring
        _ ≤ a * D * 1 := by gcongr
        _ = a * D := by ring
  have hev : eps * v ≤ 1e-4 * v := by gcongr; linarith
  have hw0 : 0 < w := by linarith
  have hvw : |v - w| ≤ 40 * eps * v := by
    rw [abs_of_nonneg (by linarith)]
    linarith
  have hDv : D / w ≤ 1.01 * (D / v) := by
    rw [div_le_iff₀ hw0, show 1.01 * (D / v) * w = D * (1.01 * w / v) by field_simp]
    have : 1 ≤ 1.01 * w / v := by
      rw [le_div_iff₀ hv]
      linarith
    nlinarith
  have hvDv : v * (D / v) = D := by field_simp
  have hvva : v * (v / a) ≤ 1.01 * D := by
    rw [show v * (v / a) = v * v / a by ring]
    have : eps * D ≤ 1e-4 * D := by gcongr; linarith
    linarith
  have main := profile_near (x := x) (w := w) (M := E₁ + E₂) hv.le g1 g3 (r := w / a) (m := D / w) (by positivity)
    (by positivity) rfl
  refine main.trans ?_
  -- the ramps
  have hwa : |v / a - w / a| ≤ 40 * eps * (v / a) := by
    rw [← sub_div, abs_div, abs_of_pos ha, ← mul_div_assoc]
    gcongr
  have r1 := err_add h1 hwa
  have r3 := err_add h3 hwa
  have q1 : v * |E₁ - w / a| ≤ 1.3e-10 * v + 45 * (eps * D) := by
    have : v * |E₁ - w / a| ≤ v * (1.3e-10 + 4 * eps * (v / a) + 40 * eps * (v / a)) := by gcongr
    have h5 : eps * (v * (v / a)) ≤ eps * (1.01 * D) := by gcongr
    linarith
  have q3 : v * |E₃ - w / a| ≤ 1.3e-10 * v + 45 * (eps * D) := by
    have : v * |E₃ - w / a| ≤ v * (1.3e-10 + 4 * eps * (v / a) + 40 * eps * (v / a)) := by gcongr
    have h5 : eps * (v * (v / a)) ≤ eps * (1.01 * D) := by gcongr
    linarith
  -- the middle
  have hm : |D / v - D / w| ≤ 41 * eps * (D / v) := by
    have e : D / v - D / w = -(D / v * ((v - w) / w)) := by field_simp; ring
    rw [e, abs_neg, abs_mul, abs_of_pos (show 0 < D / v by positivity), abs_div, abs_of_pos hw0, mul_comm]
    have : |v - w| / w ≤ 41 * eps := by
      rw [div_le_iff₀ hw0]
      have : eps * v ≤ eps * (1.01 * w) := by gcongr; linarith
      linarith
    gcongr
  have r2 := err_add h2 hm
  have q2 : v * |E₁ + E₂ - D / w| ≤ 2.6e-10 * v + 341 * (eps * D) := by
    have : v * |E₁ + E₂ - D / w| ≤ v * (2.6e-10 + 300 * eps * (D / v) + 41 * eps * (D / v)) := by gcongr
    have h5 : v * (2.6e-10 + 300 * eps * (D / v) + 41 * eps * (D / v)) = 2.6e-10 * v + 341 * (eps * (v * (D / v))) := by ring
    rw [hvDv] at h5
    linarith
  have q4 : |v - w| * (D / w) ≤ 41 * (eps * D) := by
    calc |v - w| * (D / w) ≤ 40 * eps * v * (1.01 * (D / v)) := by gcongr
      _ = 40.4 * (eps * (v * (D / v))) := by ring
      _ ≤ _ := by rw [hvDv]; linarith
  have heD : eps * D ≤ 1.2e-16 * 400000 := by gcongr
  linarith

/-- The triangle with rounding errors. -/
theorem tri_profile {a v D E₁ E₃ ρ : ℝ} (ha : 0 < a) (hv : 0 < v) (hD : 0 < D) (hD' : D ≤ 400000)
    (h : D ≤ v * v / a * (1 + 40 * eps)) (g1 : 0 ≤ E₁) (g3 : 0 ≤ E₃) (hρ0 : 0 ≤ ρ)
    (hρ : |ρ - √(a * D)| ≤ 30 * eps * √(a * D))
    (h1 : |E₁ - √(D / a)| ≤ 1.3e-10 + 34 * eps * √(D / a)) (h3 : |E₃ - √(D / a)| ≤ 1.3e-10 + 34 * eps * √(D / a))
    (x : ℝ) :
    |ρ * covered E₁ (E₁ + 0) E₃ x - restDist a v D x| ≤ 5e-10 * v + 5e-8 := by
  have he := eps_pos
  have he' := eps_lt
  have hp := mul_pos he hD
  have haD : 0 < a * D := by positivity
  have hs : √(D / a) = √(a * D) / a := by
    rw [show D / a = a * D / a ^ 2 by field_simp, Real.sqrt_div (by positivity), Real.sqrt_sq ha.le]
  rw [hs] at h1 h3
  set w := topSpeed a v D 0 0 with hw
  have hwe : w = min v √(a * D) := topSpeed_rest a v D
  set y := √(a * D) with hy
  have hy0 : 0 < y := Real.sqrt_pos.2 haD
  have hyy : y * y = a * D := Real.mul_self_sqrt haD.le
  have hw1 : w ≤ y := by rw [hwe]; exact min_le_right _ _
  have hw1' : w ≤ v := by rw [hwe]; exact min_le_left _ _
  have hyv : y ≤ v * (1 + 40 * eps) := by
    rw [hy]
    apply Real.sqrt_le_iff.2 ⟨by positivity, ?_⟩
    have : a * D ≤ v * v * (1 + 40 * eps) := by
      calc a * D ≤ a * (v * v / a * (1 + 40 * eps)) := by gcongr
        _ = _ := by field_simp
    refine this.trans ?_
    rw [mul_pow, sq, sq]
    gcongr
    nlinarith
  have hey : eps * y ≤ 1e-4 * y := by gcongr; linarith
  have hw2 : y * (1 - 40 * eps) ≤ w := by
    rw [hwe]
    apply le_min
    · have e2 : (1 - 40 * eps) * (1 + 40 * eps) ≤ 1 := by nlinarith
      calc y * (1 - 40 * eps) ≤ v * (1 + 40 * eps) * (1 - 40 * eps) := by gcongr; linarith
        _ = v * ((1 - 40 * eps) * (1 + 40 * eps)) := by ring
        _ ≤ v * 1 := by gcongr
        _ = v := by ring
    · nlinarith
  have hw0 : 0 < w := by linarith
  have hyw : |y - w| ≤ 40 * eps * y := by
    rw [abs_of_nonneg (by linarith)]
    linarith
  have hρ1 : ρ ≤ 1.01 * y := by
    have := (abs_le.1 hρ).2
    linarith
  have hρv : ρ ≤ 1.1 * v := by
    have : eps * v ≤ 1e-4 * v := by gcongr; linarith
    linarith
  have hDy : D / y = y / a := by
    rw [div_eq_div_iff hy0.ne' ha.ne']
    linarith
  have hyya : y * (y / a) = D := by
    rw [← hDy]
    field_simp
  have hDw : D / w ≤ 1.01 * (y / a) := by
    rw [← hDy, div_le_iff₀ hw0, show 1.01 * (D / y) * w = D * (1.01 * w / y) by field_simp]
    have : 1 ≤ 1.01 * w / y := by
      rw [le_div_iff₀ hy0]
      linarith
    nlinarith
  have main := profile_near (x := x) (w := w) (M := E₁ + 0) hρ0 g1 g3 (r := w / a) (m := D / w) (by positivity)
    (by positivity) rfl
  refine main.trans ?_
  have hwa : |y / a - w / a| ≤ 40 * eps * (y / a) := by
    rw [← sub_div, abs_div, abs_of_pos ha, ← mul_div_assoc]
    gcongr
  have key : ∀ {z k : ℝ}, 0 ≤ k → k ≤ 80 → |z| ≤ 1.3e-10 + k * eps * (y / a) → ρ * |z| ≤ 1.5e-10 * v + 81 * (eps * D) := by
    intro z k hk0 hk hz
    have hya : 0 < y / a := by positivity
    calc ρ * |z| ≤ ρ * (1.3e-10 + k * eps * (y / a)) := by gcongr
      _ = 1.3e-10 * ρ + k * eps * (ρ * (y / a)) := by ring
      _ ≤ 1.3e-10 * (1.1 * v) + 80 * eps * (1.01 * y * (y / a)) := by gcongr
      _ = 1.43e-10 * v + 80.8 * (eps * (y * (y / a))) := by ring
      _ ≤ _ := by rw [hyya]; linarith
  have q1 := key (k := 74) (by norm_num) (by norm_num) ((err_add h1 hwa).trans (by linarith))
  have q3 := key (k := 74) (by norm_num) (by norm_num) ((err_add h3 hwa).trans (by linarith))
  have hm : |y / a - D / w| ≤ 41 * eps * (y / a) := by
    rw [← hDy]
    have e : D / y - D / w = -(D / y * ((y - w) / w)) := by field_simp; ring
    rw [e, abs_neg, abs_mul, abs_of_pos (show 0 < D / y by positivity), abs_div, abs_of_pos hw0, mul_comm]
    have : |y - w| / w ≤ 41 * eps := by
      rw [div_le_iff₀ hw0]
      have : eps * y ≤ eps * (1.01 * w) := by gcongr; linarith
      linarith
    gcongr
  have q2 := key (z := E₁ + 0 - D / w) (k := 75) (by norm_num) (by norm_num)
    (by rw [_root_.add_zero]; exact (err_add h1 hm).trans (by linarith))
  have q4 : |ρ - w| * (D / w) ≤ 71 * (eps * D) := by
    have h5 : |ρ - w| ≤ 70 * eps * y := (err_add hρ hyw).trans (by linarith)
    calc |ρ - w| * (D / w) ≤ 70 * eps * y * (1.01 * (y / a)) := by gcongr
      _ = 70.7 * (eps * (y * (y / a))) := by ring
      _ ≤ _ := by rw [hyya]; linarith
  have heD : eps * D ≤ 1.2e-16 * 400000 := by gcongr
  linarith

/-- The way inside the three pieces. -/
theorem piece_A {ρ E₁ E₂ E₃ x : ℝ} (h0 : 0 ≤ x) (h1 : x ≤ E₁) (h2 : 0 ≤ E₂) :
    ρ * covered E₁ (E₁ + E₂) E₃ x = 0 + (0 * x + (ρ - 0) * x ^ 2 / (2 * E₁)) := by
  rw [covered, ramped_on h0 h1, ramped_of_nonpos (by linarith)]
  ring

theorem piece_B {ρ E₁ E₂ E₃ x : ℝ} (h0 : 0 ≤ x) (h1 : x ≤ E₂) (hE : 0 ≤ E₁) (E : ℝ) :
    ρ * covered E₁ (E₁ + E₂) E₃ (E₁ + x) = ρ * E₁ / 2 + (ρ * x + (ρ - ρ) * x ^ 2 / (2 * E)) := by
  rw [covered, ramped_after hE (by linarith), ramped_of_nonpos (by linarith)]
  ring

theorem piece_C {ρ E₁ E₂ E₃ x : ℝ} (h0 : 0 ≤ x) (h1 : x ≤ E₃) (hE : 0 ≤ E₁) (h2 : 0 ≤ E₂) :
    ρ * covered E₁ (E₁ + E₂) E₃ (E₁ + E₂ + x) =
      ρ * E₁ / 2 + ρ * E₂ + (ρ * x + (0 - ρ) * x ^ 2 / (2 * E₃)) := by
  rw [covered, ramped_after hE (by linarith), show E₁ + E₂ + x - (E₁ + E₂) = x by ring, ramped_on h0 h1]
  ring

end PyGCD
