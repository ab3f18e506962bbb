import Verif.Proofs.Rounding
import Verif.Proofs.RealLemmas

/-!
# Relative errors

`Rel n x y`: `x` is `y` up to `n` roundings.
-/

set_option linter.unusedSectionVars false

namespace PyGCD
open PyGCD.Spec

/-- Half a unit in the last place, relative to the number. -/
noncomputable def eps : ℝ := 1 / 2 ^ 53

theorem eps_pos : 0 < eps := by unfold eps; positivity

theorem eps_lt : eps < 1.2e-16 := by unfold eps; norm_num

/-- `x` is `y` times at most `n` factors near one. -/
def Rel (n : ℕ) (x y : ℝ) : Prop := ∃ θ, x = y * θ ∧ (1 - eps) ^ n ≤ θ ∧ θ * (1 - eps) ^ n ≤ 1

theorem one_sub_eps : 0 < 1 - eps ∧ 1 - eps < 1 := by
  have := eps_pos
  have := eps_lt
  constructor <;> linarith

theorem eps_pow (n : ℕ) : 0 < (1 - eps) ^ n ∧ (1 - eps) ^ n ≤ 1 :=
  ⟨pow_pos one_sub_eps.1 n, pow_le_one₀ one_sub_eps.1.le one_sub_eps.2.le⟩

theorem Rel.refl (n : ℕ) (x : ℝ) : Rel n x x :=
  ⟨1, (mul_one x).symm, (eps_pow n).2, by rw [one_mul]; exact (eps_pow n).2⟩

theorem Rel.of_eq {x y : ℝ} (n : ℕ) (h : x = y) : Rel n x y := h ▸ Rel.refl n x

theorem Rel.mono {n m : ℕ} {x y : ℝ} (h : Rel n x y) (hnm : n ≤ m) : Rel m x y := by
  obtain ⟨θ, h1, h2, h3⟩ := h
  have hp : (1 - eps) ^ m ≤ (1 - eps) ^ n := pow_le_pow_of_le_one one_sub_eps.1.le one_sub_eps.2.le hnm
  have hθ : 0 < θ := lt_of_lt_of_le (eps_pow n).1 h2
  exact ⟨θ, h1, hp.trans h2, (mul_le_mul_of_nonneg_left hp hθ.le).trans h3⟩

theorem Rel.trans {n m : ℕ} {x y z : ℝ} (h : Rel n x y) (g : Rel m y z) : Rel (n + m) x z := by
  obtain ⟨θ, rfl, h2, h3⟩ := h
  obtain ⟨φ, rfl, g2, g3⟩ := g
  have hn := eps_pow n
  have hm := eps_pow m
  have hθ : 0 < θ := lt_of_lt_of_le hn.1 h2
  have hφ : 0 < φ := lt_of_lt_of_le hm.1 g2
  refine ⟨φ * θ, by ring, ?_, ?_⟩
  · rw [pow_add]
    nlinarith [mul_le_mul h2 g2 hm.1.le hθ.le]
  · rw [pow_add]
    nlinarith [mul_le_mul h3 g3 (mul_nonneg hφ.le hm.1.le) zero_le_one]

theorem Rel.mul {n m : ℕ} {x y z w : ℝ} (h : Rel n x y) (g : Rel m z w) : Rel (n + m) (x * z) (y * w) := by
  obtain ⟨θ, rfl, h2, h3⟩ := h
  obtain ⟨φ, rfl, g2, g3⟩ := g
  have hn := eps_pow n
  have hm := eps_pow m
  have hθ : 0 < θ := lt_of_lt_of_le hn.1 h2
  have hφ : 0 < φ := lt_of_lt_of_le hm.1 g2
  refine ⟨θ * φ, by ring, ?_, ?_⟩
  · rw [pow_add]
    nlinarith [mul_le_mul h2 g2 hm.1.le hθ.le]
  · rw [pow_add]
    nlinarith [mul_le_mul h3 g3 (mul_nonneg hφ.le hm.1.le) zero_le_one]

theorem Rel.inv {n : ℕ} {x y : ℝ} (h : Rel n x y) : Rel n x⁻¹ y⁻¹ := by
  obtain ⟨θ, rfl, h2, h3⟩ := h
  have hn := eps_pow n
  have hθ : 0 < θ := lt_of_lt_of_le hn.1 h2
  refine ⟨θ⁻¹, by rw [mul_inv], ?_, ?_⟩
  · rw [le_inv_comm₀ hn.1 hθ, ← one_div, le_div_iff₀ hn.1]
    exact h3
  · rw [inv_mul_le_one₀ hθ]
    exact h2

theorem Rel.div {n m : ℕ} {x y z w : ℝ} (h : Rel n x y) (g : Rel m z w) : Rel (n + m) (x / z) (y / w) := by
  rw [div_eq_mul_inv, div_eq_mul_inv]
  exact h.mul g.inv

theorem Rel.neg {n : ℕ} {x y : ℝ} (h : Rel n x y) : Rel n (-x) (-y) := by
  obtain ⟨θ, rfl, h2, h3⟩ := h
  exact ⟨θ, by ring, h2, h3⟩

theorem Rel.add {n : ℕ} {x y z w : ℝ} (h : Rel n x y) (g : Rel n z w) (hy : 0 ≤ y) (hw : 0 ≤ w) :
    Rel n (x + z) (y + w) := by
  obtain ⟨θ, rfl, h2, h3⟩ := h
  obtain ⟨φ, rfl, g2, g3⟩ := g
  have hn := eps_pow n
  rcases (add_nonneg hy hw).eq_or_lt with h0 | h0
  · have hy0 : y = 0 := by linarith
    have hw0 : w = 0 := by linarith
    subst hy0
    subst hw0
    exact Rel.of_eq n (by ring)
  · refine ⟨(y * θ + w * φ) / (y + w), by field_simp, ?_, ?_⟩
    · rw [le_div_iff₀ h0]
      nlinarith
    · rw [div_mul_eq_mul_div, div_le_one h0]
      nlinarith

theorem Rel.add_neg {n : ℕ} {x y z w : ℝ} (h : Rel n x y) (g : Rel n z w) (hy : y ≤ 0) (hw : w ≤ 0) :
    Rel n (x + z) (y + w) := by
  have := (h.neg.add g.neg (neg_nonneg.2 hy) (neg_nonneg.2 hw)).neg
  rwa [neg_add, neg_neg, neg_neg, neg_add, neg_neg, neg_neg] at this

theorem Rel.sqrt {n : ℕ} {x y : ℝ} (h : Rel n x y) (hy : 0 ≤ y) : Rel n √x √y := by
  obtain ⟨θ, rfl, h2, h3⟩ := h
  have hn := eps_pow n
  have hθ : 0 < θ := lt_of_lt_of_le hn.1 h2
  have hq : (1 - eps) ^ n ≤ √((1 - eps) ^ n) :=
    Real.le_sqrt_of_sq_le (by nlinarith)
  refine ⟨√θ, Real.sqrt_mul hy θ, hq.trans (Real.sqrt_le_sqrt h2), ?_⟩
  calc √θ * (1 - eps) ^ n ≤ √θ * √((1 - eps) ^ n) := by gcongr
    _ = √(θ * (1 - eps) ^ n) := (Real.sqrt_mul hθ.le _).symm
    _ ≤ 1 := Real.sqrt_le_iff.2 ⟨zero_le_one, by rw [one_pow]; exact h3⟩

theorem Rel.pos {n : ℕ} {x y : ℝ} (h : Rel n x y) (hy : 0 < y) : 0 < x := by
  obtain ⟨θ, rfl, h2, h3⟩ := h
  exact mul_pos hy (lt_of_lt_of_le (eps_pow n).1 h2)

theorem Rel.nonneg {n : ℕ} {x y : ℝ} (h : Rel n x y) (hy : 0 ≤ y) : 0 ≤ x := by
  obtain ⟨θ, rfl, h2, h3⟩ := h
  exact mul_nonneg hy (lt_of_lt_of_le (eps_pow n).1 h2).le

theorem Rel.zero {n : ℕ} {x : ℝ} (h : Rel n x 0) : x = 0 := by
  obtain ⟨θ, rfl, h2, h3⟩ := h
  ring

theorem Rel.symm {n : ℕ} {x y : ℝ} (h : Rel n x y) : Rel n y x := by
  obtain ⟨θ, rfl, h2, h3⟩ := h
  have hn := eps_pow n
  have hθ : 0 < θ := lt_of_lt_of_le hn.1 h2
  refine ⟨θ⁻¹, by field_simp, ?_, ?_⟩
  · rw [le_inv_comm₀ hn.1 hθ, ← one_div, le_div_iff₀ hn.1]
    exact h3
  · rw [inv_mul_le_one₀ hθ]
    exact h2

/-- Up to a million roundings cost at most twice their number. -/
theorem Rel.abs_sub {n : ℕ} {x y : ℝ} (h : Rel n x y) (hn : n ≤ 1000000) : |x - y| ≤ 2 * n * eps * |y| := by
  obtain ⟨θ, rfl, h2, h3⟩ := h
  have he := eps_pos
  have hb : 1 - n * eps ≤ (1 - eps) ^ n := by
    have := one_add_mul_le_pow (a := -eps) (by linarith [eps_lt]) n
    calc 1 - n * eps = 1 + n * -eps := by ring
      _ ≤ _ := this
      _ = _ := by rw [← sub_eq_add_neg]
  have hn' : (n : ℝ) ≤ 1000000 := by exact_mod_cast hn
  have hne : (n : ℝ) * eps ≤ 1 / 2 := by
    calc (n : ℝ) * eps ≤ 1000000 * 1.2e-16 := by gcongr; exact eps_lt.le
      _ ≤ 1 / 2 := by norm_num
  have hn0 : 0 ≤ (n : ℝ) * eps := by positivity
  have hlo : 1 - n * eps ≤ θ := hb.trans h2
  have hhi : θ ≤ 1 + 2 * (n * eps) := by
    have h4 : θ * (1 - n * eps) ≤ 1 := by
      refine le_trans ?_ h3
      have : 0 ≤ θ := le_trans (by linarith) hlo
      gcongr
    by_contra hc
    push Not at hc
    nlinarith
  have e : y * θ - y = y * (θ - 1) := by ring
  rw [e, abs_mul, mul_comm (2 * (n : ℝ) * eps)]
  gcongr
  rw [abs_le]
  constructor <;> linarith

theorem Rel.le {n : ℕ} {x y : ℝ} (h : Rel n x y) (hn : n ≤ 1000000) (hy : 0 ≤ y) : x ≤ y * (1 + 2 * n * eps) := by
  have := (abs_le.1 (h.abs_sub hn)).2
  rw [abs_of_nonneg hy] at this
  linarith

theorem Rel.ge {n : ℕ} {x y : ℝ} (h : Rel n x y) (hn : n ≤ 1000000) (hy : 0 ≤ y) : y * (1 - 2 * n * eps) ≤ x := by
  have := (abs_le.1 (h.abs_sub hn)).1
  rw [abs_of_nonneg hy] at this
  linarith

theorem rel_rnd (x : ℚ) : Rel 1 (rnd x : ℝ) (x : ℝ) := by
  have h := rnd_error x
  have h' : |((rnd x : ℚ) : ℝ) - x| ≤ |(x : ℝ)| / 2 ^ 53 := by
    have := (Rat.cast_le (K := ℝ)).2 h
    push_cast at this
    exact this
  by_cases hx : x = 0
  · subst hx
    rw [rnd_zero]
    exact Rel.refl 1 _
  · have hx' : (x : ℝ) ≠ 0 := by exact_mod_cast hx
    have h1 : |((rnd x : ℚ) : ℝ) / x - 1| ≤ eps := by
      rw [div_sub_one hx', abs_div, div_le_iff₀ (abs_pos.2 hx')]
      unfold eps
      rw [one_div, inv_mul_eq_div]
      exact h'
    obtain ⟨a, b⟩ := abs_le.1 h1
    have := eps_pos
    refine ⟨(rnd x : ℝ) / x, by field_simp, ?_, ?_⟩
    · rw [pow_one]; linarith
    · rw [pow_one]
      have := one_sub_eps
      nlinarith

theorem rel_rndSqrt {x : ℚ} (hx : 0 ≤ x) : Rel 3 (rndSqrt x : ℝ) √(x : ℝ) := by
  rcases hx.eq_or_lt with rfl | hx
  · rw [rndSqrt_zero]
    exact Rel.of_eq 3 (by simp)
  · have h := rndSqrt_error hx.le
    have hs : 0 < √(x : ℝ) := Real.sqrt_pos.2 (by exact_mod_cast hx)
    have h1 : |(rndSqrt x : ℝ) / √(x : ℝ) - 1| ≤ 2 * eps := by
      rw [div_sub_one hs.ne', abs_div, div_le_iff₀ (abs_pos.2 hs.ne'), abs_of_pos hs]
      unfold eps
      calc _ ≤ √(x : ℝ) / 2 ^ 52 := h
        _ = _ := by ring
    obtain ⟨a, b⟩ := abs_le.1 h1
    have h0 := eps_pos
    have h2 := eps_lt
    unfold Rel
    generalize eps = ε at *
    have h3 : ε < 1 / 100 := h2.trans (by norm_num)
    refine ⟨(rndSqrt x : ℝ) / √(x : ℝ), by field_simp, ?_, ?_⟩
    · have : (1 - ε) ^ 3 = 1 - 3 * ε + 3 * ε * ε - ε * ε * ε := by ring
      rw [this]
      have : ε * ε ≤ 1 / 100 * ε := by gcongr
      nlinarith [mul_pos (mul_pos h0 h0) h0]
    · calc _ ≤ (1 + 2 * ε) * (1 - ε) ^ 3 := by
            have : 0 < (1 - ε) ^ 3 := by apply pow_pos; linarith
            gcongr
            linarith
        _ = 1 - ε - 3 * ε * ε + 5 * ε * ε * ε - 2 * ε * ε * ε * ε := by ring
        _ ≤ 1 := by
            have e1 : ε * ε * ε ≤ 1 / 100 * (ε * ε) := by
              have : 0 ≤ ε * ε := by positivity
              nlinarith
            have e2 : 0 ≤ ε * ε * ε * ε := by positivity
            nlinarith [mul_pos h0 h0]

namespace Dbl

theorem r_add (a b : Dbl) : Rel 1 (a + b).r (a.r + b.r) := by
  have := rel_rnd (a.val + b.val)
  rw [Rat.cast_add] at this
  exact this

theorem r_sub (a b : Dbl) : Rel 1 (a - b).r (a.r - b.r) := by
  have := rel_rnd (a.val - b.val)
  rw [Rat.cast_sub] at this
  exact this

theorem r_mul (a b : Dbl) : Rel 1 (a * b).r (a.r * b.r) := by
  have := rel_rnd (a.val * b.val)
  rw [Rat.cast_mul] at this
  exact this

theorem r_div (a b : Dbl) : Rel 1 (a / b).r (a.r / b.r) := by
  have := rel_rnd (a.val / b.val)
  rw [Rat.cast_div] at this
  exact this

theorem r_neg (a : Dbl) : (-a).r = -a.r := by
  show (((-a.val : ℚ)) : ℝ) = _
  rw [Rat.cast_neg]
  rfl

theorem r_sqrt {a : Dbl} (h : 0 ≤ a.r) : Rel 3 (PyMath.sqrt a).r √a.r := by
  have h' : 0 ≤ a.val := by
    have : (0 : ℝ) ≤ (a.val : ℝ) := h
    exact_mod_cast this
  exact rel_rndSqrt h'

theorem lt_iff (a b : Dbl) : a < b ↔ a.r < b.r := by
  show a.val < b.val ↔ (a.val : ℝ) < (b.val : ℝ)
  exact Rat.cast_lt.symm

theorem le_iff (a b : Dbl) : a ≤ b ↔ a.r ≤ b.r := by
  show a.val ≤ b.val ↔ (a.val : ℝ) ≤ (b.val : ℝ)
  exact Rat.cast_le.symm

theorem ext_r {a b : Dbl} (h : a.r = b.r) : a = b := by
  cases a
  cases b
  have : (_ : ℝ) = _ := h
  simp only [Dbl.r, Rat.cast_inj] at h
  rw [h]

@[simp] theorem r_zero : (0 : Dbl).r = 0 := by
  show (((rnd ((0 : ℕ) : ℚ)) : ℚ) : ℝ) = 0
  simp [rnd_zero]

theorem r_two : (2 : Dbl).r = 2 := by
  show (((rnd ((2 : ℕ) : ℚ)) : ℚ) : ℝ) = 2
  rw [rnd_rep ⟨1, 1, by norm_num, by norm_num⟩]
  norm_num

theorem eq_zero_iff (a : Dbl) : a = 0 ↔ a.r = 0 :=
  ⟨fun h => by rw [h, r_zero], fun h => ext_r (by rw [h, r_zero])⟩

theorem r_abs (a : Dbl) : (pyAbs a).r = |a.r| := by
  unfold pyAbs
  split
  · rename_i h
    rw [lt_iff, r_zero] at h
    rw [r_neg, abs_of_neg h]
  · rename_i h
    rw [lt_iff, r_zero] at h
    rw [abs_of_nonneg (not_lt.1 h)]

theorem mul_zero (a : Dbl) : a * 0 = 0 := by
  apply ext_r
  have := r_mul a 0
  rw [r_zero, MulZeroClass.mul_zero] at this
  rw [this.zero, r_zero]

theorem zero_div (a : Dbl) : (0 : Dbl) / a = 0 := by
  apply ext_r
  have := r_div 0 a
  rw [r_zero, _root_.zero_div] at this
  rw [this.zero, r_zero]

/-- The double is a result of rounding. -/
def Rounded (a : Dbl) : Prop := rnd a.val = a.val

theorem rounded_rnd (x : ℚ) : Rounded ⟨rnd x⟩ := rnd_rnd x

theorem rounded_zero : Rounded 0 := rounded_rnd ((0 : ℕ) : ℚ)

theorem Rounded.add_zero {a : Dbl} (h : Rounded a) : a + 0 = a := by
  show (⟨rnd (a.val + rnd ((0 : ℕ) : ℚ))⟩ : Dbl) = a
  have : rnd ((0 : ℕ) : ℚ) = 0 := by simp [rnd_zero]
  rw [this, _root_.add_zero]
  cases a
  simp only [Dbl.mk.injEq]
  exact h

theorem sub_self (a : Dbl) : a - a = 0 := by
  apply ext_r
  have := r_sub a a
  rw [_root_.sub_self] at this
  rw [this.zero, r_zero]

theorem Rounded.add_self {a : Dbl} (h : Rounded a) : (a + a).r = 2 * a.r := by
  show (((rnd (a.val + a.val)) : ℚ) : ℝ) = 2 * (a.val : ℝ)
  rw [← two_mul, rnd_two_mul, h]
  push_cast
  rfl

theorem Rounded.le_add {a b : Dbl} (h : Rounded a) (hb : 0 ≤ b.r) : a.r ≤ (a + b).r := by
  have hb' : 0 ≤ b.val := by
    have : (0 : ℝ) ≤ (b.val : ℝ) := hb
    exact_mod_cast this
  have : rnd a.val ≤ rnd (a.val + b.val) := rnd_mono (by linarith)
  rw [h] at this
  exact (Rat.cast_le (K := ℝ)).2 this

theorem Rounded.le_sub {a b c : Dbl} (h : Rounded c) (hb : c.r ≤ a.r - b.r) : c.r ≤ (a - b).r := by
  have hb' : c.val ≤ a.val - b.val := by
    have : (c.val : ℝ) ≤ (a.val : ℝ) - (b.val : ℝ) := hb
    exact_mod_cast this
  have : rnd c.val ≤ rnd (a.val - b.val) := rnd_mono hb'
  rw [h] at this
  exact (Rat.cast_le (K := ℝ)).2 this

theorem rounded_add (a b : Dbl) : Rounded (a + b) := rounded_rnd _
theorem rounded_sub (a b : Dbl) : Rounded (a - b) := rounded_rnd _
theorem rounded_mul (a b : Dbl) : Rounded (a * b) := rounded_rnd _
theorem rounded_div (a b : Dbl) : Rounded (a / b) := rounded_rnd _

end Dbl
end PyGCD
