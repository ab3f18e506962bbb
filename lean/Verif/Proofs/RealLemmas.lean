import Verif.Model.Basic
import Mathlib.Analysis.SpecialFunctions.Trigonometric.Basic
import Mathlib.Analysis.SpecialFunctions.Sqrt
import Mathlib.Tactic.Linarith
import Mathlib.Tactic.FieldSimp
import Mathlib.Tactic.Positivity
import Mathlib.Tactic.Ring

/-!
# The model at the real numbers: basic facts
-/

set_option linter.unusedSectionVars false

namespace PyGCD

/-- The mathematical functions at the real numbers. -/
noncomputable instance : PyMath ℝ where
  sqrt := Real.sqrt
  sin := Real.sin
  pi := Real.pi

theorem sqrt_real (x : ℝ) : PyMath.sqrt x = Real.sqrt x := rfl
theorem sin_real (x : ℝ) : PyMath.sin x = Real.sin x := rfl
theorem pi_real : (PyMath.pi : ℝ) = Real.pi := rfl

theorem pyAbs_real (x : ℝ) : pyAbs x = |x| := by
  unfold pyAbs
  split
  · rw [abs_of_neg (by assumption)]
  · rw [abs_of_nonneg (by linarith)]

theorem pyMin_real (a b : ℝ) : pyMin a b = min a b := by
  unfold pyMin
  split
  · rw [min_eq_right (by linarith)]
  · rw [min_eq_left (by linarith)]

theorem pyMax_real (a b : ℝ) : pyMax a b = max a b := by
  unfold pyMax
  split
  · rw [max_eq_right (by linarith)]
  · rw [max_eq_left (by linarith)]

theorem isClose_real (a b : ℝ) : isClose a b = true ↔ |a - b| ≤ 1e-8 + 1e-5 * |b| := by
  simp [isClose, pyAbs_real]

theorem isClose_self (a : ℝ) : isClose a a = true := by
  rw [isClose_real, sub_self, abs_zero]
  have := abs_nonneg a
  norm_num
  positivity

namespace Vec4

theorem norm3_nonneg (a : Vec4 ℝ) : 0 ≤ a.norm3 := Real.sqrt_nonneg _
theorem norm4_nonneg (a : Vec4 ℝ) : 0 ≤ a.norm4 := Real.sqrt_nonneg _

theorem norm3_sq (a : Vec4 ℝ) : a.norm3 ^ 2 = a.x ^ 2 + a.y ^ 2 + a.z ^ 2 := by
  have h : 0 ≤ a.x * a.x + a.y * a.y + a.z * a.z := by
    linarith [mul_self_nonneg a.x, mul_self_nonneg a.y, mul_self_nonneg a.z]
  rw [norm3, sqrt_real, Real.sq_sqrt h]
  ring

theorem norm4_sq (a : Vec4 ℝ) : a.norm4 ^ 2 = a.x ^ 2 + a.y ^ 2 + a.z ^ 2 + a.e ^ 2 := by
  have h : 0 ≤ a.x * a.x + a.y * a.y + a.z * a.z + a.e * a.e := by
    linarith [mul_self_nonneg a.x, mul_self_nonneg a.y, mul_self_nonneg a.z, mul_self_nonneg a.e]
  rw [norm4, sqrt_real, Real.sq_sqrt h]
  ring

theorem norm3_mul (a : Vec4 ℝ) (s : ℝ) : (a.mul s).norm3 = a.norm3 * |s| := by
  have h : (a.mul s).norm3 ^ 2 = (a.norm3 * |s|) ^ 2 := by
    rw [norm3_sq, mul_pow, norm3_sq, sq_abs]
    simp only [mul]
    ring
  exact (sq_eq_sq₀ (norm3_nonneg _) (mul_nonneg (norm3_nonneg _) (abs_nonneg _))).1 h

theorem norm4_mul (a : Vec4 ℝ) (s : ℝ) : (a.mul s).norm4 = a.norm4 * |s| := by
  have h : (a.mul s).norm4 ^ 2 = (a.norm4 * |s|) ^ 2 := by
    rw [norm4_sq, mul_pow, norm4_sq, sq_abs]
    simp only [mul]
    ring
  exact (sq_eq_sq₀ (norm4_nonneg _) (mul_nonneg (norm4_nonneg _) (abs_nonneg _))).1 h

protected theorem div_eq_mul (a : Vec4 ℝ) (s : ℝ) : a.div s = a.mul s⁻¹ := by
  simp [div, mul, div_eq_mul_inv]

theorem norm3_div (a : Vec4 ℝ) (s : ℝ) : (a.div s).norm3 = a.norm3 / |s| := by
  rw [Vec4.div_eq_mul, norm3_mul, abs_inv, div_eq_mul_inv]

theorem norm4_div (a : Vec4 ℝ) (s : ℝ) : (a.div s).norm4 = a.norm4 / |s| := by
  rw [Vec4.div_eq_mul, norm4_mul, abs_inv, div_eq_mul_inv]

theorem norm3_zero : (zero : Vec4 ℝ).norm3 = 0 := by
  simp [norm3, zero, sqrt_real]

theorem norm4_zero : (zero : Vec4 ℝ).norm4 = 0 := by
  simp [norm4, zero, sqrt_real]

theorem norm3_eq_zero {a : Vec4 ℝ} : a.norm3 = 0 ↔ a.x = 0 ∧ a.y = 0 ∧ a.z = 0 := by
  constructor
  · intro h
    have h2 := norm3_sq a
    rw [h] at h2
    refine ⟨?_, ?_, ?_⟩ <;> nlinarith [sq_nonneg a.x, sq_nonneg a.y, sq_nonneg a.z]
  · rintro ⟨h1, h2, h3⟩
    simp [norm3, h1, h2, h3, sqrt_real]

theorem norm4_eq_zero {a : Vec4 ℝ} : a.norm4 = 0 ↔ a = zero := by
  constructor
  · intro h
    have h2 := norm4_sq a
    rw [h] at h2
    have hx : a.x = 0 := by
      nlinarith [sq_nonneg a.x, sq_nonneg a.y, sq_nonneg a.z, sq_nonneg a.e]
    have hy : a.y = 0 := by
      nlinarith [sq_nonneg a.x, sq_nonneg a.y, sq_nonneg a.z, sq_nonneg a.e]
    have hz : a.z = 0 := by
      nlinarith [sq_nonneg a.x, sq_nonneg a.y, sq_nonneg a.z, sq_nonneg a.e]
    have he : a.e = 0 := by
      nlinarith [sq_nonneg a.x, sq_nonneg a.y, sq_nonneg a.z, sq_nonneg a.e]
    ext <;> simpa [zero]
  · rintro rfl
    exact norm4_zero

protected theorem add_zero (a : Vec4 ℝ) : a.add zero = a := by
  ext <;> simp [add, zero]

protected theorem mul_zero (a : Vec4 ℝ) : a.mul 0 = zero := by
  ext <;> simp [mul, zero]

protected theorem mul_one (a : Vec4 ℝ) : a.mul 1 = a := by
  ext <;> simp [mul]

protected theorem zero_mul (s : ℝ) : (zero : Vec4 ℝ).mul s = zero := by
  ext <;> simp [mul, zero]

protected theorem zero_add (a : Vec4 ℝ) : zero.add a = a := by
  ext <;> simp [add, zero]

protected theorem sub_self (a : Vec4 ℝ) : a.sub a = zero := by
  ext <;> simp [sub, zero]

protected theorem sub_eq_zero {a b : Vec4 ℝ} : a.sub b = zero ↔ a = b := by
  constructor
  · intro h
    have hx := congrArg x h
    have hy := congrArg y h
    have hz := congrArg z h
    have he := congrArg e h
    simp only [sub, zero] at hx hy hz he
    ext <;> linarith
  · rintro rfl
    exact Vec4.sub_self a

theorem add_mul_add (p u : Vec4 ℝ) (a b : ℝ) : (p.add (u.mul a)).add (u.mul b) = p.add (u.mul (a + b)) := by
  ext <;> simp only [add, mul] <;> ring

protected theorem eq_refl (a : Vec4 ℝ) : a.eq a = true := by
  simp [eq, isClose_self]

end Vec4
end PyGCD
