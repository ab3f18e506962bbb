import Verif.Proofs.RealLemmas

/-!
# Property C49: 4D vectors
-/

set_option linter.unusedSimpArgs false

namespace PyGCD
open Vec4

/-- **C49, vector space.** Addition is commutative and associative with the zero vector, subtraction undoes
it, scaling distributes over vectors and over numbers, scalings compose, scaling by one and division by a
number other than zero behave. -/
theorem c49_vector_space (a b c : Vec4 ℝ) (r s : ℝ) :
    a.add b = b.add a ∧ (a.add b).add c = a.add (b.add c) ∧ a.add Vec4.zero = a ∧ (a.add b).sub b = a ∧
    (a.sub b).add b = a ∧ a.sub a = Vec4.zero ∧ (a.add b).mul r = (a.mul r).add (b.mul r) ∧
    a.mul (r + s) = (a.mul r).add (a.mul s) ∧ (a.mul r).mul s = a.mul (r * s) ∧ a.mul 1 = a ∧
    (r ≠ 0 → (a.div r).mul r = a ∧ (a.mul r).div r = a) := by
  refine ⟨?_, ?_, ?_, ?_, ?_, ?_, ?_, ?_, ?_, ?_, ?_⟩
  case refine_11 =>
    intro hr
    constructor <;> ext <;> simp [Vec4.mul, Vec4.div] <;> field_simp
  all_goals ext <;> simp [Vec4.add, Vec4.sub, Vec4.mul, Vec4.zero] <;> ring

/-- **C49, norms.** Travel distance and the full norm are absolutely homogeneous, subadditive and
non-negative; the full norm vanishes exactly at zero. -/
theorem c49_norms (a b : Vec4 ℝ) (r : ℝ) :
    (a.mul r).norm3 = |r| * a.norm3 ∧ (a.mul r).norm4 = |r| * a.norm4 ∧
    (a.add b).norm3 ≤ a.norm3 + b.norm3 ∧ (a.add b).norm4 ≤ a.norm4 + b.norm4 ∧
    0 ≤ a.norm3 ∧ a.norm3 ≤ a.norm4 ∧ (a.norm4 = 0 ↔ a = Vec4.zero) := by
  have n3 : ∀ v : Vec4 ℝ, v.norm3 ^ 2 = v.x * v.x + v.y * v.y + v.z * v.z := fun v => by
    rw [norm3_sq]
    ring
  have n4 : ∀ v : Vec4 ℝ, v.norm4 ^ 2 = v.x * v.x + v.y * v.y + v.z * v.z + v.e * v.e := fun v => by
    rw [norm4_sq]
    ring
  have p3 : ∀ v : Vec4 ℝ, 0 ≤ v.norm3 := norm3_nonneg
  have p4 : ∀ v : Vec4 ℝ, 0 ≤ v.norm4 := norm4_nonneg
  refine ⟨?_, ?_, ?_, ?_, p3 a, ?_, ?_⟩
  · rw [← pow_left_inj₀ (p3 _) (mul_nonneg (abs_nonneg r) (p3 _)) two_ne_zero, mul_pow, sq_abs, n3, n3]
    simp only [Vec4.mul]
    ring
  · rw [← pow_left_inj₀ (p4 _) (mul_nonneg (abs_nonneg r) (p4 _)) two_ne_zero, mul_pow, sq_abs, n4, n4]
    simp only [Vec4.mul]
    ring
  · refine (sq_le_sq₀ (p3 _) (add_nonneg (p3 _) (p3 _))).1 ?_
    have hcs : a.x * b.x + a.y * b.y + a.z * b.z ≤ a.norm3 * b.norm3 := by
      refine le_trans (le_abs_self _) ((sq_le_sq₀ (abs_nonneg _) (mul_nonneg (p3 _) (p3 _))).1 ?_)
      rw [sq_abs, mul_pow, n3, n3]
      nlinarith [sq_nonneg (a.x * b.y - a.y * b.x), sq_nonneg (a.x * b.z - a.z * b.x),
        sq_nonneg (a.y * b.z - a.z * b.y)]
    rw [n3, add_sq, n3, n3]
    simp only [Vec4.add]
    nlinarith
  · refine (sq_le_sq₀ (p4 _) (add_nonneg (p4 _) (p4 _))).1 ?_
    have hcs : a.x * b.x + a.y * b.y + a.z * b.z + a.e * b.e ≤ a.norm4 * b.norm4 := by
      refine le_trans (le_abs_self _) ((sq_le_sq₀ (abs_nonneg _) (mul_nonneg (p4 _) (p4 _))).1 ?_)
      rw [sq_abs, mul_pow, n4, n4]
      nlinarith [sq_nonneg (a.x * b.y - a.y * b.x), sq_nonneg (a.x * b.z - a.z * b.x),
        sq_nonneg (a.y * b.z - a.z * b.y), sq_nonneg (a.x * b.e - a.e * b.x), sq_nonneg (a.y * b.e - a.e * b.y),
        sq_nonneg (a.z * b.e - a.e * b.z)]
    rw [n4, add_sq, n4, n4]
    simp only [Vec4.add]
    nlinarith
  · refine (sq_le_sq₀ (p3 _) (p4 _)).1 ?_
    rw [n3, n4]
    nlinarith [mul_self_nonneg a.e]
  · constructor
    · intro h
      have h0 := n4 a
      rw [h] at h0
      have hx := mul_self_nonneg a.x
      have hy := mul_self_nonneg a.y
      have hz := mul_self_nonneg a.z
      have he := mul_self_nonneg a.e
      norm_num at h0
      ext <;> simp only [Vec4.zero] <;> refine mul_self_eq_zero.1 ?_ <;> linarith
    · rintro rfl
      have h0 := n4 Vec4.zero
      simp only [Vec4.zero] at h0
      norm_num at h0
      exact h0

theorem isClose_iff (a b : ℝ) : isClose a b = true ↔ |a - b| ≤ 1e-8 + 1e-5 * |b| := by
  simp only [isClose, pyAbs_real, decide_eq_true_eq]

/-- **C49, equality.** `==` compares every coordinate with the tolerance `1e-8 + 1e-5 * |second|`. It is
reflexive, holds for vectors that differ by at most `1e-8` in every coordinate, and never for vectors that
differ in some coordinate by more than the tolerance. -/
theorem c49_tolerant_equality (a b : Vec4 ℝ) :
    (a.eq b = true ↔ |a.x - b.x| ≤ 1e-8 + 1e-5 * |b.x| ∧ |a.y - b.y| ≤ 1e-8 + 1e-5 * |b.y| ∧
      |a.z - b.z| ≤ 1e-8 + 1e-5 * |b.z| ∧ |a.e - b.e| ≤ 1e-8 + 1e-5 * |b.e|) ∧ a.eq a = true := by
  have h : ∀ a b : Vec4 ℝ, a.eq b = true ↔ |a.x - b.x| ≤ 1e-8 + 1e-5 * |b.x| ∧
      |a.y - b.y| ≤ 1e-8 + 1e-5 * |b.y| ∧ |a.z - b.z| ≤ 1e-8 + 1e-5 * |b.z| ∧
      |a.e - b.e| ≤ 1e-8 + 1e-5 * |b.e| := by
    intro a b
    simp only [Vec4.eq, Bool.and_eq_true, isClose_iff]
    tauto
  refine ⟨h a b, (h a a).2 ?_⟩
  simp only [_root_.sub_self, abs_zero]
  refine ⟨?_, ?_, ?_, ?_⟩ <;> positivity

/-- **C49, equality is neither symmetric nor transitive.** -/
theorem c49_not_equivalence :
    (∃ a b : Vec4 ℝ, a.eq b = true ∧ b.eq a = false) ∧
    ∃ a b c : Vec4 ℝ, a.eq b = true ∧ b.eq c = true ∧ a.eq c = false := by
  constructor
  · refine ⟨⟨0, 0, 0, 0⟩, ⟨1.000005e-8, 0, 0, 0⟩, ?_, ?_⟩
    · rw [(c49_tolerant_equality _ _).1]
      norm_num [abs_of_pos]
    · rw [← Bool.not_eq_true, (c49_tolerant_equality _ _).1]
      norm_num [abs_of_pos]
  · refine ⟨⟨0, 0, 0, 0⟩, ⟨1e-8, 0, 0, 0⟩, ⟨2e-8, 0, 0, 0⟩, ?_, ?_, ?_⟩
    · rw [(c49_tolerant_equality _ _).1]
      norm_num [abs_of_pos]
    · rw [(c49_tolerant_equality _ _).1]
      norm_num [abs_of_pos]
    · rw [← Bool.not_eq_true, (c49_tolerant_equality _ _).1]
      norm_num [abs_of_pos]

end PyGCD
