import Verif.Proofs.RampLemmas
import Verif.Props.Junctions

set_option linter.unusedSectionVars false

namespace PyGCD
open Vec4 Spec

theorem tDistance_eq (A B : PState ℝ) :
    B.position.tDistance A.position = (B.position.sub A.position).norm3 := rfl

theorem connectState_self {A B : PState ℝ} (h : B.position = A.position) :
    connectState A B = Vec4.zero := by
  unfold connectState
  rw [h, Vec4.sub_self]
  simp only [pyAbs_real, norm3_zero, abs_zero, lt_irrefl, if_false]
  simp only [Vec4.zero, abs_zero, lt_irrefl, if_false]
  exact Vec4.zero_mul _

/-- Direction, distance and kind of a move between different positions. -/
theorem move_direction {A B : PState ℝ} (h : B.position ≠ A.position) (hs : 0 < B.speed) :
    ∃ u, (connectState A B).normDir4 = some u ∧ UnitDir u (moveDistance A B).2 ∧
      0 < (moveDistance A B).1 ∧ B.position = A.position.add (u.mul (moveDistance A B).1) ∧
      (connectState A B).notZero = true ∧
      ((moveDistance A B).2 = true ↔ (B.position.sub A.position).norm3 = 0) ∧
      connectState A B = u.mul B.speed := by
  have hsub : B.position.sub A.position ≠ Vec4.zero := fun e => h (Vec4.sub_eq_zero.1 e)
  have hpos : B.position = A.position.add (B.position.sub A.position) := by
    ext <;> simp [Vec4.add, Vec4.sub]
  by_cases h3 : (B.position.sub A.position).norm3 = 0
  · -- extrusion only
    obtain ⟨hx, hy, hz⟩ := norm3_eq_zero.1 h3
    have he : (B.position.sub A.position).e ≠ 0 := by
      intro he
      apply hsub
      ext <;> simpa [Vec4.zero]
    have hc : connectState A B =
        ((B.position.sub A.position).div |(B.position.sub A.position).e|).mul B.speed := by
      unfold connectState
      simp only [pyAbs_real]
      rw [h3, abs_zero, if_neg (lt_irrefl _), if_pos (abs_pos.2 he)]
    have hd4 : (B.position.sub A.position).norm4 = |(B.position.sub A.position).e| := by
      rw [norm4, hx, hy, hz, sqrt_real]
      rw [show (0 : ℝ) * 0 + 0 * 0 + 0 * 0 + (B.position.sub A.position).e *
        (B.position.sub A.position).e = (B.position.sub A.position).e *
        (B.position.sub A.position).e by ring]
      exact Real.sqrt_mul_self_eq_abs _
    have hmd : moveDistance A B = (|(B.position.sub A.position).e|, true) := by
      unfold moveDistance
      simp only [tDistance_eq, h3, if_true]
      simp only [tDistance4, hd4]
    have hap := abs_pos.2 he
    have hn3 : (connectState A B).norm3 = 0 := by
      rw [hc, norm3_mul, norm3_div, h3, zero_div, zero_mul]
    have hn4 : (connectState A B).norm4 = B.speed := by
      rw [hc, norm4_mul, norm4_div, hd4, abs_abs, div_self hap.ne', one_mul, abs_of_pos hs]
    refine ⟨(B.position.sub A.position).div |(B.position.sub A.position).e|, ?_, ?_, ?_, ?_, ?_, ?_,
      hc⟩
    · unfold normDir4
      rw [hn3, if_neg (lt_irrefl _), hn4, if_pos hs, hc]
      congr 1
      ext <;> simp only [Vec4.div, Vec4.mul] <;> field_simp
    · rw [hmd]
      simp only [UnitDir, if_true, Vec4.div]
      refine ⟨by rw [hx, zero_div], by rw [hy, zero_div], by rw [hz, zero_div], ?_⟩
      rw [abs_div, abs_abs, div_self hap.ne']
    · rw [hmd]
      exact hap
    · rw [hmd]
      conv_lhs => rw [hpos]
      congr 1
      ext <;> simp only [Vec4.div, Vec4.mul] <;> field_simp
    · simp only [notZero, hn4, decide_eq_true_eq]
      exact hs
    · simp [hmd, h3]
  · have h3p : 0 < (B.position.sub A.position).norm3 :=
      lt_of_le_of_ne (norm3_nonneg _) (Ne.symm h3)
    have hc : connectState A B =
        ((B.position.sub A.position).div (B.position.sub A.position).norm3).mul B.speed := by
      unfold connectState
      simp only [pyAbs_real]
      rw [if_pos (abs_pos.2 h3)]
    have hmd : moveDistance A B = ((B.position.sub A.position).norm3, false) := by
      unfold moveDistance
      simp only [tDistance_eq, h3, if_false]
    have hn3 : (connectState A B).norm3 = B.speed := by
      rw [connectState_norm3 A B hs.le, if_neg h3]
    have hn4 : 0 < (connectState A B).norm4 := by
      refine lt_of_le_of_ne (norm4_nonneg _) ?_
      intro h0
      have := norm4_eq_zero.1 h0.symm
      rw [this, norm3_zero] at hn3
      exact hs.ne hn3
    refine ⟨(B.position.sub A.position).div (B.position.sub A.position).norm3, ?_, ?_, ?_, ?_, ?_,
      ?_, hc⟩
    · unfold normDir4
      rw [hn3, if_pos hs, hc]
      congr 1
      ext <;> simp only [Vec4.div, Vec4.mul] <;> field_simp
    · rw [hmd]
      simp only [UnitDir, Bool.false_eq_true, if_false]
      rw [norm3_div, abs_of_pos h3p, div_self h3]
    · rw [hmd]
      exact h3p
    · rw [hmd]
      conv_lhs => rw [hpos]
      congr 1
      ext <;> simp only [Vec4.div, Vec4.mul] <;> field_simp
    · simp only [notZero, decide_eq_true_eq]
      exact hn4
    · simp [hmd, h3]

end PyGCD
