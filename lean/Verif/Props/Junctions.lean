import Verif.Model.Junction
import Verif.Proofs.RealLemmas

/-!
# C17: junction speeds
-/

set_option linter.unusedSectionVars false

namespace PyGCD
open Vec4

/-- The target velocity of a move has the feedrate as travel speed, or none (extrusion only or no
move). -/
theorem connectState_norm3 (A B : PState ℝ) (hs : 0 ≤ B.speed) :
    (connectState A B).norm3 =
      if (B.position.sub A.position).norm3 = 0 then 0 else B.speed := by
  unfold connectState
  simp only [pyAbs_real]
  by_cases h : (B.position.sub A.position).norm3 = 0
  · rw [if_pos h]
    rw [h, abs_zero, if_neg (lt_irrefl _)]
    split
    · rw [norm3_mul, norm3_div, h, zero_div, zero_mul]
    · rw [norm3_mul, norm3_zero, zero_mul]
  · rw [if_neg h, if_pos (abs_pos.2 h), norm3_mul, norm3_div, abs_of_nonneg (norm3_nonneg _),
      div_self h, one_mul, abs_of_nonneg hs]

theorem connectState_le (A B : PState ℝ) (hs : 0 ≤ B.speed) : (connectState A B).norm3 ≤ B.speed := by
  rw [connectState_norm3 A B hs]
  split
  · exact hs
  · exact le_refl _

theorem targetVel_le (A : Option (PState ℝ)) (B : PState ℝ) (hs : 0 ≤ B.speed) :
    (targetVel A B).norm3 ≤ B.speed := by
  cases A with
  | none => exact le_of_eq_of_le norm3_zero hs
  | some A => exact connectState_le A B hs

theorem calcJD_bounds (v0 v1 : Vec4 ℝ) (B : PState ℝ) (hs : 0 ≤ B.speed) :
    0 ≤ calcJD v0 v1 B ∧ calcJD v0 v1 B ≤ B.speed := by
  have key : ∀ w : ℝ, 0 ≤ w → 0 ≤ (if w < B.speed then w else B.speed) ∧
      (if w < B.speed then w else B.speed) ≤ B.speed := by
    intro w hw
    split
    · exact ⟨hw, le_of_lt (by assumption)⟩
    · exact ⟨hs, le_refl _⟩
  unfold calcJD
  simp only
  split
  · exact ⟨le_refl _, hs⟩
  split
  · exact ⟨le_refl _, hs⟩
  generalize (if _ < (1 : ℝ) then _ else _ : ℝ) = sinHalf
  split
  · split
    · exact key _ (Real.sqrt_nonneg _)
    · exact ⟨le_refl _, hs⟩
  · exact ⟨hs, le_refl _⟩

theorem calcKlipper_bounds (v0 v1 : Vec4 ℝ) (d : ℝ) (B : PState ℝ) (hs : 0 ≤ B.speed) :
    0 ≤ calcKlipper v0 v1 d B ∧ calcKlipper v0 v1 d B ≤ B.speed := by
  unfold calcKlipper
  simp only
  split
  · exact ⟨le_refl _, hs⟩
  split
  · exact ⟨le_refl _, hs⟩
  · refine ⟨Real.sqrt_nonneg _, ?_⟩
    rw [sqrt_real, pyMin_real, pyMin_real]
    refine le_of_le_of_eq (Real.sqrt_le_sqrt (min_le_right _ _)) (Real.sqrt_mul_self hs)

theorem calcJerk_bounds (v0 v1 : Vec4 ℝ) (B : PState ℝ) (h0 : v0.norm3 ≤ B.speed) :
    0 ≤ calcJerk v0 v1 B ∧ calcJerk v0 v1 B ≤ B.speed := by
  unfold calcJerk
  simp only
  generalize (if 0 < B.jerk * 2 then _ else _ : ℝ) = scale
  split
  · rename_i h
    refine ⟨norm3_nonneg _, le_trans ?_ h0⟩
    rw [norm3_div]
    exact div_le_self (norm3_nonneg _) (le_trans h (le_abs_self _))
  · exact ⟨norm3_nonneg _, h0⟩

theorem mkaStep_bounds {j fac m : ℝ} {s : MkaAcc ℝ} (hj : 0 ≤ j)
    (h : (0 ≤ s.vFactor ∧ s.vFactor ≤ 1) ∧ 0 ≤ s.vMaxJunc ∧ s.vMaxJunc ≤ m) (a b : ℝ) :
    (0 ≤ (mkaStep j fac s a b).vFactor ∧ (mkaStep j fac s a b).vFactor ≤ 1) ∧
      0 ≤ (mkaStep j fac s a b).vMaxJunc ∧ (mkaStep j fac s a b).vMaxJunc ≤ m := by
  have key : ∀ s : MkaAcc ℝ, (0 ≤ s.vFactor ∧ s.vFactor ≤ 1) ∧ 0 ≤ s.vMaxJunc ∧ s.vMaxJunc ≤ m →
      (0 ≤ (if s.limFlag then { s with vMaxJunc := s.vMaxJunc * s.vFactor } else s).vFactor ∧
        (if s.limFlag then { s with vMaxJunc := s.vMaxJunc * s.vFactor } else s).vFactor ≤ 1) ∧
      0 ≤ (if s.limFlag then { s with vMaxJunc := s.vMaxJunc * s.vFactor } else s).vMaxJunc ∧
        (if s.limFlag then { s with vMaxJunc := s.vMaxJunc * s.vFactor } else s).vMaxJunc ≤ m := by
    intro s ⟨h1, h2, h3⟩
    split
    · exact ⟨h1, mul_nonneg h2 h1.1, le_trans (mul_le_of_le_one_right h2 h1.2) h3⟩
    · exact ⟨h1, h2, h3⟩
  unfold mkaStep
  simp only
  refine key _ ?_
  suffices key2 : ∀ jerk : ℝ, (0 ≤ (if j < jerk then
        { s with vFactor := s.vFactor * (j / jerk), limFlag := true } else s).vFactor ∧
      (if j < jerk then
        { s with vFactor := s.vFactor * (j / jerk), limFlag := true } else s).vFactor ≤ 1) ∧
      0 ≤ (if j < jerk then
        { s with vFactor := s.vFactor * (j / jerk), limFlag := true } else s).vMaxJunc ∧
      (if j < jerk then
        { s with vFactor := s.vFactor * (j / jerk), limFlag := true } else s).vMaxJunc ≤ m from key2 _
  intro jerk
  split
  · rename_i hlt
    have hpos : 0 < jerk := lt_of_le_of_lt hj hlt
    have h1 : 0 ≤ j / jerk := div_nonneg hj hpos.le
    have h2 : j / jerk ≤ 1 := (div_le_one hpos).2 hlt.le
    exact ⟨⟨mul_nonneg h.1.1 h1, mul_le_one₀ h.1.2 h1 h2⟩, h.2⟩
  · exact h

theorem calcMKA_bounds (v0 v1 : Vec4 ℝ) (B : PState ℝ) (hj : 0 ≤ B.jerk) :
    0 ≤ calcMKA v0 v1 B ∧ calcMKA v0 v1 B ≤ min v0.norm3 v1.norm3 := by
  unfold calcMKA
  simp only [pyMin_real]
  have h0 : ((0 : ℝ) ≤ 1 ∧ (1 : ℝ) ≤ 1) ∧ 0 ≤ min v0.norm3 v1.norm3 ∧
      min v0.norm3 v1.norm3 ≤ min v0.norm3 v1.norm3 :=
    ⟨⟨zero_le_one, le_refl _⟩, le_min (norm3_nonneg _) (norm3_nonneg _), le_refl _⟩
  exact (mkaStep_bounds hj (mkaStep_bounds hj (mkaStep_bounds hj (mkaStep_bounds hj
    (s := ⟨1, false, min v0.norm3 v1.norm3⟩) h0 _ _) _ _) _ _) _ _).2

/-- C17. For every firmware, every pair of states (also without previous state) and every continuation, the
junction speed at the end of the move to `B` lies between zero and the feedrate of that move. -/
theorem c17_junction_speed (fw : Firmware) (A : Option (PState ℝ)) (B : PState ℝ)
    (rest : List (PState ℝ)) (hs : 0 ≤ B.speed) (hj : 0 ≤ B.jerk) :
    0 ≤ junctionVel fw A B rest ∧ junctionVel fw A B rest ≤ B.speed := by
  have h0 := targetVel_le A B hs
  cases fw with
  | marlinJd => exact calcJD_bounds _ _ _ hs
  | klipper => exact calcKlipper_bounds _ _ _ _ hs
  | marlinJerk => exact calcJerk_bounds _ _ _ h0
  | mka =>
    have h := calcMKA_bounds (targetVel A B) (velNext B rest) B hj
    exact ⟨h.1, le_trans h.2 (le_trans (min_le_left _ _) h0)⟩
  | default => exact ⟨le_refl _, hs⟩

/-- In front of a standstill (no next motion, or extrusion only) every model except `marlin_jerk` plans to
stop. -/
theorem junctionVel_stop {fw : Firmware} (hfw : fw ≠ .marlinJerk) (A : Option (PState ℝ))
    (B : PState ℝ) (rest : List (PState ℝ)) (hj : 0 ≤ B.jerk)
    (h : (velNext B rest).norm3 = 0) : junctionVel fw A B rest = 0 := by
  cases fw with
  | marlinJd => 
    simp only [junctionVel, calcJD, h, or_true, if_true]
    split <;> rfl
  | klipper => simp only [junctionVel, calcKlipper, h, or_true, if_true]
  | marlinJerk => exact absurd rfl hfw
  | mka =>
    have h2 := calcMKA_bounds (targetVel A B) (velNext B rest) B hj
    refine le_antisymm (le_trans h2.2 ?_) h2.1
    rw [h]
    exact min_le_right _ _
  | default => rfl

/-- At the end of a move without travel (extrusion only) every model plans to stop. -/
theorem junctionVel_eonly (fw : Firmware) (A : Option (PState ℝ)) (B : PState ℝ)
    (rest : List (PState ℝ)) (hj : 0 ≤ B.jerk)
    (h : (targetVel A B).norm3 = 0) : junctionVel fw A B rest = 0 := by
  cases fw with
  | marlinJd =>
    simp only [junctionVel, calcJD, h, true_or, if_true]
    split <;> rfl
  | klipper => simp only [junctionVel, calcKlipper, h, true_or, if_true]
  | marlinJerk =>
    simp only [junctionVel, calcJerk, norm3_div, h, zero_div, ite_self]
  | mka =>
    have h2 := calcMKA_bounds (targetVel A B) (velNext B rest) B hj
    refine le_antisymm (le_trans h2.2 ?_) h2.1
    rw [h]
    exact min_le_left _ _
  | default => rfl

end PyGCD
