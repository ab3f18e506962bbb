import Verif.Spec.Doubles
import Mathlib.Algebra.Order.Round
import Mathlib.Data.Rat.Floor
import Mathlib.Tactic.Linarith
import Mathlib.Tactic.FieldSimp
import Mathlib.Tactic.Ring
import Mathlib.Tactic.Positivity
import Mathlib.Tactic.NormNum
import Mathlib.Algebra.Order.Field.Power
import Mathlib.Analysis.Real.Sqrt

/-!
# Rounding to double precision

`rnd` and `rndSqrt` of `Verif/Model/Double.lean` are correctly rounded: the result is representable and no
representable number is nearer to the exact value (`rnd_nearest`, `rndSqrt_nearest`). `rnd` is monotone and odd, and
its relative error is at most `2 ^ -53`.
-/

namespace PyGCD
open PyGCD.Spec


theorem pow2_eq (s : ℤ) : pow2 s = (2 : ℚ) ^ s := by
  cases s with
  | ofNat k => simp [pow2]
  | negSucc k =>
    simp only [pow2, zpow_negSucc, Rat.mkRat_eq_div]
    push_cast
    rw [one_div]

theorem two_zpow_pos (s : ℤ) : (0 : ℚ) < 2 ^ s := by positivity

theorem leadExp_spec {x : ℚ} (hx : 0 < x) : (2 : ℚ) ^ leadExp x ≤ x ∧ x < 2 ^ (leadExp x + 1) := by
  have hn : x.num.natAbs ≠ 0 := by
    rw [Int.natAbs_ne_zero]
    exact (Rat.num_pos.2 hx).ne'
  have hd : x.den ≠ 0 := x.den_ne_zero
  have hxe : x = (x.num.natAbs : ℚ) / (x.den : ℚ) := by
    have h := Rat.num_div_den x
    have h2 : ((x.num.natAbs : ℤ) : ℚ) = (x.num : ℚ) := by
      rw [Int.natAbs_of_nonneg (Rat.num_pos.2 hx).le]
    rw [← Int.cast_natCast, h2, h]
  set n := x.num.natAbs with hN
  set d := x.den with hD
  have hn1 : ((2 ^ n.log2 : ℕ) : ℚ) ≤ n := by exact_mod_cast Nat.log2_self_le hn
  have hn2 : (n : ℚ) < ((2 ^ (n.log2 + 1) : ℕ) : ℚ) := by exact_mod_cast Nat.lt_log2_self
  have hd1 : ((2 ^ d.log2 : ℕ) : ℚ) ≤ d := by exact_mod_cast Nat.log2_self_le hd
  have hd2 : (d : ℚ) < ((2 ^ (d.log2 + 1) : ℕ) : ℚ) := by exact_mod_cast Nat.lt_log2_self
  have hdp : (0 : ℚ) < d := by exact_mod_cast Nat.pos_of_ne_zero hd
  set e : ℤ := (n.log2 : ℤ) - (d.log2 : ℤ) with he
  have hz : ∀ a b : ℕ, (2 : ℚ) ^ ((a : ℤ) - (b : ℤ)) = ((2 ^ a : ℕ) : ℚ) / ((2 ^ b : ℕ) : ℚ) := by
    intro a b
    rw [zpow_sub₀ (by norm_num)]
    push_cast
    rw [zpow_natCast, zpow_natCast]
  have hlo : (2 : ℚ) ^ (e - 1) ≤ x := by
    rw [show e - 1 = ((n.log2 : ℕ) : ℤ) - ((d.log2 + 1 : ℕ) : ℤ) by push_cast; omega, hz, hxe]
    gcongr
  have hhi : x < (2 : ℚ) ^ (e + 1) := by
    rw [show e + 1 = ((n.log2 + 1 : ℕ) : ℤ) - ((d.log2 : ℕ) : ℤ) by push_cast; omega, hz, hxe]
    gcongr
  have hdef : leadExp x = if x < pow2 e then e - 1 else e := rfl
  rw [hdef, pow2_eq]
  split
  · rename_i h
    exact ⟨hlo, by rw [sub_add_cancel]; exact h⟩
  · rename_i h
    exact ⟨not_lt.1 h, hhi⟩

theorem roundEven_cases (q : ℚ) :
    (roundEven q = ⌊q⌋ ∧ q - ⌊q⌋ ≤ 1 / 2) ∨ (roundEven q = ⌊q⌋ + 1 ∧ 1 / 2 ≤ q - ⌊q⌋) := by
  have hdef : roundEven q = if q - ⌊q⌋ < mkRat 1 2 then ⌊q⌋ else if mkRat 1 2 < q - ⌊q⌋ then ⌊q⌋ + 1
      else if ⌊q⌋ % 2 = 0 then ⌊q⌋ else ⌊q⌋ + 1 := rfl
  have h2 : mkRat 1 2 = (1 / 2 : ℚ) := by rw [Rat.mkRat_eq_div]; norm_num
  rw [h2] at hdef
  rw [hdef]
  split
  · rename_i h
    exact Or.inl ⟨rfl, h.le⟩
  · rename_i h
    split
    · rename_i h'
      exact Or.inr ⟨rfl, h'.le⟩
    · rename_i h'
      have := le_antisymm (not_lt.1 h') (not_lt.1 h)
      split
      · exact Or.inl ⟨rfl, this.le⟩
      · exact Or.inr ⟨rfl, this.ge⟩

/-- The rounded value is at most as far from the number as any other integer. -/
theorem roundEven_nearest (q : ℚ) (n : ℤ) : |(roundEven q : ℚ) - q| ≤ |(n : ℚ) - q| := by
  have h1 := Int.floor_le q
  have h2 := Int.lt_floor_add_one q
  have h3 : (n : ℚ) ≤ ⌊q⌋ ∨ (⌊q⌋ : ℚ) + 1 ≤ n := by
    rcases le_or_gt n ⌊q⌋ with h | h
    · exact Or.inl (by exact_mod_cast h)
    · exact Or.inr (by exact_mod_cast h)
  rcases roundEven_cases q with ⟨h, hh⟩ | ⟨h, hh⟩ <;> rw [h] <;> push_cast
  · rw [abs_of_nonpos (by linarith)]
    rcases h3 with h3 | h3
    · rw [abs_of_nonpos (by linarith)]; linarith
    · rw [abs_of_nonneg (by linarith)]; linarith
  · rw [abs_of_nonneg (by linarith)]
    rcases h3 with h3 | h3
    · rw [abs_of_nonpos (by linarith)]; linarith
    · rw [abs_of_nonneg (by linarith)]; linarith

theorem roundEven_half (q : ℚ) : |(roundEven q : ℚ) - q| ≤ 1 / 2 := by
  have h1 := Int.floor_le q
  have h2 := Int.lt_floor_add_one q
  rcases roundEven_cases q with ⟨h, hh⟩ | ⟨h, hh⟩ <;> rw [h] <;> push_cast <;> rw [abs_le] <;>
    constructor <;> linarith

/-- A tie is broken towards the even integer. -/
theorem roundEven_tie {q : ℚ} (h : q - ⌊q⌋ = 1 / 2) : roundEven q % 2 = 0 := by
  have hdef : roundEven q = if q - ⌊q⌋ < mkRat 1 2 then ⌊q⌋ else if mkRat 1 2 < q - ⌊q⌋ then ⌊q⌋ + 1
      else if ⌊q⌋ % 2 = 0 then ⌊q⌋ else ⌊q⌋ + 1 := rfl
  have h2 : mkRat 1 2 = (1 / 2 : ℚ) := by rw [Rat.mkRat_eq_div]; norm_num
  rw [hdef, h2, h, if_neg (lt_irrefl _), if_neg (lt_irrefl _)]
  split
  · assumption
  · omega

theorem rnd_zero : rnd 0 = 0 := by simp [rnd]

/-- The exponent of the last of the 53 bits. -/
def lastExp (x : ℚ) : ℤ := leadExp |x| - 52

theorem rnd_eq {x : ℚ} (hx : x ≠ 0) : rnd x = roundEven (x * 2 ^ (-lastExp x)) * 2 ^ lastExp x := by
  have hab : (if x < 0 then -x else x) = |x| := by
    split
    · rename_i h; rw [abs_of_neg h]
    · rename_i h; rw [abs_of_nonneg (not_lt.1 h)]
  unfold rnd
  rw [if_neg hx]
  simp only [hab, pow2_eq]
  rfl

theorem lastExp_spec {x : ℚ} (hx : x ≠ 0) :
    (2 : ℚ) ^ 52 ≤ |x| * 2 ^ (-lastExp x) ∧ |x| * 2 ^ (-lastExp x) < 2 ^ 53 := by
  obtain ⟨h1, h2⟩ := leadExp_spec (abs_pos.2 hx)
  have hp := two_zpow_pos (-lastExp x)
  constructor
  · calc (2 : ℚ) ^ 52 = 2 ^ leadExp |x| * 2 ^ (-lastExp x) := by
          rw [← zpow_add₀ (by norm_num), lastExp]
          norm_num
      _ ≤ _ := by gcongr
  · calc |x| * 2 ^ (-lastExp x) < 2 ^ (leadExp |x| + 1) * 2 ^ (-lastExp x) := by gcongr
      _ = 2 ^ 53 := by
          rw [← zpow_add₀ (by norm_num), lastExp, show leadExp |x| + 1 + -(leadExp |x| - 52) = 53 by ring]
          norm_num

theorem rnd_error_ulp {x : ℚ} (hx : x ≠ 0) : |rnd x - x| ≤ 2 ^ lastExp x / 2 := by
  have hp := two_zpow_pos (lastExp x)
  have h := roundEven_half (x * 2 ^ (-lastExp x))
  have he : rnd x - x = (roundEven (x * 2 ^ (-lastExp x)) - x * 2 ^ (-lastExp x)) * 2 ^ lastExp x := by
    rw [rnd_eq hx, sub_mul, mul_assoc, ← zpow_add₀ (by norm_num)]
    simp
  rw [he, abs_mul, abs_of_pos hp]
  nlinarith

/-- The relative error of rounding. -/
theorem rnd_error (x : ℚ) : |rnd x - x| ≤ |x| / 2 ^ 53 := by
  by_cases hx : x = 0
  · subst hx; simp [rnd_zero]
  · have h1 := rnd_error_ulp hx
    have h2 := (lastExp_spec hx).1
    have hp := two_zpow_pos (lastExp x)
    have h3 : (2 : ℚ) ^ 52 * 2 ^ lastExp x ≤ |x| := by
      calc (2 : ℚ) ^ 52 * 2 ^ lastExp x ≤ |x| * 2 ^ (-lastExp x) * 2 ^ lastExp x := by gcongr
        _ = |x| := by rw [mul_assoc, ← zpow_add₀ (by norm_num)]; simp
    rw [le_div_iff₀ (by positivity)]
    nlinarith

theorem rep_rnd (x : ℚ) : Rep (rnd x) := by
  by_cases hx : x = 0
  · subst hx; exact ⟨0, 0, by norm_num, by simp [rnd_zero]⟩
  · refine ⟨roundEven (x * 2 ^ (-lastExp x)), lastExp x, ?_, rnd_eq hx⟩
    have h := (lastExp_spec hx).2
    have hp := two_zpow_pos (-lastExp x)
    have habs : |x * 2 ^ (-lastExp x)| < 2 ^ 53 := by rwa [abs_mul, abs_of_pos hp]
    obtain ⟨h1, h2⟩ := abs_lt.1 habs
    obtain ⟨h3, h4⟩ := abs_le.1 (roundEven_half (x * 2 ^ (-lastExp x)))
    have hlo : ((-(2 ^ 53) - 1 : ℤ) : ℚ) < roundEven (x * 2 ^ (-lastExp x)) := by push_cast; linarith
    have hhi : ((roundEven (x * 2 ^ (-lastExp x)) : ℤ) : ℚ) < ((2 ^ 53 + 1 : ℤ) : ℚ) := by push_cast; linarith
    have hlo' := Int.cast_lt.1 hlo
    have hhi' := Int.cast_lt.1 hhi
    rw [abs_le]
    constructor <;> omega

/-- No floating-point number is nearer to `x` than the rounded value. -/
theorem rnd_nearest (x : ℚ) {y : ℚ} (hy : Rep y) : |rnd x - x| ≤ |y - x| := by
  by_cases hx : x = 0
  · subst hx; simp [rnd_zero]
  · obtain ⟨m, e, hm, rfl⟩ := hy
    have hp := two_zpow_pos (lastExp x)
    rcases le_or_gt (lastExp x) e with hle | hlt
    · -- on the grid
      have hk : ∃ k : ℕ, e = lastExp x + k := ⟨(e - lastExp x).toNat, by omega⟩
      obtain ⟨k, hk⟩ := hk
      have h := roundEven_nearest (x * 2 ^ (-lastExp x)) (m * 2 ^ k)
      have e1 : rnd x - x = (roundEven (x * 2 ^ (-lastExp x)) - x * 2 ^ (-lastExp x)) * 2 ^ lastExp x := by
        rw [rnd_eq hx, sub_mul, mul_assoc, ← zpow_add₀ (by norm_num)]
        simp
      have e2 : (m : ℚ) * 2 ^ e - x = (((m * 2 ^ k : ℤ) : ℚ) - x * 2 ^ (-lastExp x)) * 2 ^ lastExp x := by
        rw [sub_mul, mul_assoc x, ← zpow_add₀ (by norm_num), hk, zpow_add₀ (by norm_num)]
        push_cast
        rw [zpow_natCast, neg_add_cancel, zpow_zero]
        ring
      rw [e1, e2, abs_mul, abs_mul, abs_of_pos hp]
      gcongr
    · -- a finer grid: the number is too small to compete
      have h1 := rnd_error_ulp hx
      have h2 := (lastExp_spec hx).1
      have h3 : (2 : ℚ) ^ 52 * 2 ^ lastExp x ≤ |x| := by
        calc (2 : ℚ) ^ 52 * 2 ^ lastExp x ≤ |x| * 2 ^ (-lastExp x) * 2 ^ lastExp x := by gcongr
          _ = |x| := by rw [mul_assoc, ← zpow_add₀ (by norm_num)]; simp
      have h4 : |(m : ℚ) * 2 ^ e| ≤ 2 ^ 52 * 2 ^ lastExp x := by
        have hp' := two_zpow_pos e
        have hm' : |(m : ℚ)| ≤ 2 ^ 53 := by exact_mod_cast hm
        have : (2 : ℚ) ^ (e + 1) ≤ 2 ^ lastExp x := zpow_le_zpow_right₀ (by norm_num) (by omega)
        rw [zpow_add₀ (by norm_num), zpow_one] at this
        rw [abs_mul, abs_of_pos hp']
        nlinarith
      -- the end of the grid, `2 ^ 52 * 2 ^ lastExp`, with the sign of `x`, is on the grid and between
      have h5 : |rnd x - x| ≤ |x| - 2 ^ 52 * 2 ^ lastExp x := by
        have e1 : rnd x - x = (roundEven (x * 2 ^ (-lastExp x)) - x * 2 ^ (-lastExp x)) * 2 ^ lastExp x := by
          rw [rnd_eq hx, sub_mul, mul_assoc, ← zpow_add₀ (by norm_num)]
          simp
        have hxx : x * 2 ^ (-lastExp x) * 2 ^ lastExp x = x := by
          rw [mul_assoc, ← zpow_add₀ (by norm_num)]; simp
        rcases lt_or_gt_of_ne hx with hneg | hpos
        · have h := roundEven_nearest (x * 2 ^ (-lastExp x)) (-2 ^ 52)
          rw [e1, abs_mul, abs_of_pos hp]
          rw [abs_of_neg hneg] at h3 h2 ⊢
          have h6 : |((-2 ^ 52 : ℤ) : ℚ) - x * 2 ^ (-lastExp x)| = -(x * 2 ^ (-lastExp x)) - 2 ^ 52 := by
            rw [abs_of_nonneg]
            · push_cast; ring
            · push_cast; linarith
          rw [h6] at h
          calc _ ≤ (-(x * 2 ^ (-lastExp x)) - 2 ^ 52) * 2 ^ lastExp x := by gcongr
            _ = _ := by rw [sub_mul, neg_mul, hxx]
        · have h := roundEven_nearest (x * 2 ^ (-lastExp x)) (2 ^ 52)
          rw [e1, abs_mul, abs_of_pos hp]
          rw [abs_of_pos hpos] at h3 h2 ⊢
          have h6 : |((2 ^ 52 : ℤ) : ℚ) - x * 2 ^ (-lastExp x)| = x * 2 ^ (-lastExp x) - 2 ^ 52 := by
            rw [abs_of_nonpos]
            · push_cast; ring
            · push_cast; linarith
          rw [h6] at h
          calc _ ≤ (x * 2 ^ (-lastExp x) - 2 ^ 52) * 2 ^ lastExp x := by gcongr
            _ = _ := by rw [sub_mul, hxx]
      have h7 : |x| - |(m : ℚ) * 2 ^ e| ≤ |(m : ℚ) * 2 ^ e - x| := by
        have := abs_sub_abs_le_abs_sub x ((m : ℚ) * 2 ^ e)
        rwa [abs_sub_comm] at this
      linarith

theorem rnd_rep {x : ℚ} (h : Rep x) : rnd x = x := by
  have := rnd_nearest x h
  rw [sub_self, abs_zero] at this
  have := abs_nonpos_iff.1 this
  linarith

theorem rnd_rnd (x : ℚ) : rnd (rnd x) = rnd x := rnd_rep (rep_rnd x)

theorem rnd_mono {x y : ℚ} (h : x ≤ y) : rnd x ≤ rnd y := by
  rcases h.eq_or_lt with rfl | h
  · exact le_rfl
  · by_contra hc
    push Not at hc
    have h1 := rnd_nearest x (rep_rnd y)
    have h2 := rnd_nearest y (rep_rnd x)
    -- `rnd y < rnd x`, `rnd x` is nearer to `x`, `rnd y` is nearer to `y`
    have h3 : rnd x + rnd y ≤ 2 * x := by
      rcases abs_cases (rnd x - x) with ⟨a1, a2⟩ | ⟨a1, a2⟩ <;>
        rcases abs_cases (rnd y - x) with ⟨b1, b2⟩ | ⟨b1, b2⟩ <;> rw [a1, b1] at h1 <;> linarith
    have h4 : 2 * y ≤ rnd x + rnd y := by
      rcases abs_cases (rnd x - y) with ⟨a1, a2⟩ | ⟨a1, a2⟩ <;>
        rcases abs_cases (rnd y - y) with ⟨b1, b2⟩ | ⟨b1, b2⟩ <;> rw [a1, b1] at h2 <;> linarith
    linarith

theorem Spec.Rep.neg {x : ℚ} (h : Rep x) : Rep (-x) := by
  obtain ⟨m, e, hm, rfl⟩ := h
  exact ⟨-m, e, by rwa [abs_neg], by push_cast; ring⟩

theorem roundEven_neg (q : ℚ) : roundEven (-q) = -roundEven q := by
  by_cases hz : q = ⌊q⌋
  · have h1 := roundEven_nearest q ⌊q⌋
    have h2 := roundEven_nearest (-q) (-⌊q⌋)
    rw [← hz, sub_self, abs_zero] at h1
    push_cast at h2
    rw [← hz, sub_self, abs_zero] at h2
    have h1 := abs_nonpos_iff.1 h1
    have h2 := abs_nonpos_iff.1 h2
    have : ((roundEven (-q) : ℤ) : ℚ) = ((-roundEven q : ℤ) : ℚ) := by push_cast; linarith
    exact_mod_cast this
  · have hf : ⌊-q⌋ = -⌊q⌋ - 1 := by
      have h1 := Int.floor_le q
      have h2 := Int.lt_floor_add_one q
      have h3 : (⌊q⌋ : ℚ) < q := lt_of_le_of_ne h1 (Ne.symm hz)
      rw [Int.floor_eq_iff]
      push_cast
      constructor <;> linarith
    have hdef : ∀ q : ℚ, roundEven q = if q - ⌊q⌋ < mkRat 1 2 then ⌊q⌋ else if mkRat 1 2 < q - ⌊q⌋ then ⌊q⌋ + 1
      else if ⌊q⌋ % 2 = 0 then ⌊q⌋ else ⌊q⌋ + 1 := fun _ => rfl
    have h2 : mkRat 1 2 = (1 / 2 : ℚ) := by rw [Rat.mkRat_eq_div]; norm_num
    rw [hdef, hdef, h2, hf]
    push_cast
    have e : -q - (-(⌊q⌋ : ℚ) - 1) = 1 - (q - ⌊q⌋) := by ring
    rw [e]
    generalize q - (⌊q⌋ : ℚ) = r
    generalize ⌊q⌋ = f
    rcases lt_trichotomy r (1 / 2) with h | h | h
    · rw [if_neg (by linarith), if_pos (by linarith), if_pos h]; ring
    · subst h
      norm_num
      split <;> split <;> omega
    · rw [if_pos (by linarith), if_neg (by linarith), if_pos h]; ring

theorem rnd_neg (x : ℚ) : rnd (-x) = -rnd x := by
  by_cases hx : x = 0
  · subst hx; simp [rnd_zero]
  · have hl : lastExp (-x) = lastExp x := by simp [lastExp]
    rw [rnd_eq hx, rnd_eq (neg_ne_zero.2 hx), hl, neg_mul, roundEven_neg]
    push_cast
    ring

theorem rnd_nonneg {x : ℚ} (h : 0 ≤ x) : 0 ≤ rnd x := by
  have := rnd_mono h
  rwa [rnd_zero] at this

theorem rnd_pos {x : ℚ} (h : 0 < x) : 0 < rnd x := by
  have h1 := rnd_error x
  rw [abs_of_pos h] at h1
  have h2 := (abs_le.1 h1).1
  have h3 : x / 2 ^ 53 < x := by
    rw [div_lt_iff₀ (by positivity)]
    linarith
  linarith

theorem rnd_eq_zero {x : ℚ} : rnd x = 0 ↔ x = 0 := by
  constructor
  · intro h
    rcases lt_trichotomy x 0 with hx | hx | hx
    · have := rnd_pos (neg_pos.2 hx)
      rw [rnd_neg, h] at this
      simp at this
    · exact hx
    · exact absurd h (rnd_pos hx).ne'
  · rintro rfl
    exact rnd_zero


theorem leadExp_unique {x : ℚ} {e : ℤ} (h1 : (2 : ℚ) ^ e ≤ x) (h2 : x < 2 ^ (e + 1)) : leadExp x = e := by
  have hx : 0 < x := lt_of_lt_of_le (two_zpow_pos e) h1
  obtain ⟨g1, g2⟩ := leadExp_spec hx
  have a := (zpow_lt_zpow_iff_right₀ (by norm_num : (1 : ℚ) < 2)).1 (lt_of_le_of_lt h1 g2)
  have b := (zpow_lt_zpow_iff_right₀ (by norm_num : (1 : ℚ) < 2)).1 (lt_of_le_of_lt g1 h2)
  omega

theorem rnd_two_mul (x : ℚ) : rnd (2 * x) = 2 * rnd x := by
  by_cases hx : x = 0
  · subst hx; simp [rnd_zero]
  · have hl : lastExp (2 * x) = lastExp x + 1 := by
      obtain ⟨h1, h2⟩ := leadExp_spec (abs_pos.2 hx)
      have : leadExp |2 * x| = leadExp |x| + 1 := by
        rw [abs_mul, abs_two]
        apply leadExp_unique
        · rw [zpow_add₀ (by norm_num), zpow_one]; linarith
        · rw [zpow_add₀ (by norm_num), zpow_one]; linarith
      unfold lastExp
      omega
    rw [rnd_eq hx, rnd_eq (mul_ne_zero two_ne_zero hx), hl]
    have e1 : 2 * x * (2 : ℚ) ^ (-(lastExp x + 1)) = x * 2 ^ (-lastExp x) := by
      rw [neg_add, zpow_add₀ (by norm_num : (2 : ℚ) ≠ 0) (-lastExp x) (-1)]
      norm_num
      ring
    rw [e1, zpow_add₀ (by norm_num), zpow_one]
    ring

theorem isqrtLoop_spec (n i r : ℕ) (h1 : r * r ≤ n) (h2 : n < (r + 2 ^ i) * (r + 2 ^ i)) :
    isqrtLoop n i r * isqrtLoop n i r ≤ n ∧ n < (isqrtLoop n i r + 1) * (isqrtLoop n i r + 1) := by
  induction i generalizing r with
  | zero =>
    simp only [isqrtLoop]
    exact ⟨h1, by simpa using h2⟩
  | succ i ih =>
    simp only [isqrtLoop]
    split
    · rename_i h
      refine ih _ h ?_
      rw [pow_succ] at h2
      rwa [add_assoc, ← mul_two]
    · rename_i h
      exact ih _ h1 (not_le.1 h)

/-- What `rndSqrt` computes: an interval of the root, scaled by a power of two. -/
theorem rndSqrt_cases {x : ℚ} (hx : 0 < x) : ∃ (k : ℤ) (r : ℕ), 2 ^ 56 ≤ r ∧
    ((√(x : ℝ) = r * 2 ^ (-k) ∧ rndSqrt x = rnd (r * 2 ^ (-k))) ∨
      (((r : ℝ) * 2 ^ (-k) < √(x : ℝ) ∧ √(x : ℝ) < (r + 1) * 2 ^ (-k)) ∧
        rndSqrt x = rnd ((r + 1 / 2) * 2 ^ (-k)))) := by
  obtain ⟨l1, l2⟩ := leadExp_spec hx
  set k : ℤ := 56 - leadExp x / 2 with hk
  set y : ℚ := x * 2 ^ (2 * k) with hy
  set n : ℕ := y.floor.toNat with hn
  set r : ℕ := isqrtLoop n 60 0 with hr
  have hp := two_zpow_pos (2 * k)
  have hy0 : 0 < y := mul_pos hx hp
  have hylo : (2 : ℚ) ^ 112 ≤ y := by
    calc (2 : ℚ) ^ 112 = 2 ^ (112 : ℤ) := by norm_num
      _ ≤ 2 ^ (leadExp x + 2 * k) := zpow_le_zpow_right₀ (by norm_num) (by omega)
      _ = 2 ^ leadExp x * 2 ^ (2 * k) := zpow_add₀ (by norm_num) _ _
      _ ≤ y := by rw [hy]; gcongr
  have hyhi : y < (2 : ℚ) ^ 114 := by
    calc y < 2 ^ (leadExp x + 1) * 2 ^ (2 * k) := by rw [hy]; gcongr
      _ = 2 ^ (leadExp x + 1 + 2 * k) := (zpow_add₀ (by norm_num) _ _).symm
      _ ≤ 2 ^ (114 : ℤ) := zpow_le_zpow_right₀ (by norm_num) (by omega)
      _ = 2 ^ 114 := by norm_num
  have hfl : y.floor = ⌊y⌋ := rfl
  have hf0 : 0 ≤ ⌊y⌋ := Int.floor_nonneg.2 hy0.le
  have hni : (n : ℤ) = ⌊y⌋ := by rw [hn, hfl, Int.toNat_of_nonneg hf0]
  have hn1 : (n : ℚ) ≤ y := by
    have := Int.floor_le y
    rw [← hni] at this
    exact_mod_cast this
  have hn2 : y < (n : ℚ) + 1 := by
    have := Int.lt_floor_add_one y
    rw [← hni] at this
    exact_mod_cast this
  have hnhi : n < 2 ^ 114 := by
    have : (n : ℚ) < 2 ^ 114 := lt_of_le_of_lt hn1 hyhi
    exact_mod_cast this
  have hnlo : 2 ^ 112 ≤ n := by
    have : ((2 ^ 112 : ℕ) : ℚ) < ((n + 1 : ℕ) : ℚ) := by push_cast; linarith
    have := Nat.cast_lt.1 this
    omega
  obtain ⟨r1, r2⟩ := isqrtLoop_spec n 60 0 (by omega) (by
    calc n < 2 ^ 114 := hnhi
      _ ≤ _ := by norm_num)
  rw [← hr] at r1 r2
  have hr56 : 2 ^ 56 ≤ r := by
    by_contra hc
    push Not at hc
    have : (r + 1) * (r + 1) ≤ 2 ^ 56 * 2 ^ 56 := Nat.mul_le_mul hc hc
    have : (2 : ℕ) ^ 56 * 2 ^ 56 = 2 ^ 112 := by norm_num
    omega
  have hz : (0 : ℝ) < 2 ^ (-k) := by positivity
  have hxy : (x : ℝ) = (y : ℝ) * (2 ^ (-k)) ^ 2 := by
    rw [hy]
    push_cast
    rw [mul_assoc, ← zpow_natCast, ← zpow_mul, ← zpow_add₀ (by norm_num)]
    rw [show 2 * k + -k * ((2 : ℕ) : ℤ) = 0 by push_cast; ring, zpow_zero, mul_one]
  have hsq : √(x : ℝ) = √(y : ℝ) * 2 ^ (-k) := by
    rw [hxy, Real.sqrt_mul (by exact_mod_cast hy0.le), Real.sqrt_sq hz.le]
  have hdef : rndSqrt x = if ((r * r : ℕ) : ℚ) = y then rnd (r * 2 ^ (-k)) else rnd ((r + 1 / 2) * 2 ^ (-k)) := by
    have h2 : mkRat 1 2 = (1 / 2 : ℚ) := by rw [Rat.mkRat_eq_div]; norm_num
    unfold rndSqrt
    rw [if_neg (not_le.2 hx)]
    simp only [pow2_eq, h2]
    rfl
  refine ⟨k, r, hr56, ?_⟩
  rw [hdef, hsq]
  by_cases he : ((r * r : ℕ) : ℚ) = y
  · left
    rw [if_pos he]
    refine ⟨?_, rfl⟩
    have : (y : ℝ) = (r : ℝ) * r := by rw [← he]; push_cast; ring
    rw [this, Real.sqrt_mul_self (by positivity)]
  · right
    rw [if_neg he]
    refine ⟨⟨?_, ?_⟩, rfl⟩
    · have h1 : ((r * r : ℕ) : ℚ) < y := lt_of_le_of_ne (le_trans (by exact_mod_cast r1) hn1) he
      have h2 : (r : ℝ) * r < (y : ℝ) := by exact_mod_cast h1
      gcongr
      exact Real.lt_sqrt_of_sq_lt (by rw [sq]; exact h2)
    · have h1 : y < (((r + 1) * (r + 1) : ℕ) : ℚ) := by
        have : ((n + 1 : ℕ) : ℚ) ≤ (((r + 1) * (r + 1) : ℕ) : ℚ) := by exact_mod_cast r2
        push_cast at this ⊢
        linarith
      have h2 : (y : ℝ) < ((r : ℝ) + 1) * (r + 1) := by exact_mod_cast h1
      gcongr
      rw [Real.sqrt_lt' (by positivity)]
      rw [sq]
      exact h2

theorem rndSqrt_zero : rndSqrt 0 = 0 := by simp [rndSqrt]

theorem Spec.Rep.shift {x : ℚ} (h : Rep x) (k : ℤ) : Rep (x * 2 ^ k) := by
  obtain ⟨m, e, hm, rfl⟩ := h
  exact ⟨m, e + k, hm, by rw [zpow_add₀ (by norm_num)]; ring⟩

/-- A floating-point number of size `2 ^ 54` or more is an even integer. -/
theorem Spec.Rep.even {x : ℚ} (h : Rep x) (hx : 2 ^ 54 ≤ x) : ∃ n : ℤ, x = 2 * n := by
  obtain ⟨m, e, hm, rfl⟩ := h
  have hm' : (m : ℚ) ≤ 2 ^ 53 := by exact_mod_cast (abs_le.1 hm).2
  have hp := two_zpow_pos e
  have he : 1 ≤ e := by
    by_contra hc
    have : (2 : ℚ) ^ e ≤ 2 ^ (0 : ℤ) := zpow_le_zpow_right₀ (by norm_num) (by omega)
    rw [zpow_zero] at this
    nlinarith
  obtain ⟨j, rfl⟩ : ∃ j : ℕ, e = j + 1 := ⟨(e - 1).toNat, by omega⟩
  refine ⟨m * 2 ^ j, ?_⟩
  rw [zpow_add₀ (by norm_num), zpow_one, zpow_natCast]
  push_cast
  ring

/-- The square root is correctly rounded: no floating-point number is nearer to the real root. -/
theorem rndSqrt_nearest {x : ℚ} (hx : 0 ≤ x) {y : ℚ} (hy : Rep y) :
    |(rndSqrt x : ℝ) - √(x : ℝ)| ≤ |(y : ℝ) - √(x : ℝ)| := by
  rcases hx.eq_or_lt with rfl | hx
  · simp [rndSqrt_zero]
  obtain ⟨k, r, hr, ⟨h1, h2⟩ | ⟨⟨h1, h1'⟩, h2⟩⟩ := rndSqrt_cases hx
  · rw [h2, h1]
    have := (Rat.cast_le (K := ℝ)).2 (rnd_nearest ((r : ℚ) * 2 ^ (-k)) hy)
    push_cast at this
    exact this
  · set w := rndSqrt x with hw
    have hwr : Rep w := by rw [h2]; exact rep_rnd _
    set z : ℚ := (r + 1 / 2) * 2 ^ (-k) with hz
    have hn := rnd_nearest z hy
    rw [← h2] at hn
    by_contra hc
    push Not at hc
    have hp : (0 : ℚ) < 2 ^ (-k) := two_zpow_pos _
    have hpk : (2 : ℚ) ^ (-k) * 2 ^ k = 1 := by rw [← zpow_add₀ (by norm_num)]; simp
    have hpR : (0 : ℝ) < 2 ^ (-k) := by positivity
    have hr' : (2 : ℚ) ^ 56 ≤ r := by exact_mod_cast hr
    -- the midpoint of `w` and `y` lies inside the interval
    have hmid : (r : ℚ) * 2 ^ (-k) < (w + y) / 2 ∧ (w + y) / 2 < (r + 1) * 2 ^ (-k) := by
      have hzR : ((z : ℚ) : ℝ) = ((r : ℝ) + 1 / 2) * 2 ^ (-k) := by rw [hz]; push_cast; ring
      have hn' : |(w : ℝ) - z| ≤ |(y : ℝ) - z| := by exact_mod_cast hn
      have hA : (r : ℝ) * 2 ^ (-k) < ((w : ℝ) + y) / 2 ∧ ((w : ℝ) + y) / 2 < (r + 1) * 2 ^ (-k) := by
        have hz1 : (r : ℝ) * 2 ^ (-k) < z := by rw [hzR]; nlinarith
        have hz2 : (z : ℝ) < (r + 1) * 2 ^ (-k) := by rw [hzR]; nlinarith
        generalize (r : ℝ) * 2 ^ (-k) = a at *
        generalize ((r : ℝ) + 1) * 2 ^ (-k) = b at *
        generalize √(x : ℝ) = s at *
        generalize (z : ℝ) = z at *
        generalize (w : ℝ) = w at *
        generalize (y : ℝ) = y at *
        rcases abs_cases (w - z) with ⟨a1, a2⟩ | ⟨a1, a2⟩ <;> rcases abs_cases (y - z) with ⟨b1, b2⟩ | ⟨b1, b2⟩ <;>
          rcases abs_cases (w - s) with ⟨c1, c2⟩ | ⟨c1, c2⟩ <;> rcases abs_cases (y - s) with ⟨d1, d2⟩ | ⟨d1, d2⟩ <;>
          rw [a1, b1] at hn' <;> rw [c1, d1] at hc <;> constructor <;> linarith
      constructor
      · rw [← Rat.cast_lt (K := ℝ)]
        push_cast
        exact hA.1
      · rw [← Rat.cast_lt (K := ℝ)]
        push_cast
        exact hA.2
    -- scale
    have hW := hwr.shift k
    have hY := hy.shift k
    have hwz : |w - z| ≤ z / 2 ^ 53 := by
      have := rnd_error z
      rw [← h2, abs_of_pos (show 0 < z by positivity)] at this
      exact this
    have hm1 : (r : ℚ) < (w * 2 ^ k + y * 2 ^ k) / 2 := by
      have := mul_lt_mul_of_pos_right hmid.1 (two_zpow_pos k)
      rw [mul_assoc, hpk, mul_one] at this
      linarith
    have hm2 : (w * 2 ^ k + y * 2 ^ k) / 2 < (r : ℚ) + 1 := by
      have := mul_lt_mul_of_pos_right hmid.2 (two_zpow_pos k)
      rw [mul_assoc, hpk, mul_one] at this
      linarith
    have hWz : |w * 2 ^ k - (r + 1 / 2)| ≤ (r + 1 / 2) / 2 ^ 53 := by
      have e : w * 2 ^ k - (r + 1 / 2) = (w - z) * 2 ^ k := by
        rw [hz, sub_mul, mul_assoc, hpk, mul_one]
      rw [e, abs_mul, abs_of_pos (two_zpow_pos k)]
      calc |w - z| * 2 ^ k ≤ z / 2 ^ 53 * 2 ^ k := by gcongr
        _ = (r + 1 / 2) * (2 ^ (-k) * 2 ^ k) / 2 ^ 53 := by rw [hz]; ring
        _ = _ := by rw [hpk, mul_one]
    generalize w * 2 ^ k = W at *
    generalize y * 2 ^ k = Y at *
    obtain ⟨g1, g2⟩ := abs_le.1 hWz
    have hWlo : (2 : ℚ) ^ 54 ≤ W := by
      have : ((r : ℚ) + 1 / 2) / 2 ^ 53 ≤ (r + 1 / 2) / 2 := by gcongr; norm_num
      have : (2 : ℚ) ^ 54 * 4 ≤ r := by linarith
      linarith
    rcases le_or_gt ((2 : ℚ) ^ 54) Y with hY54 | hY54
    · obtain ⟨a, rfl⟩ := hW.even hWlo
      obtain ⟨b, rfl⟩ := hY.even hY54
      have e : (2 * (a : ℚ) + 2 * b) / 2 = ((a + b : ℤ) : ℚ) := by push_cast; ring
      rw [e] at hm1 hm2
      have i1 : (r : ℤ) < a + b := by exact_mod_cast hm1
      have i2 : a + b < (r : ℤ) + 1 := by exact_mod_cast hm2
      omega
    · have : ((r : ℚ) + 1 / 2) / 2 ^ 53 ≤ (r + 1 / 2) / 4 := by gcongr; norm_num
      linarith

theorem rndSqrt_error {x : ℚ} (hx : 0 ≤ x) : |(rndSqrt x : ℝ) - √(x : ℝ)| ≤ √(x : ℝ) / 2 ^ 52 := by
  rcases hx.eq_or_lt with rfl | hx
  · simp [rndSqrt_zero]
  obtain ⟨k, r, hr, ⟨h1, h2⟩ | ⟨⟨h1, h1'⟩, h2⟩⟩ := rndSqrt_cases hx
  · rw [h2, h1]
    have h : |rnd ((r : ℚ) * 2 ^ (-k)) - r * 2 ^ (-k)| ≤ (r * 2 ^ (-k)) / 2 ^ 52 := by
      refine (rnd_error _).trans ?_
      rw [abs_of_nonneg (by positivity)]
      gcongr
      · norm_num
      · norm_num
    have := (Rat.cast_le (K := ℝ)).2 h
    push_cast at this
    exact this
  · rw [h2]
    have hp : (0 : ℝ) < 2 ^ (-k) := by positivity
    have h : |rnd (((r : ℚ) + 1 / 2) * 2 ^ (-k)) - (r + 1 / 2) * 2 ^ (-k)| ≤ ((r + 1 / 2) * 2 ^ (-k)) / 2 ^ 53 := by
      have := rnd_error (((r : ℚ) + 1 / 2) * 2 ^ (-k))
      rwa [abs_of_nonneg (show (0 : ℚ) ≤ ((r : ℚ) + 1 / 2) * 2 ^ (-k) by positivity)] at this
    have h' : |((rnd (((r : ℚ) + 1 / 2) * 2 ^ (-k)) : ℚ) : ℝ) - ((r : ℝ) + 1 / 2) * 2 ^ (-k)| ≤
        (((r : ℝ) + 1 / 2) * 2 ^ (-k)) / 2 ^ 53 := by
      have := (Rat.cast_le (K := ℝ)).2 h
      push_cast at this
      exact this
    have hr' : (2 : ℝ) ^ 56 ≤ r := by exact_mod_cast hr
    have h3 : (2 : ℝ) ^ (-k) ≤ √(x : ℝ) / 2 ^ 56 := by
      rw [le_div_iff₀ (by positivity)]
      nlinarith
    generalize ((rnd (((r : ℚ) + 1 / 2) * 2 ^ (-k)) : ℚ) : ℝ) = w at *
    generalize √(x : ℝ) = s at *
    rw [abs_le] at h' ⊢
    have e1 : ((r : ℝ) + 1) * 2 ^ (-k) = r * 2 ^ (-k) + 2 ^ (-k) := by ring
    have e2 : ((r : ℝ) + 1 / 2) * 2 ^ (-k) = r * 2 ^ (-k) + 2 ^ (-k) / 2 := by ring
    rw [e1] at h1'
    rw [e2] at h'
    generalize (r : ℝ) * 2 ^ (-k) = a at *
    generalize (2 : ℝ) ^ (-k) = b at *
    constructor <;> linarith [h'.1, h'.2]

theorem rndSqrt_pos {x : ℚ} (hx : 0 < x) : 0 < rndSqrt x := by
  have h := (abs_le.1 (rndSqrt_error hx.le)).1
  have hs : 0 < √(x : ℝ) := Real.sqrt_pos.2 (by exact_mod_cast hx)
  have h2 : √(x : ℝ) / 2 ^ 52 < √(x : ℝ) := by
    rw [div_lt_iff₀ (by positivity)]
    linarith
  have : (0 : ℝ) < rndSqrt x := by linarith
  exact_mod_cast this

theorem rep_rndSqrt (x : ℚ) : Rep (rndSqrt x) := by
  unfold rndSqrt
  split
  · exact ⟨0, 0, by norm_num, by simp⟩
  · dsimp only
    split <;> exact rep_rnd _

end PyGCD
