import Mathlib.Tactic.Linarith
import Mathlib.Tactic.Positivity
import Mathlib.Tactic.FieldSimp
import Mathlib.Tactic.Ring
import Mathlib.Data.Real.Basic

/-!
# The distance covered by a ramp followed by constant speed
-/

namespace PyGCD

/-- The distance covered until the time `x` by something that begins at rest at the time `0` and reaches the speed `1`
with constant acceleration at the time `r`. -/
noncomputable def ramped (r x : ℝ) : ℝ := if x ≤ 0 then 0 else if x ≤ r then x ^ 2 / (2 * r) else x - r / 2

theorem ramped_of_nonpos {r x : ℝ} (h : x ≤ 0) : ramped r x = 0 := by rw [ramped, if_pos h]

theorem ramped_on {r x : ℝ} (h0 : 0 ≤ x) (h1 : x ≤ r) : ramped r x = x ^ 2 / (2 * r) := by
  unfold ramped
  by_cases h : x ≤ 0
  · rw [if_pos h, show x = 0 by linarith]
    simp
  · rw [if_neg h, if_pos h1]

theorem ramped_after {r x : ℝ} (hr : 0 ≤ r) (h : r ≤ x) : ramped r x = x - r / 2 := by
  unfold ramped
  by_cases h0 : x ≤ 0
  · rw [if_pos h0]
    linarith
  rw [if_neg h0]
  by_cases h1 : x ≤ r
  · rw [if_pos h1, show x = r by linarith]
    have : r ≠ 0 := by
      have := not_le.1 h0
      intro hz
      linarith
    field_simp
    ring
  · rw [if_neg h1]

/-- The speed is between 0 and 1. -/
theorem ramped_step {r x y : ℝ} (hr : 0 ≤ r) (h : x ≤ y) : 0 ≤ ramped r y - ramped r x ∧ ramped r y - ramped r x ≤ y - x := by
  rcases le_total y 0 with hy | hy
  · rw [ramped_of_nonpos hy, ramped_of_nonpos (h.trans hy)]
    constructor <;> linarith
  rcases le_total x 0 with hx | hx
  · rw [ramped_of_nonpos hx]
    rcases le_total y r with h1 | h1
    · rw [ramped_on hy h1]
      rcases hr.lt_or_eq with hr | hr
      · refine ⟨by rw [sub_zero]; positivity, ?_⟩
        have : y ^ 2 / (2 * r) ≤ y := by
          rw [div_le_iff₀ (by positivity)]
          nlinarith
        linarith
      · rw [← hr]
        simp
        linarith
    · rw [ramped_after hr h1]
      constructor <;> linarith
  rcases le_total y r with h1 | h1
  · rw [ramped_on hy h1, ramped_on hx (h.trans h1)]
    rcases hr.lt_or_eq with hr | hr
    · rw [← sub_div]
      refine ⟨div_nonneg (by nlinarith) (by positivity), ?_⟩
      rw [div_le_iff₀ (by positivity)]
      nlinarith
    · rw [← hr]
      simp
      linarith
  rw [ramped_after hr h1]
  rcases le_total x r with h2 | h2
  · rw [ramped_on hx h2]
    rcases hr.lt_or_eq with hr | hr
    · have e : x ^ 2 / (2 * r) = x - r / 2 + (r - x) ^ 2 / (2 * r) := by
        field_simp
        ring
      have e2 : (r - x) ^ 2 / (2 * r) ≤ (r - x) / 2 := by
        rw [div_le_iff₀ (by positivity)]
        nlinarith
      have e3 : 0 ≤ (r - x) ^ 2 / (2 * r) := by positivity
      constructor <;> linarith
    · rw [← hr] at h2 ⊢
      simp
      constructor <;> linarith
  · rw [ramped_after hr h2]
    constructor <;> linarith

theorem ramped_nonneg {r : ℝ} (hr : 0 ≤ r) (x : ℝ) : 0 ≤ ramped r x := by
  rcases le_total x 0 with h | h
  · rw [ramped_of_nonpos h]
  · have := (ramped_step hr h).1
    rw [ramped_of_nonpos le_rfl] at this
    linarith

theorem ramped_le {r x : ℝ} (hr : 0 ≤ r) (hx : 0 ≤ x) : ramped r x ≤ x := by
  have := (ramped_step hr hx).2
  rw [ramped_of_nonpos le_rfl] at this
  linarith

theorem ramped_time {r : ℝ} (hr : 0 ≤ r) (x y : ℝ) : |ramped r x - ramped r y| ≤ |x - y| := by
  rcases le_total x y with h | h
  · obtain ⟨h1, h2⟩ := ramped_step hr h
    rw [abs_sub_comm, abs_of_nonneg h1, abs_sub_comm, abs_of_nonneg (by linarith)]
    exact h2
  · obtain ⟨h1, h2⟩ := ramped_step hr h
    rw [abs_of_nonneg h1, abs_of_nonneg (by linarith)]
    exact h2

/-- A longer ramp covers less, by at most half the difference. -/
theorem ramped_longer {r r' : ℝ} (hr : 0 ≤ r) (h : r ≤ r') (x : ℝ) :
    0 ≤ ramped r x - ramped r' x ∧ ramped r x - ramped r' x ≤ (r' - r) / 2 := by
  rcases le_total x 0 with hx | hx
  · rw [ramped_of_nonpos hx, ramped_of_nonpos hx]
    constructor <;> linarith
  rcases le_total x r with h1 | h1
  · rw [ramped_on hx h1, ramped_on hx (h1.trans h)]
    rcases hr.lt_or_eq with hr | hr
    · have hr' : 0 < r' := by linarith
      have e : x ^ 2 / (2 * r) - x ^ 2 / (2 * r') = x ^ 2 * (r' - r) / (2 * r * r') := by
        field_simp
      rw [e]
      have h3 := sub_nonneg.2 h
      refine ⟨by positivity, ?_⟩
      rw [div_le_iff₀ (by positivity)]
      have h4 : x ^ 2 ≤ r * r' := by nlinarith
      nlinarith
    · have : x = 0 := by linarith
      rw [this]
      simp
      linarith
  rw [ramped_after hr h1]
  rcases le_total x r' with h2 | h2
  · rw [ramped_on hx h2]
    rcases (hr.trans h).lt_or_eq with hr' | hr'
    · have e : x ^ 2 / (2 * r') = x - r' / 2 + (r' - x) ^ 2 / (2 * r') := by
        field_simp
        ring
      have e2 : (r' - x) ^ 2 / (2 * r') ≤ (r' - r) / 2 := by
        rw [div_le_iff₀ (by positivity)]
        nlinarith
      have e3 : 0 ≤ (r' - x) ^ 2 / (2 * r') := by positivity
      constructor <;> linarith
    · have : x = 0 := by linarith
      have : r = 0 := by linarith
      subst_vars
      simp
  · rw [ramped_after (hr.trans h) h2]
    constructor <;> linarith

theorem ramped_ramp {r r' : ℝ} (hr : 0 ≤ r) (hr' : 0 ≤ r') (x : ℝ) : |ramped r x - ramped r' x| ≤ |r - r'| / 2 := by
  rcases le_total r r' with h | h
  · obtain ⟨h1, h2⟩ := ramped_longer hr h x
    rw [abs_of_nonneg h1, abs_sub_comm, abs_of_nonneg (by linarith)]
    exact h2
  · obtain ⟨h1, h2⟩ := ramped_longer hr' h x
    rw [abs_sub_comm, abs_of_nonneg h1, abs_of_nonneg (by linarith)]
    exact h2

/-- The distance covered by a move that accelerates in the time `r`, begins to brake at the time `m` and brakes in the
time `r'`, in units of the top speed. -/
noncomputable def covered (r m r' x : ℝ) : ℝ := ramped r x - ramped r' (x - m)

/-- Small changes of the times change the distance little. -/
theorem covered_near {r m r' q n q' : ℝ} (hr : 0 ≤ r) (hr' : 0 ≤ r') (hq : 0 ≤ q) (hq' : 0 ≤ q') (x : ℝ) :
    |covered r m r' x - covered q n q' x| ≤ |r - q| / 2 + |r' - q'| / 2 + |m - n| := by
  have h1 := ramped_ramp hr hq x
  have h2 := ramped_ramp hr' hq' (x - m)
  have h3 := ramped_time hq' (x - m) (x - n)
  rw [show x - m - (x - n) = -(m - n) by ring, abs_neg] at h3
  unfold covered
  rw [show ramped r x - ramped r' (x - m) - (ramped q x - ramped q' (x - n)) =
    (ramped r x - ramped q x) - ((ramped r' (x - m) - ramped q' (x - m)) + (ramped q' (x - m) - ramped q' (x - n))) by ring]
  refine (abs_sub _ _).trans ?_
  have := abs_add_le (ramped r' (x - m) - ramped q' (x - m)) (ramped q' (x - m) - ramped q' (x - n))
  linarith

theorem covered_of_nonpos {r m r' x : ℝ} (hm : 0 ≤ m) (h : x ≤ 0) : covered r m r' x = 0 := by
  rw [covered, ramped_of_nonpos h, ramped_of_nonpos (by linarith), sub_zero]

/-- After the end, the distance does not change. -/
theorem covered_end {r m x : ℝ} (hr : 0 ≤ r) (hm : 0 ≤ m) (h : m + r ≤ x) : covered r m r x = m := by
  rw [covered, ramped_after hr (by linarith), ramped_after hr (by linarith)]
  ring

theorem covered_bounds {r m x : ℝ} (hr : 0 ≤ r) (hm : 0 ≤ m) : 0 ≤ covered r m r x ∧ covered r m r x ≤ m := by
  obtain ⟨h1, h2⟩ := ramped_step hr (show x - m ≤ x by linarith)
  unfold covered
  constructor <;> linarith

end PyGCD
