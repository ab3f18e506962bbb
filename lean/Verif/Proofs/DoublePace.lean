import Verif.Proofs.DoubleFits
import Verif.Proofs.PlanRule
import Verif.Spec.Pace

/-!
# Speeds and times of a planned move in double precision
-/

set_option linter.unusedSectionVars false
set_option linter.unusedSimpArgs false

namespace PyGCD
open PyGCD.Spec Vec4

/-! ## Speeds -/

/-- The speed of a planned move, as a number of its own, is not negative and near the feedrate at most. -/
def Lim (F a : ℝ) (w : Dbl) : Prop := 0 ≤ w.r ∧ w.r * w.r ≤ 1.00009 * (F * F) + 2.9e-8 * (a + 1)

theorem close_tol (b : Dbl) : 0.9e-8 + 0.9e-5 * |b.r| ≤ ((1e-8 : Dbl) + 1e-5 * pyAbs b).r ∧
    ((1e-8 : Dbl) + 1e-5 * pyAbs b).r ≤ 1.1e-8 + 1.1e-5 * |b.r| := by
  have he := eps_pos
  have he' := eps_lt
  have e8 : (1e-8 : Dbl) = ⟨rnd (mkRat 1 (10 ^ 8))⟩ := by
    show (⟨rnd (if true = true then mkRat 1 (10 ^ 8) else ((1 * 10 ^ 8 : Nat) : Rat))⟩ : Dbl) = _
    rw [if_pos rfl]
  have e5 : (1e-5 : Dbl) = ⟨rnd (mkRat 1 (10 ^ 5))⟩ := by
    show (⟨rnd (if true = true then mkRat 1 (10 ^ 5) else ((1 * 10 ^ 5 : Nat) : Rat))⟩ : Dbl) = _
    rw [if_pos rfl]
  have h8 : Rel 1 (1e-8 : Dbl).r 1e-8 := by
    have := rel_rnd (mkRat 1 (10 ^ 8))
    rw [e8]
    rw [show ((mkRat 1 (10 ^ 8) : ℚ) : ℝ) = 1e-8 by rw [Rat.mkRat_eq_div]; push_cast; norm_num] at this
    exact this
  have h5 : Rel 1 (1e-5 : Dbl).r 1e-5 := by
    have := rel_rnd (mkRat 1 (10 ^ 5))
    rw [e5]
    rw [show ((mkRat 1 (10 ^ 5) : ℚ) : ℝ) = 1e-5 by rw [Rat.mkRat_eq_div]; push_cast; norm_num] at this
    exact this
  have hm := (Dbl.r_mul 1e-5 (pyAbs b)).trans (h5.mul (Rel.refl 0 _))
  rw [Dbl.r_abs] at hm
  have hb := abs_nonneg b.r
  have h := rel_add (h8.mono (show 1 ≤ 2 by norm_num)) hm (by norm_num) (by positivity)
  have h0 : (0 : ℝ) ≤ 1e-8 + 1e-5 * |b.r| := by positivity
  have h1 := h.le (by norm_num) h0
  have h2 := h.ge (by norm_num) h0
  push_cast at h1 h2
  have h3 : (1e-8 + 1e-5 * |b.r|) * eps ≤ (1e-8 + 1e-5 * |b.r|) * 0.001 := by gcongr; linarith
  constructor <;> linarith

theorem close_le {a b : Dbl} (h : isClose a b = true) : |a.r - b.r| ≤ 1.2e-8 + 1.2e-5 * |b.r| := by
  have he := eps_pos
  have he' := eps_lt
  unfold isClose at h
  rw [decide_eq_true_eq, Dbl.le_iff, Dbl.r_abs] at h
  have h1 := (close_tol b).2
  have h2 := (Dbl.r_sub a b).abs.ge (by norm_num) (abs_nonneg _)
  push_cast at h2
  have h3 : |a.r - b.r| * eps ≤ |a.r - b.r| * 0.001 := by gcongr; linarith
  have := abs_nonneg b.r
  linarith

theorem not_close_ge {a b : Dbl} (h : ¬ isClose a b = true) : 0.8e-8 + 0.8e-5 * |b.r| ≤ |a.r - b.r| := by
  have he := eps_pos
  have he' := eps_lt
  unfold isClose at h
  rw [decide_eq_true_eq, Dbl.le_iff, Dbl.r_abs, not_le] at h
  have h1 := (close_tol b).1
  have h2 := (Dbl.r_sub a b).abs.le (by norm_num) (abs_nonneg _)
  push_cast at h2
  have h3 : |a.r - b.r| * eps ≤ |a.r - b.r| * 0.001 := by gcongr; linarith
  have := abs_nonneg b.r
  linarith

theorem lim_of_le {F a : ℝ} {v : Dbl} (h0 : 0 ≤ v.r) (h : v.r ≤ F) (ha : 0 ≤ a) : Lim F a v := by
  have := mul_self_le_mul_self h0 h
  have h1 := mul_self_nonneg F
  exact ⟨h0, by linarith⟩

theorem lim_mono {F a : ℝ} {v w : Dbl} (hw : Lim F a w) (h0 : 0 ≤ v.r) (h : v.r ≤ w.r) : Lim F a v :=
  ⟨h0, (mul_self_le_mul_self h0 h).trans hw.2⟩

theorem lim_of_close {a : ℝ} {v vT : Dbl} (h0 : 0 ≤ v.r) (hT : 0 ≤ vT.r) (h : v < vT ∨ isClose v vT = true)
    (ha : 0 ≤ a) : Lim vT.r a v ∧ v.r ≤ 1.000012 * vT.r + 1.2e-8 := by
  have key : v.r ≤ 1.000012 * vT.r + 1.2e-8 := by
    rcases h with h | h
    · rw [Dbl.lt_iff] at h
      linarith
    · have := close_le h
      rw [abs_of_nonneg hT] at this
      have := (abs_le.1 this).2
      linarith
  refine ⟨⟨h0, (mul_self_le_mul_self h0 key).trans ?_⟩, key⟩
  nlinarith [sq_nonneg (vT.r - 1e-3)]

/-- The speed at the end of a trapezoid. -/
theorem trap_end_lim {acc vT vB vE d : Dbl} {D w : ℝ} (h : LenHyp acc vT vB vE d D w)
    (hdown : 0 < (vE - vT) * (vE + vT) / (2 * -acc) ∨ isClose ((vE - vT) * (vE + vT) / (2 * -acc)) 0 = true) :
    Lim vT.r acc.r vE := by
  have he := eps_pos
  have he' := eps_lt
  have hac := h.hacc
  have n2 : -1.1e-8 ≤ ((vE - vT) * (vE + vT) / (2 * -acc)).r := by
    rcases hdown with hd | hd
    · rw [Dbl.lt_iff, Dbl.r_zero] at hd
      linarith
    · exact (abs_le.1 (close_zero_le hd)).1
  refine ⟨h.fin, ?_⟩
  have hT := mul_self_nonneg vT.r
  by_contra hc
  push Not at hc
  have hgt : 2.9e-8 * acc.r ≤ vE.r * vE.r - vT.r * vT.r := by linarith
  have hX : 1.45e-8 ≤ (vE.r * vE.r - vT.r * vT.r) / (2 * acc.r) := by
    rw [le_div_iff₀ (by linarith)]
    linarith
  have hr := (rel_ramp' (a := vE) (b := vT) (acc := -acc)).neg
  rw [Dbl.r_neg, show 2 * -acc.r = -(2 * acc.r) by ring, div_neg, neg_neg] at hr
  have h1 := hr.ge (by norm_num) (by linarith)
  push_cast at h1
  nlinarith

theorem dbl_zero_or {a : Dbl} (h : 0 ≤ a.r) : 0 < a ∨ isClose a 0 = true := by
  rcases h.eq_or_lt with h0 | h0
  · right
    have : a = 0 := Dbl.ext_r (by rw [Dbl.r_zero]; exact h0.symm)
    rw [this]
    exact dbl_close_self 0
  · left
    rw [Dbl.lt_iff, Dbl.r_zero]
    exact h0

theorem peak_sq {acc vT vB vE d : Dbl} {D w : ℝ} (h : LenHyp acc vT vB vE d D w) :
    Rel 14 ((PyMath.sqrt (acc * d + vB * vB / 2 + vE * vE / 2) : Dbl).r *
      (PyMath.sqrt (acc * d + vB * vB / 2 + vE * vE / 2) : Dbl).r)
      (acc.r * d.r + vB.r * vB.r / 2 + vE.r * vE.r / 2) := by
  obtain ⟨d1, d2, d3, hw, hBw⟩ := h.facts
  have ha := h.hacc
  have h2 : Rel 2 (vB * vB / 2).r (vB.r * vB.r / 2) := by
    have := (Dbl.r_div (vB * vB) 2).trans ((Dbl.r_mul vB vB).div (Rel.of_eq 0 Dbl.r_two))
    exact this
  have h3 : Rel 2 (vE * vE / 2).r (vE.r * vE.r / 2) := by
    have := (Dbl.r_div (vE * vE) 2).trans ((Dbl.r_mul vE vE).div (Rel.of_eq 0 Dbl.r_two))
    exact this
  have e1 : 0 ≤ vB.r * vB.r / 2 := div_nonneg (mul_self_nonneg _) zero_le_two
  have e2 : 0 ≤ vE.r * vE.r / 2 := div_nonneg (mul_self_nonneg _) zero_le_two
  have e3 : 0 ≤ acc.r * d.r := by positivity
  have h4 := rel_add ((Dbl.r_mul acc d).mono (show 1 ≤ 2 by norm_num)) h2 e3 e1
  have h5 := rel_add h4 (h3.mono (show 2 ≤ 3 by norm_num)) (add_nonneg e3 e1) e2
  have hX0 : 0 ≤ acc.r * d.r + vB.r * vB.r / 2 + vE.r * vE.r / 2 := add_nonneg (add_nonneg e3 e1) e2
  have h6 := rel_sqrt h5 hX0
  have h7 := h6.mul h6
  rwa [Real.mul_self_sqrt hX0] at h7

/-- The speed at which a braking move begins is the speed at which it may begin, up to rounding. -/
theorem down_start {acc vT vB vE d : Dbl} {D w : ℝ} (h : LenHyp acc vT vB vE d D w) (hlt : vE < vB)
    (c1 : ¬ ((vT - vB) * (vB + vT) / (2 * acc) + (vE - vT) * (vE + vT) / (2 * -acc) < d ∧
      (0 < (vT - vB) * (vB + vT) / (2 * acc) ∨ isClose ((vT - vB) * (vB + vT) / (2 * acc)) 0 = true) ∧
      (0 < (vE - vT) * (vE + vT) / (2 * -acc) ∨ isClose ((vE - vT) * (vE + vT) / (2 * -acc)) 0 = true)))
    (c2 : ¬ (vE < PyMath.sqrt (acc * d + vB * vB / 2 + vE * vE / 2) ∧
      vB < PyMath.sqrt (acc * d + vB * vB / 2 + vE * vE / 2) ∧
      (PyMath.sqrt (acc * d + vB * vB / 2 + vE * vE / 2) < vT ∨
        isClose (PyMath.sqrt (acc * d + vB * vB / 2 + vE * vE / 2)) vT = true))) :
    vE.r * vE.r + 2 * acc.r * d.r ≤ vB.r * vB.r * (1 + 1e-9) := by
  have he := eps_pos
  have he' := eps_lt
  obtain ⟨d1, d2, d3, hw, hBw⟩ := h.facts
  have ha := h.hacc
  have hP := peak_sq h
  set vP : Dbl := PyMath.sqrt (acc * d + vB * vB / 2 + vE * vE / 2) with hvP
  have hP0 : 0 ≤ vP.r := dbl_sqrt_nonneg _
  rw [Dbl.lt_iff] at hlt
  have hvB : 0 < vB.r := lt_of_le_of_lt h.fin hlt
  have hvT : 0 < vT.r := hvB.trans_le h.le
  have hB2 := mul_pos hvB hvB
  have hT2 := mul_pos hvT hvT
  have hE2 := mul_self_nonneg vE.r
  have hBT := mul_self_le_mul_self hvB.le h.le
  have hEB := mul_self_le_mul_self h.fin hlt.le
  have had : 0 < acc.r * d.r := by positivity
  by_contra hc
  push Not at hc
  set X := acc.r * d.r + vB.r * vB.r / 2 + vE.r * vE.r / 2 with hX
  have hX0 : 0 < X := by linarith
  have hXB : vB.r * vB.r * (1 + 4e-10) ≤ X := by linarith
  have p1 := hP.ge (by norm_num) hX0.le
  have p2 := hP.le (by norm_num) hX0.le
  push_cast at p1 p2
  have hXe : X * (2 * 14 * eps) ≤ X * 1e-12 := by gcongr; linarith
  have hBP : vB.r < vP.r := by
    by_contra hn
    have := mul_self_le_mul_self hP0 (not_lt.1 hn)
    nlinarith
  have hnot : ¬ (vP < vT ∨ isClose vP vT = true) := fun hh =>
    c2 ⟨(Dbl.lt_iff _ _).2 (hlt.trans hBP), (Dbl.lt_iff _ _).2 hBP, hh⟩
  obtain ⟨q1, q2⟩ := not_or.1 hnot
  rw [Dbl.lt_iff, not_lt] at q1
  have q3 := not_close_ge q2
  rw [abs_of_nonneg (sub_nonneg.2 q1), abs_of_pos hvT] at q3
  have q4 : 1.000008 * vT.r ≤ vP.r := by linarith
  have q5 := mul_self_le_mul_self (by positivity) q4
  have hXT : vT.r * vT.r * (1 + 1e-5) ≤ X := by nlinarith
  apply c1
  have u1 := rel_ramp (a := vT) (b := vB) (acc := acc)
  have u2 := rel_ramp' (a := vE) (b := vT) (acc := -acc)
  rw [Dbl.r_neg, show (vE.r * vE.r - vT.r * vT.r) / (2 * -acc.r) = (vT.r * vT.r - vE.r * vE.r) / (2 * acc.r) by
    rw [show 2 * -acc.r = -(2 * acc.r) by ring, div_neg, ← neg_div, neg_sub]] at u2
  have n1 : 0 ≤ (vT.r * vT.r - vB.r * vB.r) / (2 * acc.r) := div_nonneg (by linarith) (by linarith)
  have n2 : 0 ≤ (vT.r * vT.r - vE.r * vE.r) / (2 * acc.r) := div_nonneg (by linarith) (by linarith)
  refine ⟨?_, dbl_zero_or (u1.nonneg n1), dbl_zero_or (u2.nonneg n2)⟩
  rw [Dbl.lt_iff]
  have u3 := (rel_add u1 u2 n1 n2).le (by norm_num) (add_nonneg n1 n2)
  push_cast at u3
  refine lt_of_le_of_lt u3 ?_
  rw [← add_div, div_mul_eq_mul_div, div_lt_iff₀ (by linarith)]
  have e1 : (vT.r * vT.r) * (2 * 6 * eps) ≤ (vT.r * vT.r) * 1e-6 := by gcongr; linarith
  nlinarith [mul_nonneg hE2 he.le, mul_nonneg hB2.le he.le]

theorem down_lim {acc vT vB vE d : Dbl} {D w : ℝ} (h : LenHyp acc vT vB vE d D w)
    (hs : vE.r * vE.r + 2 * acc.r * d.r ≤ vB.r * vB.r * (1 + 1e-9)) {vA : Dbl}
    (hA : vA = PyMath.sqrt (2 * acc * d + vE * vE)) : Lim vT.r acc.r vA ∧ vA.r ≤ 1.00001 * vT.r := by
  have he := eps_pos
  have he' := eps_lt
  obtain ⟨d1, d2, d3, hw, hBw⟩ := h.facts
  have ha := h.hacc
  obtain ⟨_, h1⟩ := single_rel h vE
  have hQ : 0 ≤ vE.r * vE.r + 2 * acc.r * d.r := by
    have := mul_self_nonneg vE.r
    positivity
  have h2 := (sq_sqrt_rel h1 hQ).le (by norm_num) hQ
  rw [← hA] at h2
  push_cast at h2
  have hA0 : 0 ≤ vA.r := by rw [hA]; exact dbl_sqrt_nonneg _
  have hT : 0 ≤ vT.r := h.beg.trans h.le
  have hBT := mul_self_le_mul_self h.beg h.le
  have h3 : (vE.r * vE.r + 2 * acc.r * d.r) * (2 * 12 * eps) ≤ (vE.r * vE.r + 2 * acc.r * d.r) * 1e-9 := by
    gcongr
    linarith
  have hT2 := mul_self_nonneg vT.r
  have h4 : vA.r * vA.r ≤ 1.00001 * (vT.r * vT.r) := by linarith
  refine ⟨⟨hA0, by linarith⟩, ?_⟩
  by_contra hc
  push Not at hc
  have := mul_self_lt_mul_self (by positivity) hc
  nlinarith

/-! ## Times -/

/-- A clock that goes on by the durations `ds` and never goes back. -/
def Ticks : Dbl → List Dbl → Dbl → Prop
  | t, [], t' => t = t'
  | t, d :: ds, t' => t.r ≤ (t + d).r ∧ Ticks (t + d) ds t'

theorem Spec.Ahead.append {a b c : Dbl} {l m : List (Segment Dbl)} (h : Ahead a l b) (g : Ahead b m c) :
    Ahead a (l ++ m) c := by
  induction l generalizing a with
  | nil =>
    cases m with
    | nil => exact le_trans (show a.r ≤ b.r from h) (show b.r ≤ c.r from g)
    | cons s m => exact ⟨le_trans (show a.r ≤ b.r from h) g.1, g.2⟩
  | cons s l ih => exact ⟨h.1, h.2.1, ih h.2.2⟩

theorem make_times {t t' : Dbl} {p v p' v' : Vec4 Dbl} {s : Segment Dbl} (h : Segment.make t t' p v p' v' = .ok s) :
    t.r ≤ t'.r ∧ Ahead t (keepSeg s) t' := by
  have hs := make_dbl h
  unfold Segment.make at h
  simp only at h
  have ht : t.r ≤ t'.r := by
    split at h
    · rename_i hc
      simp only [Segment.selfCheckOk, Bool.and_eq_true, Bool.not_eq_true', decide_eq_false_iff_not] at hc
      have := hc.2
      rw [Dbl.lt_iff, not_lt] at this
      exact this
    · cases h
  refine ⟨ht, ?_⟩
  rcases keepSeg_cases s with h | ⟨h, _⟩
  · rw [h, hs]
    exact ⟨le_rfl, ht, le_rfl⟩
  · rw [h]
    exact ht

/-- The clock goes on by no more than the durations, up to rounding. -/
theorem tick_le {t d : Dbl} {M β : ℝ} (h : t.r ≤ (t + d).r) (hM : |t.r| ≤ M) (hd : d.r ≤ β) (hβ : 0 ≤ β) :
    (t + d).r ≤ t.r + β + 3 * eps * (M + β) := by
  have he := eps_pos
  have he' := eps_lt
  have h1 := Dbl.r_add t d
  have hM0 : 0 ≤ M := (abs_nonneg _).trans hM
  obtain ⟨m1, m2⟩ := abs_le.1 hM
  have h2 := (abs_le.1 (h1.abs_sub (by norm_num))).2
  push_cast at h2
  rcases le_total 0 (t.r + d.r) with h0 | h0
  · rw [abs_of_nonneg h0] at h2
    have : eps * (t.r + d.r) ≤ eps * (M + β) := by
      apply mul_le_mul_of_nonneg_left _ he.le
      linarith
    nlinarith [mul_nonneg he.le (add_nonneg hM0 hβ)]
  · rw [abs_of_nonpos h0] at h2
    have h3 := (abs_le.1 (h1.symm.abs_sub (by norm_num))).1
    push_cast at h3
    have hneg : (t + d).r ≤ 0 := by
      have := h1.neg.nonneg (by linarith)
      linarith
    rw [abs_of_nonpos hneg] at h3
    have e1 : eps * -(t + d).r ≤ eps * M := by
      apply mul_le_mul_of_nonneg_left _ he.le
      linarith
    have e2 : eps * eps ≤ eps * 0.01 := by
      apply mul_le_mul_of_nonneg_left _ he.le
      linarith
    have e3 : eps * -(t.r + d.r) ≤ eps * (M * 1.1) := by
      apply mul_le_mul_of_nonneg_left _ he.le
      nlinarith
    nlinarith [mul_nonneg he.le (add_nonneg hM0 hβ), mul_nonneg he.le hβ]

theorem ticks_le : ∀ (ds : List Dbl) (t t' : Dbl) (M : ℝ), Ticks t ds t' → ds.length ≤ 3 →
    |t.r| + (ds.map fun d => max d.r 0).sum + ds.length ≤ M → M ≤ 1000000 →
    t'.r ≤ t.r + (ds.map fun d => max d.r 0).sum + ds.length * (3 * eps * 1000000)
  | [], t, t', M, h, _, _, _ => by
    cases h
    simp
  | d :: ds, t, t', M, h, hl, hM, hM' => by
    have he := eps_pos
    have he' := eps_lt
    simp only [List.map_cons, List.sum_cons, List.length_cons] at hM hl ⊢
    push_cast at hM ⊢
    have h0 : 0 ≤ max d.r 0 := le_max_right _ _
    have hs : 0 ≤ (ds.map fun d => max d.r 0).sum := List.sum_nonneg (by
      intro x hx
      obtain ⟨y, _, rfl⟩ := List.mem_map.1 hx
      exact le_max_right _ _)
    have hn : (0 : ℝ) ≤ ds.length := Nat.cast_nonneg _
    have h1 := tick_le h.1 le_rfl (le_max_left d.r 0) h0
    have h2 : eps * (|t.r| + max d.r 0) ≤ eps * 1000000 := by
      apply mul_le_mul_of_nonneg_left _ he.le
      linarith
    have h3 : |(t + d).r| ≤ |t.r| + max d.r 0 + 1 := by
      rw [abs_le]
      have := neg_abs_le t.r
      have := le_abs_self t.r
      have := h.1
      constructor <;> linarith
    have ih := ticks_le ds (t + d) t' M h.2 (by omega) (by linarith) hM'
    linarith

theorem div_time_le {a b : Dbl} {x y c : ℝ} (hn : ℕ) (hn' : hn ≤ 1000) (hx : Rel hn a.r x) (hy : Rel hn b.r y)
    (hy0 : 0 < y) (hxc : x ≤ c) (hc : 0 ≤ c) : max (a / b).r 0 ≤ 1.01 * c / y := by
  have he := eps_pos
  have he' := eps_lt
  have h1 := (Dbl.r_div a b).trans (hx.div hy)
  refine max_le ?_ (by positivity)
  rcases le_total 0 (x / y) with h0 | h0
  · have h2 := h1.le (by omega) h0
    refine h2.trans ?_
    have h3 : x / y ≤ c / y := by gcongr
    have hb : 2 * ((1 + (hn + hn) : ℕ) : ℝ) * eps ≤ 0.01 := by
      have : ((1 + (hn + hn) : ℕ) : ℝ) ≤ 2001 := by exact_mod_cast (by omega)
      have h4 : ((1 + (hn + hn) : ℕ) : ℝ) * eps ≤ 2001 * eps := by gcongr
      linarith
    have h5 : 0 ≤ c / y := by positivity
    calc x / y * (1 + 2 * ((1 + (hn + hn) : ℕ) : ℝ) * eps) ≤ c / y * 1.01 := by
          apply mul_le_mul h3 (by linarith) _ h5
          have := h1.abs_sub (by omega)
          positivity
      _ = _ := by ring
  · have h2 := h1.neg.nonneg (by linarith)
    have : 0 ≤ 1.01 * c / y := by positivity
    linarith

/-- A planned move: its speeds are limited, it runs forward in time, and it does not take too long. -/
theorem planMove_pace {prev : Segment Dbl} {u : Vec4 Dbl} {ur : Vec4 ℝ} {B : PState Dbl} {d vE : Dbl} {eo : Bool} {D w : ℝ}
    {r : List (Segment Dbl) × BlockType} (hr : planMove prev u B d eo vE = .ok r)
    (h : LenHyp B.pAcc B.speed (if prev.velEnd.norm3 < B.speed then prev.velEnd.norm3 else B.speed) vE d D w)
    (hu : RelV 41 u ur) (hd : UnitDir ur eo) (hT : 0 < B.speed.r) :
    (∀ s ∈ r.1, ∃ a b, s.velBegin = u.mul a ∧ s.velEnd = u.mul b ∧ Lim B.speed.r B.pAcc.r a ∧ Lim B.speed.r B.pAcc.r b) ∧
    ∃ ds t', Ticks prev.tEnd ds t' ∧ ds.length ≤ 3 ∧ Ahead prev.tEnd r.1 t' ∧
      (1e-6 ≤ B.speed.r → (ds.map fun x => max x.r 0).sum ≤ 2.5 * B.speed.r / B.pAcc.r + 1.5 * D / B.speed.r) := by
  have hac := h.hacc
  have hD : 0 < D := lt_of_lt_of_le (by norm_num) h.long
  have hmem : ∀ {s s' : Segment Dbl}, s' ∈ keepSeg s → s' = s := by
    intro s s' hs'
    rcases keepSeg_cases s with hk | ⟨hk, _⟩
    · rw [hk] at hs'
      simpa using hs'
    · rw [hk] at hs'
      cases hs'
  have hk1 : 0 < B.speed.r / B.pAcc.r := by positivity
  have hk2 : 0 < D / B.speed.r := by positivity
  have hsum : ∀ x y : ℝ, x ≤ 2.5 * (B.speed.r / B.pAcc.r) → y ≤ 1.5 * (D / B.speed.r) →
      x + y ≤ 2.5 * B.speed.r / B.pAcc.r + 1.5 * D / B.speed.r := by
    intro x y hx hy
    rw [mul_div_assoc, mul_div_assoc]
    linarith
  have ramp : ∀ (a b : Dbl) (c : ℝ), a.r ≤ c → 0 ≤ b.r → 0 ≤ c → max ((a - b) / B.pAcc).r 0 ≤ 1.01 * c / B.pAcc.r := by
    intro a b c h1 h2 h3
    exact div_time_le 1 (by norm_num) (Dbl.r_sub a b) (Rel.refl 1 _) hac (by linarith) h3
  unfold planMove at hr
  have hr := rescue_ok hr
  generalize hB : (if prev.velEnd.norm3 < B.speed then prev.velEnd.norm3 else B.speed) = vB at hr h
  have lB : Lim B.speed.r B.pAcc.r vB := lim_of_le h.beg h.le hac.le
  have lT : Lim B.speed.r B.pAcc.r B.speed := lim_of_le hT.le le_rfl hac.le
  by_cases c1 : (B.speed - vB) * (vB + B.speed) / (2 * B.pAcc) + (vE - B.speed) * (vE + B.speed) / (2 * -B.pAcc) < d ∧
      (0 < (B.speed - vB) * (vB + B.speed) / (2 * B.pAcc) ∨
        isClose ((B.speed - vB) * (vB + B.speed) / (2 * B.pAcc)) 0 = true) ∧
      (0 < (vE - B.speed) * (vE + B.speed) / (2 * -B.pAcc) ∨
        isClose ((vE - B.speed) * (vE + B.speed) / (2 * -B.pAcc)) 0 = true)
  · rw [if_pos c1] at hr
    obtain ⟨a1, _, a3⟩ := c1
    have lE := trap_end_lim h a3
    have hp := (trap_pieces h rfl a1 a3).2
    cases ht : trapezoid prev u B.pAcc B.speed vB vE d eo with
    | error e => rw [ht] at hr; cases hr
    | ok ss =>
      rw [ht] at hr
      cases hr
      unfold trapezoid at ht
      simp only [bind, Except.bind] at ht
      split at ht
      · cases ht
      · rename_i sA hA
        split at ht
        · cases ht
        · rename_i sB hB'
          split at ht
          · cases ht
          · rename_i sC hC
            cases ht
            obtain ⟨t1, g1⟩ := make_times hA
            obtain ⟨t2, g2⟩ := make_times hB'
            obtain ⟨t3, g3⟩ := make_times hC
            refine ⟨?_, [_, _, _], _, ⟨t1, t2, t3, rfl⟩, by simp, (g1.append g2).append g3, ?_⟩
            · intro s hs
              simp only [List.mem_append] at hs
              rcases hs with (hs | hs) | hs
              · rw [hmem hs, make_dbl hA]
                exact ⟨_, _, rfl, rfl, lB, lT⟩
              · rw [hmem hs, make_dbl hB']
                exact ⟨_, _, rfl, rfl, lT, lT⟩
              · rw [hmem hs, make_dbl hC]
                exact ⟨_, _, rfl, rfl, lT, lE⟩
            · intro _
              simp only [List.map_cons, List.map_nil, List.sum_cons, List.sum_nil, add_zero] at hp ⊢
              have r1 := ramp B.speed vB _ le_rfl h.beg hT.le
              have r2 := ramp B.speed vE _ le_rfl h.fin hT.le
              generalize (vE - B.speed) * (vE + B.speed) / (2 * -B.pAcc) = down at hp ⊢
              generalize (B.speed - vB) * (vB + B.speed) / (2 * B.pAcc) = up at hp ⊢
              have hc : (d - down - up).r ≤ 1.1 * D := by
                have := le_abs_self (d - down - up).r
                have := abs_nonneg up.r
                have := abs_nonneg down.r
                linarith
              have r3 := div_time_le (a := d - down - up) 91 (by norm_num) (Rel.refl 91 _) (vConst_rel hu hd hT) hT hc
                (by positivity)
              rw [mul_div_assoc] at r1 r2 r3
              rw [show 1.1 * D / B.speed.r = 1.1 * (D / B.speed.r) by ring] at r3
              rw [add_left_comm, add_comm]
              refine hsum _ _ ?_ ?_
              · linarith
              · linarith
  · rw [if_neg c1] at hr
    by_cases c2 : vE < PyMath.sqrt (B.pAcc * d + vB * vB / 2 + vE * vE / 2) ∧
        vB < PyMath.sqrt (B.pAcc * d + vB * vB / 2 + vE * vE / 2) ∧
        (PyMath.sqrt (B.pAcc * d + vB * vB / 2 + vE * vE / 2) < B.speed ∨
          isClose (PyMath.sqrt (B.pAcc * d + vB * vB / 2 + vE * vE / 2)) B.speed = true)
    · rw [if_pos c2] at hr
      obtain ⟨a1, a2, a3⟩ := c2
      obtain ⟨lP, kP⟩ := lim_of_close (dbl_sqrt_nonneg _) hT.le a3 hac.le
      rw [Dbl.lt_iff] at a1 a2
      generalize PyMath.sqrt (B.pAcc * d + vB * vB / 2 + vE * vE / 2) = vP at hr a1 a2 a3 lP kP
      have lE := lim_mono lP h.fin a1.le
      cases ht : triang prev u B.pAcc vP vB vE with
      | error e => rw [ht] at hr; cases hr
      | ok ss =>
        rw [ht] at hr
        cases hr
        unfold triang at ht
        simp only [bind, Except.bind] at ht
        split at ht
        · cases ht
        · rename_i sA hA
          split at ht
          · cases ht
          · rename_i sC hC
            cases ht
            obtain ⟨t1, g1⟩ := make_times hA
            obtain ⟨t3, g3⟩ := make_times hC
            refine ⟨?_, [_, _], _, ⟨t1, t3, rfl⟩, by simp, g1.append g3, ?_⟩
            · intro s hs
              simp only [List.mem_append] at hs
              rcases hs with hs | hs
              · rw [hmem hs, make_dbl hA]
                exact ⟨_, _, rfl, rfl, lB, lP⟩
              · rw [hmem hs, make_dbl hC]
                exact ⟨_, _, rfl, rfl, lP, lE⟩
            · intro hs
              simp only [List.map_cons, List.map_nil, List.sum_cons, List.sum_nil, add_zero]
              have kP' : vP.r ≤ 1.02 * B.speed.r := by linarith
              have r1 := ramp vP vB _ kP' h.beg (by positivity)
              have r2 := ramp vP vE _ kP' h.fin (by positivity)
              rw [mul_div_assoc, mul_div_assoc] at r1 r2
              have := hsum _ 0 (show max ((vP - vB) / B.pAcc).r 0 + max ((vP - vE) / B.pAcc).r 0 ≤ _ by linarith)
                (by positivity)
              linarith
    · rw [if_neg c2] at hr
      generalize hS : (if 0 ≤ (if vE < vB then vB * vB - 2 * B.pAcc * d else vB * vB + 2 * B.pAcc * d) then
        PyMath.sqrt (if vE < vB then vB * vB - 2 * B.pAcc * d else vB * vB + 2 * B.pAcc * d) else 0) = vS at hr
      by_cases c3 : vB < vS ∧ (vS < B.speed ∨ isClose vS B.speed = true)
      · rw [if_pos c3] at hr
        have h0 := (Dbl.lt_iff _ _).1 c3.1
        obtain ⟨lS, kS⟩ := lim_of_close (h.beg.trans h0.le) hT.le c3.2 hac.le
        cases ht : singlUp prev u B.pAcc vS vB with
        | error e => rw [ht] at hr; cases hr
        | ok ss =>
          rw [ht] at hr
          cases hr
          unfold singlUp at ht
          simp only [bind, Except.bind] at ht
          split at ht
          · cases ht
          · rename_i sA hA
            cases ht
            obtain ⟨t1, g1⟩ := make_times hA
            refine ⟨?_, [_], _, ⟨t1, rfl⟩, by simp, g1, ?_⟩
            · intro s hs
              rw [hmem hs, make_dbl hA]
              exact ⟨_, _, rfl, rfl, lB, lS⟩
            · intro hs
              simp only [List.map_cons, List.map_nil, List.sum_cons, List.sum_nil, add_zero]
              have kS' : vS.r ≤ 1.02 * B.speed.r := by linarith
              have r1 := ramp vS vB _ kS' h.beg (by positivity)
              rw [mul_div_assoc, mul_div_assoc] at r1
              have := hsum _ 0 (show max ((vS - vB) / B.pAcc).r 0 ≤ _ by linarith) (by positivity)
              linarith
      · rw [if_neg c3] at hr
        by_cases c4 : vS < vB
        · rw [if_pos c4] at hr
          have hlt := down_lt h hS.symm ((Dbl.lt_iff _ _).1 c4)
          obtain ⟨lA, kA⟩ := down_lim h (down_start h hlt c1 c2) rfl
          have lE : Lim B.speed.r B.pAcc.r vE := lim_mono lB h.fin ((Dbl.lt_iff _ _).1 hlt).le
          generalize (PyMath.sqrt (2 * B.pAcc * d + vE * vE) : Dbl) = vA at hr lA kA
          cases ht : singlDwn prev u B.pAcc vA vE with
          | error e => rw [ht] at hr; cases hr
          | ok ss =>
            rw [ht] at hr
            cases hr
            unfold singlDwn at ht
            simp only [bind, Except.bind] at ht
            split at ht
            · cases ht
            · rename_i sA hA
              cases ht
              obtain ⟨t1, g1⟩ := make_times hA
              refine ⟨?_, [_], _, ⟨t1, rfl⟩, by simp, g1, ?_⟩
              · intro s hs
                rw [hmem hs, make_dbl hA]
                exact ⟨_, _, rfl, rfl, lA, lE⟩
              · intro hs
                simp only [List.map_cons, List.map_nil, List.sum_cons, List.sum_nil, add_zero]
                have r1 := ramp vA vE _ kA h.fin (by positivity)
                rw [mul_div_assoc, mul_div_assoc] at r1
                have := hsum _ 0 (show max ((vA - vE) / B.pAcc).r 0 ≤ _ by linarith) (by positivity)
                linarith
        · rw [if_neg c4] at hr
          cases hr

end PyGCD
