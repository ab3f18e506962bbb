import Verif.Proofs.DoubleRun
import Verif.Spec.Usual

/-!
# Where moves end in double precision, with any junction speeds
-/

set_option linter.unusedSectionVars false
set_option linter.unusedSimpArgs false

namespace PyGCD
open Spec

/-- The lengths of the pieces of a move add up to its length, up to rounding. -/
def Pieces (D w : ℝ) (Ls : List Dbl) : Prop :=
  |(Ls.map Dbl.r).sum - D| ≤ 100 * eps * D + 40 * eps * w ∧ (Ls.map fun L => |L.r|).sum ≤ 1.1 * D

/-- The number is a sum of at most four times the errors of doubles. -/
theorem rel_ramp {a b acc : Dbl} : Rel 5 ((a - b) * (b + a) / (2 * acc)).r ((a.r * a.r - b.r * b.r) / (2 * acc.r)) := by
  have h1 := Dbl.r_sub a b
  have h2 := Dbl.r_add b a
  have h3 := (Dbl.r_mul (a - b) (b + a)).trans (h1.mul h2)
  have h4 := Dbl.r_mul 2 acc
  rw [Dbl.r_two] at h4
  have h5 := (Dbl.r_div ((a - b) * (b + a)) (2 * acc)).trans (h3.div h4)
  rw [show (a.r * a.r - b.r * b.r) = (a.r - b.r) * (b.r + a.r) by ring]
  exact h5

theorem rel_ramp' {a b acc : Dbl} : Rel 5 ((a - b) * (a + b) / (2 * acc)).r ((a.r * a.r - b.r * b.r) / (2 * acc.r)) := by
  have h1 := Dbl.r_sub a b
  have h2 := Dbl.r_add a b
  have h3 := (Dbl.r_mul (a - b) (a + b)).trans (h1.mul h2)
  have h4 := Dbl.r_mul 2 acc
  rw [Dbl.r_two] at h4
  have h5 := (Dbl.r_div ((a - b) * (a + b)) (2 * acc)).trans (h3.div h4)
  rw [show (a.r * a.r - b.r * b.r) = (a.r - b.r) * (a.r + b.r) by ring]
  exact h5

theorem dbl_sqrt_nonneg (a : Dbl) : 0 ≤ (PyMath.sqrt a : Dbl).r := by
  show (0 : ℝ) ≤ ((rndSqrt a.val : ℚ) : ℝ)
  rcases le_or_gt a.val 0 with h | h
  · have : rndSqrt a.val = 0 := by simp [rndSqrt, h]
    rw [this]
    simp
  · exact_mod_cast (rndSqrt_pos h).le

/-- What is known of a move in doubles before it is planned. -/
structure LenHyp (acc vT vB vE d : Dbl) (D w : ℝ) : Prop where
  hacc : 0 < acc.r
  beg : 0 ≤ vB.r
  le : vB.r ≤ vT.r
  fin : 0 ≤ vE.r
  len : Rel 9 d.r D
  long : 1e-6 ≤ D
  ramp : vT.r * vT.r / acc.r ≤ w
  small : w ≤ 10000

theorem LenHyp.facts {acc vT vB vE d : Dbl} {D w : ℝ} (h : LenHyp acc vT vB vE d D w) :
    |d.r - D| ≤ 18 * eps * D ∧ 0 < d.r ∧ d.r ≤ 1.01 * D ∧ 0 ≤ w ∧ vB.r * vB.r ≤ w * acc.r := by
  have he := eps_pos
  have he' := eps_lt
  have hD : 0 < D := lt_of_lt_of_le (by norm_num) h.long
  have h1 := h.len.abs_sub (by norm_num)
  rw [abs_of_pos hD] at h1
  push_cast at h1
  have h2 : |d.r - D| ≤ 18 * eps * D := by linarith
  have h3 : 18 * eps * D ≤ 0.01 * D := by
    apply mul_le_mul_of_nonneg_right _ hD.le
    linarith
  obtain ⟨h4, h5⟩ := abs_le.1 h2
  refine ⟨h2, h.len.pos hD, by linarith, ?_, ?_⟩
  · refine le_trans ?_ h.ramp
    have := h.hacc
    exact div_nonneg (mul_self_nonneg _) this.le
  · have := (div_le_iff₀ h.hacc).1 h.ramp
    have h6 := mul_self_le_mul_self h.beg h.le
    linarith

/-- Two peaks: the speed reached in the middle of a move that never reaches its feedrate. -/
theorem tri_pieces {acc vT vB vE d : Dbl} {D w : ℝ} (h : LenHyp acc vT vB vE d D w) {vP : Dbl}
    (hP : vP = PyMath.sqrt (acc * d + vB * vB / 2 + vE * vE / 2)) (hB : vB.r < vP.r) (hE : vE.r < vP.r) :
    Pieces D w [(vP - vB) * (vB + vP) / (2 * acc), (vP - vE) * (vE + vP) / (2 * acc)] := by
  have he := eps_pos
  have he' := eps_lt
  have hD : 0 < D := lt_of_lt_of_le (by norm_num) h.long
  obtain ⟨d1, d2, d3, hw, hBw⟩ := h.facts
  have ha := h.hacc
  have h2 : Rel 2 (vB * vB / 2).r (vB.r * vB.r / 2) := by
    have := (Dbl.r_div (vB * vB) 2).trans ((Dbl.r_mul vB vB).div (Rel.of_eq 0 Dbl.r_two))
    exact this
  have h3 : Rel 2 (vE * vE / 2).r (vE.r * vE.r / 2) := by
    have := (Dbl.r_div (vE * vE) 2).trans ((Dbl.r_mul vE vE).div (Rel.of_eq 0 Dbl.r_two))
    exact this
  have e1 : 0 ≤ vB.r * vB.r / 2 := div_nonneg (mul_self_nonneg _) zero_le_two
  have e2 : 0 ≤ vE.r * vE.r / 2 := div_nonneg (mul_self_nonneg _) zero_le_two
  have e3 : 0 ≤ acc.r * d.r := by positivity
  have h4 := rel_add ((Dbl.r_mul acc d).mono (show 1 ≤ 2 by norm_num)) h2 e3 e1
  have h5 := rel_add h4 (h3.mono (show 2 ≤ 3 by norm_num)) (add_nonneg e3 e1) e2
  set X := acc.r * d.r + vB.r * vB.r / 2 + vE.r * vE.r / 2 with hX
  have hX0 : 0 ≤ X := add_nonneg (add_nonneg e3 e1) e2
  have h6 := rel_sqrt h5 hX0
  rw [← hP] at h6
  have h7 := h6.mul h6
  rw [Real.mul_self_sqrt hX0] at h7
  have h8 := h7.abs_sub (by norm_num)
  rw [abs_of_nonneg hX0] at h8
  push_cast at h8
  obtain ⟨h9, h10⟩ := abs_le.1 h8
  have hvP : 0 < vP.r := lt_of_le_of_lt h.beg hB
  have hE2 : vE.r * vE.r ≤ vP.r * vP.r := mul_self_le_mul_self h.fin hE.le
  have hB2 : vB.r * vB.r ≤ vP.r * vP.r := mul_self_le_mul_self h.beg hB.le
  have hs : 28 * eps * X ≤ 0.01 * X := by
    apply mul_le_mul_of_nonneg_right _ hX0
    linarith
  have hXb : X ≤ 2.1 * (acc.r * d.r) + 1.1 * (w * acc.r) := by linarith
  have hXa : X / acc.r ≤ 2.1 * d.r + 1.1 * w := by
    rw [div_le_iff₀ ha]
    linarith
  have u1 := rel_ramp (a := vP) (b := vB) (acc := acc)
  have u2 := rel_ramp (a := vP) (b := vE) (acc := acc)
  set L1 := (vP - vB) * (vB + vP) / (2 * acc)
  set L2 := (vP - vE) * (vE + vP) / (2 * acc)
  have n1 : 0 ≤ (vP.r * vP.r - vB.r * vB.r) / (2 * acc.r) := div_nonneg (by linarith) (by linarith)
  have n2 : 0 ≤ (vP.r * vP.r - vE.r * vE.r) / (2 * acc.r) := div_nonneg (by linarith) (by linarith)
  have u3 := u1.add u2 n1 n2
  have hsum : (vP.r * vP.r - vB.r * vB.r) / (2 * acc.r) + (vP.r * vP.r - vE.r * vE.r) / (2 * acc.r) - d.r =
      (vP.r * vP.r - X) / acc.r := by
    rw [hX]
    field_simp
    ring
  set S := (vP.r * vP.r - vB.r * vB.r) / (2 * acc.r) + (vP.r * vP.r - vE.r * vE.r) / (2 * acc.r) with hS
  have hS0 : 0 ≤ S := add_nonneg n1 n2
  have hdiff : |S - d.r| ≤ 28 * eps * (2.1 * d.r + 1.1 * w) := by
    rw [hsum, abs_div, abs_of_pos ha]
    calc |vP.r * vP.r - X| / acc.r ≤ (28 * eps * X) / acc.r := by gcongr; linarith
      _ = 28 * eps * (X / acc.r) := by ring
      _ ≤ _ := by gcongr
  have u4 := u3.abs_sub (by norm_num)
  rw [abs_of_nonneg hS0] at u4
  push_cast at u4
  obtain ⟨a1, a2⟩ := abs_le.1 u4
  obtain ⟨b1, b2⟩ := abs_le.1 hdiff
  obtain ⟨c1, c2⟩ := abs_le.1 d1
  have p1 := u1.nonneg n1
  have p2 := u2.nonneg n2
  have hw' : 40 * eps * w ≤ 0.0001 * D := by
    have : eps * w ≤ 1.2e-16 * 10000 := mul_le_mul he'.le h.small hw (by norm_num)
    have := h.long
    linarith
  have hDe : 100 * eps * D ≤ 0.01 * D := by
    apply mul_le_mul_of_nonneg_right _ hD.le
    linarith
  have ed : eps * d.r ≤ eps * (1.01 * D) := by gcongr
  have eS : eps * S ≤ eps * (1.1 * D) := by
    gcongr
    linarith [mul_nonneg he.le hw, mul_nonneg he.le hD.le]
  have key : |L1.r + L2.r - D| ≤ 100 * eps * D + 40 * eps * w := by
    rw [abs_le]
    constructor <;> linarith [mul_nonneg he.le hw, mul_nonneg he.le hD.le]
  constructor
  · simpa using key
  · simp only [List.map_cons, List.map_nil, List.sum_cons, List.sum_nil, abs_of_nonneg p1, abs_of_nonneg p2, add_zero]
    have := (abs_le.1 key).2
    linarith

/-- A move that is one piece: from the speed at one end and the length follows the speed at the other end. -/
theorem one_piece {acc vT vB vE d : Dbl} {D w : ℝ} (h : LenHyp acc vT vB vE d D w) {a b : Dbl} {Q : ℝ}
    (ha : Rel 12 (a.r * a.r) Q) (hQ : Q = b.r * b.r + 2 * acc.r * d.r) (hb : b.r * b.r ≤ w * acc.r) {L : Dbl}
    (hL : Rel 5 L.r ((a.r * a.r - b.r * b.r) / (2 * acc.r))) : Pieces D w [L] := by
  have he := eps_pos
  have he' := eps_lt
  have hD : 0 < D := lt_of_lt_of_le (by norm_num) h.long
  obtain ⟨d1, d2, d3, hw, hBw⟩ := h.facts
  have hac := h.hacc
  have hQ0 : 0 ≤ Q := by
    rw [hQ]
    have := mul_self_nonneg b.r
    positivity
  have h1 := ha.abs_sub (by norm_num)
  rw [abs_of_nonneg hQ0] at h1
  push_cast at h1
  have hsum : (a.r * a.r - b.r * b.r) / (2 * acc.r) - d.r = (a.r * a.r - Q) / (2 * acc.r) := by
    rw [hQ]
    field_simp
    ring
  have hQa : Q / (2 * acc.r) ≤ w / 2 + d.r := by
    rw [hQ, div_le_iff₀ (by positivity)]
    linarith
  set S := (a.r * a.r - b.r * b.r) / (2 * acc.r) with hS
  have hdiff : |S - d.r| ≤ 24 * eps * (w / 2 + d.r) := by
    rw [hsum, abs_div, abs_of_pos (by positivity : (0 : ℝ) < 2 * acc.r)]
    calc |a.r * a.r - Q| / (2 * acc.r) ≤ (24 * eps * Q) / (2 * acc.r) := by gcongr; linarith
      _ = 24 * eps * (Q / (2 * acc.r)) := by ring
      _ ≤ _ := by gcongr
  have u4 := hL.abs_sub (by norm_num)
  push_cast at u4
  have hw' : 40 * eps * w ≤ 0.0001 * D := by
    have : eps * w ≤ 1.2e-16 * 10000 := mul_le_mul he'.le h.small hw (by norm_num)
    have := h.long
    linarith
  have hDe : 100 * eps * D ≤ 0.01 * D := by
    apply mul_le_mul_of_nonneg_right _ hD.le
    linarith
  have ed : eps * d.r ≤ eps * (1.01 * D) := by gcongr
  obtain ⟨b1, b2⟩ := abs_le.1 hdiff
  obtain ⟨c1, c2⟩ := abs_le.1 d1
  have hSb : |S| ≤ 1.1 * D := by
    rw [abs_le]
    constructor <;> linarith [mul_nonneg he.le hw, mul_nonneg he.le hD.le]
  have eS : eps * |S| ≤ eps * (1.1 * D) := by gcongr
  obtain ⟨a1, a2⟩ := abs_le.1 u4
  have key : |L.r - D| ≤ 100 * eps * D + 40 * eps * w := by
    rw [abs_le]
    constructor <;> linarith [mul_nonneg he.le hw, mul_nonneg he.le hD.le]
  constructor
  · simpa using key
  · simp only [List.map_cons, List.map_nil, List.sum_cons, List.sum_nil, add_zero]
    obtain ⟨k1, k2⟩ := abs_le.1 key
    rw [abs_le]
    constructor <;> linarith

/-- The square of the speed at the end of an accelerating move, and of a braking one. -/
theorem single_rel {acc vT vB vE d : Dbl} {D w : ℝ} (h : LenHyp acc vT vB vE d D w) (v : Dbl) :
    Rel 3 (v * v + 2 * acc * d).r (v.r * v.r + 2 * acc.r * d.r) ∧
      Rel 3 (2 * acc * d + v * v).r (v.r * v.r + 2 * acc.r * d.r) := by
  obtain ⟨d1, d2, d3, hw, hBw⟩ := h.facts
  have hac := h.hacc
  have h1 : Rel 2 (2 * acc * d).r (2 * acc.r * d.r) := by
    have := Dbl.r_mul 2 acc
    rw [Dbl.r_two] at this
    exact (Dbl.r_mul (2 * acc) d).trans (this.mul (Rel.refl 0 d.r))
  have h2 := (Dbl.r_mul v v).mono (show 1 ≤ 2 by norm_num)
  have h3 : 0 ≤ 2 * acc.r * d.r := by positivity
  refine ⟨rel_add h2 h1 (mul_self_nonneg _) h3, ?_⟩
  have := rel_add h1 h2 h3 (mul_self_nonneg _)
  rwa [add_comm (2 * acc.r * d.r)] at this

theorem sq_sqrt_rel {a : Dbl} {Q : ℝ} (h : Rel 3 a.r Q) (hQ : 0 ≤ Q) :
    Rel 12 ((PyMath.sqrt a : Dbl).r * (PyMath.sqrt a : Dbl).r) Q := by
  have h1 := rel_sqrt h hQ
  have h2 := h1.mul h1
  rwa [Real.mul_self_sqrt hQ] at h2

theorem up_pieces {acc vT vB vE d : Dbl} {D w : ℝ} (h : LenHyp acc vT vB vE d D w) {vS : Dbl}
    (hS : vS = if 0 ≤ (if vE < vB then vB * vB - 2 * acc * d else vB * vB + 2 * acc * d) then
      PyMath.sqrt (if vE < vB then vB * vB - 2 * acc * d else vB * vB + 2 * acc * d) else 0) (hlt : vB.r < vS.r) :
    Pieces D w [(vS - vB) * (vB + vS) / (2 * acc)] := by
  have he := eps_pos
  have he' := eps_lt
  obtain ⟨d1, d2, d3, hw, hBw⟩ := h.facts
  have hac := h.hacc
  by_cases hlt' : vE < vB
  · exfalso
    rw [if_pos hlt'] at hS
    by_cases hq : 0 ≤ vB * vB - 2 * acc * d
    · rw [if_pos hq, ] at hS
      rw [Dbl.le_iff, Dbl.r_zero] at hq
      have h1 := Dbl.r_mul vB vB
      have h2 : Rel 2 (2 * acc * d).r (2 * acc.r * d.r) := by
        have := Dbl.r_mul 2 acc
        rw [Dbl.r_two] at this
        exact (Dbl.r_mul (2 * acc) d).trans (this.mul (Rel.refl 0 d.r))
      have h3 := Dbl.r_sub (vB * vB) (2 * acc * d)
      have h4 : 0 ≤ (vB * vB).r - (2 * acc * d).r := h3.symm.nonneg hq
      have h5 := Dbl.r_sqrt hq
      have h6 := h5.mul h5
      rw [Real.mul_self_sqrt hq, ← hS] at h6
      have h7 := (h6.trans h3).le (by norm_num) h4
      have h8 := h1.le (by norm_num) (mul_self_nonneg _)
      have h9 := h2.ge (by norm_num) (by positivity)
      push_cast at h7 h8 h9
      have h10 : vB.r * vB.r < vS.r * vS.r := mul_self_lt_mul_self h.beg hlt
      have hx0 := mul_self_nonneg vB.r
      have hc : acc.r * d.r ≤ 2 * acc.r * d.r * (1 - 2 * 2 * eps) := by
        have : 0 ≤ acc.r * d.r := by positivity
        nlinarith
      have hz : (vB * vB).r - (2 * acc * d).r ≤ vB.r * vB.r * (1 + 2 * 1 * eps) - acc.r * d.r := by linarith
      have h11 : vS.r * vS.r ≤ (vB.r * vB.r * (1 + 2 * 1 * eps) - acc.r * d.r) * (1 + 2 * 7 * eps) := by
        refine h7.trans ?_
        exact mul_le_mul_of_nonneg_right hz (by linarith)
      have hpos : 0 ≤ acc.r * d.r * eps := by positivity
      have h12 : acc.r * d.r ≤ 20 * eps * (vB.r * vB.r) := by
        have e1 : 0 ≤ vB.r * vB.r * eps := mul_nonneg hx0 he.le
        have e2 : vB.r * vB.r * eps * eps ≤ vB.r * vB.r * eps * 0.01 := by
          apply mul_le_mul_of_nonneg_left _ e1
          linarith
        nlinarith
      have h13 : d.r ≤ 20 * eps * w := by
        have : acc.r * d.r ≤ acc.r * (20 * eps * w) := by nlinarith
        exact le_of_mul_le_mul_left this hac
      have := h.long
      have h14 : eps * w ≤ 1.2e-16 * 10000 := mul_le_mul he'.le h.small hw (by norm_num)
      have h15 := (abs_le.1 d1).1
      have h16 : 18 * eps * D ≤ 0.01 * D := by
        apply mul_le_mul_of_nonneg_right _ (by linarith)
        linarith
      linarith
    · rw [if_neg hq] at hS
      rw [hS, Dbl.r_zero] at hlt
      exact absurd h.beg (not_le.2 hlt)
  · rw [if_neg hlt'] at hS
    obtain ⟨h1, _⟩ := single_rel h vB
    have hQ : 0 ≤ vB.r * vB.r + 2 * acc.r * d.r := by
      have := mul_self_nonneg vB.r
      positivity
    rw [if_pos (by rw [Dbl.le_iff, Dbl.r_zero]; exact h1.nonneg hQ)] at hS
    have h2 := sq_sqrt_rel h1 hQ
    rw [← hS] at h2
    exact one_piece h h2 rfl hBw rel_ramp

/-- A braking move ends slower than it begins. -/
theorem down_lt {acc vT vB vE d : Dbl} {D w : ℝ} (h : LenHyp acc vT vB vE d D w) {vS : Dbl}
    (hS : vS = if 0 ≤ (if vE < vB then vB * vB - 2 * acc * d else vB * vB + 2 * acc * d) then
      PyMath.sqrt (if vE < vB then vB * vB - 2 * acc * d else vB * vB + 2 * acc * d) else 0) (hlt : vS.r < vB.r) :
    vE < vB := by
  have he := eps_pos
  have he' := eps_lt
  obtain ⟨d1, d2, d3, hw, hBw⟩ := h.facts
  have hac := h.hacc
  by_contra hlt'
  rw [if_neg hlt'] at hS
  obtain ⟨h1, _⟩ := single_rel h vB
  have hQ : 0 ≤ vB.r * vB.r + 2 * acc.r * d.r := by
    have := mul_self_nonneg vB.r
    positivity
  rw [if_pos (by rw [Dbl.le_iff, Dbl.r_zero]; exact h1.nonneg hQ)] at hS
  have h2 := sq_sqrt_rel h1 hQ
  rw [← hS] at h2
  have h3 := h2.ge (by norm_num) hQ
  push_cast at h3
  have hS0 : 0 ≤ vS.r := by rw [hS]; exact dbl_sqrt_nonneg _
  have h4 := mul_self_lt_mul_self hS0 hlt
  have hp : 0 ≤ acc.r * d.r := by positivity
  have h5 : acc.r * d.r ≤ 24 * eps * (vB.r * vB.r) := by nlinarith
  have h13 : d.r ≤ 24 * eps * w := by
    have : acc.r * d.r ≤ acc.r * (24 * eps * w) := by nlinarith
    exact le_of_mul_le_mul_left this hac
  have := h.long
  have h14 : eps * w ≤ 1.2e-16 * 10000 := mul_le_mul he'.le h.small hw (by norm_num)
  have h15 := (abs_le.1 d1).1
  have h16 : 18 * eps * D ≤ 0.01 * D := by
    apply mul_le_mul_of_nonneg_right _ (by linarith)
    linarith
  linarith

theorem down_pieces {acc vT vB vE d : Dbl} {D w : ℝ} (h : LenHyp acc vT vB vE d D w) {vS vA : Dbl}
    (hS : vS = if 0 ≤ (if vE < vB then vB * vB - 2 * acc * d else vB * vB + 2 * acc * d) then
      PyMath.sqrt (if vE < vB then vB * vB - 2 * acc * d else vB * vB + 2 * acc * d) else 0) (hlt : vS.r < vB.r)
    (hA : vA = PyMath.sqrt (2 * acc * d + vE * vE)) :
    Pieces D w [(vA - vE) * (vA + vE) / (2 * acc)] := by
  have he := eps_pos
  have he' := eps_lt
  obtain ⟨d1, d2, d3, hw, hBw⟩ := h.facts
  have hac := h.hacc
  by_cases hlt' : vE < vB
  · obtain ⟨_, h1⟩ := single_rel h vE
    have hQ : 0 ≤ vE.r * vE.r + 2 * acc.r * d.r := by
      have := mul_self_nonneg vE.r
      positivity
    have h2 := sq_sqrt_rel h1 hQ
    rw [← hA] at h2
    rw [Dbl.lt_iff] at hlt'
    have h3 := mul_self_le_mul_self h.fin hlt'.le
    exact one_piece h h2 rfl (by linarith) rel_ramp'
  · exact absurd (down_lt h hS hlt) hlt'

theorem close_zero_le {a : Dbl} (h : isClose a 0 = true) : |a.r| ≤ 1.1e-8 := by
  have he := eps_pos
  have he' := eps_lt
  unfold isClose at h
  rw [decide_eq_true_eq, Dbl.le_iff, Dbl.r_abs] at h
  have e8 : (1e-8 : Dbl) = ⟨rnd (mkRat 1 (10 ^ 8))⟩ := by
    show (⟨rnd (if true = true then mkRat 1 (10 ^ 8) else ((1 * 10 ^ 8 : Nat) : Rat))⟩ : Dbl) = _
    rw [if_pos rfl]
  have h8 : Rel 1 (1e-8 : Dbl).r ((mkRat 1 (10 ^ 8) : ℚ) : ℝ) := by
    rw [e8]
    exact rel_rnd (mkRat 1 (10 ^ 8))
  have hv : ((mkRat 1 (10 ^ 8) : ℚ) : ℝ) = 1e-8 := by
    rw [Rat.mkRat_eq_div]
    push_cast
    norm_num
  rw [hv] at h8
  have hz : (pyAbs (0 : Dbl)) = 0 := Dbl.ext_r (by rw [Dbl.r_abs, Dbl.r_zero, abs_zero])
  rw [hz, Dbl.mul_zero] at h
  have h2 := Dbl.r_add (1e-8 : Dbl) 0
  rw [Dbl.r_zero, add_zero] at h2
  have h3 := (h2.trans h8).le (by norm_num) (by norm_num)
  have h4 := (Dbl.r_sub a 0).abs
  rw [Dbl.r_zero, sub_zero] at h4
  have h5 := h4.ge (by norm_num) (abs_nonneg _)
  push_cast at h3 h5
  have h6 : |a.r| * (2 * 1 * eps) ≤ |a.r| * 0.001 := by
    apply mul_le_mul_of_nonneg_left _ (abs_nonneg _)
    linarith
  nlinarith

theorem trap_pieces {acc vT vB vE d : Dbl} {D w : ℝ} (h : LenHyp acc vT vB vE d D w) {up down : Dbl}
    (hup : up = (vT - vB) * (vB + vT) / (2 * acc)) (hsum : up + down < d) (hdown : 0 < down ∨ isClose down 0 = true) :
    Pieces D w [up, d - down - up, down] := by
  have he := eps_pos
  have he' := eps_lt
  have hD : 0 < D := lt_of_lt_of_le (by norm_num) h.long
  obtain ⟨d1, d2, d3, hw, hBw⟩ := h.facts
  have hac := h.hacc
  have u1 := rel_ramp (a := vT) (b := vB) (acc := acc)
  rw [← hup] at u1
  have hv := mul_self_le_mul_self h.beg h.le
  have n1 : 0 ≤ up.r := u1.nonneg (div_nonneg (by linarith) (by linarith))
  have n2 : -1.1e-8 ≤ down.r := by
    rcases hdown with hd | hd
    · rw [Dbl.lt_iff, Dbl.r_zero] at hd
      linarith
    · exact (abs_le.1 (close_zero_le hd)).1
  rw [Dbl.lt_iff] at hsum
  have s1 := (Dbl.r_add up down).abs_sub (by norm_num)
  push_cast at s1
  have hlong := h.long
  have hwp : 0 ≤ eps * w := mul_nonneg he.le hw
  have hud : up.r + down.r ≤ d.r + 4 * eps * d.r := by
    by_contra hc
    push Not at hc
    have hp : 0 ≤ up.r + down.r := by
      have : 0 ≤ eps * d.r := by positivity
      linarith
    rw [abs_of_nonneg hp] at s1
    have := (abs_le.1 s1).1
    have e : eps * eps ≤ 0.01 * eps := by
      apply mul_le_mul_of_nonneg_right _ he.le
      linarith
    nlinarith
  have ed : eps * d.r ≤ 0.0001 * d.r := by
    apply mul_le_mul_of_nonneg_right _ d2.le
    linarith
  have hup' : up.r ≤ 1.1 * D := by linarith
  have hdn' : |down.r| ≤ 1.1 * D := by
    rw [abs_le]
    constructor <;> linarith
  have q1 := (Dbl.r_sub d down).abs_sub (by norm_num)
  have q2 := (Dbl.r_sub (d - down) up).abs_sub (by norm_num)
  push_cast at q1 q2
  have b1 : |d.r - down.r| ≤ 2.2 * D := by
    obtain ⟨g1, g2⟩ := abs_le.1 hdn'
    rw [abs_le]
    constructor <;> linarith
  have q1' : |(d - down).r - (d.r - down.r)| ≤ 5 * eps * D := by
    refine q1.trans ?_
    have : eps * |d.r - down.r| ≤ eps * (2.2 * D) := by gcongr
    linarith [mul_nonneg he.le hD.le]
  have eD : 5 * eps * D ≤ 0.01 * D := by
    apply mul_le_mul_of_nonneg_right _ hD.le
    linarith
  have b2 : |(d - down).r - up.r| ≤ 4 * D := by
    obtain ⟨g1, g2⟩ := abs_le.1 b1
    obtain ⟨g3, g4⟩ := abs_le.1 q1'
    rw [abs_le]
    constructor <;> linarith
  have q2' : |(d - down - up).r - ((d - down).r - up.r)| ≤ 8 * eps * D := by
    refine q2.trans ?_
    have : eps * |(d - down).r - up.r| ≤ eps * (4 * D) := by gcongr
    linarith
  obtain ⟨g1, g2⟩ := abs_le.1 q1'
  obtain ⟨g3, g4⟩ := abs_le.1 q2'
  obtain ⟨c1, c2⟩ := abs_le.1 d1
  have eD' : eps * D ≤ 0.0001 * D := by
    apply mul_le_mul_of_nonneg_right _ hD.le
    linarith
  have edD : eps * d.r ≤ eps * (1.01 * D) := by gcongr
  constructor
  · simp only [List.map_cons, List.map_nil, List.sum_cons, List.sum_nil, add_zero]
    rw [abs_le]
    constructor <;> linarith [mul_nonneg he.le hD.le]
  · simp only [List.map_cons, List.map_nil, List.sum_cons, List.sum_nil, add_zero]
    have a1 : |down.r| ≤ down.r + 2.2e-8 := by
      rcases abs_cases down.r with ⟨e, _⟩ | ⟨e, _⟩ <;> linarith
    have a2 : |(d - down - up).r| ≤ (d - down - up).r + 40 * eps * D := by
      rcases abs_cases (d - down - up).r with ⟨e, _⟩ | ⟨e, _⟩ <;> linarith [mul_nonneg he.le hD.le]
    rw [abs_of_nonneg n1]
    linarith

end PyGCD
