import Verif.Proofs.RelError
import Verif.Proofs.DirectionLemmas

/-!
# A move in double precision: direction and distance
-/

set_option linter.unusedSectionVars false

namespace PyGCD
open PyGCD.Spec Vec4

/-- All components agree up to `n` roundings. -/
structure RelV (n : ℕ) (a : Vec4 Dbl) (b : Vec4 ℝ) : Prop where
  x : Rel n a.x.r b.x
  y : Rel n a.y.r b.y
  z : Rel n a.z.r b.z
  e : Rel n a.e.r b.e

theorem RelV.mono {n m : ℕ} {a : Vec4 Dbl} {b : Vec4 ℝ} (h : RelV n a b) (hnm : n ≤ m) : RelV m a b :=
  ⟨h.x.mono hnm, h.y.mono hnm, h.z.mono hnm, h.e.mono hnm⟩

theorem RelV.sub (a b : Vec4 Dbl) : RelV 1 (a.sub b) (a.real.sub b.real) :=
  ⟨Dbl.r_sub _ _, Dbl.r_sub _ _, Dbl.r_sub _ _, Dbl.r_sub _ _⟩

theorem RelV.mul {n m : ℕ} {a : Vec4 Dbl} {b : Vec4 ℝ} {s : Dbl} {t : ℝ} (h : RelV n a b) (g : Rel m s.r t) :
    RelV (n + m + 1) (a.mul s) (b.mul t) := by
  rw [show n + m + 1 = 1 + (n + m) by ring]
  constructor
  · exact (Dbl.r_mul _ _).trans (h.x.mul g)
  · exact (Dbl.r_mul _ _).trans (h.y.mul g)
  · exact (Dbl.r_mul _ _).trans (h.z.mul g)
  · exact (Dbl.r_mul _ _).trans (h.e.mul g)

theorem RelV.div {n m : ℕ} {a : Vec4 Dbl} {b : Vec4 ℝ} {s : Dbl} {t : ℝ} (h : RelV n a b) (g : Rel m s.r t) :
    RelV (n + m + 1) (a.div s) (b.div t) := by
  rw [show n + m + 1 = 1 + (n + m) by ring]
  constructor
  · exact (Dbl.r_div _ _).trans (h.x.div g)
  · exact (Dbl.r_div _ _).trans (h.y.div g)
  · exact (Dbl.r_div _ _).trans (h.z.div g)
  · exact (Dbl.r_div _ _).trans (h.e.div g)

theorem rel_sq {n : ℕ} {a : Dbl} {x : ℝ} (h : Rel n a.r x) : Rel (2 * n + 1) (a * a).r (x * x) := by
  rw [show 2 * n + 1 = 1 + (n + n) by ring]
  exact (Dbl.r_mul _ _).trans (h.mul h)

theorem rel_add {n : ℕ} {a b : Dbl} {x y : ℝ} (h : Rel n a.r x) (g : Rel n b.r y) (hx : 0 ≤ x) (hy : 0 ≤ y) :
    Rel (n + 1) (a + b).r (x + y) := by
  rw [add_comm]
  exact (Dbl.r_add _ _).trans (h.add g hx hy)

theorem rel_sqrt {n : ℕ} {a : Dbl} {x : ℝ} (h : Rel n a.r x) (hx : 0 ≤ x) :
    Rel (n + 3) (PyMath.sqrt a : Dbl).r √x := by
  rw [add_comm]
  exact (Dbl.r_sqrt (h.nonneg hx)).trans (h.sqrt hx)

theorem RelV.norm3 {n : ℕ} {a : Vec4 Dbl} {b : Vec4 ℝ} (h : RelV n a b) : Rel (2 * n + 6) a.norm3.r b.norm3 := by
  have hx := rel_sq h.x
  have hy := rel_sq h.y
  have hz := rel_sq h.z
  have h1 := rel_add hx hy (mul_self_nonneg _) (mul_self_nonneg _)
  have h2 := rel_add h1 (hz.mono (by omega)) (add_nonneg (mul_self_nonneg _) (mul_self_nonneg _)) (mul_self_nonneg _)
  exact rel_sqrt h2 (add_nonneg (add_nonneg (mul_self_nonneg _) (mul_self_nonneg _)) (mul_self_nonneg _))

theorem RelV.norm4 {n : ℕ} {a : Vec4 Dbl} {b : Vec4 ℝ} (h : RelV n a b) : Rel (2 * n + 7) a.norm4.r b.norm4 := by
  have hx := rel_sq h.x
  have hy := rel_sq h.y
  have hz := rel_sq h.z
  have he := rel_sq h.e
  have h1 := rel_add hx hy (mul_self_nonneg _) (mul_self_nonneg _)
  have h2 := rel_add h1 (hz.mono (by omega)) (add_nonneg (mul_self_nonneg _) (mul_self_nonneg _)) (mul_self_nonneg _)
  have h3 := rel_add h2 (he.mono (by omega))
    (add_nonneg (add_nonneg (mul_self_nonneg _) (mul_self_nonneg _)) (mul_self_nonneg _)) (mul_self_nonneg _)
  exact rel_sqrt h3 (add_nonneg (add_nonneg (add_nonneg (mul_self_nonneg _) (mul_self_nonneg _)) (mul_self_nonneg _))
    (mul_self_nonneg _))

theorem Rel.pos_iff {n : ℕ} {x y : ℝ} (h : Rel n x y) : 0 < x ↔ 0 < y := ⟨h.symm.pos, h.pos⟩

theorem Rel.eq_zero_iff {n : ℕ} {x y : ℝ} (h : Rel n x y) : x = 0 ↔ y = 0 :=
  ⟨fun e => (e ▸ h.symm).zero, fun e => (e ▸ h).zero⟩

theorem Rel.abs {n : ℕ} {x y : ℝ} (h : Rel n x y) : Rel n |x| |y| := by
  obtain ⟨θ, rfl, h2, h3⟩ := h
  have hθ : 0 < θ := lt_of_lt_of_le (eps_pow n).1 h2
  exact ⟨θ, by rw [abs_mul, abs_of_pos hθ], h2, h3⟩

theorem RelV.zero (n : ℕ) : RelV n Vec4.zero Vec4.zero := by
  constructor <;> exact Rel.of_eq n Dbl.r_zero

/-- The target velocity, computed with doubles and with real numbers. -/
theorem connect_rel (A B : PState Dbl) : RelV 11 (connectState A B) (connectState A.real B.real) := by
  have hd := RelV.sub B.position A.position
  have hn := hd.norm3
  have hs : Rel 0 B.speed.r B.real.speed := Rel.refl _ _
  have he : B.real.position.sub A.real.position = B.position.real.sub A.position.real := rfl
  unfold connectState
  simp only [pyAbs_real, he]
  have hif : (0 < pyAbs (B.position.sub A.position).norm3) ↔
      0 < |(B.position.real.sub A.position.real).norm3| := by
    rw [Dbl.lt_iff, Dbl.r_zero, Dbl.r_abs]
    exact hn.abs.pos_iff
  have hif' : (0 < pyAbs (B.position.sub A.position).e) ↔
      0 < |(B.position.real.sub A.position.real).e| := by
    rw [Dbl.lt_iff, Dbl.r_zero, Dbl.r_abs]
    exact hd.e.abs.pos_iff
  by_cases h1 : 0 < |(B.position.real.sub A.position.real).norm3|
  · rw [if_pos h1, if_pos (hif.2 h1)]
    exact (hd.div hn).mul hs
  · rw [if_neg h1, if_neg (fun h => h1 (hif.1 h))]
    by_cases h2 : 0 < |(B.position.real.sub A.position.real).e|
    · rw [if_pos h2, if_pos (hif'.2 h2)]
      have ha : Rel 1 (pyAbs (B.position.sub A.position).e).r |(B.position.real.sub A.position.real).e| := by
        rw [Dbl.r_abs]
        exact hd.e.abs
      exact ((hd.div ha).mul hs).mono (by omega)
    · rw [if_neg h2, if_neg (fun h => h2 (hif'.1 h))]
      exact ((RelV.zero 0).mul hs).mono (by omega)

theorem distance_rel (A B : PState Dbl) : Rel 9 (moveDistance A B).1.r (moveDistance A.real B.real).1 ∧
    (moveDistance A B).2 = (moveDistance A.real B.real).2 := by
  have hd := RelV.sub B.position A.position
  have h3 := hd.norm3
  have h4 := hd.norm4
  have e3 : B.real.position.tDistance A.real.position = (B.position.real.sub A.position.real).norm3 := rfl
  have e4 : B.real.position.tDistance4 A.real.position = (B.position.real.sub A.position.real).norm4 := rfl
  unfold moveDistance
  rw [e3, e4]
  have hif : B.position.tDistance A.position = 0 ↔ (B.position.real.sub A.position.real).norm3 = 0 := by
    rw [Dbl.eq_zero_iff]
    exact h3.eq_zero_iff
  by_cases h : (B.position.real.sub A.position.real).norm3 = 0
  · have h' := hif.2 h
    simp only [h, h', if_true, and_true]
    exact h4.mono (by omega)
  · have h' : ¬ B.position.tDistance A.position = 0 := fun g => h (hif.1 g)
    simp only [h, h', if_false, and_true]
    exact h3.mono (by omega)

theorem normDir4_rel {n : ℕ} {a : Vec4 Dbl} {b u : Vec4 ℝ} (h : RelV n a b) (hu : b.normDir4 = some u) :
    ∃ u', a.normDir4 = some u' ∧ RelV (3 * n + 8) u' u := by
  have h3 := h.norm3
  have h4 := h.norm4
  unfold Vec4.normDir4 at hu ⊢
  have hif : 0 < a.norm3 ↔ 0 < b.norm3 := by
    rw [Dbl.lt_iff, Dbl.r_zero]
    exact h3.pos_iff
  have hif' : 0 < a.norm4 ↔ 0 < b.norm4 := by
    rw [Dbl.lt_iff, Dbl.r_zero]
    exact h4.pos_iff
  by_cases h1 : 0 < b.norm3
  · rw [if_pos h1] at hu
    cases hu
    rw [if_pos (hif.2 h1)]
    exact ⟨_, rfl, (h.div h3).mono (by omega)⟩
  · rw [if_neg h1] at hu
    rw [if_neg (fun g => h1 (hif.1 g))]
    by_cases h2 : 0 < b.norm4
    · rw [if_pos h2] at hu
      cases hu
      rw [if_pos (hif'.2 h2)]
      exact ⟨_, rfl, (h.div h4).mono (by omega)⟩
    · rw [if_neg h2] at hu
      cases hu

/-- Direction, distance and kind of a move between different positions, in double precision. -/
theorem move_direction_dbl {A B : PState Dbl} (h : B.position.real ≠ A.position.real) (hs : 0 < B.speed.r) :
    ∃ u ur, (connectState A B).normDir4 = some u ∧ RelV 41 u ur ∧ UnitDir ur (moveDistance A B).2 ∧
      0 < moveLength A.position.real B.position.real ∧
      Rel 9 (moveDistance A B).1.r (moveLength A.position.real B.position.real) ∧
      B.position.real.sub A.position.real = ur.mul (moveLength A.position.real B.position.real) ∧
      (connectState A B).notZero = true := by
  obtain ⟨ur, g1, g2, g3, g4, g5, g6, _⟩ := move_direction (A := A.real) (B := B.real) h hs
  obtain ⟨u, u1, u2⟩ := normDir4_rel (connect_rel A B) g1
  obtain ⟨d1, d2⟩ := distance_rel A B
  have hl : (moveDistance A.real B.real).1 = moveLength A.position.real B.position.real := by
    unfold moveDistance moveLength
    have e3 : B.real.position.tDistance A.real.position = (B.position.real.sub A.position.real).norm3 := rfl
    have e4 : B.real.position.tDistance4 A.real.position = (B.position.real.sub A.position.real).norm4 := rfl
    rw [e3, e4]
    by_cases h0 : (B.position.real.sub A.position.real).norm3 = 0
    · simp only [h0, if_true]
      obtain ⟨a, b, c⟩ := norm3_eq_zero.1 h0
      unfold Vec4.norm4
      rw [a, b, c, sqrt_real]
      simp only [MulZeroClass.mul_zero, _root_.add_zero, _root_.zero_add]
      exact Real.sqrt_mul_self_eq_abs _
    · simp only [h0, if_false]
  rw [hl] at g3 g4 d1
  refine ⟨u, ur, u1, u2, by rw [d2]; exact g2, g3, d1, ?_, ?_⟩
  · have e : B.position.real = A.position.real.add (ur.mul (moveLength A.position.real B.position.real)) := g4
    have hx := congrArg Vec4.x e
    have hy := congrArg Vec4.y e
    have hz := congrArg Vec4.z e
    have he := congrArg Vec4.e e
    simp only [Vec4.add] at hx hy hz he
    ext <;> simp only [Vec4.sub] <;> linarith
  · unfold Vec4.notZero at g5 ⊢
    rw [decide_eq_true_eq] at g5 ⊢
    rw [Dbl.lt_iff, Dbl.r_zero]
    exact (connect_rel A B).norm4.pos g5

/-- A move that goes nowhere. -/
theorem move_nowhere_dbl {A B : PState Dbl} (h : B.position.real = A.position.real) :
    (connectState A B).notZero = false := by
  have h1 : connectState A.real B.real = Vec4.zero := connectState_self h
  have h2 := (connect_rel A B).norm4
  rw [h1, norm4_zero] at h2
  unfold Vec4.notZero
  rw [decide_eq_false_iff_not, Dbl.lt_iff, Dbl.r_zero, h2.zero]
  exact lt_irrefl _

end PyGCD
