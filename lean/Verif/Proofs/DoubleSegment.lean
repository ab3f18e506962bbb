import Verif.Proofs.DoubleMove

/-!
# Segments in double precision: the run-time check passes
-/

set_option linter.unusedSectionVars false

namespace PyGCD
open PyGCD.Spec Vec4

theorem r_small {n : ℕ} {x y c : ℝ} (h : Rel n x y) (hn : n ≤ 1000000) (hy : |y| ≤ c) : |x - y| ≤ 2 * n * eps * c :=
  (h.abs_sub hn).trans (mul_le_mul_of_nonneg_left hy (by have := eps_pos; positivity))

/-- One coordinate of the end position of a segment. -/
theorem step_error {p u L : Dbl} {c : ℝ} (hu : Rel 41 u.r c) :
    |(p + u * L).r - (p.r + c * L.r)| ≤ 2 * eps * |p.r| + 90 * eps * |c * L.r| := by
  have he := eps_pos
  have h1 : Rel 42 (u * L).r (c * L.r) := (Dbl.r_mul u L).trans (hu.mul (Rel.refl 0 L.r))
  have h2 := h1.abs_sub (by norm_num)
  have h3 := (Dbl.r_add p (u * L)).abs_sub (by norm_num)
  push_cast at h2 h3
  have h4 : |p.r + (u * L).r| ≤ |p.r| + |c * L.r| + 84 * eps * |c * L.r| := by
    have : |(u * L).r| ≤ |c * L.r| + |(u * L).r - c * L.r| := by
      have := abs_add_le (c * L.r) ((u * L).r - c * L.r)
      rwa [add_sub_cancel] at this
    have := abs_add_le p.r (u * L).r
    linarith
  have h5 : |(p + u * L).r - (p.r + c * L.r)| ≤ |(p + u * L).r - (p.r + (u * L).r)| + |(u * L).r - c * L.r| := by
    have := abs_add_le ((p + u * L).r - (p.r + (u * L).r)) ((u * L).r - c * L.r)
    rwa [show (p + u * L).r - (p.r + (u * L).r) + ((u * L).r - c * L.r) = (p + u * L).r - (p.r + c * L.r) by ring] at this
  have h6 : 2 * eps * |p.r + (u * L).r| ≤ 2 * eps * (|p.r| + |c * L.r| + 84 * eps * |c * L.r|) := by gcongr
  have h7 : 2 * eps * (84 * eps * |c * L.r|) ≤ 2 * eps * (1 * |c * L.r|) := by
    gcongr
    have := eps_lt
    linarith
  have h8 : 0 ≤ eps * |c * L.r| := by positivity
  linarith

/-- The time that passes. -/
theorem time_error {t Δ : Dbl} (ht : 0 ≤ t.r) (hd : 0 ≤ Δ.r) (hb : t.r + Δ.r ≤ 500000) :
    |((t + Δ) - t).r - Δ.r| ≤ 2.5e-10 := by
  have he := eps_pos
  have he' := eps_lt
  have h1 := r_small (Dbl.r_add t Δ) (by norm_num) (c := 500000) (by rw [abs_of_nonneg (by linarith)]; exact hb)
  push_cast at h1
  have h1' : |(t + Δ).r - (t.r + Δ.r)| ≤ 1.2e-10 := h1.trans (by linarith)
  have h2 : |(t + Δ).r - t.r| ≤ 500001 := by
    obtain ⟨a, b⟩ := abs_le.1 h1'
    rw [abs_le]
    constructor <;> linarith
  have h3 := r_small (Dbl.r_sub (t + Δ) t) (by norm_num) h2
  push_cast at h3
  have h3' : |((t + Δ) - t).r - ((t + Δ).r - t.r)| ≤ 1.3e-10 := h3.trans (by linarith)
  obtain ⟨a, b⟩ := abs_le.1 h1'
  obtain ⟨a', b'⟩ := abs_le.1 h3'
  rw [abs_le]
  constructor <;> linarith

/-- One coordinate of the run-time check. -/
theorem check_error {p u L w₀ w₁ t Δ : Dbl} {c s₀ s₁ : ℝ} (hu : Rel 41 u.r c) (hw₀ : Rel 42 w₀.r (c * s₀))
    (hw₁ : Rel 42 w₁.r (c * s₁)) (hc : |c| ≤ 1) (hs₀ : 0 ≤ s₀) (hs₁ : 0 ≤ s₁) (hs : s₀ + s₁ ≤ 2100)
    (hp : |p.r| ≤ 1000000) (hL : 0 ≤ L.r) (hL' : L.r ≤ 1000000) (ht : 0 ≤ t.r) (hd : 0 ≤ Δ.r)
    (hb : t.r + Δ.r ≤ 500000) (hk : Rel 100 ((s₀ + s₁) / 2 * Δ.r) L.r) :
    |((p + u * L) - (p + ((w₀ + w₁) * ((t + Δ) - t)) / 2)).r| ≤ 4e-7 := by
  have he := eps_pos
  have he' := eps_lt
  have hdt := time_error ht hd hb
  set dt := (t + Δ) - t with hdtdef
  have hW : Rel 43 (w₀ + w₁).r (c * (s₀ + s₁)) := by
    rw [mul_add]
    rcases le_total 0 c with h0 | h0
    · exact (Dbl.r_add _ _).trans (hw₀.add hw₁ (mul_nonneg h0 hs₀) (mul_nonneg h0 hs₁))
    · exact (Dbl.r_add _ _).trans (hw₀.add_neg hw₁ (mul_nonpos_of_nonpos_of_nonneg h0 hs₀)
        (mul_nonpos_of_nonpos_of_nonneg h0 hs₁))
  have hM : Rel 44 ((w₀ + w₁) * dt).r (c * (s₀ + s₁) * dt.r) := (Dbl.r_mul _ _).trans (hW.mul (Rel.refl 0 _))
  have hN : Rel 45 (((w₀ + w₁) * dt) / 2).r (c * (s₀ + s₁) * dt.r / 2) := by
    have := (Dbl.r_div ((w₀ + w₁) * dt) 2).trans (hM.div (Rel.refl 0 (2 : Dbl).r))
    rwa [Dbl.r_two] at this
  set N := ((w₀ + w₁) * dt) / 2 with hNdef
  -- the travelled distance
  have hk1 := r_small hk (by norm_num) (c := 1000000) (by rw [abs_of_nonneg hL]; exact hL')
  push_cast at hk1
  have hk2 : |(s₀ + s₁) / 2 * Δ.r - L.r| ≤ 2.4e-8 := hk1.trans (by linarith)
  have hk3 : |(s₀ + s₁) / 2 * dt.r - (s₀ + s₁) / 2 * Δ.r| ≤ 2.7e-7 := by
    rw [← mul_sub, abs_mul, abs_of_nonneg (show 0 ≤ (s₀ + s₁) / 2 by linarith)]
    calc (s₀ + s₁) / 2 * |dt.r - Δ.r| ≤ 1050 * 2.5e-10 := by
          apply mul_le_mul _ hdt (abs_nonneg _) (by norm_num)
          linarith
      _ ≤ 2.7e-7 := by norm_num
  have hk4 : |(s₀ + s₁) / 2 * dt.r - L.r| ≤ 3e-7 := by
    obtain ⟨a, b⟩ := abs_le.1 hk2
    obtain ⟨a', b'⟩ := abs_le.1 hk3
    rw [abs_le]
    constructor <;> linarith
  have hk5 : |c * (s₀ + s₁) * dt.r / 2 - c * L.r| ≤ 3e-7 := by
    rw [show c * (s₀ + s₁) * dt.r / 2 - c * L.r = c * ((s₀ + s₁) / 2 * dt.r - L.r) by ring, abs_mul]
    calc |c| * |(s₀ + s₁) / 2 * dt.r - L.r| ≤ 1 * 3e-7 := mul_le_mul hc hk4 (abs_nonneg _) zero_le_one
      _ = 3e-7 := by norm_num
  have hcL : |c * L.r| ≤ 1000000 := by
    rw [abs_mul, abs_of_nonneg hL]
    calc |c| * L.r ≤ 1 * 1000000 := mul_le_mul hc hL' hL zero_le_one
      _ = 1000000 := by norm_num
  have hk6 : |c * (s₀ + s₁) * dt.r / 2| ≤ 1000001 := by
    obtain ⟨a, b⟩ := abs_le.1 hk5
    obtain ⟨a', b'⟩ := abs_le.1 hcL
    rw [abs_le]
    constructor <;> linarith
  have hN1 := r_small hN (by norm_num) hk6
  push_cast at hN1
  have hN2 : |N.r - c * L.r| ≤ 3.2e-7 := by
    obtain ⟨a, b⟩ := abs_le.1 (hN1.trans (show _ ≤ (1.1e-8 : ℝ) by linarith))
    obtain ⟨a', b'⟩ := abs_le.1 hk5
    rw [abs_le]
    constructor <;> linarith
  have hpos : |(p + N).r - (p.r + N.r)| ≤ 5e-10 := by
    have : |p.r + N.r| ≤ 2000001 := by
      obtain ⟨a, b⟩ := abs_le.1 hN2
      obtain ⟨a', b'⟩ := abs_le.1 hcL
      obtain ⟨a'', b''⟩ := abs_le.1 hp
      rw [abs_le]
      constructor <;> linarith
    have := r_small (Dbl.r_add p N) (by norm_num) this
    push_cast at this
    exact this.trans (by linarith)
  have hstep : |(p + u * L).r - (p.r + c * L.r)| ≤ 1.2e-8 := by
    refine (step_error hu).trans ?_
    have : 2 * eps * |p.r| ≤ 2 * eps * 1000000 := by gcongr
    have : 90 * eps * |c * L.r| ≤ 90 * eps * 1000000 := by gcongr
    linarith
  have hdiff : |(p + u * L).r - (p + N).r| ≤ 3.5e-7 := by
    obtain ⟨a, b⟩ := abs_le.1 hN2
    obtain ⟨a', b'⟩ := abs_le.1 hpos
    obtain ⟨a'', b''⟩ := abs_le.1 hstep
    rw [abs_le]
    constructor <;> linarith
  have hfin := r_small (Dbl.r_sub (p + u * L) (p + N)) (by norm_num) hdiff
  push_cast at hfin
  have : |((p + u * L) - (p + N)).r| ≤ |((p + u * L) - (p + N)).r - ((p + u * L).r - (p + N).r)| +
      |(p + u * L).r - (p + N).r| := by
    have := abs_add_le (((p + u * L) - (p + N)).r - ((p + u * L).r - (p + N).r)) ((p + u * L).r - (p + N).r)
    rwa [sub_add_cancel] at this
  have : 2 * 1 * eps * 3.5e-7 ≤ (1e-8 : ℝ) := by linarith
  linarith

theorem micro_lt : (9e-7 : ℝ) < (1e-6 : Dbl).r := by
  have e : (1e-6 : Dbl) = ⟨rnd (mkRat 1 (10 ^ 6))⟩ := by
    show (⟨rnd (if true = true then mkRat 1 (10 ^ 6) else ((1 * 10 ^ 6 : Nat) : Rat))⟩ : Dbl) = _
    rw [if_pos rfl]
  have h : Rel 1 (1e-6 : Dbl).r ((mkRat 1 (10 ^ 6) : ℚ) : ℝ) := by
    rw [e]
    exact rel_rnd (mkRat 1 (10 ^ 6))
  have hv : ((mkRat 1 (10 ^ 6) : ℚ) : ℝ) = 1e-6 := by
    rw [Rat.mkRat_eq_div]
    push_cast
    norm_num
  rw [hv] at h
  have := h.ge (by norm_num) (by norm_num)
  push_cast at this
  have he := eps_lt
  linarith

/-- The components of a direction along which the nozzle moves or rests are at most one. -/
theorem UnitDir.le_one {u : Vec4 ℝ} {eo : Bool} (h : UnitDir u eo) : |u.x| ≤ 1 ∧ |u.y| ≤ 1 ∧ |u.z| ≤ 1 := by
  cases eo
  · simp only [UnitDir, Bool.false_eq_true, if_false] at h
    have := norm3_sq u
    rw [h] at this
    refine ⟨?_, ?_, ?_⟩ <;> apply abs_le_one_iff_mul_self_le_one.2 <;>
      nlinarith [mul_self_nonneg u.x, mul_self_nonneg u.y, mul_self_nonneg u.z]
  · simp only [UnitDir, if_true] at h
    obtain ⟨h1, h2, h3, _⟩ := h
    rw [h1, h2, h3, abs_zero]
    exact ⟨zero_le_one, zero_le_one, zero_le_one⟩

/-- What is needed for the check of one segment. -/
structure SegOk (p : Vec4 Dbl) (u : Vec4 Dbl) (ur : Vec4 ℝ) (w₀ w₁ : Vec4 Dbl) (s₀ s₁ : ℝ) (L t Δ : Dbl) : Prop where
  hu : RelV 41 u ur
  hw₀ : RelV 42 w₀ (ur.mul s₀)
  hw₁ : RelV 42 w₁ (ur.mul s₁)
  hc : |ur.x| ≤ 1 ∧ |ur.y| ≤ 1 ∧ |ur.z| ≤ 1
  hs₀ : 0 ≤ s₀
  hs₁ : 0 ≤ s₁
  hs : s₀ + s₁ ≤ 2100
  hp : |p.x.r| ≤ 1000000 ∧ |p.y.r| ≤ 1000000 ∧ |p.z.r| ≤ 1000000
  hL : 0 ≤ L.r
  hL' : L.r ≤ 1000000
  ht : 0 ≤ t.r
  hd : 0 ≤ Δ.r
  hb : t.r + Δ.r ≤ 500000
  hk : Rel 100 ((s₀ + s₁) / 2 * Δ.r) L.r
  hr : Dbl.Rounded t

theorem SegOk.make {p u : Vec4 Dbl} {ur : Vec4 ℝ} {w₀ w₁ : Vec4 Dbl} {s₀ s₁ : ℝ} {L t Δ : Dbl}
    (h : SegOk p u ur w₀ w₁ s₀ s₁ L t Δ) :
    Segment.make t (t + Δ) p w₀ (p.add (u.mul L)) w₁ = .ok ⟨t, t + Δ, p, w₀, p.add (u.mul L), w₁⟩ := by
  unfold Segment.make
  rw [if_pos]
  unfold Segment.selfCheckOk
  rw [Bool.and_eq_true, Bool.not_eq_true', Bool.not_eq_true', decide_eq_false_iff_not, decide_eq_false_iff_not]
  constructor
  · rw [Dbl.lt_iff]
    have hx := check_error h.hu.x h.hw₀.x h.hw₁.x h.hc.1 h.hs₀ h.hs₁ h.hs h.hp.1 h.hL h.hL' h.ht h.hd h.hb h.hk
    have hy := check_error h.hu.y h.hw₀.y h.hw₁.y h.hc.2.1 h.hs₀ h.hs₁ h.hs h.hp.2.1 h.hL h.hL' h.ht h.hd h.hb h.hk
    have hz := check_error h.hu.z h.hw₀.z h.hw₁.z h.hc.2.2 h.hs₀ h.hs₁ h.hs h.hp.2.2 h.hL h.hL' h.ht h.hd h.hb h.hk
    set v := (p.add (u.mul L)).sub (p.add (((w₀.add w₁).mul (t + Δ - t)).div 2)) with hv
    have hn : Rel 6 v.norm3.r v.real.norm3 :=
      RelV.norm3 (n := 0) ⟨Rel.refl _ _, Rel.refl _ _, Rel.refl _ _, Rel.refl _ _⟩
    have hr : v.real.norm3 ≤ 7e-7 := by
      have hx' : v.real.x ^ 2 ≤ (4e-7) ^ 2 := sq_le_sq' (abs_le.1 hx).1 (abs_le.1 hx).2
      have hy' : v.real.y ^ 2 ≤ (4e-7) ^ 2 := sq_le_sq' (abs_le.1 hy).1 (abs_le.1 hy).2
      have hz' : v.real.z ^ 2 ≤ (4e-7) ^ 2 := sq_le_sq' (abs_le.1 hz).1 (abs_le.1 hz).2
      have := norm3_sq v.real
      apply abs_le_of_sq_le_sq' _ (by norm_num) |>.2
      rw [this]
      norm_num at hx' hy' hz' ⊢
      linarith
    have := hn.le (by norm_num) (norm3_nonneg _)
    push_cast at this
    have he := eps_lt
    have h0 := eps_pos
    have : v.real.norm3 * (1 + 2 * 6 * eps) ≤ 7e-7 * (1 + 2 * 6 * 1.2e-16) := by gcongr
    have := micro_lt
    push Not
    exact le_trans (by assumption) (by norm_num at *; linarith)
  · rw [Dbl.lt_iff]
    exact not_lt.2 (h.hr.le_add h.hd)

/-- A segment is dropped only if it goes nowhere. -/
theorem keepSeg_cases (s : Segment Dbl) : keepSeg s = [s] ∨ keepSeg s = [] ∧ s.posEnd = s.posBegin := by
  unfold keepSeg
  by_cases h : (s.posEnd.isTravel s.posBegin || s.posEnd.isExtrudingTo s.posBegin false) = true
  · left
    rw [if_pos h]
  · right
    rw [if_neg h]
    refine ⟨rfl, ?_⟩
    rw [Bool.or_eq_true, not_or] at h
    obtain ⟨h1, h2⟩ := h
    unfold Vec4.isTravel at h1
    unfold Vec4.isExtrudingTo at h2
    simp only [Bool.false_eq_true, if_false, decide_eq_true_eq, Dbl.lt_iff, Dbl.r_zero, Dbl.r_abs] at h1 h2
    have key : ∀ a b : Dbl, (a - b).r = 0 → b = a := by
      intro a b hab
      have := (Dbl.r_sub a b).eq_zero_iff.1 hab
      exact Dbl.ext_r (by linarith)
    have h2' := abs_nonpos_iff.1 (not_lt.1 h2)
    have hs := rel_add (a := pyAbs (s.posBegin.x - s.posEnd.x)) (b := pyAbs (s.posBegin.y - s.posEnd.y))
      (Rel.refl 0 _) (Rel.refl 0 _) (by rw [Dbl.r_abs]; exact abs_nonneg _) (by rw [Dbl.r_abs]; exact abs_nonneg _)
    have hs2 := rel_add (b := pyAbs (s.posBegin.z - s.posEnd.z)) hs (Rel.refl 1 _)
      (by rw [Dbl.r_abs, Dbl.r_abs]; positivity) (by rw [Dbl.r_abs]; exact abs_nonneg _)
    rw [Dbl.r_abs, Dbl.r_abs, Dbl.r_abs] at hs2
    have h3 : |(s.posBegin.x - s.posEnd.x).r| + |(s.posBegin.y - s.posEnd.y).r| +
        |(s.posBegin.z - s.posEnd.z).r| ≤ 0 := by
      by_contra hc
      exact h1 (hs2.pos (not_le.1 hc))
    have ax := abs_nonneg (s.posBegin.x - s.posEnd.x).r
    have ay := abs_nonneg (s.posBegin.y - s.posEnd.y).r
    have az := abs_nonneg (s.posBegin.z - s.posEnd.z).r
    ext
    · exact key _ _ (abs_nonpos_iff.1 (by linarith))
    · exact key _ _ (abs_nonpos_iff.1 (by linarith))
    · exact key _ _ (abs_nonpos_iff.1 (by linarith))
    · exact key _ _ h2'

theorem step_moves {p u L : Dbl} {c : ℝ} (hu : Rel 41 u.r c) (hp : |p.r| ≤ 1000000) (hL : 2e-8 ≤ |c * L.r|) :
    p + u * L ≠ p := by
  intro h
  have h1 := step_error (p := p) (L := L) hu
  rw [h] at h1
  have he := eps_pos
  have he' := eps_lt
  rw [show p.r - (p.r + c * L.r) = -(c * L.r) by ring, abs_neg] at h1
  have h2 : 2 * eps * |p.r| ≤ 2 * eps * 1000000 := by gcongr
  have h3 : 90 * eps * |c * L.r| ≤ 1 / 2 * |c * L.r| := by
    gcongr
    linarith
  linarith

/-- A segment that goes somewhere is kept. -/
theorem keepSeg_of_long {p u : Vec4 Dbl} {ur : Vec4 ℝ} {L : Dbl} {eo : Bool} (hu : RelV 41 u ur) (hd : UnitDir ur eo)
    (hp : |p.x.r| ≤ 1000000 ∧ |p.y.r| ≤ 1000000 ∧ |p.z.r| ≤ 1000000 ∧ |p.e.r| ≤ 1000000) (hL : 1e-7 ≤ L.r)
    {s : Segment Dbl} (hb : s.posBegin = p) (he : s.posEnd = p.add (u.mul L)) : keepSeg s = [s] := by
  rcases keepSeg_cases s with h | ⟨_, h⟩
  · exact h
  · exfalso
    rw [hb, he] at h
    have hx := congrArg Vec4.x h
    have hy := congrArg Vec4.y h
    have hz := congrArg Vec4.z h
    have hee := congrArg Vec4.e h
    simp only [Vec4.add, Vec4.mul] at hx hy hz hee
    have hL0 : 0 < L.r := lt_of_lt_of_le (by norm_num) hL
    have key : ∀ c : ℝ, 1 / 2 ≤ |c| → 2e-8 ≤ |c * L.r| := by
      intro c hc
      rw [abs_mul, abs_of_pos hL0]
      calc (2e-8 : ℝ) ≤ 1 / 2 * 1e-7 := by norm_num
        _ ≤ |c| * L.r := mul_le_mul hc hL (by norm_num) (abs_nonneg _)
    cases eo
    · simp only [UnitDir, Bool.false_eq_true, if_false] at hd
      have hsq := norm3_sq ur
      rw [hd] at hsq
      by_cases h1 : 1 / 2 ≤ |ur.x|
      · exact step_moves hu.x hp.1 (key _ h1) hx
      by_cases h2 : 1 / 2 ≤ |ur.y|
      · exact step_moves hu.y hp.2.1 (key _ h2) hy
      by_cases h3 : 1 / 2 ≤ |ur.z|
      · exact step_moves hu.z hp.2.2.1 (key _ h3) hz
      push Not at h1 h2 h3
      have q : ∀ c : ℝ, |c| < 1 / 2 → c ^ 2 ≤ 1 / 4 := by
        intro c hc
        obtain ⟨a, b⟩ := abs_lt.1 hc
        nlinarith
      have := q _ h1
      have := q _ h2
      have := q _ h3
      linarith
    · simp only [UnitDir, if_true] at hd
      exact step_moves hu.e hp.2.2.2 (key _ (by rw [hd.2.2.2]; norm_num)) hee

end PyGCD
