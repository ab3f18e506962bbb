import Verif.Proofs.DoubleProfile
import Verif.Props.Stops

/-!
# A block from rest to rest in double precision
-/

set_option linter.unusedSectionVars false
set_option linter.unusedSimpArgs false

namespace PyGCD
open PyGCD.Spec Vec4

/-- A ramp between rest and speed `s`: its travel and its duration, as computed. -/
theorem ramp_rel {s acc : Dbl} :
    Rel 5 ((s - 0) * (0 + s) / (2 * acc)).r (s.r * s.r / (2 * acc.r)) ∧ Rel 2 ((s - 0) / acc).r (s.r / acc.r) := by
  have h1 : Rel 1 (s - 0).r s.r := by
    have := Dbl.r_sub s 0
    rwa [Dbl.r_zero, sub_zero] at this
  have h2 : Rel 1 (0 + s).r s.r := by
    have := Dbl.r_add 0 s
    rwa [Dbl.r_zero, _root_.zero_add] at this
  have h3 : Rel 1 (2 * acc).r (2 * acc.r) := by
    have := Dbl.r_mul 2 acc
    rwa [Dbl.r_two] at this
  constructor
  · exact (Dbl.r_div _ _).trans (((Dbl.r_mul _ _).trans (h1.mul h2)).div h3)
  · exact (Dbl.r_div _ _).trans (h1.div (Rel.refl 0 _))

/-- The ramp down is computed differently, but with the same result. -/
theorem ramp_down (s acc : Dbl) : (0 - s) * (0 + s) / (2 * -acc) = (s - 0) * (0 + s) / (2 * acc) := by
  have z : rnd ((0 : ℕ) : ℚ) = 0 := by simp [rnd_zero]
  show (⟨rnd (rnd (rnd (rnd ((0 : ℕ) : ℚ) - s.val) * rnd (rnd ((0 : ℕ) : ℚ) + s.val)) /
      rnd (rnd ((2 : ℕ) : ℚ) * -acc.val))⟩ : Dbl) =
    ⟨rnd (rnd (rnd (s.val - rnd ((0 : ℕ) : ℚ)) * rnd (rnd ((0 : ℕ) : ℚ) + s.val)) /
      rnd (rnd ((2 : ℕ) : ℚ) * acc.val))⟩
  rw [z, _root_.zero_sub, sub_zero, _root_.zero_add, rnd_neg, neg_mul, rnd_neg, mul_neg, rnd_neg, neg_div_neg_eq]

theorem RelV.scale {u : Vec4 Dbl} {ur : Vec4 ℝ} (h : RelV 41 u ur) (s : Dbl) : RelV 42 (u.mul s) (ur.mul s.r) :=
  h.mul (Rel.refl 0 s.r)

theorem RelV.rest {u : Vec4 Dbl} {ur : Vec4 ℝ} (h : RelV 41 u ur) : RelV 42 (u.mul 0) (ur.mul 0) := by
  have := h.scale 0
  rwa [Dbl.r_zero] at this

theorem dbl_mul_zero (u : Vec4 Dbl) : u.mul 0 = Vec4.zero := by
  simp only [Vec4.mul, Dbl.mul_zero, Vec4.zero]

theorem dbl_norm3_zero : (Vec4.zero : Vec4 Dbl).norm3 = 0 := by
  have h := (RelV.zero 0).norm3
  rw [norm3_zero] at h
  exact (Dbl.eq_zero_iff _).2 h.zero

/-- What is known before a block is planned. -/
structure MoveHyp (prev : Segment Dbl) (u : Vec4 Dbl) (ur : Vec4 ℝ) (B : PState Dbl) (d : Dbl) (eo : Bool) (D : ℝ) :
    Prop where
  vel : prev.velEnd = Vec4.zero
  rt : Dbl.Rounded prev.tEnd
  t0 : 0 ≤ prev.tEnd.r
  px : |prev.posEnd.x.r| ≤ 150000
  py : |prev.posEnd.y.r| ≤ 150000
  pz : |prev.posEnd.z.r| ≤ 150000
  pe : |prev.posEnd.e.r| ≤ 150000
  hu : RelV 41 u ur
  hd : UnitDir ur eo
  hD : 1e-6 ≤ D
  hD' : D ≤ 400000
  hx : |ur.x * D| ≤ 250000
  hy : |ur.y * D| ≤ 250000
  hz : |ur.z * D| ≤ 250000
  he : |ur.e * D| ≤ 250000
  hrel : Rel 9 d.r D
  hv : 0 < B.speed.r
  hv' : B.speed.r ≤ 1000
  ha : 0 < B.pAcc.r
  hva : 1e-6 ≤ B.speed.r * B.speed.r / B.pAcc.r
  hT : prev.tEnd.r + moveTime B.pAcc.r B.speed.r D 0 0 ≤ 450000

/-- One more piece of a move, along one coordinate. -/
theorem step_more {p u L : Dbl} {c x δ : ℝ} (hu : Rel 41 u.r c) (h : |p.r - x| ≤ δ) (hp : |p.r| ≤ 1000000) :
    |(p + u * L).r - (x + c * L.r)| ≤ δ + 2.4e-10 + 90 * eps * |c * L.r| := by
  have h1 := step_error (p := p) (L := L) hu
  have h2 : 2 * eps * |p.r| ≤ 2 * eps * 1000000 := by
    have := eps_pos
    gcongr
  have he := eps_lt
  rw [show (p + u * L).r - (x + c * L.r) = ((p + u * L).r - (p.r + c * L.r)) + (p.r - x) by ring]
  refine (abs_add_le _ _).trans ?_
  linarith

/-- Three pieces, along one coordinate. -/
theorem three_steps {p u L₁ L₂ L₃ : Dbl} {c D : ℝ} (hu : Rel 41 u.r c) (hp : |p.r| ≤ 150000) (h₁ : 0 ≤ L₁.r)
    (h₂ : 0 ≤ L₂.r) (h₃ : 0 ≤ L₃.r) (hD : 0 < D) (hs : |L₁.r + L₂.r + L₃.r - D| ≤ 80 * eps * D)
    (hc : |c * D| ≤ 250000) :
    |(p + u * L₁).r| ≤ 1000000 ∧ |(p + u * L₁ + u * L₂).r| ≤ 1000000 ∧
      |(p + u * L₁ + u * L₂ + u * L₃).r - (p.r + c * D)| ≤ 1e-8 := by
  have he := eps_pos
  have he' := eps_lt
  have hsum : L₁.r + L₂.r + L₃.r ≤ D * (1 + 80 * eps) := by
    have := (abs_le.1 hs).2
    linarith
  have hc1 : |c| * (L₁.r + L₂.r + L₃.r) ≤ 250001 := by
    calc |c| * (L₁.r + L₂.r + L₃.r) ≤ |c| * (D * (1 + 80 * eps)) := by gcongr
      _ = |c * D| * (1 + 80 * eps) := by rw [abs_mul, abs_of_pos hD]; ring
      _ ≤ 250000 * (1 + 80 * eps) := by gcongr
      _ ≤ 250001 := by linarith
  have e1 : |c * L₁.r| = |c| * L₁.r := by rw [abs_mul, abs_of_nonneg h₁]
  have e2 : |c * L₂.r| = |c| * L₂.r := by rw [abs_mul, abs_of_nonneg h₂]
  have e3 : |c * L₃.r| = |c| * L₃.r := by rw [abs_mul, abs_of_nonneg h₃]
  have n1 : 0 ≤ |c| * L₁.r := by positivity
  have n2 : 0 ≤ |c| * L₂.r := by positivity
  have n3 : 0 ≤ |c| * L₃.r := by positivity
  have hcs : |c| * L₁.r + |c| * L₂.r + |c| * L₃.r ≤ 250001 := by linarith
  have b1 := step_more (L := L₁) hu (show |p.r - p.r| ≤ 0 by simp) (hp.trans (by norm_num))
  have g1 : |(p + u * L₁).r| ≤ 1000000 := by
    rw [e1] at b1
    have : 90 * eps * (|c| * L₁.r) ≤ 90 * eps * 250001 := by gcongr; linarith
    have hb := abs_le.1 (b1.trans (show _ ≤ (1 : ℝ) by linarith))
    have hq := abs_le.1 (show |c * L₁.r| ≤ 250001 by rw [e1]; linarith)
    have hp' := abs_le.1 hp
    rw [abs_le]
    constructor <;> linarith
  have b2 := step_more (L := L₂) hu b1 g1
  have g2 : |(p + u * L₁ + u * L₂).r| ≤ 1000000 := by
    rw [e1, e2] at b2
    have : 90 * eps * (|c| * L₁.r) ≤ 90 * eps * 250001 := by gcongr; linarith
    have : 90 * eps * (|c| * L₂.r) ≤ 90 * eps * 250001 := by gcongr; linarith
    have hb := abs_le.1 (b2.trans (show _ ≤ (1 : ℝ) by linarith))
    have hq := abs_le.1 (show |c * L₁.r| ≤ 250001 by rw [e1]; linarith)
    have hq' := abs_le.1 (show |c * L₂.r| ≤ 250001 by rw [e2]; linarith)
    have hp' := abs_le.1 hp
    rw [abs_le]
    constructor <;> linarith
  have b3 := step_more (L := L₃) hu b2 g2
  refine ⟨g1, g2, ?_⟩
  rw [e1, e2, e3] at b3
  have hlast : |(p.r + c * L₁.r + c * L₂.r + c * L₃.r) - (p.r + c * D)| ≤ 80 * eps * 250000 := by
    rw [show (p.r + c * L₁.r + c * L₂.r + c * L₃.r) - (p.r + c * D) = c * (L₁.r + L₂.r + L₃.r - D) by ring, abs_mul]
    calc |c| * |L₁.r + L₂.r + L₃.r - D| ≤ |c| * (80 * eps * D) := by gcongr
      _ = 80 * eps * |c * D| := by rw [abs_mul, abs_of_pos hD]; ring
      _ ≤ _ := by gcongr
  have hsum2 : 90 * eps * (|c| * L₁.r) + 90 * eps * (|c| * L₂.r) + 90 * eps * (|c| * L₃.r) ≤ 90 * eps * 250001 := by
    rw [← mul_add, ← mul_add]
    gcongr
  obtain ⟨a, b⟩ := abs_le.1 (b3.trans (show _ ≤ (9e-10 + 90 * eps * 250001 : ℝ) by linarith))
  obtain ⟨a', b'⟩ := abs_le.1 hlast
  rw [abs_le]
  constructor <;> linarith

/-- What is known after a block is planned. -/
structure MoveOut (prev : Segment Dbl) (ur : Vec4 ℝ) (D T : ℝ) (segs : List (Segment Dbl)) (s s' : Segment Dbl) : Prop where
  head : segs.head? = some s
  last : segs.getLast? = some s'
  t0 : s.tBegin = prev.tEnd
  p0 : s.posBegin = prev.posEnd
  v0 : s.velBegin = Vec4.zero
  v1 : s'.velEnd = Vec4.zero
  rt : Dbl.Rounded s'.tEnd
  t1 : 0 ≤ s'.tEnd.r
  time : |s'.tEnd.r - (prev.tEnd.r + T)| ≤ 1e-9 + 1e-12 * T
  px : |s'.posEnd.x.r - (prev.posEnd.x.r + ur.x * D)| ≤ 1e-8
  py : |s'.posEnd.y.r - (prev.posEnd.y.r + ur.y * D)| ≤ 1e-8
  pz : |s'.posEnd.z.r - (prev.posEnd.z.r + ur.z * D)| ≤ 1e-8
  pe : |s'.posEnd.e.r - (prev.posEnd.e.r + ur.e * D)| ≤ 1e-8
  rx : Dbl.Rounded s'.posEnd.x
  ry : Dbl.Rounded s'.posEnd.y
  rz : Dbl.Rounded s'.posEnd.z
  re : Dbl.Rounded s'.posEnd.e
  times : ∀ g ∈ segs, Dbl.Rounded g.tBegin ∧ Dbl.Rounded g.tEnd

/-- What is known about the inside of a block: the positions follow `f`, and a segment is missing at most in the middle
and only if it would go nowhere. -/
structure MoveMid (prev : Segment Dbl) (ur : Vec4 ℝ) (f : ℝ → ℝ) (v : ℝ) (segs : List (Segment Dbl)) : Prop where
  near : ∀ g ∈ segs, ∀ t : Dbl, g.tBegin.r ≤ t.r → t.r ≤ g.tEnd.r → ∃ q, g.getPosition t = .ok q ∧
    Beside (2e-7 + 1e-9 * v) ur q (prev.posEnd.real.add (ur.mul (f (t.r - prev.tEnd.r))))
  order : ∀ g ∈ segs, g.tBegin.r ≤ g.tEnd.r
  gaps : segs.IsChain fun g g' => g'.tBegin = g.tEnd ∨
    (segs = [g, g'] ∧ g'.posBegin = g.posEnd ∧ g.tEnd.r ≤ g'.tBegin.r ∧ (g'.tBegin.r - g.tEnd.r) * v ≤ 4e-7)

theorem Beside.mono {δ δ' : ℝ} {ur : Vec4 ℝ} {p : Vec4 Dbl} {q : Vec4 ℝ} (h : Beside δ ur p q) (hδ : δ ≤ δ') :
    Beside δ' ur p q :=
  ⟨h.x.trans hδ, h.y.trans hδ, h.z.trans hδ, fun hc => (h.e hc).trans hδ⟩

theorem Beside.start (ur : Vec4 ℝ) (p : Vec4 Dbl) : Beside 0 ur p (p.real.add (ur.mul 0)) := by
  constructor <;> simp [Vec4.add, Vec4.mul, Vec4.real]

theorem beside_coord {p u L : Dbl} {c P l δ : ℝ} (hu : Rel 41 u.r c) (hc : |c| ≤ 1) (h : |p.r - (P + c * l)| ≤ δ)
    (hp : |p.r| ≤ 1000000) (hL : 0 ≤ L.r) (hL' : L.r ≤ 1000000) :
    |(p + u * L).r - (P + c * (l + L.r))| ≤ δ + 1.2e-8 := by
  have he := eps_pos
  have he' := eps_lt
  have h1 := step_more (L := L) hu h hp
  have h2 : |c * L.r| ≤ 1000000 := by
    rw [abs_mul, abs_of_nonneg hL]
    calc |c| * L.r ≤ 1 * 1000000 := mul_le_mul hc hL' hL zero_le_one
      _ = 1000000 := by norm_num
  have h3 : 90 * eps * |c * L.r| ≤ 90 * eps * 1000000 := by gcongr
  rw [show P + c * (l + L.r) = P + c * l + c * L.r by ring]
  linarith

theorem Beside.step {δ l : ℝ} {ur : Vec4 ℝ} {P p u : Vec4 Dbl} {L : Dbl} (h : Beside δ ur p (P.real.add (ur.mul l)))
    (hu : RelV 41 u ur) (hc : |ur.x| ≤ 1 ∧ |ur.y| ≤ 1 ∧ |ur.z| ≤ 1)
    (hp : |p.x.r| ≤ 1000000 ∧ |p.y.r| ≤ 1000000 ∧ |p.z.r| ≤ 1000000 ∧ |p.e.r| ≤ 1000000)
    (hL : 0 ≤ L.r) (hL' : L.r ≤ 1000000) :
    Beside (δ + 1.2e-8) ur (p.add (u.mul L)) (P.real.add (ur.mul (l + L.r))) :=
  ⟨beside_coord hu.x hc.1 h.x hp.1 hL hL', beside_coord hu.y hc.2.1 h.y hp.2.1 hL hL',
    beside_coord hu.z hc.2.2 h.z hp.2.2.1 hL hL', fun he => beside_coord hu.e he (h.e he) hp.2.2.2 hL hL'⟩

section
variable {P p u : Vec4 Dbl} {ur : Vec4 ℝ} {w₀ w₁ : Vec4 Dbl} {ρ v : ℝ} {L t Δ : Dbl} {f : ℝ → ℝ} {t₀ E₁ E₂ E₃ l : ℝ}
  {g : Segment Dbl}

/-- Positions on the ramp up. -/
theorem mid_A (h : SegOk p u ur w₀ w₁ 0 ρ L t Δ) (he : |p.e.r| ≤ 1000000) (hv : 0 ≤ v) (hE₂ : 0 ≤ E₂)
    (hg : g = ⟨t, t + Δ, p, w₀, p.add (u.mul L), w₁⟩) (ht : t.r = t₀) (hE : (t + Δ).r - t.r = E₁)
    (hf : ∀ x, |ρ * covered E₁ (E₁ + E₂) E₃ x - f x| ≤ 5e-10 * v + 5e-8) :
    ∀ s : Dbl, g.tBegin.r ≤ s.r → s.r ≤ g.tEnd.r → ∃ q, g.getPosition s = .ok q ∧
      Beside (2e-7 + 1e-9 * v) ur q (p.real.add (ur.mul (f (s.r - t₀)))) := by
  intro s hs0 hs1
  obtain ⟨q, h1, h2⟩ := h.mid he hg (P := p) (l := 0) (κ := 5e-10 * v + 5e-8) (f := fun y => f (y - t₀))
    ((Beside.start ur p).mono (by norm_num)) (by
      intro x hx0 hx1
      rw [hE] at hx1 ⊢
      rw [ht, add_sub_cancel_left, ← piece_A (E₃ := E₃) hx0 hx1 hE₂]
      exact hf x) s hs0 hs1
  exact ⟨q, h1, h2.mono (by linarith)⟩

/-- Positions at constant speed. -/
theorem mid_B (h : SegOk p u ur w₀ w₁ ρ ρ L t Δ) (he : |p.e.r| ≤ 1000000) (hv : 0 ≤ v) (hE₁ : 0 ≤ E₁)
    (hg : g = ⟨t, t + Δ, p, w₀, p.add (u.mul L), w₁⟩) (hb : Beside 3e-8 ur p (P.real.add (ur.mul l)))
    (hl : |l - ρ * E₁ / 2| ≤ 5e-8 + 3e-10 * v) (ht : t.r = t₀ + E₁) (hE : (t + Δ).r - t.r = E₂)
    (hf : ∀ x, |ρ * covered E₁ (E₁ + E₂) E₃ x - f x| ≤ 5e-10 * v + 5e-8) :
    ∀ s : Dbl, g.tBegin.r ≤ s.r → s.r ≤ g.tEnd.r → ∃ q, g.getPosition s = .ok q ∧
      Beside (2e-7 + 1e-9 * v) ur q (P.real.add (ur.mul (f (s.r - t₀)))) := by
  intro s hs0 hs1
  obtain ⟨q, h1, h2⟩ := h.mid he hg (P := P) (l := l) (κ := 8e-10 * v + 10e-8) (f := fun y => f (y - t₀)) hb (by
      intro x hx0 hx1
      rw [hE] at hx1 ⊢
      have h3 := hf (E₁ + x)
      rw [piece_B hx0 hx1 hE₁ E₂] at h3
      rw [ht, show t₀ + E₁ + x - t₀ = E₁ + x by ring]
      have h4 : |l + (ρ * x + (ρ - ρ) * x ^ 2 / (2 * E₂)) - (ρ * E₁ / 2 + (ρ * x + (ρ - ρ) * x ^ 2 / (2 * E₂)))| ≤
          5e-8 + 3e-10 * v := by
        rw [add_sub_add_right_eq_sub]
        exact hl
      exact (err_add h4 h3).trans (by linarith)) s hs0 hs1
  exact ⟨q, h1, h2.mono (by linarith)⟩

/-- Positions on the ramp down. -/
theorem mid_C (h : SegOk p u ur w₀ w₁ ρ 0 L t Δ) (he : |p.e.r| ≤ 1000000) (hv : 0 ≤ v) (hE₁ : 0 ≤ E₁) (hE₂ : 0 ≤ E₂)
    (hg : g = ⟨t, t + Δ, p, w₀, p.add (u.mul L), w₁⟩) (hb : Beside 3e-8 ur p (P.real.add (ur.mul l)))
    (hl : |l - (ρ * E₁ / 2 + ρ * E₂)| ≤ 5e-8 + 3e-10 * v) (ht : t.r = t₀ + E₁ + E₂) (hE : (t + Δ).r - t.r = E₃)
    (hf : ∀ x, |ρ * covered E₁ (E₁ + E₂) E₃ x - f x| ≤ 5e-10 * v + 5e-8) :
    ∀ s : Dbl, g.tBegin.r ≤ s.r → s.r ≤ g.tEnd.r → ∃ q, g.getPosition s = .ok q ∧
      Beside (2e-7 + 1e-9 * v) ur q (P.real.add (ur.mul (f (s.r - t₀)))) := by
  intro s hs0 hs1
  obtain ⟨q, h1, h2⟩ := h.mid he hg (P := P) (l := l) (κ := 8e-10 * v + 10e-8) (f := fun y => f (y - t₀)) hb (by
      intro x hx0 hx1
      rw [hE] at hx1 ⊢
      have h3 := hf (E₁ + E₂ + x)
      rw [piece_C hx0 hx1 hE₁ hE₂] at h3
      rw [ht, show t₀ + E₁ + E₂ + x - t₀ = E₁ + E₂ + x by ring]
      have h4 : |l + (ρ * x + (0 - ρ) * x ^ 2 / (2 * E₃)) -
          (ρ * E₁ / 2 + ρ * E₂ + (ρ * x + (0 - ρ) * x ^ 2 / (2 * E₃)))| ≤ 5e-8 + 3e-10 * v := by
        rw [add_sub_add_right_eq_sub]
        exact hl
      exact (err_add h4 h3).trans (by linarith)) s hs0 hs1
  exact ⟨q, h1, h2.mono (by linarith)⟩

end

/-- The way of a piece fits its duration. -/
theorem way_fits {ρ κ v E L : ℝ} {Δ : Dbl} (hρ : 0 ≤ ρ) (hρv : ρ ≤ 1.1 * v) (hκ : 0 ≤ κ) (hκ1 : κ ≤ 1)
    (hk : Rel 100 (ρ * κ * Δ.r) L) (hL : 0 ≤ L) (hL' : L ≤ 1000000) (hE : |E - Δ.r| ≤ 1.3e-10) :
    |L - ρ * κ * E| ≤ 2.4e-8 + 1.43e-10 * v := by
  have he := eps_pos
  have he' := eps_lt
  have h1 := hk.err (by norm_num) (c := 1000000) (δ := 2.4e-8) (by rw [abs_of_nonneg hL]; exact hL') (by push_cast; linarith)
  have h2 : |ρ * κ * Δ.r - ρ * κ * E| ≤ 1.43e-10 * v := by
    rw [← mul_sub, abs_mul, abs_of_nonneg (by positivity), abs_sub_comm]
    calc ρ * κ * |E - Δ.r| ≤ ρ * 1 * 1.3e-10 := by gcongr
      _ ≤ _ := by linarith
  rw [abs_sub_comm] at h1
  exact err_add h1 h2

theorem mem_keepSeg_dbl {g s : Segment Dbl} (h : g ∈ keepSeg s) : g = s := by
  rcases keepSeg_cases s with e | ⟨e, _⟩ <;> rw [e] at h
  · exact List.mem_singleton.1 h
  · cases h

/-- Three times in a row. -/
theorem three_times {t Δ₁ Δ₂ Δ₃ : Dbl} (ht : 0 ≤ t.r) (h₁ : 0 ≤ Δ₁.r) (h₂ : 0 ≤ Δ₂.r) (h₃ : 0 ≤ Δ₃.r)
    (hr : Dbl.Rounded t) (hb : t.r + (Δ₁.r + Δ₂.r + Δ₃.r) ≤ 450001) :
    0 ≤ (t + Δ₁).r ∧ 0 ≤ (t + Δ₁ + Δ₂).r ∧ 0 ≤ (t + Δ₁ + Δ₂ + Δ₃).r ∧ t.r + Δ₁.r ≤ 500000 ∧
      (t + Δ₁).r + Δ₂.r ≤ 500000 ∧ (t + Δ₁ + Δ₂).r + Δ₃.r ≤ 500000 ∧
      |(t + Δ₁ + Δ₂ + Δ₃).r - (t.r + (Δ₁.r + Δ₂.r + Δ₃.r))| ≤ 5e-10 := by
  have he := eps_pos
  have he' := eps_lt
  have q1 := hr.le_add h₁
  have q2 := (Dbl.rounded_add t Δ₁).le_add h₂
  have q3 := (Dbl.rounded_add (t + Δ₁) Δ₂).le_add h₃
  have k1 := r_small (Dbl.r_add t Δ₁) (by norm_num) (c := 500000) (by rw [abs_of_nonneg (by linarith)]; linarith)
  push_cast at k1
  obtain ⟨a1, b1⟩ := abs_le.1 (k1.trans (show _ ≤ (1.3e-10 : ℝ) by linarith))
  have k2 := r_small (Dbl.r_add (t + Δ₁) Δ₂) (by norm_num) (c := 500000)
    (by rw [abs_of_nonneg (by linarith)]; linarith)
  push_cast at k2
  obtain ⟨a2, b2⟩ := abs_le.1 (k2.trans (show _ ≤ (1.3e-10 : ℝ) by linarith))
  have k3 := r_small (Dbl.r_add (t + Δ₁ + Δ₂) Δ₃) (by norm_num) (c := 500000)
    (by rw [abs_of_nonneg (by linarith)]; linarith)
  push_cast at k3
  obtain ⟨a3, b3⟩ := abs_le.1 (k3.trans (show _ ≤ (1.3e-10 : ℝ) by linarith))
  refine ⟨by linarith, by linarith, by linarith, by linarith, by linarith, by linarith, ?_⟩
  rw [abs_le]
  constructor <;> linarith


theorem two_steps {p u L₁ L₂ : Dbl} {c D : ℝ} (hu : Rel 41 u.r c) (hp : |p.r| ≤ 150000) (h₁ : 0 ≤ L₁.r)
    (h₂ : 0 ≤ L₂.r) (hD : 0 < D) (hs : |L₁.r + L₂.r - D| ≤ 80 * eps * D) (hc : |c * D| ≤ 250000) :
    |(p + u * L₁).r| ≤ 1000000 ∧ |(p + u * L₁ + u * L₂).r - (p.r + c * D)| ≤ 1e-8 := by
  obtain ⟨a, _, b⟩ := three_steps (L₃ := 0) hu hp h₁ h₂ (by rw [Dbl.r_zero]) hD
    (by rw [Dbl.r_zero, _root_.add_zero]; exact hs) hc
  rw [Dbl.mul_zero, (Dbl.rounded_add _ _).add_zero] at b
  exact ⟨a, b⟩

theorem two_times {t Δ₁ Δ₂ : Dbl} (ht : 0 ≤ t.r) (h₁ : 0 ≤ Δ₁.r) (h₂ : 0 ≤ Δ₂.r)
    (hr : Dbl.Rounded t) (hb : t.r + (Δ₁.r + Δ₂.r) ≤ 450001) :
    0 ≤ (t + Δ₁).r ∧ 0 ≤ (t + Δ₁ + Δ₂).r ∧ t.r + Δ₁.r ≤ 500000 ∧ (t + Δ₁).r + Δ₂.r ≤ 500000 ∧
      |(t + Δ₁ + Δ₂).r - (t.r + (Δ₁.r + Δ₂.r))| ≤ 5e-10 := by
  obtain ⟨a, b, _, c, d, _, e⟩ := three_times (Δ₃ := 0) ht h₁ h₂ (by rw [Dbl.r_zero]) hr
    (by rw [Dbl.r_zero, _root_.add_zero]; exact hb)
  rw [(Dbl.rounded_add _ _).add_zero, Dbl.r_zero, _root_.add_zero] at e
  exact ⟨a, b, c, d, e⟩

/-- The time of a trapezoid differs from the time of the move by rounding. -/
theorem trapezoid_time {a v D : ℝ} (ha : 0 < a) (hv : 0 < v) (hD : 0 < D) (h : v * v / a ≤ D * (1 + 40 * eps)) :
    |D / v + v / a - moveTime a v D 0 0| ≤ 50 * eps * moveTime a v D 0 0 ∧ 0 < moveTime a v D 0 0 := by
  have he := eps_pos
  have he' := eps_lt
  rw [c65_rest_to_rest ha hv hD.le]
  split
  · rw [_root_.sub_self, abs_zero]
    have : 0 < D / v + v / a := by positivity
    exact ⟨by positivity, this⟩
  · rename_i hlt
    have hlt := not_le.1 hlt
    have hda : 0 < D / a := by positivity
    set r := √(D / a) with hr
    have hr0 : 0 < r := Real.sqrt_pos.2 hda
    have hrr : r * r = D / a := Real.mul_self_sqrt hda.le
    have hDr : D = r * r * a := by rw [hrr]; field_simp
    -- `v / a` is at least `r` and at most a little more
    have hx : v = v / a * a := by field_simp
    set x := v / a with hxdef
    have hxr : r < x := by
      have : D * a < x * a * (x * a) := by rw [← hx]; nlinarith
      rw [hDr] at this
      by_contra hc
      push Not at hc
      have hx0 : 0 < x := by positivity
      nlinarith [mul_le_mul hc hc hx0.le hr0.le, mul_pos ha ha]
    have hx2 : x * x ≤ r * r * (1 + 40 * eps) := by
      have e : v * v / a = x * x * a := by rw [hx]; field_simp
      rw [e, hDr] at h
      nlinarith
    have hx3 : x ≤ r * (1 + 40 * eps) := by
      by_contra hc
      push Not at hc
      have h1 : r * (1 + 40 * eps) * (r * (1 + 40 * eps)) < x * x := by
        apply mul_self_lt_mul_self (by positivity) hc
      have : r * r * (1 + 40 * eps) ≤ r * (1 + 40 * eps) * (r * (1 + 40 * eps)) := by
        have : r * (1 + 40 * eps) * (r * (1 + 40 * eps)) = r * r * ((1 + 40 * eps) * (1 + 40 * eps)) := by ring
        rw [this]
        have : 0 < r * r := by positivity
        gcongr
        nlinarith
      linarith
    have hy : D / v = r * r / x := by
      have hx0 : 0 < x := by positivity
      rw [hDr, hx]
      field_simp
    have hx0 : 0 < x := by positivity
    have hy1 : r * r / x ≤ r := by
      rw [div_le_iff₀ hx0]
      nlinarith
    have hy2 : 2 * r ≤ r * r / x + x := by
      rw [div_add' _ _ _ hx0.ne', le_div_iff₀ hx0]
      nlinarith [sq_nonneg (r - x)]
    rw [hy]
    refine ⟨?_, by positivity⟩
    rw [abs_of_nonneg (by linarith)]
    nlinarith

/-- The time of a triangle differs from the time of the move by rounding. -/
theorem triangle_time {a v D : ℝ} (ha : 0 < a) (hv : 0 < v) (hD : 0 < D) (h : D ≤ v * v / a * (1 + 40 * eps)) :
    |2 * √(D / a) - moveTime a v D 0 0| ≤ 50 * eps * moveTime a v D 0 0 ∧ 0 < moveTime a v D 0 0 := by
  have he := eps_pos
  have he' := eps_lt
  have hda : 0 < D / a := by positivity
  rw [c65_rest_to_rest ha hv hD.le]
  split
  · rename_i hle
    set r := √(D / a) with hr
    have hr0 : 0 < r := Real.sqrt_pos.2 hda
    have hrr : r * r = D / a := Real.mul_self_sqrt hda.le
    have hDr : D = r * r * a := by rw [hrr]; field_simp
    have hx : v = v / a * a := by field_simp
    set x := v / a with hxdef
    have hx0 : 0 < x := by positivity
    have hxr : x ≤ r := by
      have : x * a * (x * a) ≤ D * a := by rw [← hx]; nlinarith
      rw [hDr] at this
      by_contra hc
      push Not at hc
      have h1 := mul_self_lt_mul_self hr0.le hc
      nlinarith [mul_pos ha ha, mul_lt_mul_of_pos_right h1 (mul_pos ha ha)]
    have hx2 : r * r ≤ x * x * (1 + 40 * eps) := by
      have e : v * v / a = x * x * a := by rw [hx]; field_simp
      rw [e, hDr] at h
      nlinarith
    have hy : D / v = r * r / x := by
      rw [hDr, hx]
      field_simp
    have hy1 : r ≤ r * r / x := by
      rw [le_div_iff₀ hx0]
      nlinarith
    have hy2 : 2 * r ≤ r * r / x + x := by
      rw [div_add' _ _ _ hx0.ne', le_div_iff₀ hx0]
      nlinarith [sq_nonneg (r - x)]
    have hy3 : r * r / x ≤ x * (1 + 40 * eps) := by
      rw [div_le_iff₀ hx0]
      nlinarith
    rw [hy]
    have hp : 0 < r * r / x + x := by positivity
    refine ⟨?_, hp⟩
    rw [abs_sub_comm, abs_of_nonneg (by linarith)]
    nlinarith
  · rw [_root_.sub_self, abs_zero]
    have : 0 < √(D / a) := Real.sqrt_pos.2 hda
    exact ⟨by positivity, by positivity⟩

theorem vConst_rel {u : Vec4 Dbl} {ur : Vec4 ℝ} {eo : Bool} {vT : Dbl} (hu : RelV 41 u ur) (hd : UnitDir ur eo)
    (hv : 0 < vT.r) : Rel 91 (if eo then (u.mul vT).norm4 else (u.mul vT).norm3).r vT.r := by
  have h := hu.scale vT
  cases eo
  · simp only [Bool.false_eq_true, if_false]
    simp only [UnitDir, Bool.false_eq_true, if_false] at hd
    have := h.norm3
    rw [norm3_mul, hd, one_mul, abs_of_pos hv] at this
    exact this.mono (by norm_num)
  · simp only [if_true]
    simp only [UnitDir, if_true] at hd
    have := h.norm4
    have h4 : ur.norm4 = 1 := by
      have := norm4_sq ur
      rw [hd.1, hd.2.1, hd.2.2.1, ← sq_abs ur.e, hd.2.2.2] at this
      have h0 := norm4_nonneg ur
      nlinarith
    rw [norm4_mul, h4, one_mul, abs_of_pos hv] at this
    exact this

section
variable {prev : Segment Dbl} {u : Vec4 Dbl} {ur : Vec4 ℝ} {B : PState Dbl} {d : Dbl} {eo : Bool} {D : ℝ}

/-- The travel of a ramp, as computed. -/
abbrev rampUp (s acc : Dbl) : Dbl := (s - 0) * (0 + s) / (2 * acc)

/-- The duration of a ramp, as computed. -/
abbrev rampTime (s acc : Dbl) : Dbl := (s - 0) / acc

theorem ramp_kin {s acc : Dbl} (hs : 0 < s.r) (ha : 0 < acc.r) :
    Rel 100 (s.r / 2 * (rampTime s acc).r) (rampUp s acc).r ∧ 0 < (rampUp s acc).r ∧ 0 < (rampTime s acc).r := by
  obtain ⟨h1, h2⟩ := ramp_rel (s := s) (acc := acc)
  refine ⟨?_, h1.pos (by positivity), h2.pos (by positivity)⟩
  have h3 : Rel 2 (s.r / 2 * (rampTime s acc).r) (s.r / 2 * (s.r / acc.r)) := (Rel.refl 0 (s.r / 2)).mul h2
  rw [show s.r / 2 * (s.r / acc.r) = s.r * s.r / (2 * acc.r) by field_simp] at h3
  exact (h3.trans h1.symm).mono (by norm_num)

theorem d_bounds (h : MoveHyp prev u ur B d eo D) : 0 < D ∧ |d.r - D| ≤ 18 * eps * D ∧ 0 < d.r := by
  have hD : 0 < D := lt_of_lt_of_le (by norm_num) h.hD
  have := h.hrel.abs_sub (by norm_num)
  push_cast at this
  rw [abs_of_pos hD] at this
  exact ⟨hD, this.trans (by linarith), h.hrel.pos hD⟩

theorem tc_real {d U D x tc : ℝ} (hD : 0 < D) (hU : 0 < U) (hd : 2 * U < d) (hdle : d ≤ D * (1 + 18 * eps))
    (hx : U ≤ x) (e1 : |x - (d - U)| ≤ 2 * 1 * eps * |d - U|) (e2 : |tc - (x - U)| ≤ 2 * 1 * eps * |x - U|) :
    |tc - (d - 2 * U)| ≤ 6 * eps * D := by
  have he := eps_pos
  have he' := eps_lt
  have hp := mul_pos he hD
  have hpp : eps * eps * D ≤ 1e-3 * (eps * D) := by nlinarith
  have b1 : |d - U| ≤ D * (1 + 18 * eps) := by rw [abs_of_nonneg (by linarith)]; linarith
  have b2 : 2 * 1 * eps * |d - U| ≤ 2 * 1 * eps * (D * (1 + 18 * eps)) := by gcongr
  have b3 : 2 * 1 * eps * (D * (1 + 18 * eps)) ≤ 2.5 * (eps * D) := by nlinarith
  obtain ⟨c1, c2⟩ := abs_le.1 (e1.trans (b2.trans b3))
  have hsmall : eps * D ≤ 1e-3 * D := by gcongr; linarith
  have b4 : |x - U| ≤ D * 1.1 := by
    rw [abs_of_nonneg (by linarith)]
    linarith
  have b5 : 2 * 1 * eps * |x - U| ≤ 2 * 1 * eps * (D * 1.1) := by gcongr
  obtain ⟨c3, c4⟩ := abs_le.1 (e2.trans b5)
  rw [abs_le]
  constructor <;> linarith

theorem va_real {w U D d : ℝ} (hD : 0 < D) (hU : |U - w| ≤ 10 * eps * w) (hd : 2 * U < d)
    (hdle : d ≤ D * (1 + 18 * eps)) : 2 * w ≤ D * (1 + 40 * eps) := by
  have he := eps_pos
  have he' := eps_lt
  obtain ⟨c1, c2⟩ := abs_le.1 hU
  have h1 : 2 * w * (1 - 10 * eps) ≤ D * (1 + 18 * eps) := by linarith
  by_contra hc
  push Not at hc
  have hp := mul_pos he hD
  have hpp : eps * eps * D ≤ 1e-3 * (eps * D) := by nlinarith
  have h2 : D * (1 + 40 * eps) * (1 - 10 * eps) < 2 * w * (1 - 10 * eps) :=
    mul_lt_mul_of_pos_right hc (by linarith)
  have h3 : D * (1 + 40 * eps) * (1 - 10 * eps) = D + 30 * (eps * D) - 400 * (eps * eps * D) := by ring
  rw [h3] at h2
  linarith

theorem mid_time {Δ Δc q x y : ℝ} (hx : 0 < x) (hy : 0 < y) (hxy : x ≤ 1.01 * y)
    (d1 : |Δ - x| ≤ 4 * eps * x) (d2 : |Δc - q| ≤ 184 * eps * q) (d3 : |q - (y - x)| ≤ 50 * eps * y) :
    |Δ + Δc - y| ≤ 300 * eps * y := by
  have he := eps_pos
  have he' := eps_lt
  have p1 := mul_pos he hy
  have p2 := mul_pos he hx
  have s1 : eps * y ≤ 1e-3 * y := by gcongr; linarith
  obtain ⟨c1, c2⟩ := abs_le.1 d1
  obtain ⟨c3, c4⟩ := abs_le.1 d2
  obtain ⟨c5, c6⟩ := abs_le.1 d3
  have hq1 : q ≤ 1.1 * y := by linarith
  have hq2 : eps * q ≤ eps * (1.1 * y) := by gcongr
  have hq3 : eps * x ≤ eps * (1.01 * y) := by gcongr
  rw [abs_le]
  constructor <;> linarith

theorem ramp_share {a v D : ℝ} (ha : 0 < a) (hv : 0 < v) (hD : 0 < D) (h : v * v / a ≤ D * (1 + 40 * eps)) :
    v / a ≤ 1.01 * (D / v) := by
  have he' := eps_lt
  have hp : 0 < D * a := by positivity
  rw [div_le_iff₀ ha, show 1.01 * (D / v) * a = 1.01 * D * a / v by ring, le_div_iff₀ hv]
  rw [div_le_iff₀ ha] at h
  have : eps * (D * a) ≤ 1e-4 * (D * a) := by gcongr; linarith
  linarith

theorem sum_real {Δ Δc q x y T : ℝ} (hx : 0 < x) (hy : 0 < y) (hT : 0 < T)
    (d1 : |Δ - x| ≤ 4 * eps * x) (d2 : |Δc - q| ≤ 184 * eps * q) (d3 : |q - (y - x)| ≤ 50 * eps * y)
    (hG : |y + x - T| ≤ 50 * eps * T) : |Δ + Δc + Δ - T| ≤ 400 * eps * T := by
  have he := eps_pos
  have he' := eps_lt
  have p1 := mul_pos he hy
  have p2 := mul_pos he hx
  have p3 := mul_pos he hT
  have s1 : eps * y ≤ 1e-3 * y := by gcongr; linarith
  have s2 : eps * T ≤ 1e-3 * T := by gcongr; linarith
  obtain ⟨c1, c2⟩ := abs_le.1 d1
  obtain ⟨c3, c4⟩ := abs_le.1 d2
  obtain ⟨c5, c6⟩ := abs_le.1 d3
  obtain ⟨c7, c8⟩ := abs_le.1 hG
  have hq1 : q ≤ 1.1 * y := by linarith
  have hq2 : eps * q ≤ eps * (1.1 * y) := by gcongr
  have hyT : y + x ≤ 1.1 * T := by linarith
  have hyT' : eps * (y + x) ≤ eps * (1.1 * T) := by gcongr
  rw [abs_le]
  constructor <;> linarith

set_option maxHeartbeats 1000000 in
/-- The trapezoid in double precision. -/
theorem trapezoid_dbl (h : MoveHyp prev u ur B d eo D)
    (hlt : 2 * (rampUp B.speed B.pAcc).r < d.r) :
    ∃ segs s s', trapezoid prev u B.pAcc B.speed 0 0 d eo = .ok segs ∧
      MoveOut prev ur D (moveTime B.pAcc.r B.speed.r D 0 0) segs s s' ∧
      MoveMid prev ur (restDist B.pAcc.r B.speed.r D) B.speed.r segs := by
  have he := eps_pos
  have he' := eps_lt
  obtain ⟨hD, hdD, hd0⟩ := d_bounds h
  obtain ⟨r1, r2⟩ := ramp_rel (s := B.speed) (acc := B.pAcc)
  obtain ⟨k1, k2, k3⟩ := ramp_kin h.hv h.ha
  have hdown := ramp_down B.speed B.pAcc
  set up := rampUp B.speed B.pAcc with hup
  set Δ := rampTime B.speed B.pAcc with hΔ
  set v := B.speed.r with hv
  set a := B.pAcc.r with ha
  have hv0 := h.hv
  have ha0 := h.ha
  rw [← hv] at hv0
  rw [← ha] at ha0
  have hrup : Dbl.Rounded up := Dbl.rounded_div _ _
  -- the travel at constant speed
  set tc := d - up - up with htc
  have hq1 : up.r ≤ (d - up).r := hrup.le_sub (by linarith)
  have htc0 : 0 ≤ tc.r := by
    have := Dbl.rounded_zero.le_sub (a := d - up) (b := up) (by rw [Dbl.r_zero]; linarith)
    rwa [Dbl.r_zero] at this
  have hdd : |d.r| = d.r := abs_of_pos hd0
  have hdle : d.r ≤ D * (1 + 18 * eps) := by linarith [(abs_le.1 hdD).2]
  have hdge : D * (1 - 18 * eps) ≤ d.r := by linarith [(abs_le.1 hdD).1]
  have htc1 : |tc.r - (d.r - 2 * up.r)| ≤ 6 * eps * D := by
    have e1 := (Dbl.r_sub d up).abs_sub (by norm_num)
    push_cast at e1
    have e2 := (Dbl.r_sub (d - up) up).abs_sub (by norm_num)
    push_cast at e2
    exact tc_real hD k2 hlt hdle hq1 e1 e2
  have hsum : |up.r + tc.r + up.r - D| ≤ 80 * eps * D := by
    obtain ⟨c1, c2⟩ := abs_le.1 htc1
    obtain ⟨c3, c4⟩ := abs_le.1 hdD
    have hp := mul_pos he hD
    rw [abs_le]
    constructor <;> linarith
  -- the ramps
  have hU : |up.r - v * v / (2 * a)| ≤ 10 * eps * (v * v / (2 * a)) := by
    have := r1.abs_sub (by norm_num)
    push_cast at this
    rw [abs_of_pos (show 0 < v * v / (2 * a) by positivity)] at this
    exact this.trans (by linarith)
  have hva2 : v * v / a = 2 * (v * v / (2 * a)) := by field_simp
  have hva : v * v / a ≤ D * (1 + 40 * eps) := by
    rw [hva2]
    exact va_real hD hU hlt hdle
  obtain ⟨hG, hT0⟩ := trapezoid_time ha0 hv0 hD hva
  set T := moveTime a v D 0 0 with hT
  -- durations
  have hvc := vConst_rel h.hu h.hd h.hv
  set vc := (if eo then (u.mul B.speed).norm4 else (u.mul B.speed).norm3) with hvcdef
  set Δc := tc / vc with hΔc
  have hΔc1 : Rel 92 Δc.r (tc.r / v) := (Dbl.r_div _ _).trans ((Rel.refl 0 _).div hvc)
  have hΔc0 : 0 ≤ Δc.r := hΔc1.nonneg (by positivity)
  have hkc : Rel 100 ((v + v) / 2 * Δc.r) tc.r := by
    have : Rel 92 ((v + v) / 2 * Δc.r) ((v + v) / 2 * (tc.r / v)) := (Rel.refl 0 _).mul hΔc1
    rw [show (v + v) / 2 * (tc.r / v) = tc.r by field_simp; ring] at this
    exact this.mono (by norm_num)
  have d1 : |Δ.r - v / a| ≤ 4 * eps * (v / a) := by
    have := r2.abs_sub (by norm_num)
    push_cast at this
    rw [abs_of_pos (show 0 < v / a by positivity)] at this
    exact this.trans (by linarith)
  have d2 : |Δc.r - tc.r / v| ≤ 184 * eps * (tc.r / v) := by
    have := hΔc1.abs_sub (by norm_num)
    push_cast at this
    rw [abs_of_nonneg (show 0 ≤ tc.r / v by positivity)] at this
    exact this.trans (by linarith)
  have d3 : |tc.r / v - (D / v - v / a)| ≤ 50 * eps * (D / v) := by
    have e : tc.r / v - (D / v - v / a) = (tc.r - (D - v * v / a)) / v := by field_simp
    rw [e, abs_div, abs_of_pos hv0, div_le_iff₀ hv0, mul_assoc, div_mul_cancel₀ _ hv0.ne']
    obtain ⟨c1, c2⟩ := abs_le.1 htc1
    obtain ⟨c3, c4⟩ := abs_le.1 hdD
    obtain ⟨c5, c6⟩ := abs_le.1 hU
    have hw : 10 * eps * (v * v / (2 * a)) ≤ 10 * eps * D := by
      rw [hva2] at hva
      have : eps * D ≤ 1e-3 * D := by gcongr; linarith
      gcongr
      linarith
    have hp := mul_pos he hD
    rw [hva2, abs_le]
    constructor <;> linarith
  have hsumT : |Δ.r + Δc.r + Δ.r - T| ≤ 400 * eps * T := sum_real (by positivity) (by positivity) hT0 d1 d2 d3 hG
  have hbud : prev.tEnd.r + (Δ.r + Δc.r + Δ.r) ≤ 450001 := by
    have h1 := h.hT
    have h2 := (abs_le.1 hsumT).2
    have h3 : T ≤ 450000 := by linarith [h.t0]
    have h4 : 400 * eps * T ≤ 400 * eps * 450000 := by gcongr
    have h5 : prev.tEnd.r + T ≤ 450000 := h1
    linarith
  obtain ⟨t1, t2, t3, t4, t5, t6, t7⟩ := three_times h.t0 k3.le hΔc0 k3.le h.rt hbud
  obtain ⟨x1, x2, x3⟩ := three_steps h.hu.x h.px k2.le htc0 k2.le hD hsum h.hx
  obtain ⟨y1, y2, y3⟩ := three_steps h.hu.y h.py k2.le htc0 k2.le hD hsum h.hy
  obtain ⟨z1, z2, z3⟩ := three_steps h.hu.z h.pz k2.le htc0 k2.le hD hsum h.hz
  obtain ⟨e1, e2, e3⟩ := three_steps h.hu.e h.pe k2.le htc0 k2.le hD hsum h.he
  have hupD : up.r ≤ 1000000 ∧ tc.r ≤ 1000000 := by
    have := (abs_le.1 hsum).2
    have : 80 * eps * D ≤ 80 * eps * 400000 := by gcongr; exact h.hD'
    constructor <;> linarith [h.hD']
  have hup7 : 1e-7 ≤ up.r := by
    have h1 := h.hva
    rw [hva2] at h1
    obtain ⟨c5, c6⟩ := abs_le.1 hU
    have hw : eps * (v * v / (2 * a)) ≤ 1e-3 * (v * v / (2 * a)) := by gcongr; linarith
    linarith
  have hlo : ∀ x : ℝ, |x| ≤ 150000 → |x| ≤ 1000000 := fun x hx => hx.trans (by norm_num)
  have okA : SegOk prev.posEnd u ur (u.mul 0) (u.mul B.speed) 0 v up prev.tEnd Δ :=
    ⟨h.hu, h.hu.rest, h.hu.scale _, (UnitDir.le_one h.hd), le_rfl, hv0.le, by linarith [h.hv'],
      ⟨hlo _ h.px, hlo _ h.py, hlo _ h.pz⟩, k2.le, hupD.1, h.t0, k3.le, t4,
      by rw [_root_.zero_add]; exact k1, h.rt⟩
  have okB : SegOk (prev.posEnd.add (u.mul up)) u ur (u.mul B.speed) (u.mul B.speed) v v tc (prev.tEnd + Δ) Δc :=
    ⟨h.hu, h.hu.scale _, h.hu.scale _, (UnitDir.le_one h.hd), hv0.le, hv0.le, by linarith [h.hv'],
      ⟨x1, y1, z1⟩, htc0, hupD.2, t1, hΔc0, t5, hkc, Dbl.rounded_add _ _⟩
  have okC : SegOk ((prev.posEnd.add (u.mul up)).add (u.mul tc)) u ur (u.mul B.speed) (u.mul 0) v 0 up
      (prev.tEnd + Δ + Δc) Δ :=
    ⟨h.hu, h.hu.scale _, h.hu.rest, (UnitDir.le_one h.hd), hv0.le, le_rfl, by linarith [h.hv'],
      ⟨x2, y2, z2⟩, k2.le, hupD.1, t2, k3.le, t6, by rw [_root_.add_zero]; exact k1, Dbl.rounded_add _ _⟩
  have mA := okA.make
  have mB := okB.make
  have mC := okC.make
  set sA : Segment Dbl := ⟨prev.tEnd, prev.tEnd + Δ, prev.posEnd, u.mul 0, prev.posEnd.add (u.mul up), u.mul B.speed⟩
  set sB : Segment Dbl := ⟨prev.tEnd + Δ, prev.tEnd + Δ + Δc, prev.posEnd.add (u.mul up), u.mul B.speed,
    (prev.posEnd.add (u.mul up)).add (u.mul tc), u.mul B.speed⟩
  set sC : Segment Dbl := ⟨prev.tEnd + Δ + Δc, prev.tEnd + Δ + Δc + Δ, (prev.posEnd.add (u.mul up)).add (u.mul tc),
    u.mul B.speed, ((prev.posEnd.add (u.mul up)).add (u.mul tc)).add (u.mul up), u.mul 0⟩
  have kA : keepSeg sA = [sA] := keepSeg_of_long h.hu h.hd ⟨hlo _ h.px, hlo _ h.py, hlo _ h.pz, hlo _ h.pe⟩ hup7 rfl rfl
  have kC : keepSeg sC = [sC] := keepSeg_of_long h.hu h.hd ⟨x2, y2, z2, e2⟩ hup7 rfl rfl
  have hrun : trapezoid prev u B.pAcc B.speed 0 0 d eo = .ok (keepSeg sA ++ keepSeg sB ++ keepSeg sC) := by
    unfold trapezoid
    rw [hdown]
    show (do
      let sA ← Segment.make prev.tEnd (prev.tEnd + Δ) prev.posEnd (u.mul 0) (prev.posEnd.add (u.mul up)) (u.mul B.speed)
      let sB ← Segment.make (prev.tEnd + Δ) (prev.tEnd + Δ + Δc) (prev.posEnd.add (u.mul up)) (u.mul B.speed)
        ((prev.posEnd.add (u.mul up)).add (u.mul tc)) (u.mul B.speed)
      let sC ← Segment.make (prev.tEnd + Δ + Δc) (prev.tEnd + Δ + Δc + Δ) ((prev.posEnd.add (u.mul up)).add (u.mul tc))
        (u.mul B.speed) (((prev.posEnd.add (u.mul up)).add (u.mul tc)).add (u.mul up)) (u.mul 0)
      Except.ok (keepSeg sA ++ keepSeg sB ++ keepSeg sC)) = _
    rw [mA, mB, mC]
    rfl
  refine ⟨_, sA, sC, hrun, ?_, ?_⟩
  rotate_left
  · -- the inside
    have a1 := add_time h.t0 k3.le t4
    have a2 := add_time t1 hΔc0 t5
    have a3 := add_time t2 k3.le t6
    have m1 := h.rt.le_add k3.le
    have m2 := (Dbl.rounded_add prev.tEnd Δ).le_add hΔc0
    have m3 := (Dbl.rounded_add (prev.tEnd + Δ) Δc).le_add k3.le
    set E₁ := (prev.tEnd + Δ).r - prev.tEnd.r with hE₁
    set E₂ := (prev.tEnd + Δ + Δc).r - (prev.tEnd + Δ).r with hE₂
    set E₃ := (prev.tEnd + Δ + Δc + Δ).r - (prev.tEnd + Δ + Δc).r with hE₃
    have n1 : 0 ≤ E₁ := by linarith
    have n2 : 0 ≤ E₂ := by linarith
    have n3 : 0 ≤ E₃ := by linarith
    have hxy := ramp_share ha0 hv0 hD hva
    have hmid := mid_time (by positivity) (by positivity) hxy d1 d2 d3
    have hf := trap_profile ha0 hv0 hD h.hD' hva n1 n3 (E₂ := E₂) ((err_add a1 d1).trans (by linarith))
      ((err_add a3 d1).trans (by linarith)) (by
        have : |E₁ + E₂ - (Δ.r + Δc.r)| ≤ 2.6e-10 := by
          obtain ⟨i1, i2⟩ := abs_le.1 a1
          obtain ⟨i3, i4⟩ := abs_le.1 a2
          rw [abs_le]
          constructor <;> linarith
        exact (err_add this hmid).trans (by linarith))
    have hb1 := (Beside.start ur prev.posEnd).step h.hu (UnitDir.le_one h.hd)
      ⟨hlo _ h.px, hlo _ h.py, hlo _ h.pz, hlo _ h.pe⟩ k2.le hupD.1
    have hb2 := hb1.step h.hu (UnitDir.le_one h.hd) ⟨x1, y1, z1, e1⟩ htc0 hupD.2
    have f1 : |up.r - v * (1 / 2) * E₁| ≤ 2.4e-8 + 1.43e-10 * v :=
      way_fits hv0.le (by linarith) (by norm_num) (by norm_num) (by
        rw [show v * (1 / 2) * Δ.r = v / 2 * Δ.r by ring]; exact k1) k2.le hupD.1 a1
    have f2 : |tc.r - v * 1 * E₂| ≤ 2.4e-8 + 1.43e-10 * v :=
      way_fits hv0.le (by linarith) (by norm_num) (by norm_num) (by
        rw [show v * 1 * Δc.r = (v + v) / 2 * Δc.r by ring]; exact hkc) htc0 hupD.2 a2
    refine ⟨?_, ?_, ?_⟩
    · intro g hg
      simp only [List.mem_append] at hg
      rcases hg with (hg | hg) | hg <;> rw [mem_keepSeg_dbl hg]
      · exact mid_A okA (hlo _ h.pe) hv0.le n2 rfl rfl rfl hf
      · refine mid_B okB e1 hv0.le n1 rfl (hb1.mono (by norm_num)) ?_ (by rw [hE₁]; ring) rfl hf
        rw [show 0 + up.r - v * E₁ / 2 = up.r - v * (1 / 2) * E₁ by ring]
        exact f1.trans (by linarith)
      · refine mid_C okC e2 hv0.le n1 n2 rfl (hb2.mono (by norm_num)) ?_ (by rw [hE₁, hE₂]; ring) rfl hf
        rw [show 0 + up.r + tc.r - (v * E₁ / 2 + v * E₂) = (up.r - v * (1 / 2) * E₁) + (tc.r - v * 1 * E₂) by ring]
        exact (abs_add_le _ _).trans (by linarith)
    · intro g hg
      simp only [List.mem_append] at hg
      rcases hg with (hg | hg) | hg <;> rw [mem_keepSeg_dbl hg]
      · exact m1
      · exact m2
      · exact m3
    · rw [kA, kC]
      rcases keepSeg_cases sB with hk | ⟨hk, hkp⟩
      · rw [hk]
        refine List.isChain_cons_cons.2 ⟨Or.inl rfl, List.isChain_cons_cons.2 ⟨Or.inl rfl, List.isChain_singleton _⟩⟩
      · rw [hk]
        refine List.isChain_cons_cons.2 ⟨Or.inr ⟨rfl, hkp, m2, ?_⟩, List.isChain_singleton _⟩
        have hshort : tc.r < 1e-7 := by
          by_contra hc
          have := keepSeg_of_long (s := sB) h.hu h.hd ⟨x1, y1, z1, e1⟩ (not_lt.1 hc) rfl rfl
          rw [hk] at this
          cases this
        have := (abs_le.1 f2).1
        show ((prev.tEnd + Δ + Δc).r - (prev.tEnd + Δ).r) * v ≤ _
        rw [← hE₂]
        have := h.hv'
        linarith
  refine ⟨by rw [kA]; rfl, by rw [kC]; simp, rfl, rfl, dbl_mul_zero u, dbl_mul_zero u, Dbl.rounded_add _ _, t3, ?_,
    x3, y3, z3, e3, Dbl.rounded_add _ _, Dbl.rounded_add _ _, Dbl.rounded_add _ _, Dbl.rounded_add _ _, ?_⟩
  rotate_left
  · intro g hg
    simp only [List.mem_append] at hg
    rcases hg with (hg | hg) | hg <;> rw [mem_keepSeg_dbl hg]
    · exact ⟨h.rt, Dbl.rounded_add _ _⟩
    · exact ⟨Dbl.rounded_add _ _, Dbl.rounded_add _ _⟩
    · exact ⟨Dbl.rounded_add _ _, Dbl.rounded_add _ _⟩
  obtain ⟨c1, c2⟩ := abs_le.1 t7
  obtain ⟨c3, c4⟩ := abs_le.1 hsumT
  have : 400 * eps * T ≤ 1e-12 * T := by
    gcongr
    linarith
  show |(prev.tEnd + Δ + Δc + Δ).r - _| ≤ _
  rw [abs_le]
  constructor <;> linarith

theorem tri_real {w U D d : ℝ} (hw : 0 < w) (hU : |U - w| ≤ 10 * eps * w) (hd : d ≤ 2 * U)
    (hdge : D * (1 - 18 * eps) ≤ d) : D ≤ 2 * w * (1 + 40 * eps) := by
  have he := eps_pos
  have he' := eps_lt
  obtain ⟨c1, c2⟩ := abs_le.1 hU
  have h1 : D * (1 - 18 * eps) ≤ 2 * w * (1 + 10 * eps) := by linarith
  by_contra hc
  push Not at hc
  have hp := mul_pos he hw
  have hpp : eps * eps * w ≤ 1e-3 * (eps * w) := by nlinarith
  have h2 : 2 * w * (1 + 40 * eps) * (1 - 18 * eps) < D * (1 - 18 * eps) :=
    mul_lt_mul_of_pos_right hc (by linarith)
  have h3 : 2 * w * (1 + 40 * eps) * (1 - 18 * eps) = 2 * w + 44 * (eps * w) - 1440 * (eps * eps * w) := by ring
  rw [h3] at h2
  linarith

/-- The peak speed as computed. -/
theorem peak_rel {acc d : Dbl} {D : ℝ} (ha : 0 < acc.r) (hD : 0 < D) (hd : Rel 9 d.r D) :
    Rel 15 (PyMath.sqrt (acc * d + 0 * 0 / 2 + 0 * 0 / 2) : Dbl).r √(acc.r * D) := by
  have h1 : Rel 10 (acc * d).r (acc.r * D) := (Dbl.r_mul _ _).trans ((Rel.refl 0 _).mul hd)
  have hz : (0 : Dbl) * 0 / 2 = 0 := by rw [Dbl.mul_zero, Dbl.zero_div]
  rw [hz]
  have h2 : Rel 11 (acc * d + 0).r (acc.r * D) := by
    have := rel_add h1 (b := 0) (y := 0) (Rel.of_eq 10 Dbl.r_zero) (by positivity) le_rfl
    rwa [_root_.add_zero] at this
  have h3 : Rel 12 (acc * d + 0 + 0).r (acc.r * D) := by
    have := rel_add h2 (b := 0) (y := 0) (Rel.of_eq 11 Dbl.r_zero) (by positivity) le_rfl
    rwa [_root_.add_zero] at this
  exact rel_sqrt h3 (by positivity)

theorem peak_real {a v D w vp : ℝ} (ha : 0 < a) (hv : 0 < v) (hw : w = √(a * D))
    (h : D ≤ v * v / a * (1 + 40 * eps)) (hvp : |vp - w| ≤ 30 * eps * w) : vp ≤ v * (1 + 100 * eps) := by
  have he := eps_pos
  have he' := eps_lt
  have h1 : w ≤ v * (1 + 40 * eps) := by
    rw [hw]
    apply Real.sqrt_le_iff.2 ⟨by positivity, ?_⟩
    have : a * D ≤ v * v * (1 + 40 * eps) := by
      calc a * D ≤ a * (v * v / a * (1 + 40 * eps)) := by gcongr
        _ = _ := by field_simp
    refine this.trans ?_
    rw [mul_pow, sq, sq]
    gcongr
    nlinarith
  have h2 := (abs_le.1 hvp).2
  have h3 : eps * w ≤ eps * (v * (1 + 40 * eps)) := by gcongr
  have hp := mul_pos he hv
  have hpp : eps * eps * v ≤ 1e-3 * (eps * v) := by nlinarith
  have : eps * (v * (1 + 40 * eps)) = eps * v + 40 * (eps * eps * v) := by ring
  linarith

/-- A speed that exceeds the target only by rounding is close to it. -/
theorem close_of_rounding {x y : Dbl} (hy : 0 < y.r) (h1 : y.r ≤ x.r) (h2 : x.r ≤ y.r * (1 + 100 * eps)) :
    isClose x y = true := by
  have he := eps_pos
  have he' := eps_lt
  unfold isClose
  rw [decide_eq_true_eq, Dbl.le_iff, Dbl.r_abs]
  have e8 : (1e-8 : Dbl) = ⟨rnd (mkRat 1 (10 ^ 8))⟩ := by
    show (⟨rnd (if true = true then mkRat 1 (10 ^ 8) else ((1 * 10 ^ 8 : Nat) : Rat))⟩ : Dbl) = _
    rw [if_pos rfl]
  have e5 : (1e-5 : Dbl) = ⟨rnd (mkRat 1 (10 ^ 5))⟩ := by
    show (⟨rnd (if true = true then mkRat 1 (10 ^ 5) else ((1 * 10 ^ 5 : Nat) : Rat))⟩ : Dbl) = _
    rw [if_pos rfl]
  have r8 : Rel 1 (1e-8 : Dbl).r 1e-8 := by
    have : ((mkRat 1 (10 ^ 8) : ℚ) : ℝ) = 1e-8 := by rw [Rat.mkRat_eq_div]; push_cast; norm_num
    rw [e8, ← this]
    exact rel_rnd (mkRat 1 (10 ^ 8))
  have r5 : Rel 1 (1e-5 : Dbl).r 1e-5 := by
    have : ((mkRat 1 (10 ^ 5) : ℚ) : ℝ) = 1e-5 := by rw [Rat.mkRat_eq_div]; push_cast; norm_num
    rw [e5, ← this]
    exact rel_rnd (mkRat 1 (10 ^ 5))
  have h3 : Rel 2 ((1e-5 : Dbl) * pyAbs y).r (1e-5 * y.r) := by
    have := (Dbl.r_mul 1e-5 (pyAbs y)).trans (r5.mul (Rel.refl 0 (pyAbs y).r))
    rwa [Dbl.r_abs, abs_of_pos hy] at this
  have h4 : Rel 3 ((1e-8 : Dbl) + (1e-5 : Dbl) * pyAbs y).r (1e-8 + 1e-5 * y.r) :=
    rel_add (r8.mono (by norm_num)) h3 (by norm_num) (by positivity)
  have h5 := h4.ge (by norm_num) (by positivity)
  have h6 := (Dbl.r_sub x y).abs.le (by norm_num) (abs_nonneg _)
  rw [abs_of_nonneg (show 0 ≤ x.r - y.r by linarith)] at h6
  push_cast at h5 h6
  have h7 : x.r - y.r ≤ 1e-6 * y.r := by
    have : eps * y.r ≤ 1.2e-16 * y.r := by gcongr
    linarith
  have h8 : (x.r - y.r) * (1 + 2 * 1 * eps) ≤ 1e-6 * y.r * (1 + 1) := by
    apply mul_le_mul h7 (by linarith) (by linarith) (by positivity)
  have h9 : (1e-8 + 1e-5 * y.r) * (1 - 1 / 2) ≤ (1e-8 + 1e-5 * y.r) * (1 - 2 * 3 * eps) := by
    gcongr
    linarith
  linarith

theorem tri_sum {Δ x T : ℝ} (hx : 0 < x) (hT : 0 < T) (d1 : |Δ - x| ≤ 34 * eps * x)
    (hG : |2 * x - T| ≤ 50 * eps * T) : |Δ + Δ - T| ≤ 400 * eps * T := by
  have he := eps_pos
  have he' := eps_lt
  have p2 := mul_pos he hx
  have p3 := mul_pos he hT
  have s2 : eps * T ≤ 1e-3 * T := by gcongr; linarith
  obtain ⟨c1, c2⟩ := abs_le.1 d1
  obtain ⟨c7, c8⟩ := abs_le.1 hG
  have hyT : 2 * x ≤ 1.1 * T := by linarith
  have hyT' : eps * (2 * x) ≤ eps * (1.1 * T) := by gcongr
  rw [abs_le]
  constructor <;> linarith

set_option maxHeartbeats 1000000 in
/-- The triangle in double precision. -/
theorem triang_dbl (h : MoveHyp prev u ur B d eo D) (hle : d.r ≤ 2 * (rampUp B.speed B.pAcc).r) {vp : Dbl}
    (hvp : vp = PyMath.sqrt (B.pAcc * d + 0 * 0 / 2 + 0 * 0 / 2)) :
    (0 < vp.r ∧ vp.r ≤ B.speed.r * (1 + 100 * eps)) ∧
    ∃ segs s s', triang prev u B.pAcc vp 0 0 = .ok segs ∧
      MoveOut prev ur D (moveTime B.pAcc.r B.speed.r D 0 0) segs s s' ∧
      MoveMid prev ur (restDist B.pAcc.r B.speed.r D) B.speed.r segs := by
  have he := eps_pos
  have he' := eps_lt
  obtain ⟨hD, hdD, hd0⟩ := d_bounds h
  have hdge : D * (1 - 18 * eps) ≤ d.r := by linarith [(abs_le.1 hdD).1]
  have hv0 := h.hv
  have ha0 := h.ha
  -- the peak speed
  have hpk : Rel 15 vp.r √(B.pAcc.r * D) := by rw [hvp]; exact peak_rel ha0 hD h.hrel
  have hw0 : 0 < √(B.pAcc.r * D) := Real.sqrt_pos.2 (by positivity)
  have hvp0 : 0 < vp.r := hpk.pos hw0
  have hU : |(rampUp B.speed B.pAcc).r - B.speed.r * B.speed.r / (2 * B.pAcc.r)| ≤
      10 * eps * (B.speed.r * B.speed.r / (2 * B.pAcc.r)) := by
    have := (ramp_rel (s := B.speed) (acc := B.pAcc)).1.abs_sub (by norm_num)
    push_cast at this
    rw [abs_of_pos (show 0 < B.speed.r * B.speed.r / (2 * B.pAcc.r) by positivity)] at this
    exact this.trans (by linarith)
  have hva2 : B.speed.r * B.speed.r / B.pAcc.r = 2 * (B.speed.r * B.speed.r / (2 * B.pAcc.r)) := by field_simp
  have hDv : D ≤ B.speed.r * B.speed.r / B.pAcc.r * (1 + 40 * eps) := by
    rw [hva2]
    exact tri_real (by positivity) hU hle hdge
  have hvpv : vp.r ≤ B.speed.r * (1 + 100 * eps) := by
    have := hpk.abs_sub (by norm_num)
    push_cast at this
    rw [abs_of_pos hw0] at this
    exact peak_real ha0 hv0 rfl hDv (this.trans (by linarith))
  refine ⟨⟨hvp0, hvpv⟩, ?_⟩
  obtain ⟨hG, hT0⟩ := triangle_time ha0 hv0 hD hDv
  obtain ⟨k1, k2, k3⟩ := ramp_kin hvp0 ha0
  obtain ⟨r1, r2⟩ := ramp_rel (s := vp) (acc := B.pAcc)
  have hww : √(B.pAcc.r * D) * √(B.pAcc.r * D) = B.pAcc.r * D := Real.mul_self_sqrt (by positivity)
  -- travel
  have hup : |(rampUp vp B.pAcc).r - D / 2| ≤ 70 * eps * (D / 2) := by
    have h1 : Rel 35 (rampUp vp B.pAcc).r (D / 2) := by
      have h2 : Rel 30 (vp.r * vp.r / (2 * B.pAcc.r)) (√(B.pAcc.r * D) * √(B.pAcc.r * D) / (2 * B.pAcc.r)) :=
        (hpk.mul hpk).div (Rel.refl 0 _)
      rw [hww, show B.pAcc.r * D / (2 * B.pAcc.r) = D / 2 by field_simp] at h2
      exact r1.trans h2
    have := h1.abs_sub (by norm_num)
    push_cast at this
    rw [abs_of_pos (show 0 < D / 2 by positivity)] at this
    exact this.trans (by linarith)
  -- duration
  have hdur : |(rampTime vp B.pAcc).r - √(D / B.pAcc.r)| ≤ 34 * eps * √(D / B.pAcc.r) := by
    have hs : √(D / B.pAcc.r) = √(B.pAcc.r * D) / B.pAcc.r := by
      rw [show D / B.pAcc.r = B.pAcc.r * D / B.pAcc.r ^ 2 by field_simp, Real.sqrt_div (by positivity),
        Real.sqrt_sq ha0.le]
    have h1 : Rel 17 (rampTime vp B.pAcc).r (√(B.pAcc.r * D) / B.pAcc.r) :=
      r2.trans (hpk.div (Rel.refl 0 _))
    have := h1.abs_sub (by norm_num)
    push_cast at this
    rw [abs_of_pos (show 0 < √(B.pAcc.r * D) / B.pAcc.r by positivity)] at this
    rw [hs]
    exact this.trans (by linarith)
  have hsumT := tri_sum (Real.sqrt_pos.2 (by positivity)) hT0 hdur hG
  set up := rampUp vp B.pAcc with hupdef
  set Δ := rampTime vp B.pAcc with hΔ
  set T := moveTime B.pAcc.r B.speed.r D 0 0 with hT
  have hsum : |up.r + up.r - D| ≤ 80 * eps * D := by
    obtain ⟨c1, c2⟩ := abs_le.1 hup
    have hp := mul_pos he hD
    rw [abs_le]
    constructor <;> linarith
  have hbud : prev.tEnd.r + (Δ.r + Δ.r) ≤ 450001 := by
    have h2 := (abs_le.1 hsumT).2
    have h5 : prev.tEnd.r + T ≤ 450000 := h.hT
    have h3 : T ≤ 450000 := by linarith [h.t0]
    have h4 : 400 * eps * T ≤ 400 * eps * 450000 := by gcongr
    linarith
  obtain ⟨t1, t2, t4, t5, t7⟩ := two_times h.t0 k3.le k3.le h.rt hbud
  obtain ⟨x1, x3⟩ := two_steps h.hu.x h.px k2.le k2.le hD hsum h.hx
  obtain ⟨y1, y3⟩ := two_steps h.hu.y h.py k2.le k2.le hD hsum h.hy
  obtain ⟨z1, z3⟩ := two_steps h.hu.z h.pz k2.le k2.le hD hsum h.hz
  obtain ⟨e1, e3⟩ := two_steps h.hu.e h.pe k2.le k2.le hD hsum h.he
  have hupD : up.r ≤ 1000000 := by
    have := (abs_le.1 hsum).2
    have : 80 * eps * D ≤ 80 * eps * 400000 := by gcongr; exact h.hD'
    linarith [h.hD']
  have hup7 : 1e-7 ≤ up.r := by
    obtain ⟨c5, c6⟩ := abs_le.1 hup
    have hw : eps * (D / 2) ≤ 1e-3 * (D / 2) := by gcongr; linarith
    linarith [h.hD]
  have hvp2 : vp.r ≤ 1050 := by
    have h1 := h.hv'
    have : eps * B.speed.r ≤ 1e-4 * B.speed.r := by gcongr; linarith
    linarith
  have hlo : ∀ x : ℝ, |x| ≤ 150000 → |x| ≤ 1000000 := fun x hx => hx.trans (by norm_num)
  have okA : SegOk prev.posEnd u ur (u.mul 0) (u.mul vp) 0 vp.r up prev.tEnd Δ :=
    ⟨h.hu, h.hu.rest, h.hu.scale _, (UnitDir.le_one h.hd), le_rfl, hvp0.le, by linarith,
      ⟨hlo _ h.px, hlo _ h.py, hlo _ h.pz⟩, k2.le, hupD, h.t0, k3.le, t4,
      by rw [_root_.zero_add]; exact k1, h.rt⟩
  have okC : SegOk (prev.posEnd.add (u.mul up)) u ur (u.mul vp) (u.mul 0) vp.r 0 up (prev.tEnd + Δ) Δ :=
    ⟨h.hu, h.hu.scale _, h.hu.rest, (UnitDir.le_one h.hd), hvp0.le, le_rfl, by linarith,
      ⟨x1, y1, z1⟩, k2.le, hupD, t1, k3.le, t5, by rw [_root_.add_zero]; exact k1, Dbl.rounded_add _ _⟩
  have mA := okA.make
  have mC := okC.make
  set sA : Segment Dbl := ⟨prev.tEnd, prev.tEnd + Δ, prev.posEnd, u.mul 0, prev.posEnd.add (u.mul up), u.mul vp⟩
  set sC : Segment Dbl := ⟨prev.tEnd + Δ, prev.tEnd + Δ + Δ, prev.posEnd.add (u.mul up), u.mul vp,
    (prev.posEnd.add (u.mul up)).add (u.mul up), u.mul 0⟩
  have kA : keepSeg sA = [sA] := keepSeg_of_long h.hu h.hd ⟨hlo _ h.px, hlo _ h.py, hlo _ h.pz, hlo _ h.pe⟩ hup7 rfl rfl
  have kC : keepSeg sC = [sC] := keepSeg_of_long h.hu h.hd ⟨x1, y1, z1, e1⟩ hup7 rfl rfl
  have hrun : triang prev u B.pAcc vp 0 0 = .ok (keepSeg sA ++ keepSeg sC) := by
    show (do
      let sA ← Segment.make prev.tEnd (prev.tEnd + Δ) prev.posEnd (u.mul 0) (prev.posEnd.add (u.mul up)) (u.mul vp)
      let sC ← Segment.make (prev.tEnd + Δ) (prev.tEnd + Δ + Δ) (prev.posEnd.add (u.mul up)) (u.mul vp)
        ((prev.posEnd.add (u.mul up)).add (u.mul up)) (u.mul 0)
      Except.ok (keepSeg sA ++ keepSeg sC)) = _
    rw [mA, mC]
    rfl
  refine ⟨_, sA, sC, hrun, ?_, ?_⟩
  rotate_left
  · -- the inside
    have a1 := add_time h.t0 k3.le t4
    have a3 := add_time t1 k3.le t5
    have m1 := h.rt.le_add k3.le
    have m3 := (Dbl.rounded_add prev.tEnd Δ).le_add k3.le
    set E₁ := (prev.tEnd + Δ).r - prev.tEnd.r with hE₁
    set E₃ := (prev.tEnd + Δ + Δ).r - (prev.tEnd + Δ).r with hE₃
    have n1 : 0 ≤ E₁ := by linarith
    have n3 : 0 ≤ E₃ := by linarith
    have hρ : |vp.r - √(B.pAcc.r * D)| ≤ 30 * eps * √(B.pAcc.r * D) := by
      have := hpk.abs_sub (by norm_num)
      push_cast at this
      rw [abs_of_pos hw0] at this
      exact this.trans (by linarith)
    have hf := tri_profile ha0 hv0 hD h.hD' hDv n1 n3 hvp0.le hρ ((err_add a1 hdur).trans (by linarith))
      ((err_add a3 hdur).trans (by linarith))
    have hb1 := (Beside.start ur prev.posEnd).step h.hu (UnitDir.le_one h.hd)
      ⟨hlo _ h.px, hlo _ h.py, hlo _ h.pz, hlo _ h.pe⟩ k2.le hupD
    have hvv : vp.r ≤ 1.1 * B.speed.r := by
      have : eps * B.speed.r ≤ 1e-4 * B.speed.r := by gcongr; linarith
      linarith
    have f1 : |up.r - vp.r * (1 / 2) * E₁| ≤ 2.4e-8 + 1.43e-10 * B.speed.r :=
      way_fits hvp0.le hvv (by norm_num) (by norm_num) (by
        rw [show vp.r * (1 / 2) * Δ.r = vp.r / 2 * Δ.r by ring]; exact k1) k2.le hupD a1
    refine ⟨?_, ?_, ?_⟩
    · intro g hg
      simp only [List.mem_append] at hg
      rcases hg with hg | hg <;> rw [mem_keepSeg_dbl hg]
      · exact mid_A okA (hlo _ h.pe) hv0.le le_rfl rfl rfl rfl hf
      · refine mid_C okC e1 hv0.le n1 le_rfl rfl (hb1.mono (by norm_num)) ?_ (by rw [hE₁]; ring) rfl hf
        rw [show 0 + up.r - (vp.r * E₁ / 2 + vp.r * 0) = up.r - vp.r * (1 / 2) * E₁ by ring]
        exact f1.trans (by linarith)
    · intro g hg
      simp only [List.mem_append] at hg
      rcases hg with hg | hg <;> rw [mem_keepSeg_dbl hg]
      · exact m1
      · exact m3
    · rw [kA, kC]
      exact List.isChain_cons_cons.2 ⟨Or.inl rfl, List.isChain_singleton _⟩
  refine ⟨by rw [kA]; rfl, by rw [kC]; simp, rfl, rfl, dbl_mul_zero u, dbl_mul_zero u, Dbl.rounded_add _ _, t2, ?_,
    x3, y3, z3, e3, Dbl.rounded_add _ _, Dbl.rounded_add _ _, Dbl.rounded_add _ _, Dbl.rounded_add _ _, ?_⟩
  rotate_left
  · intro g hg
    simp only [List.mem_append] at hg
    rcases hg with hg | hg <;> rw [mem_keepSeg_dbl hg]
    · exact ⟨h.rt, Dbl.rounded_add _ _⟩
    · exact ⟨Dbl.rounded_add _ _, Dbl.rounded_add _ _⟩
  obtain ⟨c1, c2⟩ := abs_le.1 t7
  obtain ⟨c3, c4⟩ := abs_le.1 hsumT
  have : 400 * eps * T ≤ 1e-12 * T := by
    gcongr
    linarith
  show |(prev.tEnd + Δ + Δ).r - _| ≤ _
  rw [abs_le]
  constructor <;> linarith

/-- A block from rest to rest in double precision. -/
theorem planMove_dbl (h : MoveHyp prev u ur B d eo D) :
    ∃ segs bt s s', planMove prev u B d eo 0 = .ok (segs, bt) ∧
      MoveOut prev ur D (moveTime B.pAcc.r B.speed.r D 0 0) segs s s' ∧
      MoveMid prev ur (restDist B.pAcc.r B.speed.r D) B.speed.r segs := by
  have hv0 := h.hv
  have ha0 := h.ha
  obtain ⟨_, k2, _⟩ := ramp_kin hv0 ha0
  have hv : ¬ (B.speed < (0 : Dbl)) := by
    rw [Dbl.lt_iff, Dbl.r_zero]
    exact not_lt.2 hv0.le
  have hbeg : (if (Vec4.zero : Vec4 Dbl).norm3 < B.speed then (Vec4.zero : Vec4 Dbl).norm3 else B.speed) = 0 := by
    rw [dbl_norm3_zero, if_pos]
    rw [Dbl.lt_iff, Dbl.r_zero]
    exact hv0
  have hdown := ramp_down B.speed B.pAcc
  have hself : (rampUp B.speed B.pAcc + rampUp B.speed B.pAcc).r = 2 * (rampUp B.speed B.pAcc).r :=
    (Dbl.rounded_div _ _).add_self
  unfold planMove
  simp only [h.vel, hbeg, hdown]
  by_cases hlt : 2 * (rampUp B.speed B.pAcc).r < d.r
  · obtain ⟨segs, s, s', h1, h2⟩ := trapezoid_dbl h hlt
    refine ⟨segs, .trapezoid, s, s', ?_, h2⟩
    rw [if_pos, h1]
    · rfl
    · have hp : (0 : Dbl) < rampUp B.speed B.pAcc := by rw [Dbl.lt_iff, Dbl.r_zero]; exact k2
      refine ⟨?_, Or.inl hp, Or.inl hp⟩
      rw [Dbl.lt_iff, hself]
      exact hlt
  · obtain ⟨⟨h3, h4⟩, segs, s, s', h1, h2⟩ := triang_dbl h (not_lt.1 hlt) rfl
    refine ⟨segs, .triangle, s, s', ?_, h2⟩
    rw [if_neg, if_pos, h1]
    · rfl
    · refine ⟨?_, ?_, ?_⟩
      · rw [Dbl.lt_iff, Dbl.r_zero]; exact h3
      · rw [Dbl.lt_iff, Dbl.r_zero]; exact h3
      · by_cases hc : (PyMath.sqrt (B.pAcc * d + 0 * 0 / 2 + 0 * 0 / 2) : Dbl) < B.speed
        · exact Or.inl hc
        · right
          rw [Dbl.lt_iff] at hc
          exact close_of_rounding hv0 (not_lt.1 hc) h4
    · rintro ⟨hc, _⟩
      rw [Dbl.lt_iff, hself] at hc
      exact hlt hc

end

end PyGCD
