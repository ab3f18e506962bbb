import Verif.Proofs.DoubleSegment
import Verif.Proofs.Cover

/-!
# Positions inside a segment in double precision
-/

set_option linter.unusedSectionVars false
set_option linter.unusedSimpArgs false

namespace PyGCD
open PyGCD.Spec Vec4

/-- `a` is within `d` of `b`. A lemma to add up errors. -/
theorem err_add {a b c d e : ℝ} (h1 : |a - b| ≤ d) (h2 : |b - c| ≤ e) : |a - c| ≤ d + e := by
  have := abs_add_le (a - b) (b - c)
  rw [sub_add_sub_cancel] at this
  linarith

theorem Rel.err {n : ℕ} {x y c : ℝ} (h : Rel n x y) (hn : n ≤ 1000000) (hy : |y| ≤ c) {δ : ℝ} (hδ : 2 * n * eps * c ≤ δ) :
    |x - y| ≤ δ := (r_small h hn hy).trans hδ

/-- One coordinate of the velocity inside a segment. -/
theorem vel_error {w₀ w₁ dt τ : Dbl} {c s₀ s₁ E x : ℝ} (hw₀ : Rel 42 w₀.r (c * s₀)) (hw₁ : Rel 42 w₁.r (c * s₁))
    (hs₀ : 0 ≤ s₀) (hs₁ : 0 ≤ s₁) (hdt : Rel 1 dt.r E) (hτ : Rel 1 τ.r x) (hE : 0 < E) (hx : 0 ≤ x) (hxE : x ≤ E) :
    |(w₀ + (w₁ - w₀) / dt * τ).r - (c * s₀ + c * (s₁ - s₀) * (x / E))| ≤ 190 * eps * (|c| * (s₀ + s₁)) := by
  have he := eps_pos
  have he' := eps_lt
  set m := |c| * (s₀ + s₁) with hm
  have hm0 : 0 ≤ m := by positivity
  have hem : eps * m ≤ 1e-4 * m := by gcongr; linarith
  have hem0 : 0 ≤ eps * m := by positivity
  have b0 : |c * s₀| ≤ m := by
    rw [abs_mul, abs_of_nonneg hs₀, hm]
    have : 0 ≤ |c| * s₁ := by positivity
    linarith
  have b1 : |c * s₁| ≤ m := by
    rw [abs_mul, abs_of_nonneg hs₁, hm]
    have : 0 ≤ |c| * s₀ := by positivity
    linarith
  have b2 : |c * s₁| + |c * s₀| ≤ m := by
    rw [abs_mul, abs_mul, abs_of_nonneg hs₀, abs_of_nonneg hs₁, hm]
    linarith
  have k0 := hw₀.abs_sub (by norm_num)
  have k1 := hw₁.abs_sub (by norm_num)
  push_cast at k0 k1
  have kk : |(w₁.r - w₀.r) - c * (s₁ - s₀)| ≤ 84 * eps * m := by
    rw [show (w₁.r - w₀.r) - c * (s₁ - s₀) = (w₁.r - c * s₁) - (w₀.r - c * s₀) by ring]
    refine (abs_sub _ _).trans ?_
    have : 84 * eps * (|c * s₁| + |c * s₀|) ≤ 84 * eps * m := by gcongr
    linarith
  have bd : |c * (s₁ - s₀)| ≤ m := by
    rw [mul_sub]
    exact (abs_sub _ _).trans b2
  have hd1 : |w₁.r - w₀.r| ≤ 1.1 * m := by
    have := abs_add_le ((w₁.r - w₀.r) - c * (s₁ - s₀)) (c * (s₁ - s₀))
    rw [sub_add_cancel] at this
    linarith
  have hd2 := (Dbl.r_sub w₁ w₀).err (by norm_num) hd1 (δ := 3 * (eps * m)) (by push_cast; linarith)
  have hd3 : |(w₁ - w₀).r - c * (s₁ - s₀)| ≤ 87 * (eps * m) := (err_add hd2 kk).trans (by linarith)
  have hd4 : |(w₁ - w₀).r| ≤ 1.1 * m := by
    have := abs_add_le ((w₁ - w₀).r - c * (s₁ - s₀)) (c * (s₁ - s₀))
    rw [sub_add_cancel] at this
    linarith
  -- the share of the change of the velocity
  have hq : Rel 4 ((w₁ - w₀) / dt * τ).r ((w₁ - w₀).r / E * x) :=
    (Dbl.r_mul _ _).trans (((Dbl.r_div _ _).trans ((Rel.refl 0 _).div hdt)).mul hτ)
  have hxE0 : 0 ≤ x / E := by positivity
  have hxE1 : x / E ≤ 1 := (div_le_one hE).2 hxE
  have scale : ∀ {a b : ℝ}, |a| ≤ b → |a * (x / E)| ≤ b := by
    intro a b h
    rw [abs_mul, abs_of_nonneg hxE0]
    calc |a| * (x / E) ≤ |a| * 1 := by gcongr
      _ ≤ b := by rw [mul_one]; exact h
  rw [show (w₁ - w₀).r / E * x = (w₁ - w₀).r * (x / E) by ring] at hq
  have hq1 := hq.err (by norm_num) (scale hd4) (δ := 9 * (eps * m)) (by push_cast; linarith)
  have hq2 : |((w₁ - w₀) / dt * τ).r - c * (s₁ - s₀) * (x / E)| ≤ 96 * (eps * m) := by
    have : |(w₁ - w₀).r * (x / E) - c * (s₁ - s₀) * (x / E)| ≤ 87 * (eps * m) := by
      rw [← sub_mul]
      exact scale hd3
    exact (err_add hq1 this).trans (by linarith)
  -- the sum
  have hs1 : |w₀.r + ((w₁ - w₀) / dt * τ).r - (c * s₀ + c * (s₁ - s₀) * (x / E))| ≤ 180 * (eps * m) := by
    rw [show w₀.r + ((w₁ - w₀) / dt * τ).r - (c * s₀ + c * (s₁ - s₀) * (x / E)) =
      (w₀.r - c * s₀) + (((w₁ - w₀) / dt * τ).r - c * (s₁ - s₀) * (x / E)) by ring]
    refine (abs_add_le _ _).trans ?_
    have : 84 * eps * |c * s₀| ≤ 84 * eps * m := by gcongr
    linarith
  have hs2 : |w₀.r + ((w₁ - w₀) / dt * τ).r| ≤ 2.1 * m := by
    have h3 := abs_add_le (w₀.r + ((w₁ - w₀) / dt * τ).r - (c * s₀ + c * (s₁ - s₀) * (x / E)))
      (c * s₀ + c * (s₁ - s₀) * (x / E))
    rw [sub_add_cancel] at h3
    have h4 := abs_add_le (c * s₀) (c * (s₁ - s₀) * (x / E))
    have h5 := scale bd
    linarith
  have hs3 := (Dbl.r_add w₀ ((w₁ - w₀) / dt * τ)).err (by norm_num) hs2 (δ := 5 * (eps * m)) (by push_cast; linarith)
  exact (err_add hs3 hs1).trans (by linarith)

/-- The magnitude of the velocity inside a segment. -/
theorem vel_bound {c s₀ s₁ y : ℝ} (hs₀ : 0 ≤ s₀) (hs₁ : 0 ≤ s₁) (h0 : 0 ≤ y) (h1 : y ≤ 1) :
    |c * s₀ + c * (s₁ - s₀) * y| ≤ |c| * (s₀ + s₁) := by
  rw [show c * s₀ + c * (s₁ - s₀) * y = c * (s₀ * (1 - y) + s₁ * y) by ring, abs_mul]
  have : 0 ≤ s₀ * (1 - y) + s₁ * y := by
    have := mul_nonneg hs₀ (sub_nonneg.2 h1)
    have := mul_nonneg hs₁ h0
    linarith
  rw [abs_of_nonneg this]
  have h2 : s₀ * (1 - y) + s₁ * y ≤ s₀ + s₁ := by nlinarith
  gcongr

/-- One coordinate of the position inside a segment of positive duration. -/
theorem pos_error {p w₀ w₁ dt τ : Dbl} {c s₀ s₁ E x : ℝ} (hw₀ : Rel 42 w₀.r (c * s₀)) (hw₁ : Rel 42 w₁.r (c * s₁))
    (hc : |c| ≤ 1) (hs₀ : 0 ≤ s₀) (hs₁ : 0 ≤ s₁) (hdt : Rel 1 dt.r E) (hτ : Rel 1 τ.r x) (hE : 0 < E) (hx : 0 ≤ x)
    (hxE : x ≤ E) (hp : |p.r| ≤ 1000000) (hs : (s₀ + s₁) * E ≤ 2100000) :
    |(p + (w₀ + (w₀ + (w₁ - w₀) / dt * τ)) * τ / 2).r - (p.r + c * (s₀ * x + (s₁ - s₀) * x ^ 2 / (2 * E)))| ≤ 5e-8 := by
  have he := eps_pos
  have he' := eps_lt
  have hv := vel_error hw₀ hw₁ hs₀ hs₁ hdt hτ hE hx hxE
  have hxE0 : 0 ≤ x / E := by positivity
  have hxE1 : x / E ≤ 1 := (div_le_one hE).2 hxE
  have hb := vel_bound (c := c) hs₀ hs₁ hxE0 hxE1
  set vel := w₀ + (w₁ - w₀) / dt * τ with hvel
  set y := c * s₀ + c * (s₁ - s₀) * (x / E) with hy
  set m := |c| * (s₀ + s₁) with hm
  have hm0 : 0 ≤ m := by positivity
  have hem : eps * m ≤ 1e-4 * m := by gcongr; linarith
  have hem0 : 0 ≤ eps * m := by positivity
  have b0 : |c * s₀| ≤ m := by
    rw [abs_mul, abs_of_nonneg hs₀, hm]
    have : 0 ≤ |c| * s₁ := by positivity
    linarith
  have k0 := hw₀.err (by norm_num) b0 (δ := 84 * (eps * m)) (by push_cast; linarith)
  have s1 : |w₀.r + vel.r - (c * s₀ + y)| ≤ 274 * (eps * m) := by
    rw [show w₀.r + vel.r - (c * s₀ + y) = (w₀.r - c * s₀) + (vel.r - y) by ring]
    refine (abs_add_le _ _).trans ?_
    linarith
  have s2 : |c * s₀ + y| ≤ 2 * m := (abs_add_le _ _).trans (by linarith)
  have s3 : |w₀.r + vel.r| ≤ 2.1 * m := by
    have := abs_add_le (w₀.r + vel.r - (c * s₀ + y)) (c * s₀ + y)
    rw [sub_add_cancel] at this
    linarith
  have s4 := (Dbl.r_add w₀ vel).err (by norm_num) s3 (δ := 5 * (eps * m)) (by push_cast; linarith)
  have s5 : |(w₀ + vel).r - (c * s₀ + y)| ≤ 280 * (eps * m) := (err_add s4 s1).trans (by linarith)
  have s6 : |(w₀ + vel).r| ≤ 2.1 * m := by
    have := abs_add_le ((w₀ + vel).r - (c * s₀ + y)) (c * s₀ + y)
    rw [sub_add_cancel] at this
    linarith
  -- the distance
  have hM : Rel 3 ((w₀ + vel) * τ / 2).r ((w₀ + vel).r * x / 2) := by
    have := (Dbl.r_div ((w₀ + vel) * τ) 2).trans (((Dbl.r_mul _ _).trans ((Rel.refl 0 _).mul hτ)).div (Rel.refl 0 (2 : Dbl).r))
    rwa [Dbl.r_two] at this
  have hmx : m * x ≤ 2100000 := by
    calc m * x ≤ 1 * (s₀ + s₁) * E := by rw [hm]; gcongr
      _ ≤ 2100000 := by linarith
  have hmx0 : 0 ≤ m * x := by positivity
  have d1 : |(w₀ + vel).r * x / 2| ≤ 1.05 * (m * x) := by
    rw [abs_div, abs_mul, abs_of_nonneg hx, abs_two]
    have : |(w₀ + vel).r| * x ≤ 2.1 * m * x := by gcongr
    linarith
  have d2 := hM.err (by norm_num) d1 (δ := 7 * (eps * (m * x))) (by
    have : 0 ≤ eps * (m * x) := by positivity
    push_cast
    linarith)
  have d3 : |(w₀ + vel).r * x / 2 - (c * s₀ + y) * x / 2| ≤ 140 * (eps * (m * x)) := by
    rw [← sub_div, ← sub_mul, abs_div, abs_mul, abs_of_nonneg hx, abs_two]
    have : |(w₀ + vel).r - (c * s₀ + y)| * x ≤ 280 * (eps * m) * x := by gcongr
    linarith
  have d4 : (c * s₀ + y) * x / 2 = c * (s₀ * x + (s₁ - s₀) * x ^ 2 / (2 * E)) := by
    rw [hy]
    field_simp
    ring
  rw [d4] at d3
  have heps : eps * (m * x) ≤ 1.2e-16 * 2100000 := by gcongr
  have d5 : |((w₀ + vel) * τ / 2).r - c * (s₀ * x + (s₁ - s₀) * x ^ 2 / (2 * E))| ≤ 4e-8 :=
    (err_add d2 d3).trans (by linarith)
  have d6 : |c * (s₀ * x + (s₁ - s₀) * x ^ 2 / (2 * E))| ≤ 2100000 := by
    rw [← d4, abs_div, abs_mul, abs_of_nonneg hx, abs_two]
    have : |c * s₀ + y| * x ≤ 2 * m * x := by gcongr
    linarith
  have d7 : |p.r + ((w₀ + vel) * τ / 2).r| ≤ 4000000 := by
    obtain ⟨a1, a2⟩ := abs_le.1 d5
    obtain ⟨a3, a4⟩ := abs_le.1 d6
    obtain ⟨a5, a6⟩ := abs_le.1 hp
    rw [abs_le]
    constructor <;> linarith
  have d8 := (Dbl.r_add p ((w₀ + vel) * τ / 2)).err (by norm_num) d7 (δ := 1e-9) (by push_cast; linarith)
  have d9 : |p.r + ((w₀ + vel) * τ / 2).r - (p.r + c * (s₀ * x + (s₁ - s₀) * x ^ 2 / (2 * E)))| ≤ 4e-8 := by
    rw [add_sub_add_left_eq_sub]
    exact d5
  exact (err_add d8 d9).trans (by norm_num)

/-- One coordinate of `get_position` inside a segment. -/
def posCoord (p w₀ w₁ tb te t : Dbl) : Dbl :=
  p + (w₀ + (w₀ + (if 0 < te - tb then (w₁ - w₀) / (te - tb) else 0) * (t - tb))) * (t - tb) / 2

theorem getPosition_dbl {g : Segment Dbl} {t : Dbl} (h0 : g.tBegin.r ≤ t.r) (h1 : t.r ≤ g.tEnd.r) :
    g.getPosition t = .ok ⟨posCoord g.posBegin.x g.velBegin.x g.velEnd.x g.tBegin g.tEnd t,
      posCoord g.posBegin.y g.velBegin.y g.velEnd.y g.tBegin g.tEnd t,
      posCoord g.posBegin.z g.velBegin.z g.velEnd.z g.tBegin g.tEnd t,
      posCoord g.posBegin.e g.velBegin.e g.velEnd.e g.tBegin g.tEnd t⟩ := by
  have hr : ¬ (t < g.tBegin ∨ g.tEnd < t) := by
    rw [Dbl.lt_iff, Dbl.lt_iff]
    push Not
    exact ⟨h0, h1⟩
  unfold Segment.getPosition Segment.getVelocity
  simp only [if_neg hr, bind, Except.bind]
  by_cases hd : (0 : Dbl) < g.tEnd - g.tBegin
  · simp only [posCoord, if_pos hd, Vec4.add, Vec4.mul, Vec4.div, Vec4.sub]
  · simp only [posCoord, if_neg hd, Vec4.add, Vec4.mul, Vec4.div, Vec4.sub, Vec4.zero]

theorem posCoord_error {p w₀ w₁ tb te t : Dbl} {c s₀ s₁ : ℝ} (hw₀ : Rel 42 w₀.r (c * s₀)) (hw₁ : Rel 42 w₁.r (c * s₁))
    (hc : |c| ≤ 1) (hs₀ : 0 ≤ s₀) (hs₁ : 0 ≤ s₁) (h0 : tb.r ≤ t.r) (h1 : t.r ≤ te.r) (hp : |p.r| ≤ 1000000)
    (hs : (s₀ + s₁) * (te.r - tb.r) ≤ 2100000) :
    |(posCoord p w₀ w₁ tb te t).r -
      (p.r + c * (s₀ * (t.r - tb.r) + (s₁ - s₀) * (t.r - tb.r) ^ 2 / (2 * (te.r - tb.r))))| ≤ 5e-8 := by
  have he := eps_pos
  have he' := eps_lt
  have hdt := Dbl.r_sub te tb
  have hτ := Dbl.r_sub t tb
  unfold posCoord
  rcases (h0.trans h1).lt_or_eq with hE | hE
  · rw [if_pos (by rw [Dbl.lt_iff, Dbl.r_zero]; exact hdt.pos (by linarith))]
    exact pos_error hw₀ hw₁ hc hs₀ hs₁ hdt hτ (by linarith) (by linarith) (by linarith) hp hs
  · have hx : t.r - tb.r = 0 := by linarith
    rw [hx] at hτ ⊢
    have hz : t - tb = 0 := (Dbl.eq_zero_iff _).2 hτ.zero
    rw [hz, Dbl.mul_zero, Dbl.zero_div]
    simp only [MulZeroClass.mul_zero, ne_eq, OfNat.ofNat_ne_zero, not_false_eq_true, zero_pow, zero_div, _root_.add_zero]
    have := (Dbl.r_add p 0).err (by norm_num) (c := 1000000) (δ := 1e-9) (by rw [Dbl.r_zero, _root_.add_zero]; exact hp)
      (by push_cast; linarith)
    rw [Dbl.r_zero, _root_.add_zero] at this
    linarith

/-- Within `δ` in x, y and z, and in e if no more than the length of the way is extruded. -/
structure Beside (δ : ℝ) (ur : Vec4 ℝ) (p : Vec4 Dbl) (q : Vec4 ℝ) : Prop where
  x : |p.x.r - q.x| ≤ δ
  y : |p.y.r - q.y| ≤ δ
  z : |p.z.r - q.z| ≤ δ
  e : |ur.e| ≤ 1 → |p.e.r - q.e| ≤ δ

theorem mid_coord {pos pb P c l q κ f : ℝ} (hc : |c| ≤ 1) (h1 : |pos - (pb + c * q)| ≤ 5e-8)
    (h2 : |pb - (P + c * l)| ≤ 3e-8) (h3 : |l + q - f| ≤ κ) : |pos - (P + c * f)| ≤ 8e-8 + κ := by
  have h4 : |c * (l + q - f)| ≤ κ := by
    rw [abs_mul]
    calc |c| * |l + q - f| ≤ 1 * |l + q - f| := by gcongr
      _ ≤ κ := by rw [one_mul]; exact h3
  have h5 : |pb + c * q - (P + c * f)| ≤ 3e-8 + κ := by
    rw [show pb + c * q - (P + c * f) = (pb - (P + c * l)) + c * (l + q - f) by ring]
    exact (abs_add_le _ _).trans (by linarith)
  exact (err_add h1 h5).trans (by linarith)

/-- The end of a segment in time. -/
theorem add_time {t Δ : Dbl} (ht : 0 ≤ t.r) (hd : 0 ≤ Δ.r) (hb : t.r + Δ.r ≤ 500000) :
    |(t + Δ).r - t.r - Δ.r| ≤ 1.3e-10 := by
  have he := eps_pos
  have he' := eps_lt
  have h1 := (Dbl.r_add t Δ).err (by norm_num) (c := 500000) (δ := 1.3e-10)
    (by rw [abs_of_nonneg (by linarith)]; exact hb) (by push_cast; linarith)
  rwa [sub_sub]

/-- The positions inside a segment follow `f`. -/
theorem SegOk.mid {P p u : Vec4 Dbl} {ur : Vec4 ℝ} {w₀ w₁ : Vec4 Dbl} {s₀ s₁ : ℝ} {L t Δ : Dbl}
    (h : SegOk p u ur w₀ w₁ s₀ s₁ L t Δ) (he : |p.e.r| ≤ 1000000) {g : Segment Dbl}
    (hg : g = ⟨t, t + Δ, p, w₀, p.add (u.mul L), w₁⟩) {l κ : ℝ} {f : ℝ → ℝ}
    (hb : Beside 3e-8 ur p (P.real.add (ur.mul l)))
    (hf : ∀ x, 0 ≤ x → x ≤ (t + Δ).r - t.r →
      |l + (s₀ * x + (s₁ - s₀) * x ^ 2 / (2 * ((t + Δ).r - t.r))) - f (t.r + x)| ≤ κ) :
    ∀ s : Dbl, g.tBegin.r ≤ s.r → s.r ≤ g.tEnd.r →
      ∃ q, g.getPosition s = .ok q ∧ Beside (8e-8 + κ) ur q (P.real.add (ur.mul (f s.r))) := by
  intro s hs0 hs1
  refine ⟨_, getPosition_dbl hs0 hs1, ?_⟩
  subst hg
  have hlen : (s₀ + s₁) * ((t + Δ).r - t.r) ≤ 2100000 := by
    have h0 := eps_pos
    have h0' := eps_lt
    have h1 := add_time h.ht h.hd h.hb
    have h2 := h.hk.err (by norm_num) (c := 1000000) (δ := 3e-8)
      (by rw [abs_of_nonneg h.hL]; exact h.hL') (by push_cast; linarith)
    have h3 := (abs_le.1 h1).2
    have h4 := (abs_le.1 h2).2
    have h5 := h.hL'
    have h6 : (s₀ + s₁) * ((t + Δ).r - t.r) ≤ (s₀ + s₁) * (Δ.r + 1.3e-10) := by
      have := h.hs₀
      have := h.hs₁
      gcongr
      linarith
    have := h.hs
    linarith
  have hx := hf (s.r - t.r) (by simp only at hs0; linarith) (by simp only at hs1; linarith)
  rw [add_sub_cancel] at hx
  refine ⟨?_, ?_, ?_, ?_⟩
  · exact mid_coord h.hc.1 (posCoord_error h.hw₀.x h.hw₁.x h.hc.1 h.hs₀ h.hs₁ hs0 hs1 h.hp.1 hlen) hb.x hx
  · exact mid_coord h.hc.2.1 (posCoord_error h.hw₀.y h.hw₁.y h.hc.2.1 h.hs₀ h.hs₁ hs0 hs1 h.hp.2.1 hlen) hb.y hx
  · exact mid_coord h.hc.2.2 (posCoord_error h.hw₀.z h.hw₁.z h.hc.2.2 h.hs₀ h.hs₁ hs0 hs1 h.hp.2.2 hlen) hb.z hx
  · intro hc
    exact mid_coord hc (posCoord_error h.hw₀.e h.hw₁.e hc h.hs₀ h.hs₁ hs0 hs1 he hlen) (hb.e hc) hx

end PyGCD
