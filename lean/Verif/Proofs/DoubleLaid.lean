import Verif.Proofs.DoubleTracked
import Verif.Spec.OnPath

/-!
# The answers to queries in double precision are on the programmed path
-/

set_option linter.unusedSectionVars false
set_option linter.unusedSimpArgs false

namespace PyGCD
open PyGCD.Spec Vec4

theorem Lim.small {F a : ℝ} {v : Dbl} (h : Lim F a v) (hF : 0 ≤ F) (ha : a ≤ 1e9) : v.r ≤ 1.0001 * F + 6 := by
  by_contra hc
  push Not at hc
  have h1 : (1.0001 * F + 6) * (1.0001 * F + 6) < v.r * v.r := mul_self_lt_mul_self (by positivity) hc
  have h2 := h.2
  have h3 := mul_self_nonneg F
  linarith

/-- The way travelled in a segment. -/
noncomputable def inner (v w x E : ℝ) : ℝ := v * x + (w - v) * x ^ 2 / (2 * E)

theorem inner_bounds {v w x E : ℝ} (hv : 0 ≤ v) (hw : 0 ≤ w) (h0 : 0 ≤ x) (h1 : x ≤ E) :
    0 ≤ inner v w x E ∧ inner v w x E ≤ (v + w) / 2 * E := by
  unfold inner
  rcases (h0.trans h1).lt_or_eq with hE | hE
  · have hy : ∃ y, 0 ≤ y ∧ y ≤ 1 ∧ x = y * E := ⟨x / E, by positivity, by rw [div_le_one hE]; exact h1, by field_simp⟩
    obtain ⟨y, y0, y1, rfl⟩ := hy
    have e : v * (y * E) + (w - v) * (y * E) ^ 2 / (2 * E) = (v * (y * (2 - y)) + w * y ^ 2) / 2 * E := by
      field_simp
      ring
    rw [e]
    have a1 : 0 ≤ y * (2 - y) := mul_nonneg y0 (by linarith)
    have a2 : y * (2 - y) ≤ 1 := by nlinarith [sq_nonneg (1 - y)]
    have a3 : y ^ 2 ≤ 1 := by nlinarith
    constructor
    · positivity
    · gcongr
      · nlinarith
      · nlinarith
  · have : x = 0 := by linarith
    subst this
    rw [← hE]
    simp

/-- The point of the way inside a block, and how it may lie outside of the move. -/
structure Point (D η : ℝ) (Ls pre post : List Dbl) (L : Dbl) (v w x E : ℝ) : Prop where
  lo : -η ≤ (pre.map Dbl.r).sum + inner v w x E
  hi : (pre.map Dbl.r).sum + inner v w x E ≤ D + η
  dur : (v + w) * E ≤ 2.3 * D + 2e-9 * (v + w)

theorem sum_lower {m : ℝ} (hm : 0 ≤ m) : ∀ {l : List Dbl} {k : ℕ}, l.length ≤ k → (∀ L ∈ l, -m ≤ L.r) →
    -(k * m) ≤ (l.map Dbl.r).sum
  | [], k, _, _ => by
    have : 0 ≤ (k : ℝ) * m := by positivity
    simpa using this
  | a :: l, 0, h, _ => by simp at h
  | a :: l, k + 1, h, hl => by
    have h1 := sum_lower hm (l := l) (k := k) (by simpa using h) (fun L hL => hl L (List.mem_cons_of_mem _ hL))
    have h2 := hl a (by simp)
    rw [List.map_cons, List.sum_cons]
    push_cast
    linarith

theorem mem_abs_le_sum : ∀ {l : List Dbl} {L : Dbl}, L ∈ l → |L.r| ≤ (l.map fun L => |L.r|).sum
  | a :: l, L, h => by
    have hn : 0 ≤ (l.map fun L : Dbl => |L.r|).sum := by
      apply List.sum_nonneg
      intro x hx
      obtain ⟨y, _, rfl⟩ := List.mem_map.1 hx
      exact abs_nonneg _
    rw [List.map_cons, List.sum_cons]
    rcases List.mem_cons.1 h with rfl | h
    · linarith
    · have := mem_abs_le_sum h
      have := abs_nonneg a.r
      linarith

theorem abs_sum_map_le (f : Dbl → ℝ) : ∀ l : List Dbl, |(l.map f).sum| ≤ (l.map fun L => |f L|).sum
  | [] => by simp
  | a :: l => by
    rw [List.map_cons, List.sum_cons, List.map_cons, List.sum_cons]
    have := abs_sum_map_le f l
    exact (abs_add_le _ _).trans (by linarith)

theorem laid_point {D W F a : ℝ} {Ls pre post : List Dbl} {L v w : Dbl} {s : Segment Dbl} {t : Dbl} (hp : Pieces D W Ls)
    (hlen : Ls.length ≤ 3) (hlow : ∀ L ∈ Ls, -(1.2e-8 + 10 * eps * D + 40 * eps * W) ≤ L.r) (hD : 0 ≤ D) (hD' : D ≤ 400000)
    (hW : 0 ≤ W) (hW' : W ≤ 10000) (hLs : Ls = pre ++ L :: post) (hv : Lim F a v) (hw : Lim F a w) (hF : 0 ≤ F)
    (ha : a ≤ 1e9) (hag : WayAgrees v.r w.r s L.r 1e-9) (h0 : s.tBegin.r ≤ t.r) (h1 : t.r ≤ s.tEnd.r) :
    Point D (1.2e-7 + 1.1e-9 * F) Ls pre post L v.r w.r (t.r - s.tBegin.r) (s.tEnd.r - s.tBegin.r) := by
  have he := eps_pos
  have he' := eps_lt
  obtain ⟨s1, s2⟩ := hp
  have eD : eps * D ≤ 1.2e-16 * 400000 := mul_le_mul he'.le hD' hD (by norm_num)
  have eW : eps * W ≤ 1.2e-16 * 10000 := mul_le_mul he'.le hW' hW (by norm_num)
  have eD0 : 0 ≤ eps * D := by positivity
  have eD1 : eps * D ≤ 1.2e-16 * D := by gcongr
  have eW0 : 0 ≤ eps * W := by positivity
  have hL : |L.r| ≤ 1.1 * D := (mem_abs_le_sum (by rw [hLs]; simp)).trans s2
  have eL : eps * |L.r| ≤ eps * (1.1 * D) := by gcongr
  have hlow' : ∀ L ∈ Ls, -(1.3e-8 : ℝ) ≤ L.r := fun L hL => le_trans (by linarith) (hlow L hL)
  have hsum : (Ls.map Dbl.r).sum = (pre.map Dbl.r).sum + (L.r + (post.map Dbl.r).sum) := by
    rw [hLs, List.map_append, List.sum_append, List.map_cons, List.sum_cons]
  have hlen' : pre.length + post.length ≤ 2 := by
    rw [hLs] at hlen
    simp at hlen
    omega
  have q1 := sum_lower (m := 1.3e-8) (by norm_num) (l := pre) (k := 2) (by omega)
    (fun L hL => hlow' L (by rw [hLs]; simp [hL]))
  have q2 := sum_lower (m := 1.3e-8) (by norm_num) (l := post) (k := 2) (by omega)
    (fun L hL => hlow' L (by rw [hLs]; simp [hL]))
  push_cast at q1 q2
  have b := inner_bounds hv.1 hw.1 (x := t.r - s.tBegin.r) (E := s.tEnd.r - s.tBegin.r) (by linarith) (by linarith)
  have v1 := hv.small hF ha
  have w1 := hw.small hF ha
  unfold WayAgrees at hag
  have hg := abs_le.1 hag
  have hs := abs_le.1 s1
  have hv0 := hv.1
  have hw0 := hw.1
  have hLr := le_abs_self L.r
  constructor
  · linarith
  · linarith
  · linarith

/-- One coordinate of a position inside a segment. -/
theorem laid_coord {u P v w : Dbl} {c D W F η : ℝ} {Ls pre post : List Dbl} {L tb te t : Dbl} (hu : Rel 41 u.r c)
    (hLs : Ls = pre ++ L :: post) (hp : Pieces D W Ls) (hlen : Ls.length ≤ 3) (hv : 0 ≤ v.r) (hw : 0 ≤ w.r)
    (hv' : v.r ≤ 1.0001 * F + 6) (hw' : w.r ≤ 1.0001 * F + 6) (hF : F ≤ 100000) (hD : 0 ≤ D) (hD' : D ≤ 400000)
    (hcD : |c * D| ≤ 200000) (hc : |c| ≤ 100) (hP : |P.r| ≤ 150000) (h0 : tb.r ≤ t.r) (h1 : t.r ≤ te.r)
    (hpt : Point D η Ls pre post L v.r w.r (t.r - tb.r) (te.r - tb.r)) :
    |(posCoord (walk1 u P pre) (u * v) (u * w) tb te t).r -
      (P.r + c * ((pre.map Dbl.r).sum + inner v.r w.r (t.r - tb.r) (te.r - tb.r)))| ≤ 6e-8 := by
  have he := eps_pos
  have he' := eps_lt
  have hc0 := abs_nonneg c
  have hcD' : |c| * D ≤ 200000 := by rwa [abs_mul, abs_of_nonneg hD] at hcD
  have hpre : (pre.map (fun L : Dbl => |L.r|)).sum ≤ 1.1 * D := by
    refine le_trans ?_ hp.2
    rw [hLs, List.map_append, List.sum_append]
    have : 0 ≤ ((L :: post).map fun L : Dbl => |L.r|).sum := by
      apply List.sum_nonneg
      intro x hx
      obtain ⟨y, _, rfl⟩ := List.mem_map.1 hx
      exact abs_nonneg _
    linarith
  have hsum : (pre.map (fun L => |c * L.r|)).sum ≤ 220000 := by
    have : (pre.map (fun L => |c * L.r|)).sum = |c| * (pre.map (fun L => |L.r|)).sum := by
      rw [← List.sum_map_mul_left]
      simp only [abs_mul]
    rw [this]
    have h1 : |c| * (pre.map (fun L => |L.r|)).sum ≤ |c| * (1.1 * D) := by gcongr
    linarith
  have hl : (pre.length : ℝ) ≤ 3 := by
    have : pre.length ≤ 3 := by
      rw [hLs] at hlen
      simp at hlen
      omega
    exact_mod_cast this
  have w1 := walk1_error hu pre P (by linarith)
  have w2 : |(walk1 u P pre).r - (P.r + c * (pre.map Dbl.r).sum)| ≤ 1e-8 := by
    refine w1.trans ?_
    have h3 : (pre.length : ℝ) * (2 * eps * 400000) ≤ 3 * (2 * eps * 400000) := by gcongr
    have h4 : eps * (pre.map (fun L => |c * L.r|)).sum ≤ eps * 220000 := by gcongr
    linarith
  have hcs : |c * (pre.map Dbl.r).sum| ≤ 220000 := by
    rw [← List.sum_map_mul_left]
    refine le_trans ?_ hsum
    exact abs_sum_map_le _ pre
  have hpb : |(walk1 u P pre).r| ≤ 1000000 := by
    rw [abs_le] at w2 hcs hP ⊢
    constructor <;> linarith
  -- scale the direction to length one
  set κ := max 1 |c| with hκ
  have k1 : 1 ≤ κ := le_max_left _ _
  have k2 : |c| ≤ κ := le_max_right _ _
  have k3 : κ ≤ 100 := max_le (by norm_num) hc
  have hκD : κ * D ≤ 400000 := by
    rcases max_cases 1 |c| with ⟨e, _⟩ | ⟨e, _⟩
    · rw [hκ, e]; linarith
    · rw [hκ, e]; linarith
  have hu0 : Rel 42 (u * v).r (c * v.r) := (Dbl.r_mul u v).trans (hu.mul (Rel.refl 0 v.r))
  have hu1 : Rel 42 (u * w).r (c * w.r) := (Dbl.r_mul u w).trans (hu.mul (Rel.refl 0 w.r))
  have hk0 : κ ≠ 0 := by positivity
  have e0 : c * v.r = c / κ * (κ * v.r) := by field_simp
  have e1 : c * w.r = c / κ * (κ * w.r) := by field_simp
  rw [e0] at hu0
  rw [e1] at hu1
  have hvw : κ * (v.r + w.r) ≤ 100 * 210000 := mul_le_mul k3 (by linarith) (by linarith) (by norm_num)
  have hE := hpt.dur
  have main := posCoord_error (p := walk1 u P pre) (tb := tb) (te := te) (t := t) hu0 hu1
    (by rw [abs_div, abs_of_pos (by positivity : 0 < κ), div_le_one (by positivity)]; exact k2) (by positivity) (by positivity)
    h0 h1 hpb (by
      have : κ * ((v.r + w.r) * (te.r - tb.r)) ≤ κ * (2.3 * D + 2e-9 * (v.r + w.r)) := by gcongr
      linarith)
  have e2 : c / κ * (κ * v.r * (t.r - tb.r) + (κ * w.r - κ * v.r) * (t.r - tb.r) ^ 2 / (2 * (te.r - tb.r))) =
      c * inner v.r w.r (t.r - tb.r) (te.r - tb.r) := by
    unfold inner
    rw [← mul_sub, mul_assoc κ, mul_assoc κ, mul_div_assoc κ, ← mul_add, ← mul_assoc, div_mul_cancel₀ _ hk0]
  rw [e2] at main
  have := err_add main (show |(walk1 u P pre).r + c * inner v.r w.r (t.r - tb.r) (te.r - tb.r) - (P.r + c * ((pre.map Dbl.r).sum +
      inner v.r w.r (t.r - tb.r) (te.r - tb.r)))| ≤ 1e-8 by
    rw [show (walk1 u P pre).r + c * inner v.r w.r (t.r - tb.r) (te.r - tb.r) - (P.r + c * ((pre.map Dbl.r).sum +
      inner v.r w.r (t.r - tb.r) (te.r - tb.r))) = (walk1 u P pre).r - (P.r + c * (pre.map Dbl.r).sum) by ring]
    exact w2)
  linarith


/-- One coordinate of the velocity that is answered. -/
def velCoord (w₀ w₁ tb te t : Dbl) : Dbl :=
  w₀ + (if 0 < te - tb then (w₁ - w₀) / (te - tb) else 0) * (t - tb)

theorem getVelocity_dbl {g : Segment Dbl} {t : Dbl} (h0 : g.tBegin.r ≤ t.r) (h1 : t.r ≤ g.tEnd.r) :
    g.getVelocity t = .ok ⟨velCoord g.velBegin.x g.velEnd.x g.tBegin g.tEnd t, velCoord g.velBegin.y g.velEnd.y g.tBegin g.tEnd t,
      velCoord g.velBegin.z g.velEnd.z g.tBegin g.tEnd t, velCoord g.velBegin.e g.velEnd.e g.tBegin g.tEnd t⟩ := by
  have hr : ¬ (t < g.tBegin ∨ g.tEnd < t) := by
    rw [Dbl.lt_iff, Dbl.lt_iff]
    push Not
    exact ⟨h0, h1⟩
  unfold Segment.getVelocity
  simp only [if_neg hr, bind, Except.bind]
  by_cases hd : (0 : Dbl) < g.tEnd - g.tBegin
  · simp only [velCoord, if_pos hd, Vec4.add, Vec4.mul, Vec4.div, Vec4.sub]
  · simp only [velCoord, if_neg hd, Vec4.add, Vec4.mul, Vec4.div, Vec4.sub, Vec4.zero]

/-- The part of the time that has passed. -/
noncomputable def portion (x E : ℝ) : ℝ := if 0 < E then x / E else 0

theorem portion_mem {x E : ℝ} (h0 : 0 ≤ x) (h1 : x ≤ E) : 0 ≤ portion x E ∧ portion x E ≤ 1 := by
  unfold portion
  split
  · rename_i h
    exact ⟨by positivity, by rw [div_le_one h]; exact h1⟩
  · exact ⟨le_rfl, zero_le_one⟩

theorem velCoord_error {u v w tb te t : Dbl} {c : ℝ} (hu : Rel 41 u.r c) (hv : 0 ≤ v.r) (hw : 0 ≤ w.r) (h0 : tb.r ≤ t.r)
    (h1 : t.r ≤ te.r) : |(velCoord (u * v) (u * w) tb te t).r - c * (v.r + (w.r - v.r) * portion (t.r - tb.r) (te.r - tb.r))| ≤
      190 * eps * (|c| * (v.r + w.r)) := by
  have he := eps_pos
  have hu0 : Rel 42 (u * v).r (c * v.r) := (Dbl.r_mul u v).trans (hu.mul (Rel.refl 0 v.r))
  have hu1 : Rel 42 (u * w).r (c * w.r) := (Dbl.r_mul u w).trans (hu.mul (Rel.refl 0 w.r))
  have hdt := Dbl.r_sub te tb
  have hτ := Dbl.r_sub t tb
  unfold velCoord portion
  rcases (h0.trans h1).lt_or_eq with hE | hE
  · rw [if_pos (by rw [Dbl.lt_iff, Dbl.r_zero]; exact hdt.pos (by linarith)), if_pos (by linarith)]
    have := vel_error hu0 hu1 hv hw hdt hτ (by linarith) (by linarith) (by linarith)
    rw [mul_add, ← mul_assoc]
    exact this
  · have hx : t.r - tb.r = 0 := by linarith
    rw [if_neg (by linarith : ¬ 0 < te.r - tb.r)]
    rw [hx] at hτ
    have hz : t - tb = 0 := (Dbl.eq_zero_iff _).2 hτ.zero
    rw [hz, Dbl.mul_zero, MulZeroClass.mul_zero, _root_.add_zero]
    have e1 := (Dbl.r_add (u * v) 0).trans (by rw [Dbl.r_zero, _root_.add_zero]; exact hu0)
    have e2 := e1.abs_sub (by norm_num)
    refine e2.trans ?_
    rw [abs_mul, abs_of_nonneg hv]
    push_cast
    have : 0 ≤ eps * (|c| * v.r) := by positivity
    have : 0 ≤ eps * (|c| * w.r) := by positivity
    linarith

theorem Lim.between {F a ν : ℝ} {v w : Dbl} (hv : Lim F a v) (hw : Lim F a w) {y : ℝ} (y0 : 0 ≤ y) (y1 : y ≤ 1)
    (hν : ν = v.r + (w.r - v.r) * y) (ha : 0 ≤ a) : 0 ≤ ν ∧ WithinFeed F a ν := by
  have v0 := hv.1
  have w0 := hw.1
  have e : ν = v.r * (1 - y) + w.r * y := by rw [hν]; ring
  have h0 : 0 ≤ ν := by
    rw [e]
    have := mul_nonneg v0 (by linarith : 0 ≤ 1 - y)
    have := mul_nonneg w0 y0
    linarith
  refine ⟨h0, ?_⟩
  have key : ν ^ 2 ≤ 1.00009 * (F * F) + 2.9e-8 * (a + 1) := by
    have h2 : ν ^ 2 ≤ v.r * v.r * (1 - y) + w.r * w.r * y := by
      rw [e]
      have : v.r * v.r * (1 - y) + w.r * w.r * y - (v.r * (1 - y) + w.r * y) ^ 2 = y * (1 - y) * (v.r - w.r) ^ 2 := by ring
      have : 0 ≤ y * (1 - y) * (v.r - w.r) ^ 2 := by
        have : 0 ≤ 1 - y := by linarith
        positivity
      linarith
    have h3 := mul_le_mul_of_nonneg_right hv.2 (by linarith : 0 ≤ 1 - y)
    have h4 := mul_le_mul_of_nonneg_right hw.2 y0
    linarith
  unfold WithinFeed
  have := mul_self_nonneg F
  rw [pow_two F]
  linarith

theorem UsualMove.short {A B : PState Dbl} {u : Vec4 Dbl} {ur : Vec4 ℝ} (h : UsualMove A B u ur) :
    moveLength A.position.real B.position.real ≤ 400000 := by
  obtain ⟨a1, a2, a3, a4⟩ := h.cA
  obtain ⟨b1, b2, b3, b4⟩ := h.cB
  unfold moveLength
  split
  · have := diff_bound a4 b4
    exact le_trans this (by norm_num)
  · have e := norm3_sq (B.position.real.sub A.position.real)
    have sq : ∀ {a b : ℝ}, |a| ≤ 100000 → |b| ≤ 100000 → (b - a) ^ 2 ≤ 200000 ^ 2 := by
      intro a b ha hb
      rw [← sq_abs]
      exact pow_le_pow_left₀ (abs_nonneg _) (diff_bound ha hb) 2
    have x1 := sq a1 b1
    have x2 := sq a2 b2
    have x3 := sq a3 b3
    have : (B.position.real.sub A.position.real).norm3 ^ 2 ≤ 400000 ^ 2 := by
      rw [e]
      simp only [Vec4.sub, Vec4.real]
      linarith
    exact (le_abs_self _).trans (abs_le_of_sq_le_sq this (by norm_num))

theorem clamp_near {ℓ D η : ℝ} (hD : 0 < D) (hη : 0 ≤ η) (lo : -η ≤ ℓ) (hi : ℓ ≤ D + η) :
    ∃ x, 0 ≤ x ∧ x ≤ 1 ∧ |ℓ - x * D| ≤ η := by
  rcases le_total ℓ 0 with h | h
  · exact ⟨0, le_rfl, zero_le_one, by rw [abs_le]; constructor <;> linarith⟩
  · rcases le_total ℓ D with h' | h'
    · refine ⟨ℓ / D, by positivity, by rw [div_le_one hD]; exact h', ?_⟩
      rw [div_mul_cancel₀ _ hD.ne', _root_.sub_self, abs_zero]
      exact hη
    · exact ⟨1, zero_le_one, le_rfl, by rw [abs_le]; constructor <;> linarith⟩

/-- The answers inside a segment of a move. -/
theorem UsualMove.onWay {A B : PState Dbl} {u : Vec4 Dbl} {ur : Vec4 ℝ} (h : UsualMove A B u ur) (hF : B.speed.r ≤ 100000)
    (ha : B.pAcc.r ≤ 1e9) {P : Vec4 Dbl} {k : ℕ} (hP : Near4 (k * 1e-8) P A.position.real) (hk : k ≤ 1000000) {Ls : List Dbl}
    (hp : Pieces (moveLength A.position.real B.position.real) (B.speed.r * B.speed.r / B.pAcc.r) Ls) (hlen : Ls.length ≤ 3)
    (hlow : ∀ L ∈ Ls, -(1.2e-8 + 10 * eps * moveLength A.position.real B.position.real +
      40 * eps * (B.speed.r * B.speed.r / B.pAcc.r)) ≤ L.r) {s : Segment Dbl}
    (hl : Laid B.speed.r B.pAcc.r u P Ls s 1e-9) {t : Dbl} (h0 : s.tBegin.r ≤ t.r) (h1 : t.r ≤ s.tEnd.r) {p v : Vec4 Dbl}
    (hq : s.getPosition t = .ok p) (hv : s.getVelocity t = .ok v) :
    OnWay (k * 1e-8 + 2e-7 + 2e-9 * B.speed.r) p A.position.real B.position.real ∧
      AlongWay B.speed.r B.pAcc.r v A.position.real B.position.real := by
  have he := eps_pos
  have he' := eps_lt
  obtain ⟨pre, L, post, v₀, v₁, l1, l2, l3, l4, l5, l6, l7⟩ := hl
  set D := moveLength A.position.real B.position.real with hDdef
  have hD : 0 < D := lt_of_lt_of_le (by norm_num) h.length
  have hs := h.speed
  have hacc := h.acc
  have hW : 0 ≤ B.speed.r * B.speed.r / B.pAcc.r := by positivity
  have hk' : (k : ℝ) ≤ 1000000 := by exact_mod_cast hk
  have hpt := laid_point hp hlen hlow hD.le h.short hW h.ramp l1 l5 l6 hs.le ha l7 h0 h1
  obtain ⟨x, x0, x1, hx⟩ := clamp_near hD (by linarith) hpt.lo hpt.hi
  have dx := congrArg Vec4.x h.diff
  have dy := congrArg Vec4.y h.diff
  have dz := congrArg Vec4.z h.diff
  have de := congrArg Vec4.e h.diff
  simp only [Vec4.sub, Vec4.mul] at dx dy dz de
  obtain ⟨o1, o2, o3⟩ := UnitDir.le_one h.hd
  have oe : |ur.e| ≤ 100 := by
    have := h.flow
    have e : B.position.e.r - A.position.e.r = ur.e * D := de
    rw [e, abs_mul, abs_of_pos hD] at this
    exact le_of_mul_le_mul_right this hD
  obtain ⟨a1, a2, a3, a4⟩ := h.cA
  obtain ⟨b1, b2, b3, b4⟩ := h.cB
  obtain ⟨p1, p2, p3, p4⟩ := hP
  rw [walk_coord] at l2
  have hvs := l5.small hs.le ha
  have hws := l6.small hs.le ha
  set η := 1.2e-7 + 1.1e-9 * B.speed.r with hη
  have hη0 : 0 ≤ η := by linarith
  have one : ∀ (w : Dbl) (c m : ℝ) (q : Dbl) (a b : ℝ), Rel 41 w.r c → |q.r - a| ≤ k * 1e-8 → |a| ≤ 100000 →
      |b| ≤ 100000 → b - a = c * D → |c| ≤ m → m ≤ 100 →
      |(posCoord (walk1 w q pre) (w * v₀) (w * v₁) s.tBegin s.tEnd t).r - (a + x * (b - a))| ≤ k * 1e-8 + 6e-8 + m * η := by
    intro w c m q a b hw hq ha hb hab hc hm
    have e1 := laid_coord (P := q) hw l1 hp hlen l5.1 l6.1 hvs hws hF hD.le h.short (by rw [← hab]; exact diff_bound ha hb)
      (hc.trans hm) (near_bound_dbl hq ha hk') h0 h1 hpt
    generalize (pre.map Dbl.r).sum + inner v₀.r v₁.r (t.r - s.tBegin.r) (s.tEnd.r - s.tBegin.r) = ℓ at e1 hx
    rw [hab]
    have e2 : |c * (ℓ - x * D)| ≤ m * η := by
      rw [abs_mul]
      exact mul_le_mul hc hx (abs_nonneg _) ((abs_nonneg _).trans hc)
    have e3 : |q.r + c * ℓ - (a + x * (c * D))| ≤ k * 1e-8 + m * η := by
      rw [show q.r + c * ℓ - (a + x * (c * D)) = (q.r - a) + c * (ℓ - x * D) by ring]
      exact (abs_add_le _ _).trans (by linarith)
    exact (err_add e1 e3).trans (by linarith)
  have two : ∀ (w : Dbl) (c : ℝ) (a b : ℝ), Rel 41 w.r c → b - a = c * D → |c| ≤ 100 →
      |(velCoord (w * v₀) (w * v₁) s.tBegin s.tEnd t).r - (b - a) *
        ((v₀.r + (v₁.r - v₀.r) * portion (t.r - s.tBegin.r) (s.tEnd.r - s.tBegin.r)) / D)| ≤ 1e-11 * (B.speed.r + 10) := by
    intro w c a b hw hab hc
    have e1 := velCoord_error (tb := s.tBegin) (te := s.tEnd) (t := t) hw l5.1 l6.1 h0 h1
    rw [hab, mul_assoc, mul_div_cancel₀ _ hD.ne']
    refine e1.trans ?_
    have e2 : |c| * (v₀.r + v₁.r) ≤ 100 * (v₀.r + v₁.r) := by
      have := l5.1
      have := l6.1
      gcongr
    have e3 : eps * (|c| * (v₀.r + v₁.r)) ≤ 1.2e-16 * (100 * (v₀.r + v₁.r)) :=
      mul_le_mul he'.le e2 (mul_nonneg (abs_nonneg _) (add_nonneg l5.1 l6.1)) (by norm_num)
    linarith
  rw [getPosition_dbl h0 h1] at hq
  rw [getVelocity_dbl h0 h1] at hv
  cases hq
  cases hv
  rw [l2, l3, l4]
  constructor
  · refine ⟨x, x0, x1, (one u.x ur.x 1 P.x _ _ h.hu.x p1 a1 b1 dx o1 (by norm_num)).trans ?_,
      (one u.y ur.y 1 P.y _ _ h.hu.y p2 a2 b2 dy o2 (by norm_num)).trans ?_,
      (one u.z ur.z 1 P.z _ _ h.hu.z p3 a3 b3 dz o3 (by norm_num)).trans ?_,
      (one u.e ur.e 100 P.e _ _ h.hu.e p4 a4 b4 de oe (by norm_num)).trans ?_⟩
    · linarith
    · linarith
    · linarith
    · have : 0 ≤ (k : ℝ) := by positivity
      linarith
  · obtain ⟨y0, y1⟩ := portion_mem (x := t.r - s.tBegin.r) (E := s.tEnd.r - s.tBegin.r) (by linarith) (by linarith)
    obtain ⟨n0, n1⟩ := Lim.between l5 l6 y0 y1 rfl hacc.le
    exact ⟨_, n0, n1, two u.x ur.x _ _ h.hu.x dx (by linarith), two u.y ur.y _ _ h.hu.y dy (by linarith),
      two u.z ur.z _ _ h.hu.z dz (by linarith), two u.e ur.e _ _ h.hu.e de oe⟩

end PyGCD
