import Verif.Props.Plot2d
import Verif.Props.Extent
import Verif.Props.Cuts
import Verif.Model.PlotVel
import Verif.Spec.Curves

/-!
# Property C76: the velocity plot
-/

set_option linter.unusedSectionVars false
set_option linter.unusedSimpArgs false

namespace PyGCD
open Vec4 Spec

variable {fw : Firmware} {states : List (PState ℝ)} {bs : List (Block ℝ)}

/-! ## The speed at a time -/

/-- What a segment of a plan reports at its ends and in between. -/
structure Even (s : Segment ℝ) : Prop where
  dur : s.tBegin ≤ s.tEnd
  first : s.getVelocity s.tBegin = .ok s.velBegin
  last : s.getVelocity s.tEnd = .ok s.velEnd
  still : s.tBegin = s.tEnd → s.velBegin = Vec4.zero ∧ s.velEnd = Vec4.zero
  line : s.tBegin < s.tEnd → ∀ c, 0 ≤ c → c ≤ 1 → ∃ w, s.getVelocity (s.tBegin + (s.tEnd - s.tBegin) * c) = .ok w ∧
    w = s.velBegin.add ((s.velEnd.sub s.velBegin).mul c) ∧
    w.norm3 = s.velBegin.norm3 + (s.velEnd.norm3 - s.velBegin.norm3) * c ∧
    ∃ p, s.getPosition (s.tBegin + (s.tEnd - s.tBegin) * c) = .ok p ∧
      p = (s.posBegin.add ((s.posEnd.sub s.posBegin).mul c)).sub
        ((s.velEnd.sub s.velBegin).mul ((s.tEnd - s.tBegin) / 2 * (c * (1 - c))))

theorem SegOn.even {u p : Vec4 ℝ} {a vT L w w₁ l l₁ : ℝ} {s : Segment ℝ}
    (g : SegOn u a vT p L s w w₁ l l₁) : Even s := by
  have hd := sub_pos.2 g.ht
  have hw := g.hw.1
  have hw₁ := g.hw₁.1
  have key : ∀ c, 0 ≤ c → c ≤ 1 → s.getVelocity (s.tBegin + (s.tEnd - s.tBegin) * c) =
      .ok (u.mul (w + (w₁ - w) * c)) ∧ s.getPosition (s.tBegin + (s.tEnd - s.tBegin) * c) =
      .ok (s.posBegin.add (u.mul ((w + (w + (w₁ - w) * c)) / 2 * ((s.tEnd - s.tBegin) * c)))) := by
    intro c h0 h1
    have hcov : s.tBegin ≤ s.tBegin + (s.tEnd - s.tBegin) * c ∧
        s.tBegin + (s.tEnd - s.tBegin) * c ≤ s.tEnd := by
      constructor <;> nlinarith
    have hsp : SegOn.speed s w w₁ (s.tBegin + (s.tEnd - s.tBegin) * c) = w + (w₁ - w) * c := by
      unfold SegOn.speed
      rw [add_sub_cancel_left]
      field_simp
    rw [g.getVelocity hcov, g.getPosition hcov, hsp, g.hpb, add_sub_cancel_left]
    refine ⟨rfl, ?_⟩
    congr 1
    ext <;> simp only [Vec4.add, Vec4.mul] <;> ring
  refine ⟨g.ht.le, ?_, ?_, fun h => absurd h g.ht.ne, ?_⟩
  · have := (key 0 (le_refl _) zero_le_one).1
    rw [mul_zero, _root_.add_zero, mul_zero, _root_.add_zero] at this
    rw [this, g.hvb]
  · have := (key 1 zero_le_one (le_refl _)).1
    rw [mul_one, mul_one, add_sub_cancel, add_sub_cancel] at this
    rw [this, g.hve]
  · intro _ c h0 h1
    refine ⟨_, (key c h0 h1).1, ?_, ?_, _, (key c h0 h1).2, ?_⟩
    · rw [g.hvb, g.hve]
      ext <;> simp only [Vec4.add, Vec4.mul, Vec4.sub] <;> ring
    · rw [g.hvb, g.hve, norm3_mul, norm3_mul, norm3_mul, abs_of_nonneg hw, abs_of_nonneg hw₁,
        abs_of_nonneg (by nlinarith)]
      ring
    · rw [g.hvb, g.hve, g.hpb, g.hpe, g.hlen]
      ext <;> simp only [Vec4.add, Vec4.mul, Vec4.sub] <;> ring

theorem even_static {t0 t1 : ℝ} {p : Vec4 ℝ} (h : t0 ≤ t1) :
    Even (⟨t0, t1, p, Vec4.zero, p, Vec4.zero⟩ : Segment ℝ) := by
  have key : ∀ t, t0 ≤ t → t ≤ t1 →
      (⟨t0, t1, p, Vec4.zero, p, Vec4.zero⟩ : Segment ℝ).getVelocity t = .ok Vec4.zero ∧
      (⟨t0, t1, p, Vec4.zero, p, Vec4.zero⟩ : Segment ℝ).getPosition t = .ok p := by
    intro t h1 h2
    have hc : (⟨t0, t1, p, Vec4.zero, p, Vec4.zero⟩ : Segment ℝ).tBegin ≤ t ∧
        t ≤ (⟨t0, t1, p, Vec4.zero, p, Vec4.zero⟩ : Segment ℝ).tEnd := ⟨h1, h2⟩
    obtain ⟨r, hr⟩ := getPosition_total hc
    obtain ⟨w, hw⟩ := getVelocity_total hc
    have e := static_position hr
    have e' := static_velocity hw
    subst e e'
    exact ⟨hw, hr⟩
  refine ⟨h, (key _ (le_refl _) h).1, (key _ h (le_refl _)).1, fun _ => ⟨rfl, rfl⟩, ?_⟩
  intro hlt c h0 h1
  have hlt : t0 < t1 := hlt
  obtain ⟨k1, k2⟩ := key (t0 + (t1 - t0) * c) (by nlinarith) (by nlinarith)
  refine ⟨_, k1, ?_, ?_, _, k2, ?_⟩
  · ext <;> simp [Vec4.add, Vec4.mul, Vec4.sub, Vec4.zero]
  · simp [norm3_zero]
  · ext <;> simp [Vec4.add, Vec4.mul, Vec4.sub, Vec4.zero]

theorem path_even (hr : SoundRun bs) {s : Segment ℝ}
    (hs : s ∈ Spec.path bs) : Even s := by
  obtain ⟨b, hb, hs⟩ := List.mem_flatMap.1 hs
  rcases hr.good b hb with ⟨A, u, s0, s1, hm⟩ | ⟨A, q, hm⟩
  · obtain ⟨L, _, _, hL⟩ := hm.hramp.mem
    obtain ⟨w, w₁, l, l₁, g⟩ := hL s hs
    exact g.even
  · obtain ⟨t0, ht0⟩ := hm.hseg
    rw [ht0, List.mem_singleton] at hs
    subst hs
    exact even_static (by have := hm.hp; linarith)

/-- The segments behind the current one that contain a time: they begin with almost the same speed. -/
theorem speed_meet {δ : ℝ} (N : Vec4 ℝ → ℝ) {s : Segment ℝ} {path : List (Segment ℝ)} (hp : Part (s :: path))
    (he : ∀ x ∈ path, Even x) (hN : N Vec4.zero = 0) (hN0 : ∀ x ∈ path, 0 ≤ N x.velBegin)
    (hc : (s :: path).IsChain fun s s' => |N s.velEnd - N s'.velBegin| ≤ δ ∧ N s'.velBegin ≤ N s.velEnd)
    {t : ℝ} (hs : Covers s t) : ∀ x ∈ path, Covers x t → t = s.tEnd ∧ t = x.tBegin ∧
      |N s.velEnd - N x.velBegin| ≤ δ ∧ N x.velBegin ≤ N s.velEnd := by
  induction path generalizing s with
  | nil => simp
  | cons y path ih =>
    intro x hx hxt
    have hle := hp.le x hx
    have ht : t = s.tEnd := le_antisymm hs.2 (le_trans hle hxt.1)
    have ht' : t = x.tBegin := le_antisymm (by rw [ht]; exact hle) hxt.1
    have h1 := (List.isChain_cons_cons.1 hp.time).1
    obtain ⟨h2, h3⟩ := List.isChain_cons_cons.1 hc
    refine ⟨ht, ht', ?_⟩
    have hy := he y (by simp)
    rcases List.mem_cons.1 hx with rfl | hx
    · exact h2
    · have hyc : Covers y t := ⟨by rw [h1, ht], by rw [ht, ← h1]; exact hy.dur⟩
      obtain ⟨i1, i2, i3, i4⟩ := ih hp.tail (fun z hz => he z (by simp [hz]))
        (fun z hz => hN0 z (by simp [hz])) h3 hyc x hx hxt
      obtain ⟨z1, z2⟩ := hy.still (by rw [h1, ← ht, i1])
      rw [z2, hN] at i4
      have := hN0 x (by simp [hx])
      have e : N x.velBegin = 0 := le_antisymm i4 this
      rw [z1, hN] at h2
      rw [e]
      exact h2

/-- All segments that contain a time report almost the same speed. -/
theorem speed_unique {δ : ℝ} (N : Vec4 ℝ → ℝ) {path : List (Segment ℝ)} (hp : Part path)
    (he : ∀ x ∈ path, Even x) (hN : N Vec4.zero = 0) (hN0 : ∀ x ∈ path, 0 ≤ N x.velBegin) (hδ : 0 ≤ δ)
    (hc : path.IsChain fun s s' => |N s.velEnd - N s'.velBegin| ≤ δ ∧ N s'.velBegin ≤ N s.velEnd)
    {t : ℝ} : ∀ x ∈ path, ∀ y ∈ path, Covers x t → Covers y t → ∀ v w, x.getVelocity t = .ok v →
      y.getVelocity t = .ok w → |N v - N w| ≤ δ := by
  induction path with
  | nil => simp
  | cons s path ih =>
    have key : ∀ x ∈ path, Covers s t → Covers x t → ∀ v w, s.getVelocity t = .ok v →
        x.getVelocity t = .ok w → |N v - N w| ≤ δ := by
      intro x hx hs hxt v w hv hw
      obtain ⟨h1, h2, h3, _⟩ := speed_meet N hp (fun z hz => he z (by simp [hz])) hN
        (fun z hz => hN0 z (by simp [hz])) hc hs x hx hxt
      rw [h1, (he s (by simp)).last] at hv
      rw [h2, (he x (by simp [hx])).first] at hw
      cases hv
      cases hw
      exact h3
    intro x hx y hy hxt hyt v w hv hw
    rcases List.mem_cons.1 hx with hx' | hx' <;> rcases List.mem_cons.1 hy with hy' | hy'
    · subst hx' hy'
      rw [hv] at hw
      cases hw
      simpa using hδ
    · subst hx'
      exact key y hy' hxt hyt v w hv hw
    · subst hy'
      rw [abs_sub_comm]
      exact key x hx' hyt hxt w v hw hv
    · exact ih hp.tail (fun z hz => he z (by simp [hz])) (fun z hz => hN0 z (by simp [hz])) hc.tail
        x hx' y hy' hxt hyt v w hv hw

/-! ## Curves through samples -/

/-- The line between two points, each of which is close to a straight value, is close to it. -/
theorem between_close {a b c va vb v ε β : ℝ} (h0 : 0 ≤ c) (h1 : c ≤ 1) (ha : |a - va| ≤ ε) (hb : |b - vb| ≤ ε)
    (hv : |v - (va + (vb - va) * c)| ≤ β) : |a + (b - a) * c - v| ≤ ε + β := by
  rw [abs_le] at *
  have h2 : 0 ≤ 1 - c := by linarith
  constructor
  · nlinarith [mul_le_mul_of_nonneg_left ha.1 h2, mul_le_mul_of_nonneg_left hb.1 h0]
  · nlinarith [mul_le_mul_of_nonneg_left ha.2 h2, mul_le_mul_of_nonneg_left hb.2 h0]

/-- A point of a curve through samples at the begin and at the end of all segments belongs to a segment. -/
theorem plotted_segment {path : List (Segment ℝ)} (hp : Timeline path) {pts : List (ℝ × ℝ)}
    (hpts : pts.map Prod.fst = 0 :: path.map Segment.tEnd) {t y : ℝ} (hq : Plotted pts (t, y)) :
    ∃ i a b s c, pts[i]? = some a ∧ pts[i + 1]? = some b ∧ path[i]? = some s ∧ s.tBegin = a.1 ∧ s.tEnd = b.1 ∧
      0 ≤ c ∧ c ≤ 1 ∧ t = a.1 + (b.1 - a.1) * c ∧ y = a.2 + (b.2 - a.2) * c := by
  obtain ⟨i, a, b, ha, hb, c, c0, c1, e1, e2⟩ := hq
  simp only at e1 e2
  have hat : (pts.map Prod.fst)[i]? = some a.1 := by rw [List.getElem?_map, ha]; rfl
  have hbt : (pts.map Prod.fst)[i + 1]? = some b.1 := by rw [List.getElem?_map, hb]; rfl
  rw [hpts] at hat hbt
  rw [List.getElem?_cons_succ, List.getElem?_map] at hbt
  obtain ⟨s0, hs0, hs0e⟩ := Option.map_eq_some_iff.1 hbt
  have hs0b : s0.tBegin = a.1 := by
    cases i with
    | zero =>
      simp only [List.getElem?_cons_zero, Option.some.injEq] at hat
      rw [← hat]
      refine hp.start s0 ?_
      rw [List.head?_eq_getElem?, hs0]
      rfl
    | succ j =>
      rw [List.getElem?_cons_succ, List.getElem?_map] at hat
      obtain ⟨s', hs', hs'e⟩ := Option.map_eq_some_iff.1 hat
      have := List.isChain_iff_getElem.1 hp.time j (by
        have := (List.getElem?_eq_some_iff.1 hs0).1
        omega)
      obtain ⟨_, g1⟩ := List.getElem?_eq_some_iff.1 hs'
      obtain ⟨_, g2⟩ := List.getElem?_eq_some_iff.1 hs0
      rw [g1, g2] at this
      rw [this, hs'e]
  exact ⟨i, a, b, s0, c, ha, hb, hs0, hs0b, hs0e, c0, c1, e1, e2⟩

/-- Inside a segment no other segment contains the time. -/
theorem inside_same {path : List (Segment ℝ)} (hp : Timeline path) {i j : ℕ} {s r : Segment ℝ} {t : ℝ}
    (hs : path[i]? = some s) (hr : path[j]? = some r) (h1 : s.tBegin < t) (h2 : t < s.tEnd) (hc : Covers r t) :
    i = j := by
  obtain ⟨gj, ej⟩ := List.getElem?_eq_some_iff.1 hr
  obtain ⟨gi, ei⟩ := List.getElem?_eq_some_iff.1 hs
  rcases lt_trichotomy i j with hij | hij | hij
  · exfalso
    have hpart := hp.part.drop i
    rw [List.drop_eq_getElem_cons gi, ei] at hpart
    have := hpart.le r (by
      rw [← ej, List.mem_iff_getElem]
      exact ⟨j - (i + 1), by simp; omega, by simp; congr 1; omega⟩)
    have := hc.1
    linarith
  · exact hij
  · exfalso
    have hpart := hp.part.drop j
    rw [List.drop_eq_getElem_cons gj, ej] at hpart
    have := hpart.le s (by
      rw [← ei, List.mem_iff_getElem]
      exact ⟨i - (j + 1), by simp; omega, by simp; congr 1; omega⟩)
    have := hc.2
    linarith

/-- A curve through samples at the begin and at the end of all segments is close to a quantity that changes
almost evenly in each segment. -/
theorem curve_close {path : List (Segment ℝ)} (hp : Timeline path) (V : Segment ℝ → ℝ → ℝ) {ε : ℝ}
    {β : Segment ℝ → ℝ} {pts : List (ℝ × ℝ)} (hpts : pts.map Prod.fst = 0 :: path.map Segment.tEnd)
    (hy : ∀ p ∈ pts, ∀ s ∈ path, Covers s p.1 → |p.2 - V s p.1| ≤ ε) (hβ : ∀ s ∈ path, 0 ≤ β s)
    (haff : ∀ s ∈ path, s.tBegin < s.tEnd → ∀ c, 0 ≤ c → c ≤ 1 →
      |V s (s.tBegin + (s.tEnd - s.tBegin) * c) - (V s s.tBegin + (V s s.tEnd - V s s.tBegin) * c)| ≤ β s)
    {t y : ℝ} (hq : Plotted pts (t, y)) {s : Segment ℝ} (hs : s ∈ path) (hc : Covers s t) :
    |y - V s t| ≤ ε + β s := by
  obtain ⟨i, a, b, s0, c, ha, hb, hs0, hs0b, hs0e, c0, c1, e1, e2⟩ := plotted_segment hp hpts hq
  have hm0 := List.mem_of_getElem? hs0
  have hma := List.mem_of_getElem? ha
  have hmb := List.mem_of_getElem? hb
  have hd := hp.duration s0 hm0
  have hzero : |V s t - (V s t + (V s t - V s t) * c)| ≤ β s := by
    simpa using hβ s hs
  rcases hd.eq_or_lt with h0 | h0
  · -- a vertical line
    have hab : a.1 = b.1 := by rw [← hs0b, ← hs0e, h0]
    have hta : t = a.1 := by rw [e1, hab]; ring
    rw [e2]
    refine between_close c0 c1 ?_ ?_ hzero
    · rw [hta]
      exact hy a hma s hs (by rw [← hta]; exact hc)
    · rw [hta, hab]
      exact hy b hmb s hs (by rw [← hab, ← hta]; exact hc)
  · rw [hs0b, hs0e] at h0
    rcases c0.eq_or_lt with hc0 | hc0
    · subst hc0
      have hta : t = a.1 := by rw [e1]; ring
      have := hy a hma s hs (by rw [← hta]; exact hc)
      rw [e2, hta, mul_zero, _root_.add_zero]
      have := hβ s hs
      linarith
    rcases c1.eq_or_lt with hc1 | hc1
    · subst hc1
      have htb : t = b.1 := by rw [e1]; ring
      have := hy b hmb s hs (by rw [← htb]; exact hc)
      rw [e2, htb, mul_one, add_sub_cancel]
      have := hβ s hs
      linarith
    · have i1 : s0.tBegin < t := by rw [hs0b, e1]; nlinarith
      have i2 : t < s0.tEnd := by rw [hs0e, e1]; nlinarith
      have he : s = s0 := by
        obtain ⟨j, hj⟩ := List.mem_iff_getElem?.1 hs
        have := inside_same hp hs0 hj i1 i2 hc
        subst this
        rw [hs0] at hj
        exact (Option.some.inj hj).symm
      subst he
      have h2 := haff s hs (by rw [hs0b, hs0e]; exact h0) c c0 c1
      have h3 := hy a hma s hs ⟨hs0b.le, by rw [hs0e]; exact h0.le⟩
      have h4 := hy b hmb s hs ⟨by rw [hs0b]; exact h0.le, hs0e.ge⟩
      rw [hs0b, hs0e, ← e1] at h2
      rw [e2]
      exact between_close c0 c1 h3 h4 h2

/-- The curve has a point at every time. -/
theorem curve_total {path : List (Segment ℝ)} (hp : Timeline path) (hne : path ≠ []) {T : ℝ} (hT : EndTime path T)
    {pts : List (ℝ × ℝ)} (hpts : pts.map Prod.fst = 0 :: path.map Segment.tEnd) {t : ℝ} (h0 : 0 ≤ t) (h1 : t ≤ T) :
    ∃ y, Plotted pts (t, y) := by
  obtain ⟨l, hl, rfl⟩ := hT
  rcases h0.eq_or_lt with h0 | h0
  · subst h0
    match path, hne, pts, hpts with
    | s :: r, _, [], hpts => simp at hpts
    | s :: r, _, [a], hpts => simp at hpts
    | s :: r, _, a :: b :: q, hpts =>
      simp only [List.map_cons, List.cons.injEq] at hpts
      exact ⟨a.2, 0, a, b, rfl, rfl, 0, le_refl _, zero_le_one, by simp [hpts.1], by simp⟩
  · have hlast : (pts.map Prod.fst).getLast? = some l.tEnd := by
      rw [hpts, List.getLast?_cons, List.getLast?_map, hl]
      rfl
    obtain ⟨p, hp1, hp2, hp3⟩ := nexts_between (pts.map Prod.fst) 0 l.tEnd (by rw [hpts]; rfl) hlast
      (by linarith) t h0.le h1
    obtain ⟨i, hi1, hi2⟩ := mem_nexts hp1
    rw [List.getElem?_map] at hi1 hi2
    obtain ⟨a, ha, ha'⟩ := Option.map_eq_some_iff.1 hi1
    obtain ⟨b, hb, hb'⟩ := Option.map_eq_some_iff.1 hi2
    rw [← ha'] at hp2
    rw [← hb'] at hp3
    rcases (le_trans hp2 hp3).eq_or_lt with hab | hab
    · exact ⟨a.2, i, a, b, ha, hb, 0, le_refl _, zero_le_one, by simp only; linarith, by simp⟩
    · refine ⟨a.2 + (b.2 - a.2) * ((t - a.1) / (b.1 - a.1)), i, a, b, ha, hb, (t - a.1) / (b.1 - a.1), ?_, ?_, ?_, rfl⟩
      · exact div_nonneg (by linarith) (by linarith)
      · rw [div_le_one (by linarith)]
        linarith
      · have : b.1 - a.1 ≠ 0 := by linarith
        simp only
        field_simp
        ring

/-! ## The plot of a plan -/

theorem axes_ok : ∀ {axis : List String}, (∀ a ∈ axis, a = "x" ∨ a = "y" ∨ a = "z" ∨ a = "e") →
    ∃ fs, axisEntries (K := ℝ) axis = .ok fs ∧ List.Forall₂ AxisOf axis fs
  | [], _ => ⟨[], rfl, .nil⟩
  | a :: l, h => by
    obtain ⟨fs, h1, h2⟩ := axes_ok (axis := l) fun b hb => h b (by simp [hb])
    have : ∃ f, axisEntry (K := ℝ) a = .ok f ∧ AxisOf a f := by
      rcases h a (by simp) with rfl | rfl | rfl | rfl
      · exact ⟨_, rfl, Or.inl ⟨rfl, rfl⟩⟩
      · exact ⟨_, rfl, Or.inr (Or.inl ⟨rfl, rfl⟩)⟩
      · exact ⟨_, rfl, Or.inr (Or.inr (Or.inl ⟨rfl, rfl⟩))⟩
      · exact ⟨_, rfl, Or.inr (Or.inr (Or.inr ⟨rfl, rfl⟩))⟩
    obtain ⟨f, f1, f2⟩ := this
    refine ⟨f :: fs, ?_, .cons f2 h2⟩
    rw [axisEntries, f1, h1]
    rfl

theorem mkBlock_pause {fw : Firmware} {A : Option (PState ℝ)} {B : PState ℝ} {rest : List (PState ℝ)}
    {pb : Option (Block ℝ)} {b : Block ℝ} (h : mkBlock fw A B rest pb = .ok b) :
    b.stateB = B ∧ (B.pause ≠ none → b.jd = some Vec4.zero) := by
  have hmm : ∀ {b b' : Block ℝ} {pb v}, moveMaker b pb v = .ok b' → b'.stateB = b.stateB := by
    intro b b' pb v h
    unfold moveMaker at h
    simp only [bind, Except.bind] at h
    repeat' split at h
    all_goals first
      | cases h; rfl
      | cases h
  unfold mkBlock at h
  by_cases hz : (targetVel A B).notZero = true
  · simp only [hz, if_true, bind, Except.bind] at h
    split at h
    · cases h
    · rename_i b1 hb1
      have hs : b1.stateB = B := hmm hb1
      cases hp : B.pause with
      | none =>
        simp only [hp] at h
        cases h
        exact ⟨hs, by simp⟩
      | some p =>
        simp only [hp] at h
        split at h
        · cases h
        · cases h
          exact ⟨hs, fun _ => rfl⟩
  · simp only [hz, bind, Except.bind] at h
    cases hp : B.pause with
    | none =>
      simp only [hp] at h
      cases h
      exact ⟨rfl, by simp⟩
    | some p =>
      simp only [hp] at h
      simp only [Bool.false_eq_true, if_false] at h
      split at h
      · cases h
      · cases h
        exact ⟨rfl, fun _ => rfl⟩

/-- Blocks that stand still have the junction speed zero. -/
theorem genBlocks_jd (fw : Firmware) : ∀ (l : List (PState ℝ)) (pa : Option (PState ℝ)) (pb : Option (Block ℝ))
    (bs : List (Block ℝ)), genBlocks fw pa pb l = .ok bs →
    ∀ b ∈ bs, b.stateB.pause ≠ none → b.jd = some Vec4.zero := by
  intro l
  induction l with
  | nil =>
    intro pa pb bs h
    rw [genBlocks] at h
    cases h
    simp
  | cons s l ih =>
    intro pa pb bs h
    rw [genBlocks] at h
    cases hb : mkBlock fw pa s l pb with
    | error e => rw [hb] at h; cases h
    | ok b =>
      rw [hb] at h
      simp only [bind, Except.bind] at h
      split at h
      · exact ih _ _ _ h
      · cases hr : genBlocks fw (some s) (some b) l with
        | error e => rw [hr] at h; cases h
        | ok r =>
          rw [hr] at h
          cases h
          intro x hx hp
          rcases List.mem_cons.1 hx with rfl | hx
          · obtain ⟨h1, h2⟩ := mkBlock_pause hb
            rw [h1] at hp
            exact h2 hp
          · exact ih _ _ _ hr x hx hp

theorem block_mark (hreg : Regular states) (h : plan fw states = .ok bs) : ∀ b ∈ bs,
    ∃ s j, b.segments.getLast? = some s ∧ b.jd = some j ∧ Mark b (s.tEnd, j) := by
  intro b hb
  obtain ⟨bs₀, bs', h1, h2, h3, ⟨hacts, _⟩, _⟩ := plan_spec fw hreg
  have hjd : ∀ b ∈ bs, b.stateB.pause ≠ none → b.jd = some Vec4.zero := by
    unfold plan at h
    simp only [h1, bind, Except.bind, h2, Except.ok.injEq] at h
    subst h
    intro b hb hp
    have hk : b.key ∈ bs₀.map Block.key := by
      rw [← h3]
      exact List.mem_map_of_mem hb
    obtain ⟨b₀, hb₀, hkb⟩ := List.mem_map.1 hk
    simp only [Block.key, Prod.mk.injEq] at hkb
    rw [← hkb.2.2.2.2.1]
    refine genBlocks_jd fw _ _ _ _ h1 b₀ hb₀ ?_
    rw [hkb.2.1]
    exact hp
  obtain ⟨hacts, _⟩ := plan_opt hreg h
  obtain ⟨x, hx, hax⟩ := (forall₂_mem hacts).1 b hb
  have hst : b.stateB ∈ states := by
    have := (plan_ok hreg h).2.2.2.1
    have hm : (b.stateA, b.stateB) ∈ active none states := by
      rw [← this]
      exact List.mem_map_of_mem (f := fun b : Block ℝ => (b.stateA, b.stateB)) hb
    unfold active at hm
    exact (List.of_mem_zip (List.mem_filter.1 hm).1).2
  rcases (plan_ok hreg h).1 b hb with ⟨A, u, s0, s1, hm⟩ | ⟨A, q, hm⟩
  · obtain ⟨s, s', g1, g2, g3, g4, g5, g6, g7, g8, g9, g10⟩ := hm.ends
    obtain ⟨j, hj, hle⟩ := hm.hjd
    obtain ⟨f1, f2, f3, f4, _⟩ := hm.facts
    obtain ⟨a1, a2, a3⟩ := hax
    have hp := hm.hpause
    rw [a2] at hp
    obtain ⟨u', hu', hj'⟩ := a3 hp
    rw [hm.hdir] at hu'
    cases hu'
    rw [hj, Option.some.injEq] at hj'
    have hjj : j = junctionVel fw x.1 x.2.1 x.2.2 :=
      unit_cancel hm.toHdr.unit.1 (p := Vec4.zero) (by rw [hj'])
    have hjb := c17_junction_speed fw x.1 x.2.1 x.2.2 (by rw [← a2]; exact hm.hs.le)
      (by rw [← a2]; exact hreg.jerk _ hst)
    rw [← hjj, ← a2] at hjb
    refine ⟨s', u.mul j, g2, hj, ⟨s', g2, rfl, ?_⟩, ?_⟩
    · rcases hjb.1.eq_or_lt with h0 | h0
      · refine ⟨0, le_refl _, zero_le_one, ?_⟩
        rw [g8, show s1 = 0 by linarith]
        simp [Vec4.mul]
      · refine ⟨s1 / j, div_nonneg f3 hjb.1, (div_le_one h0).2 hle, ?_⟩
        rw [g8]
        ext <;> simp only [Vec4.mul] <;> field_simp
    · simp only
      rw [norm3_mul, abs_of_nonneg hjb.1, hm.toHdr.unit.1.norms.1]
      split
      · simpa using hm.hs.le
      · simpa using hjb.2
  · obtain ⟨t, ht⟩ := hm.hseg
    refine ⟨_, _, by rw [ht]; rfl, hjd b hb (by rw [hm.hpause]; simp), ⟨_, by rw [ht]; rfl, rfl, 0, le_refl _,
      zero_le_one, ?_⟩, ?_⟩
    · ext <;> simp [Vec4.mul, Vec4.zero]
    · simp only [norm3_zero]
      exact (hreg.speed _ hst).le

/-- The lines and crosses of a plan. -/
theorem marks_ok (fs : List (Vec4 ℝ → ℝ)) (sb ss sj : Bool) : ∀ (bs : List (Block ℝ)),
    (∀ b ∈ bs, ∃ s j, b.segments.getLast? = some s ∧ b.jd = some j ∧ Mark b (s.tEnd, j)) →
    ∃ js, List.Forall₂ Mark bs js ∧ blockMarks fs sb ss sj bs = .ok
      (if sb then js.map Prod.fst else [], if ss then (Spec.path bs).map Segment.tEnd else [],
        if sj then js.flatMap (fun tj => (tj.1, tj.2.norm3) :: fs.map fun f => (tj.1, f tj.2)) else [])
  | [], _ => ⟨[], .nil, by simp [blockMarks, Spec.path]⟩
  | b :: bs, h => by
    obtain ⟨s, j, h1, h2, h3⟩ := h b (by simp)
    obtain ⟨js, h4, h5⟩ := marks_ok fs sb ss sj bs fun c hc => h c (by simp [hc])
    refine ⟨(s.tEnd, j) :: js, .cons h3 h4, ?_⟩
    rw [blockMarks, h1, h2, h5]
    cases sb <;> cases ss <;> cases sj <;> simp [bind, Except.bind, Spec.path]

/-- What the curves need: a sound run with marks that does something. -/
structure Plots (bs : List (Block ℝ)) : Prop where
  sound : SoundRun bs
  marks : ∀ b ∈ bs, ∃ s j, b.segments.getLast? = some s ∧ b.jd = some j ∧ Mark b (s.tEnd, j)
  ne : Spec.path bs ≠ []

theorem Plots.exists_end {bs : List (Block ℝ)} (hP : Plots bs) : ∃ T, EndTime (Spec.path bs) T := by
  obtain ⟨s, hs⟩ := Option.isSome_iff_exists.1 (List.getLast?_isSome.2 hP.ne)
  exact ⟨s.tEnd, s, hs, rfl⟩

theorem endTime_sound {bs : List (Block ℝ)} (hr : SoundRun bs) {T : ℝ} :
    endTime bs = .ok T ↔ EndTime (Spec.path bs) T := by
  refine ⟨endTime_path, ?_⟩
  rintro ⟨s, hs, rfl⟩
  cases hl : bs.getLast? with
  | none =>
    rw [List.getLast?_eq_none_iff] at hl
    subst hl
    cases hs
  | some l =>
    obtain ⟨A, r, r', _, _, g3, _⟩ := (hr.good l (List.mem_of_getLast? hl)).facts
    obtain ⟨init, hinit⟩ := List.getLast?_eq_some_iff.1 hl
    rw [Spec.path, hinit, List.flatMap_append, List.getLast?_append, List.flatMap_singleton, g3, Option.some_or] at hs
    cases hs
    unfold endTime
    rw [hl]
    simp [lastSeg_ok g3, Except.map]

theorem plan_plots (hreg : Regular states) (h : plan fw states = .ok bs) (hact : active none states ≠ []) : Plots bs :=
  ⟨plan_sound hreg h, block_mark hreg h, path_ne_nil hreg h hact⟩

/-- What `plot_vel` draws with its default time steps. -/
theorem plot_ok (hP : Plots bs)
    {axis : List String} (hax : Axes axis) (sb ss sj : Bool) :
    ∃ vals fs js d, List.Forall₂ AxisOf axis fs ∧ List.Forall₂ Mark bs js ∧
      List.Forall₂ (fun t vp => ∃ s ∈ Spec.path bs, Covers s t ∧ s.getVelocity t = .ok vp.1 ∧
        s.getPosition t = .ok vp.2) (0 :: (Spec.path bs).map Segment.tEnd) vals ∧
      sampleLoop (Spec.path bs) 0 (0 :: (Spec.path bs).map Segment.tEnd) = .ok vals ∧
      plotVel axis .constrained sb ss sj bs = .ok d ∧ d = ⟨0 :: (Spec.path bs).map Segment.tEnd,
        fs.map (fun f => vals.map fun vp => f vp.1), fs.map (fun f => vals.map fun vp => f vp.2),
        vals.map (fun vp => vp.1.norm3), if sb then js.map Prod.fst else [],
        if ss then (Spec.path bs).map Segment.tEnd else [],
        if sj then js.flatMap (fun tj => (tj.1, tj.2.norm3) :: fs.map fun f => (tj.1, f tj.2)) else []⟩ := by
  obtain ⟨T, hT⟩ := hP.exists_end
  obtain ⟨vals, v1, v2, v3⟩ := hP.sound.isTimeline.constrained hT
  obtain ⟨fs, f1, f2⟩ := axes_ok hax.2
  obtain ⟨js, j1, j2⟩ := marks_ok fs sb ss sj bs (hP.marks)
  refine ⟨vals, fs, js, _, f2, j1, v3, v1, ?_, rfl⟩
  have hfirst : ∃ r, sampleLoop (unpack bs) 0 ((constrainedTimes (unpack bs)).take 1) = .ok r := by
    unfold constrainedTimes at v1 ⊢
    simp only [List.take_succ_cons, List.take_zero]
    unfold sampleLoop at v1 ⊢
    simp only [bind, Except.bind] at v1 ⊢
    split at v1
    · cases v1
    · split at v1
      · cases v1
      · split at v1
        · cases v1
        · exact ⟨_, by rw [sampleLoop]⟩
  obtain ⟨r, hr⟩ := hfirst
  unfold plotVel plotTimes
  simp only [bind, Except.bind, hr, f1, v1, j2]
  rw [if_neg (by simp [hax.1])]
  rfl

/-! ## C76: the speed curve -/

/-- The value a segment reports, read by `N`. -/
noncomputable def velAt (N : Vec4 ℝ → ℝ) (s : Segment ℝ) (t : ℝ) : ℝ :=
  match s.getVelocity t with
  | .ok w => N w
  | .error _ => 0

noncomputable def posAt (f : Vec4 ℝ → ℝ) (s : Segment ℝ) (t : ℝ) : ℝ :=
  match s.getPosition t with
  | .ok w => f w
  | .error _ => 0

theorem velAt_ok {N : Vec4 ℝ → ℝ} {s : Segment ℝ} {t : ℝ} {w : Vec4 ℝ} (h : s.getVelocity t = .ok w) :
    velAt N s t = N w := by
  rw [velAt, h]

theorem posAt_ok {N : Vec4 ℝ → ℝ} {s : Segment ℝ} {t : ℝ} {w : Vec4 ℝ} (h : s.getPosition t = .ok w) :
    posAt N s t = N w := by
  rw [posAt, h]

theorem zip_times {ts : List ℝ} {vals : List (Vec4 ℝ × Vec4 ℝ)} {R : ℝ → Vec4 ℝ × Vec4 ℝ → Prop}
    (h : List.Forall₂ R ts vals) (g : Vec4 ℝ × Vec4 ℝ → ℝ) :
    (ts.zip (vals.map g)).map Prod.fst = ts ∧ ∀ p ∈ ts.zip (vals.map g), ∃ vp, R p.1 vp ∧ p.2 = g vp := by
  induction h with
  | nil => simp
  | @cons t v ts vals h1 h2 ih =>
    constructor
    · simp [ih.1]
    · intro p hp
      simp only [List.map_cons, List.zip_cons_cons, List.mem_cons] at hp
      rcases hp with rfl | hp
      · exact ⟨v, h1, rfl⟩
      · exact ih.2 p hp

/-- A speed curve through the samples. -/
theorem speed_curve (hP : Plots bs) {N : Vec4 ℝ → ℝ} {δ : ℝ}
    {vals : List (Vec4 ℝ × Vec4 ℝ)}
    (hv : List.Forall₂ (fun t vp => ∃ s ∈ Spec.path bs, Covers s t ∧ s.getVelocity t = .ok vp.1 ∧
        s.getPosition t = .ok vp.2) (0 :: (Spec.path bs).map Segment.tEnd) vals)
    (hu : ∀ t, ∀ x ∈ Spec.path bs, ∀ y ∈ Spec.path bs, Covers x t → Covers y t → ∀ v w, x.getVelocity t = .ok v →
      y.getVelocity t = .ok w → |N v - N w| ≤ δ)
    (hl : ∀ s ∈ Spec.path bs, ∀ c w, 0 ≤ c → c ≤ 1 → s.tBegin < s.tEnd →
      s.getVelocity (s.tBegin + (s.tEnd - s.tBegin) * c) = .ok w → N w = N s.velBegin + (N s.velEnd - N s.velBegin) * c)
    {t y : ℝ} (hq : Plotted ((0 :: (Spec.path bs).map Segment.tEnd).zip (vals.map fun vp => N vp.1)) (t, y))
    {s : Segment ℝ} (hs : s ∈ Spec.path bs) {w : Vec4 ℝ} (hw : s.getVelocity t = .ok w) : |y - N w| ≤ δ := by
  obtain ⟨z1, z2⟩ := zip_times hv fun vp => N vp.1
  have htl : Timeline (Spec.path bs) := hP.sound.isTimeline
  have key := curve_close htl (velAt N) (ε := δ) (β := fun _ => 0) z1 ?_ (fun _ _ => le_refl _) ?_ hq hs
    (getVelocity_defined hw)
  · rw [velAt_ok hw, _root_.add_zero] at key
    exact key
  · intro p hp x hx hc
    obtain ⟨vp, ⟨r, hr, hrc, hr1, _⟩, hp2⟩ := z2 p hp
    obtain ⟨w', hw'⟩ := getVelocity_total hc
    rw [velAt_ok hw', hp2]
    exact hu p.1 r hr x hx hrc hc _ _ hr1 hw'
  · intro x hx hlt c c0 c1
    have he := path_even hP.sound hx
    obtain ⟨w', hw', _⟩ := he.line hlt c c0 c1
    rw [velAt_ok hw', velAt_ok he.first, velAt_ok he.last, hl x hx c w' c0 c1 hlt hw', sub_self, abs_zero]

theorem plots_speed (hP : Plots bs)
    {axis : List String} (hax : Axes axis) (sb ss sj : Bool) :
    ∃ d, plotVel axis .constrained sb ss sj bs = .ok d ∧
      (∀ T, EndTime (Spec.path bs) T → ∀ t, 0 ≤ t → t ≤ T → ∃ y, Plotted (d.times.zip d.abs) (t, y)) ∧
      ∀ t y, Plotted (d.times.zip d.abs) (t, y) → ∀ s ∈ Spec.path bs, ∀ v, s.getVelocity t = .ok v →
        |y - v.norm3| ≤ 1e-12 := by
  obtain ⟨vals, fs, js, d, f1, j1, v1, v2, hd, rfl⟩ := plot_ok hP hax sb ss sj
  refine ⟨_, hd, ?_, ?_⟩
  · intro T hT t h0 h1
    exact curve_total (hP.sound.isTimeline) (hP.ne) hT (zip_times v1 _).1 h0 h1
  · intro t y hq s hs v hv
    refine speed_curve hP (N := Vec4.norm3) v1 ?_ ?_ hq hs hv
    · intro t
      refine speed_unique Vec4.norm3 (hP.sound.isTimeline).part (fun x hx => path_even hP.sound hx) norm3_zero
        (fun x _ => norm3_nonneg _) (by norm_num) ?_
      have c1 := hP.sound.unpack_chain
      have c2 := unpack_slower_sound hP.sound
      rw [List.isChain_iff_getElem] at *
      exact fun i hi => ⟨(c1 i hi).2.2, c2 i hi⟩
    · intro s hs c w c0 c1 hlt hw
      obtain ⟨w', hw', _, e, _⟩ := (path_even hP.sound hs).line hlt c c0 c1
      rw [hw'] at hw
      cases hw
      exact e

/-- **C76, the speed curve.** For every firmware, every choice of axes and marks, the plot succeeds, its speed
curve has a point at every time of the print, and every point of it lies within `1e-12` of every speed reported at
its time. -/
theorem c76_speed (hreg : Regular states) (h : plan fw states = .ok bs) (hact : active none states ≠ [])
    {axis : List String} (hax : Axes axis) (sb ss sj : Bool) :
    ∃ d, plotVel axis .constrained sb ss sj bs = .ok d ∧
      (∀ T, EndTime (Spec.path bs) T → ∀ t, 0 ≤ t → t ≤ T → ∃ y, Plotted (d.times.zip d.abs) (t, y)) ∧
      ∀ t y, Plotted (d.times.zip d.abs) (t, y) → ∀ s ∈ Spec.path bs, ∀ v, s.getVelocity t = .ok v →
        |y - v.norm3| ≤ 1e-12 :=
  plots_speed (plan_plots hreg h hact) hax sb ss sj

/-! ## C76: the position curves -/

theorem Spec.AxisOf.add {a : String} {f : Vec4 ℝ → ℝ} (h : AxisOf a f) (p q : Vec4 ℝ) (k : ℝ) :
    f (p.add q) = f p + f q ∧ f (p.sub q) = f p - f q ∧ f (p.mul k) = f p * k ∧ f Vec4.zero = 0 := by
  rcases h with ⟨_, rfl⟩ | ⟨_, rfl⟩ | ⟨_, rfl⟩ | ⟨_, rfl⟩ <;> exact ⟨rfl, rfl, rfl, rfl⟩

theorem axis_row {axis : List String} {fs : List (Vec4 ℝ → ℝ)} (h : List.Forall₂ AxisOf axis fs) {k : ℕ} {a : String}
    {f : Vec4 ℝ → ℝ} (ha : axis[k]? = some a) (hf : AxisOf a f) (g : (Vec4 ℝ → ℝ) → List ℝ) {ys : List ℝ}
    (hy : (fs.map g)[k]? = some ys) : ys = g f := by
  induction h generalizing k with
  | nil => simp at ha
  | @cons b f' l fs h1 _ ih =>
    cases k with
    | zero =>
      simp only [List.getElem?_cons_zero, Option.some.injEq] at ha
      simp only [List.map_cons, List.getElem?_cons_zero, Option.some.injEq] at hy
      subst ha
      have : f' = f := by
        rcases h1 with ⟨e, rfl⟩ | ⟨e, rfl⟩ | ⟨e, rfl⟩ | ⟨e, rfl⟩ <;>
          rcases hf with ⟨e', rfl⟩ | ⟨e', rfl⟩ | ⟨e', rfl⟩ | ⟨e', rfl⟩ <;>
          first
          | rfl
          | (rw [e] at e'; exact absurd e' (by decide))
      rw [← hy, this]
    | succ k =>
      simp only [List.getElem?_cons_succ] at ha
      simp only [List.map_cons, List.getElem?_cons_succ] at hy
      exact ih ha hy

theorem plots_position (hP : Plots bs)
    {axis : List String} (hax : Axes axis) (sb ss sj : Bool) :
    ∃ d, plotVel axis .constrained sb ss sj bs = .ok d ∧ d.pos.length = axis.length ∧
      ∀ (k : ℕ) a f ys, axis[k]? = some a → AxisOf a f → d.pos[k]? = some ys →
        ∀ t y, Plotted (d.times.zip ys) (t, y) → ∀ s ∈ Spec.path bs, ∀ p, s.getPosition t = .ok p →
          |y - f p| ≤ |f s.velEnd - f s.velBegin| * (s.tEnd - s.tBegin) / 8 ∧
          (t = s.tBegin ∨ t = s.tEnd → y = f p) := by
  obtain ⟨vals, fs, js, d, f1, j1, v1, v2, hd, rfl⟩ := plot_ok hP hax sb ss sj
  refine ⟨_, hd, by simp [f1.length_eq], ?_⟩
  intro k a f ys ha hf hys t y hq s hs p hp
  have hys' := axis_row f1 ha hf (fun f => vals.map fun vp => f vp.2) hys
  subst hys'
  obtain ⟨z1, z2⟩ := zip_times v1 fun vp => f vp.2
  have htl : Timeline (Spec.path bs) := hP.sound.isTimeline
  have hdef : Covers s t := by
    unfold Segment.getPosition at hp
    split at hp
    · cases hp
    · rename_i hc
      push Not at hc
      exact hc
  have hy : ∀ p ∈ (0 :: (Spec.path bs).map Segment.tEnd).zip (vals.map fun vp => f vp.2), ∀ s ∈ Spec.path bs,
      Covers s p.1 → |p.2 - posAt f s p.1| ≤ 0 := by
    intro p hp x hx hc
    obtain ⟨vp, ⟨r, hr, hrc, _, hr1⟩, hp2⟩ := z2 p hp
    have := htl.part.position_unique r hr x hx hrc hc
    rw [hr1] at this
    rw [posAt_ok this.symm, hp2, sub_self, abs_zero]
  have haff : ∀ s ∈ Spec.path bs, s.tBegin < s.tEnd → ∀ c, 0 ≤ c → c ≤ 1 →
      |posAt f s (s.tBegin + (s.tEnd - s.tBegin) * c) - (posAt f s s.tBegin + (posAt f s s.tEnd - posAt f s s.tBegin) * c)| ≤
        |f s.velEnd - f s.velBegin| * (s.tEnd - s.tBegin) / 8 := by
    intro x hx hlt c c0 c1
    have he := path_even hP.sound hx
    obtain ⟨_, _, _, _, q, hq1, hq2⟩ := he.line hlt c c0 c1
    rw [posAt_ok hq1, posAt_ok (getPosition_begin he.dur), posAt_ok (getPosition_end (htl.kinematic x hx) he.dur), hq2]
    have A := fun p q k => hf.add p q k
    simp only [(A _ _ 0).1, (A _ _ 0).2.1, (A _ Vec4.zero _).2.2.1]
    have e : f x.posBegin + (f x.posEnd - f x.posBegin) * c -
        (f x.velEnd - f x.velBegin) * ((x.tEnd - x.tBegin) / 2 * (c * (1 - c))) -
        (f x.posBegin + (f x.posEnd - f x.posBegin) * c) =
        -((f x.velEnd - f x.velBegin) * ((x.tEnd - x.tBegin) / 2 * (c * (1 - c)))) := by ring
    rw [e, abs_neg, abs_mul]
    have hd : 0 < x.tEnd - x.tBegin := by linarith
    have h1 : 0 ≤ 1 - c := by linarith
    have h2 : 0 ≤ (x.tEnd - x.tBegin) / 2 * (c * (1 - c)) := by positivity
    rw [abs_of_nonneg h2, mul_div_assoc]
    refine mul_le_mul_of_nonneg_left ?_ (abs_nonneg _)
    have h3 : c * (1 - c) ≤ 1 / 4 := by nlinarith [sq_nonneg (c - 1 / 2)]
    nlinarith
  constructor
  · have key := curve_close htl (posAt f) (ε := 0) z1 hy (fun s hs => by
      have := htl.duration s hs
      have : 0 ≤ s.tEnd - s.tBegin := by linarith
      positivity) haff hq hs hdef
    rw [posAt_ok hp, _root_.zero_add] at key
    exact key
  · intro hend
    obtain ⟨i, pa, pb, s0, c, ha, hb, hs0, hs0b, hs0e, c0, c1, e1, e2⟩ := plotted_segment htl z1 hq
    have hma := List.mem_of_getElem? ha
    have hmb := List.mem_of_getElem? hb
    have hab := htl.duration s0 (List.mem_of_getElem? hs0)
    have close : ∀ q ∈ (0 :: (Spec.path bs).map Segment.tEnd).zip (vals.map fun vp => f vp.2), q.1 = t →
        q.2 = f p := by
      intro q hq hqt
      have := hy q hq s hs (by rw [hqt]; exact hdef)
      rw [hqt, posAt_ok hp] at this
      have := abs_nonpos_iff.1 this
      linarith
    rcases hab.eq_or_lt with h0 | h0
    · have hab : pa.1 = pb.1 := by rw [← hs0b, ← hs0e, h0]
      have hta : pa.1 = t := by rw [e1, hab]; ring
      rw [e2, close pa hma hta, close pb hmb (by rw [← hab, hta])]
      ring
    · by_cases hin : s0.tBegin < t ∧ t < s0.tEnd
      · exfalso
        obtain ⟨j, hj⟩ := List.mem_iff_getElem?.1 hs
        have := inside_same htl hs0 hj hin.1 hin.2 hdef
        subst this
        rw [hs0] at hj
        cases hj
        rcases hend with e | e
        · exact absurd e hin.1.ne'
        · exact absurd e hin.2.ne
      · rw [hs0b, hs0e] at h0 hin
        have : c = 0 ∨ c = 1 := by
          by_contra hn
          push Not at hn
          have l0 := lt_of_le_of_ne c0 hn.1.symm
          have l1 := lt_of_le_of_ne c1 hn.2
          exact hin ⟨by rw [e1]; nlinarith, by rw [e1]; nlinarith⟩
        rcases this with rfl | rfl
        · rw [e2, mul_zero, _root_.add_zero]
          exact close pa hma (by rw [e1]; ring)
        · rw [e2, mul_one, add_sub_cancel]
          exact close pb hmb (by rw [e1]; ring)

/-- **C76, the position curves.** For every firmware and every axis, the drawn position lies at every time within an
eighth of the change of velocity times the duration of the segment from the true one; at the ends of segments it is
exact. -/
theorem c76_position (hreg : Regular states) (h : plan fw states = .ok bs) (hact : active none states ≠ [])
    {axis : List String} (hax : Axes axis) (sb ss sj : Bool) :
    ∃ d, plotVel axis .constrained sb ss sj bs = .ok d ∧ d.pos.length = axis.length ∧
      ∀ (k : ℕ) a f ys, axis[k]? = some a → AxisOf a f → d.pos[k]? = some ys →
        ∀ t y, Plotted (d.times.zip ys) (t, y) → ∀ s ∈ Spec.path bs, ∀ p, s.getPosition t = .ok p →
          |y - f p| ≤ |f s.velEnd - f s.velBegin| * (s.tEnd - s.tBegin) / 8 ∧
          (t = s.tBegin ∨ t = s.tEnd → y = f p) :=
  plots_position (plan_plots hreg h hact) hax sb ss sj

/-! ## C76: the marks -/

theorem plots_marks (hP : Plots bs)
    {axis : List String} (hax : Axes axis) (sb ss sj : Bool) :
    ∃ d js fs, plotVel axis .constrained sb ss sj bs = .ok d ∧ List.Forall₂ Mark bs js ∧
      List.Forall₂ AxisOf axis fs ∧ (d.blockLines = if sb then js.map Prod.fst else []) ∧
      (d.segmentLines = if ss then (Spec.path bs).map Segment.tEnd else []) ∧
      d.crosses = if sj then js.flatMap (fun tj => (tj.1, tj.2.norm3) :: fs.map fun f => (tj.1, f tj.2)) else [] := by
  obtain ⟨vals, fs, js, d, f1, j1, v1, v2, hd, rfl⟩ := plot_ok hP hax sb ss sj
  exact ⟨_, js, fs, hd, j1, f1, rfl, rfl, rfl⟩

/-- **C76, the marks.** The vertical lines stand at the end times of the blocks and of the segments, and the crosses
at the junction velocities. -/
theorem c76_marks (hreg : Regular states) (h : plan fw states = .ok bs) (hact : active none states ≠ [])
    {axis : List String} (hax : Axes axis) (sb ss sj : Bool) :
    ∃ d js fs, plotVel axis .constrained sb ss sj bs = .ok d ∧ List.Forall₂ Mark bs js ∧
      List.Forall₂ AxisOf axis fs ∧ (d.blockLines = if sb then js.map Prod.fst else []) ∧
      (d.segmentLines = if ss then (Spec.path bs).map Segment.tEnd else []) ∧
      d.crosses = if sj then js.flatMap (fun tj => (tj.1, tj.2.norm3) :: fs.map fun f => (tj.1, f tj.2)) else [] :=
  plots_marks (plan_plots hreg h hact) hax sb ss sj

/-! ## C76: the velocity curves of the axes -/

/-- Where velocities agree at all joints, all segments that contain a time report the same velocity. -/
theorem vel_unique {path : List (Segment ℝ)} (hp : Part path) (he : ∀ x ∈ path, Even x)
    (hc : path.IsChain fun s s' => s'.velBegin = s.velEnd) {t : ℝ} :
    ∀ x ∈ path, ∀ y ∈ path, Covers x t → Covers y t → x.getVelocity t = y.getVelocity t := by
  have meet : ∀ {path : List (Segment ℝ)} {s : Segment ℝ}, Part (s :: path) → (∀ x ∈ path, Even x) →
      (s :: path).IsChain (fun s s' => s'.velBegin = s.velEnd) → Covers s t → ∀ x ∈ path, Covers x t →
      t = s.tEnd ∧ x.getVelocity t = .ok s.velEnd := by
    intro path
    induction path with
    | nil => simp
    | cons y path ih =>
      intro s hp he hc hs x hx hxt
      have hle := hp.le x hx
      have ht : t = s.tEnd := le_antisymm hs.2 (le_trans hle hxt.1)
      refine ⟨ht, ?_⟩
      have h1 := (List.isChain_cons_cons.1 hp.time).1
      obtain ⟨h2, h3⟩ := List.isChain_cons_cons.1 hc
      have hy := he y (by simp)
      rcases List.mem_cons.1 hx with rfl | hx
      · rw [ht, ← h1, hy.first, h2]
      · have hyc : Covers y t := ⟨by rw [h1, ht], by rw [ht, ← h1]; exact hy.dur⟩
        obtain ⟨i1, i2⟩ := ih hp.tail (fun z hz => he z (by simp [hz])) h3 hyc x hx hxt
        obtain ⟨z1, z2⟩ := hy.still (by rw [h1, ← ht, i1])
        rw [i2, ← h2, z1, z2]
  induction path with
  | nil => simp
  | cons s path ih =>
    have key : ∀ x ∈ path, Covers s t → Covers x t → x.getVelocity t = s.getVelocity t := by
      intro x hx hs hxt
      obtain ⟨h1, h2⟩ := meet hp (fun z hz => he z (by simp [hz])) hc hs x hx hxt
      rw [h2, h1, (he s (by simp)).last]
    intro x hx y hy hxt hyt
    rcases List.mem_cons.1 hx with hx' | hx' <;> rcases List.mem_cons.1 hy with hy' | hy'
    · rw [hx', hy']
    · subst hx'
      exact (key y hy' hxt hyt).symm
    · subst hy'
      exact key x hx' hyt hxt
    · exact ih hp.tail (fun z hz => he z (by simp [hz])) hc.tail x hx' y hy' hxt hyt

/-- **C76**, the full claim for the axes: the drawn velocity of every axis is, inside every segment, the true one. -/
def C76Full : Prop :=
  ∀ (fw : Firmware) (states : List (PState ℝ)) (bs : List (Block ℝ)), Regular states → plan fw states = .ok bs →
    active none states ≠ [] → ∃ d, plotVel ["x", "y", "z", "e"] .constrained true false false bs = .ok d ∧
      ∀ (k : ℕ) a f ys, ["x", "y", "z", "e"][k]? = some a → AxisOf a f → d.vel[k]? = some ys →
        ∀ t y, Plotted (d.times.zip ys) (t, y) → ∀ s ∈ Spec.path bs, s.tBegin < t → t < s.tEnd →
          ∀ v, s.getVelocity t = .ok v → y = f v

theorem plots_smooth (hP : Plots bs)
    {axis : List String} (hax : Axes axis) (sb ss sj : Bool)
    (hsm : (Spec.path bs).IsChain fun s s' => s'.velBegin = s.velEnd) :
    ∃ d, plotVel axis .constrained sb ss sj bs = .ok d ∧ d.vel.length = axis.length ∧
      ∀ (k : ℕ) a f ys, axis[k]? = some a → AxisOf a f → d.vel[k]? = some ys →
        ∀ t y, Plotted (d.times.zip ys) (t, y) → ∀ s ∈ Spec.path bs, ∀ v, s.getVelocity t = .ok v → y = f v := by
  obtain ⟨vals, fs, js, d, f1, j1, v1, v2, hd, rfl⟩ := plot_ok hP hax sb ss sj
  refine ⟨_, hd, by simp [f1.length_eq], ?_⟩
  intro k a f ys ha hf hys t y hq s hs v hv
  have hys' := axis_row f1 ha hf (fun f => vals.map fun vp => f vp.1) hys
  subst hys'
  have := speed_curve hP (N := f) (δ := 0) v1 ?_ ?_ hq hs hv
  · have := abs_nonpos_iff.1 this
    linarith
  · intro t x hx y hy hxt hyt v w hv hw
    have := vel_unique (hP.sound.isTimeline).part (fun x hx => path_even hP.sound hx) hsm x hx y hy hxt hyt
    rw [hv, hw] at this
    cases this
    simp
  · intro s hs c w c0 c1 hlt hw
    obtain ⟨w', hw', e, _⟩ := (path_even hP.sound hs).line hlt c c0 c1
    rw [hw'] at hw
    cases hw
    rw [e, (hf.add _ _ 0).1, (hf.add _ Vec4.zero _).2.2.1, (hf.add _ _ 0).2.1]

/-- **C76, motion without sudden turns.** Where velocities agree whenever two segments meet, the drawn velocity of
every axis is the true one, at every time. -/
theorem c76_smooth (hreg : Regular states) (h : plan fw states = .ok bs) (hact : active none states ≠ [])
    {axis : List String} (hax : Axes axis) (sb ss sj : Bool)
    (hsm : (Spec.path bs).IsChain fun s s' => s'.velBegin = s.velEnd) :
    ∃ d, plotVel axis .constrained sb ss sj bs = .ok d ∧ d.vel.length = axis.length ∧
      ∀ (k : ℕ) a f ys, axis[k]? = some a → AxisOf a f → d.vel[k]? = some ys →
        ∀ t y, Plotted (d.times.zip ys) (t, y) → ∀ s ∈ Spec.path bs, ∀ v, s.getVelocity t = .ok v → y = f v :=
  plots_smooth (plan_plots hreg h hact) hax sb ss sj hsm

theorem plots_rest (hP : Plots bs) (hr : ∀ b ∈ bs, b.AtRest)
    {axis : List String} (hax : Axes axis) (sb ss sj : Bool) :
    ∃ d, plotVel axis .constrained sb ss sj bs = .ok d ∧ d.vel.length = axis.length ∧
      ∀ (k : ℕ) a f ys, axis[k]? = some a → AxisOf a f → d.vel[k]? = some ys →
        ∀ t y, Plotted (d.times.zip ys) (t, y) → ∀ s ∈ Spec.path bs, ∀ v, s.getVelocity t = .ok v → y = f v := by
  refine plots_smooth hP hax sb ss sj ?_
  unfold Spec.path
  rw [List.flatMap_def, List.isChain_flatten]
  · constructor
    · intro l hl
      obtain ⟨b, hb, rfl⟩ := List.mem_map.1 hl
      exact hP.sound.speed_continuous.2.1 b hb
    · rw [List.isChain_map]
      have ends : ∀ b ∈ bs, (∀ s ∈ b.segments.head?, s.velBegin = Vec4.zero) ∧
          ∀ s ∈ b.segments.getLast?, s.velEnd = Vec4.zero := by
        intro b hb
        rcases hr b hb with ⟨A, u, hm⟩ | ⟨A, p, hm⟩
        · obtain ⟨s, s', g1, g2, _, _, g5, _, _, g8, _⟩ := hm.ends
          rw [g1, g2]
          refine ⟨?_, ?_⟩
          · rintro x ⟨⟩
            rw [g5]
            ext <;> simp [Vec4.mul, Vec4.zero]
          · rintro x ⟨⟩
            rw [g8]
            ext <;> simp [Vec4.mul, Vec4.zero]
        · obtain ⟨t, ht⟩ := hm.hseg
          rw [ht]
          constructor <;> rintro x ⟨⟩ <;> rfl
      refine List.IsChain.imp_of_mem_imp (R := fun _ _ => True) ?_ (List.isChain_iff_getElem.2 fun _ _ => trivial)
      intro b c hb hc _ x hx y hy
      rw [(ends b hb).2 x hx, (ends c hc).1 y hy]
  · intro hn
    obtain ⟨b, hb, hb'⟩ := List.mem_map.1 hn
    exact (hP.sound.good b hb).ne_nil hb'

/-- **C76**, partial: the claim for programs whose firmware has no junction handling, where the machine stops
between moves. Missing: motion that turns at speed, where the claim is false (`c76_refuted`). -/
theorem c76_default_partial (hreg : Regular states) (h : plan .default states = .ok bs) (hact : active none states ≠ [])
    {axis : List String} (hax : Axes axis) (sb ss sj : Bool) :
    ∃ d, plotVel axis .constrained sb ss sj bs = .ok d ∧ d.vel.length = axis.length ∧
      ∀ (k : ℕ) a f ys, axis[k]? = some a → AxisOf a f → d.vel[k]? = some ys →
        ∀ t y, Plotted (d.times.zip ys) (t, y) → ∀ s ∈ Spec.path bs, ∀ v, s.getVelocity t = .ok v → y = f v :=
  plots_rest (plan_plots hreg h hact) (plan_rest hreg h fun _ _ _ => rfl) hax sb ss sj

/-- The samples at the ends of segments, if every segment takes some time. -/
theorem sample_ends {path : List (Segment ℝ)} (hp : Timeline path) (hpos : ∀ s ∈ path, s.tBegin < s.tEnd)
    (he : ∀ s ∈ path, Even s) : ∀ (n i : ℕ) (s : Segment ℝ), path.length = i + 1 + n → path[i]? = some s →
    sampleLoop path i ((path.drop (i + 1)).map Segment.tEnd) =
      .ok ((path.drop (i + 1)).map fun s => (s.velEnd, s.posEnd)) := by
  intro n
  induction n with
  | zero =>
    intro i s hl hs
    rw [List.drop_eq_nil_of_le (by omega)]
    rfl
  | succ n ih =>
    intro i s hl hs
    have hi : i + 1 < path.length := by omega
    obtain ⟨s1, hs1⟩ : ∃ s1, path[i + 1]? = some s1 := ⟨_, List.getElem?_eq_getElem hi⟩
    have hd : path.drop (i + 1) = s1 :: path.drop (i + 2) := by
      rw [List.drop_eq_getElem_cons hi]
      congr 1
      rw [List.getElem?_eq_getElem hi] at hs1
      exact Option.some.inj hs1
    have hd0 : path.drop i = s :: path.drop (i + 1) := by
      have h0 : i < path.length := by omega
      rw [List.drop_eq_getElem_cons h0]
      congr 1
      rw [List.getElem?_eq_getElem h0] at hs
      exact Option.some.inj hs
    have hm := List.mem_of_getElem? hs
    have hm1 := List.mem_of_getElem? hs1
    have hch : s1.tBegin = s.tEnd := by
      have := List.isChain_iff_getElem.1 hp.time i hi
      rw [(List.getElem?_eq_some_iff.1 hs).2, (List.getElem?_eq_some_iff.1 hs1).2] at this
      exact this
    have p0 := hpos s hm
    have p1 := hpos s1 hm1
    have hfind : findKeep path s1.tEnd (some i) = .ok (s1, i + 1) := by
      unfold findKeep
      have hf : useFresh path s1.tEnd (some i) = false :=
        useFresh_false.2 ⟨i, s, rfl, hs, by linarith⟩
      rw [hf]
      simp only [Bool.false_eq_true, if_false, Option.getD_some]
      rw [hd0, keepWarm, if_neg (by rintro ⟨_, h2⟩; linarith), if_pos (by linarith), hs1]
      simp only
      rw [if_neg (by linarith), hd, keepWarm, if_pos ⟨p1.le, le_refl _⟩]
    rw [hd, List.map_cons, sampleLoop, hfind]
    simp only [bind, Except.bind]
    rw [(he s1 hm1).last, getPosition_end (hp.kinematic s1 hm1) (hp.duration s1 hm1)]
    simp only
    rw [ih (i + 1) s1 (by omega) hs1]
    rfl

/-- The samples of the plot, if every segment takes some time. -/
theorem sample_all {path : List (Segment ℝ)} (hp : Timeline path) (hpos : ∀ s ∈ path, s.tBegin < s.tEnd)
    (he : ∀ s ∈ path, Even s) {s : Segment ℝ} (hs : path.head? = some s) :
    sampleLoop path 0 (0 :: path.map Segment.tEnd) =
      .ok ((s.velBegin, s.posBegin) :: path.map fun s => (s.velEnd, s.posEnd)) := by
  cases path with
  | nil => cases hs
  | cons s' r =>
    cases hs
    have hm : s ∈ s :: r := by simp
    have p0 := hpos s hm
    have hstart := hp.start s rfl
    have hrest := sample_ends hp hpos he r.length 0 s (by simp; omega) rfl
    simp only [List.drop_succ_cons, List.drop_zero] at hrest
    have hf : ∀ t, 0 ≤ t → useFresh (s :: r) t (some 0) = false := fun t ht =>
      useFresh_false.2 ⟨0, s, rfl, rfl, by rw [hstart]; exact ht⟩
    have hfind : ∀ t, 0 ≤ t → t ≤ s.tEnd → findKeep (s :: r) t (some 0) = .ok (s, 0) := by
      intro t h1 h2
      unfold findKeep
      rw [hf t h1]
      simp only [Bool.false_eq_true, if_false, Option.getD_some, List.drop_zero]
      rw [keepWarm, if_pos ⟨by rw [hstart]; exact h1, h2⟩]
    have v0 : s.getVelocity 0 = .ok s.velBegin := by
      have := (he s hm).first
      rwa [hstart] at this
    have q0 : s.getPosition 0 = .ok s.posBegin := by
      have := getPosition_begin (hp.duration s hm)
      rwa [hstart] at this
    rw [sampleLoop, hfind 0 (le_refl _) (by linarith)]
    simp only [bind, Except.bind, v0, q0]
    rw [List.map_cons, sampleLoop, hfind s.tEnd (by linarith) (le_refl _)]
    simp only [bind, Except.bind, (he s hm).last, getPosition_end (hp.kinematic s hm) (hp.duration s hm)]
    rw [hrest]
    rfl

theorem plots_velocity (hP : Plots bs)
    (hz : ∀ b ∈ bs, b.stateB.pause ≠ some 0) {axis : List String} (hax : Axes axis) (sb ss sj : Bool) :
    ∃ d, plotVel axis .constrained sb ss sj bs = .ok d ∧ d.vel.length = axis.length ∧
      ∀ (k : ℕ) a f ys, axis[k]? = some a → AxisOf a f → d.vel[k]? = some ys →
        ∀ t y, Plotted (d.times.zip ys) (t, y) → ∀ i s v, (Spec.path bs)[i]? = some s → s.tBegin < t → t < s.tEnd →
          s.getVelocity t = .ok v →
          (i = 0 → y = f v) ∧ ∀ s', (Spec.path bs)[i - 1]? = some s' → i ≠ 0 →
            y - f v = (f s'.velEnd - f s.velBegin) * ((s.tEnd - t) / (s.tEnd - s.tBegin)) := by
  obtain ⟨vals, fs, js, d, f1, j1, v1, v2, hd, rfl⟩ := plot_ok hP hax sb ss sj
  refine ⟨_, hd, by simp [f1.length_eq], ?_⟩
  intro k a f ys ha hf hys t y hq i s v hs ht1 ht2 hv
  have hys' := axis_row f1 ha hf (fun f => vals.map fun vp => f vp.1) hys
  subst hys'
  obtain ⟨z1, _⟩ := zip_times v1 fun vp => f vp.1
  have htl : Timeline (Spec.path bs) := hP.sound.isTimeline
  have hpos : ∀ s ∈ Spec.path bs, s.tBegin < s.tEnd := by
    intro s hs
    obtain ⟨b, hb, hs⟩ := List.mem_flatMap.1 hs
    rcases hP.sound.good b hb with ⟨A, u, s0, s1, hm⟩ | ⟨A, q, hm⟩
    · exact (hP.sound.timeline).2.2.2 b hb hm.hpause s hs
    · obtain ⟨t0, ht0⟩ := hm.hseg
      rw [ht0, List.mem_singleton] at hs
      subst hs
      have h1 := hz _ hb
      rw [hm.hpause] at h1
      have h2 : q ≠ 0 := fun e => h1 (by rw [e])
      have h3 := hm.hp
      have : 0 < q := lt_of_le_of_ne h3 h2.symm
      show t0 < t0 + q
      linarith
  have he : ∀ s ∈ Spec.path bs, Even s := fun s hs => path_even hP.sound hs
  obtain ⟨s0, hs0⟩ : ∃ s0, (Spec.path bs).head? = some s0 := by
    cases hp : Spec.path bs with
    | nil => exact absurd hp (hP.ne)
    | cons x l => exact ⟨x, rfl⟩
  have hsamp := sample_all htl hpos he hs0
  rw [v2, Except.ok.injEq] at hsamp
  obtain ⟨j, pa, pb, sj, c, g1, g2, g3, g4, g5, c0, c1, e1, e2⟩ := plotted_segment htl z1 hq
  have hj : i = j := inside_same htl hs g3 ht1 ht2 (by
    have := hpos sj (List.mem_of_getElem? g3)
    constructor
    · rw [g4, e1]
      rw [g4, g5] at this
      nlinarith
    · rw [g5, e1]
      rw [g4, g5] at this
      nlinarith)
  subst hj
  rw [hs] at g3
  cases g3
  have hse := he s (List.mem_of_getElem? hs)
  have hlt := hpos s (List.mem_of_getElem? hs)
  have hvc : f v = f s.velBegin + (f s.velEnd - f s.velBegin) * c := by
    obtain ⟨w, w1, w2, _⟩ := hse.line hlt c c0 c1
    rw [g4, g5, ← e1, hv, Except.ok.injEq] at w1
    rw [← g4, ← g5] at *
    rw [w1, w2, (hf.add _ _ 0).1, (hf.add _ Vec4.zero _).2.2.1, (hf.add _ _ 0).2.1]
  subst hsamp
  have hb : pb.2 = f s.velEnd := by
    rw [List.getElem?_zip_eq_some] at g2
    have := g2.2
    simp only [List.map_cons, List.getElem?_cons_succ, List.getElem?_map, hs, Option.map_some,
      Option.some.injEq] at this
    exact this.symm
  rw [List.getElem?_zip_eq_some] at g1
  have hc' : 1 - c = (s.tEnd - t) / (s.tEnd - s.tBegin) := by
    have : s.tEnd - s.tBegin ≠ 0 := by linarith
    rw [eq_div_iff this, e1, ← g4, ← g5]
    ring
  constructor
  · rintro rfl
    have := g1.2
    simp only [List.map_cons, List.getElem?_cons_zero, Option.some.injEq] at this
    rw [List.head?_eq_getElem?, hs] at hs0
    cases hs0
    rw [e2, hb, ← this, hvc]
  · intro s' hs' hi
    have := g1.2
    obtain ⟨m, rfl⟩ := Nat.exists_eq_succ_of_ne_zero hi
    simp only [Nat.succ_eq_add_one, Nat.add_sub_cancel] at hs'
    simp only [Nat.succ_eq_add_one, List.map_cons, List.getElem?_cons_succ, List.getElem?_map, hs', Option.map_some,
      Option.some.injEq] at this
    rw [e2, hb, ← this, hvc, ← hc']
    ring

/-- **C76, the velocity curves.** For every firmware, in a program without pauses of zero seconds: inside a segment
the drawn velocity of an axis differs from the true one by the jump of that velocity at the begin of the segment,
times the part of the segment that is left; in the first segment it is exact. -/
theorem c76_velocity (hreg : Regular states) (h : plan fw states = .ok bs) (hact : active none states ≠ [])
    (hz : ∀ s ∈ states, s.pause ≠ some 0) {axis : List String} (hax : Axes axis) (sb ss sj : Bool) :
    ∃ d, plotVel axis .constrained sb ss sj bs = .ok d ∧ d.vel.length = axis.length ∧
      ∀ (k : ℕ) a f ys, axis[k]? = some a → AxisOf a f → d.vel[k]? = some ys →
        ∀ t y, Plotted (d.times.zip ys) (t, y) → ∀ i s v, (Spec.path bs)[i]? = some s → s.tBegin < t → t < s.tEnd →
          s.getVelocity t = .ok v →
          (i = 0 → y = f v) ∧ ∀ s', (Spec.path bs)[i - 1]? = some s' → i ≠ 0 →
            y - f v = (f s'.velEnd - f s.velBegin) * ((s.tEnd - t) / (s.tEnd - s.tBegin)) := by
  refine plots_velocity (plan_plots hreg h hact) ?_ hax sb ss sj
  intro b hb
  refine hz _ ?_
  have hm : (b.stateA, b.stateB) ∈ active none states := by
    rw [← (plan_ok hreg h).2.2.2.1]
    exact List.mem_map_of_mem (f := fun b : Block ℝ => (b.stateA, b.stateB)) hb
  unfold active at hm
  exact (List.of_mem_zip (List.mem_filter.1 hm).1).2

/-! ## C76 is false of the axes: turning at speed -/

namespace Demo

theorem bracket_active : active none bracket ≠ [] := bracket_cut.moves.1

/-- The bracket passes its corner at speed: the last segment before it and the first one behind it. -/
theorem bracket_turn {bs : List (Block ℝ)} (h : plan .klipper bracket = .ok bs) :
    ∃ i s s', (Spec.path bs)[i]? = some s' ∧ (Spec.path bs)[i + 1]? = some s ∧ s'.velEnd.x = 10 ∧
      s.velBegin.x = 0 ∧ s.velEnd.x = 0 := by
  have n1 : ((at2 10 0).position.sub (at2 0 0).position).norm3 = 10 := at2_norm (by norm_num) (by norm_num)
  have n2 : ((at2 10 10).position.sub (at2 10 0).position).norm3 = 10 := at2_norm (by norm_num) (by norm_num)
  have e1 : (at2 10 0).position ≠ (at2 0 0).position := fun h => by simpa [at2] using congrArg Vec4.x h
  have e2 : (at2 10 10).position ≠ (at2 10 0).position := fun h => by simpa [at2] using congrArg Vec4.y h
  obtain ⟨hF, hO, _⟩ := plan_opt bracket_regular h
  obtain ⟨hg, hL, _⟩ := plan_ok bracket_regular h
  unfold bracket at hF
  rw [actions_cons_skip _ (by simp) rfl, actions_cons_take _ (Or.inr ⟨_, rfl, e1⟩),
    actions_cons_take _ (Or.inr ⟨_, rfl, e2⟩), actions] at hF
  obtain ⟨b, bs1, f1, f2, rfl⟩ : ∃ b bs1, Acts .klipper b (some (at2 0 0), at2 10 0, [at2 10 10]) ∧
      List.Forall₂ (Acts .klipper) bs1 [(some (at2 10 0), at2 10 10, [])] ∧ bs = b :: bs1 := by
    cases hF with
    | cons h1 h2 => exact ⟨_, _, h1, h2, rfl⟩
  obtain ⟨c, f3, rfl⟩ : ∃ c, Acts .klipper c (some (at2 10 0), at2 10 10, []) ∧ bs1 = [c] := by
    cases f2 with
    | cons h1 h2 =>
      cases h2
      exact ⟨_, h1, rfl⟩
  -- the two moves
  have one : ∀ {b : Block ℝ} {x y x' y' : ℝ} {rest}, Acts .klipper b (some (at2 x y), at2 x' y', rest) → Good b →
      ((at2 x' y').position.sub (at2 x y).position).norm3 = 10 → ∃ u s0 s1, MoveB b (at2 x y) u s0 s1 ∧ u.norm3 = 1 ∧
        (moveDistance (at2 x y) b.stateB).1 = 10 ∧ b.stateB = at2 x' y' ∧ u.x * 10 = x' - x ∧
        b.jd = some (u.mul (junctionVel .klipper (some (at2 x y)) (at2 x' y') rest)) := by
    intro b x y x' y' rest ha hg hd
    rcases hg with ⟨A', u, s0, s1, hm⟩ | ⟨A', p, hd'⟩
    · have e1 : A' = at2 x y := by
        have := hm.hA
        rw [ha.1] at this
        exact (Option.some.inj this).symm
      subst e1
      obtain ⟨u', d1, d2⟩ := ha.2.2 rfl
      rw [hm.hdir] at d1
      cases d1
      obtain ⟨g1, _, g3, g4, _⟩ := hm.toHdr.unit
      have e2 : b.stateB = at2 x' y' := ha.2.1
      rw [e2] at g1 g3 g4
      have hf : (moveDistance (at2 x y) (at2 x' y')).2 = false := by
        cases hc : (moveDistance (at2 x y) (at2 x' y')).2 with
        | false => rfl
        | true =>
          have := g4.1 hc
          rw [hd] at this
          norm_num at this
      have hu : u.norm3 = 1 := by
        have := g1.norms.1
        rw [hf] at this
        simpa using this
      have hdist : (moveDistance (at2 x y) (at2 x' y')).1 = 10 := by
        have h0 := hm.toHdr.unit.2.1
        rw [e2] at h0
        have : ((at2 x' y').position.sub (at2 x y).position).norm3 = (moveDistance (at2 x y) (at2 x' y')).1 := by
          rw [g3]
          rw [show ((at2 x y).position.add (u.mul (moveDistance (at2 x y) (at2 x' y')).1)).sub (at2 x y).position =
            u.mul (moveDistance (at2 x y) (at2 x' y')).1 by ext <;> simp [Vec4.add, Vec4.sub, Vec4.mul],
            norm3_mul, hu, _root_.one_mul, abs_of_pos h0]
        rw [← this, hd]
      refine ⟨u, s0, s1, hm, hu, by rw [e2, hdist], e2, ?_, d2⟩
      have := congrArg Vec4.x g3
      rw [hdist] at this
      simp only [at2, Vec4.add, Vec4.mul] at this
      linarith
    · exfalso
      have := hd'.hpause
      rw [ha.2.1] at this
      cases this
  obtain ⟨u, s0, s1, m1, m2, m3, m4, m5, m6⟩ := one f1 (hg b (by simp)) n1
  obtain ⟨u', r0, r1, k1, k2, k3, k4, k5, k6⟩ := one f3 (hg c (by simp)) n2
  rw [bracket_corner (by norm_num)] at m6
  have hroot : (10 : ℝ) ≤ √(100 * 10 / 2) := by
    refine Real.le_sqrt_of_sq_le ?_
    norm_num
  rw [min_eq_left hroot, min_self] at m6
  obtain ⟨s, s', g1, g2, g3, g4, g5, g6, g7, g8, g9, g10⟩ := m1.ends
  obtain ⟨q, q', l1, l2, l3, l4, l5, l6, l7, l8, l9, l10⟩ := k1.ends
  obtain ⟨b1, b2, b3, b4, _⟩ := m1.facts
  obtain ⟨p1, p2, p3, p4, _⟩ := k1.facts
  have hsp : b.stateB.speed = 10 := by rw [m4]; rfl
  have hac : b.stateB.pAcc = 100 := by rw [m4]; rfl
  have hsp' : c.stateB.speed = 10 := by rw [k4]; rfl
  have hac' : c.stateB.pAcc = 100 := by rw [k4]; rfl
  rw [hsp] at b2 b4
  rw [hsp'] at p2 p4
  have hs1 : s1 = 10 := by
    obtain ⟨_, l3', _, _⟩ := (List.isChain_cons_cons.1 hL).1
    rw [l9, g10, m2, k2, _root_.one_mul, _root_.one_mul] at l3'
    rcases (List.isChain_cons_cons.1 hO).1.2 with hx | hx
    · rcases hx with ⟨A, p, hx⟩ | ⟨A, v, w0, w1, hx, hx'⟩
      · exfalso
        have := hx.hpause
        rw [m4] at this
        cases this
      · obtain ⟨rfl, rfl, rfl, rfl⟩ := hx.unique m1
        rcases hx' with hx' | hx'
        · rw [m6, Option.some.injEq] at hx'
          exact (unit_cancel hx.toHdr.unit.1 (p := Vec4.zero) (by rw [hx'])).symm
        · exfalso
          rw [m3, hac] at hx'
          nlinarith
    · rcases hx with ⟨A, p, hx⟩ | ⟨A, v, w0, w1, hx, hx'⟩
      · exfalso
        have := hx.hpause
        rw [k4] at this
        cases this
      · obtain ⟨rfl, rfl, rfl, rfl⟩ := hx.unique k1
        rcases hx' with hx' | hx' | hx'
        · rw [k2] at hx'
          norm_num at hx'
        · rw [hsp'] at hx'
          linarith
        · exfalso
          rw [k3, hac'] at hx'
          nlinarith
  have hux : u.x = 1 := by linarith
  have hux' : u'.x = 0 := by linarith
  obtain ⟨pre, hpre⟩ : ∃ pre, b.segments = pre ++ [s'] := by
    obtain ⟨l, hl⟩ := List.getLast?_eq_some_iff.1 g2
    exact ⟨l, hl⟩
  obtain ⟨post, hpost⟩ : ∃ post, c.segments = q :: post := by
    cases hc : c.segments with
    | nil => rw [hc] at l1; cases l1
    | cons x l =>
      rw [hc] at l1
      cases l1
      exact ⟨l, rfl⟩
  have hpath : Spec.path [b, c] = pre ++ s' :: q :: post := by
    simp [Spec.path, hpre, hpost]
  obtain ⟨L, _, _, hLm⟩ := k1.hramp.mem
  obtain ⟨w, w₁, l, l₁, g⟩ := hLm q (by rw [hpost]; simp)
  refine ⟨pre.length, q, s', ?_, ?_, ?_, ?_, ?_⟩
  · rw [hpath, List.getElem?_append_right (le_refl _)]
    simp
  · rw [hpath, List.getElem?_append_right (by omega)]
    simp
  · rw [g8, hs1]
    simp [Vec4.mul, hux]
  · rw [g.hvb]
    simp [Vec4.mul, hux']
  · rw [g.hve]
    simp [Vec4.mul, hux']

end Demo

/-- C76 is false of the axes: behind a corner passed at speed the plot shows the velocity of the old direction, and
lets it fade out over the whole first segment of the new one. -/
theorem c76_refuted : ¬ C76Full := by
  intro hF
  obtain ⟨bs, T, h, hT⟩ := exists_endTime .klipper Demo.bracket_regular Demo.bracket_active
  obtain ⟨d, d1, d2⟩ := hF _ _ bs Demo.bracket_regular h Demo.bracket_active
  obtain ⟨i, s, s', hs', hs, t1, t2, t3⟩ := Demo.bracket_turn h
  have hax : Axes ["x", "y", "z", "e"] := ⟨by decide, by simp⟩
  obtain ⟨d', q1, q2, q3⟩ := c76_velocity Demo.bracket_regular h Demo.bracket_active (by
    intro s hs
    simp only [Demo.bracket, List.mem_cons, List.not_mem_nil, or_false] at hs
    rcases hs with rfl | rfl | rfl <;> simp [Demo.at2]) hax true false false
  rw [d1, Except.ok.injEq] at q1
  subst q1
  obtain ⟨ys, hys⟩ : ∃ ys, d.vel[0]? = some ys := by
    cases hd : d.vel with
    | nil => rw [hd] at q2; simp at q2
    | cons x l => exact ⟨x, rfl⟩
  have hm := List.mem_of_getElem? hs
  have htl : Timeline (Spec.path bs) := plan_timeline Demo.bracket_regular h
  have hlt : s.tBegin < s.tEnd := by
    obtain ⟨b, hb, hsb⟩ := List.mem_flatMap.1 hm
    refine (c23_timeline Demo.bracket_regular h).2.2.2 b hb ?_ s hsb
    have hm' : (b.stateA, b.stateB) ∈ active none Demo.bracket := by
      rw [← (plan_ok Demo.bracket_regular h).2.2.2.1]
      exact List.mem_map_of_mem (f := fun b : Block ℝ => (b.stateA, b.stateB)) hb
    unfold active at hm'
    have := (List.of_mem_zip (List.mem_filter.1 hm').1).2
    simp only [Demo.bracket, List.mem_cons, List.not_mem_nil, or_false] at this
    rcases this with e | e | e <;> rw [e] <;> rfl
  obtain ⟨v, hv, _⟩ := (path_even (plan_sound Demo.bracket_regular h) hm).line hlt (1 / 2) (by norm_num) (by norm_num)
  have hcov : Covers s (s.tBegin + (s.tEnd - s.tBegin) * (1 / 2)) := getVelocity_defined hv
  obtain ⟨y, hy⟩ : ∃ y, Plotted (d.times.zip ys) (s.tBegin + (s.tEnd - s.tBegin) * (1 / 2), y) := by
    obtain ⟨vals, fs, js, d', f1, j1, v1, v2, hd, rfl⟩ := plot_ok (plan_plots Demo.bracket_regular h Demo.bracket_active) hax
      true false false
    rw [d1, Except.ok.injEq] at hd
    subst hd
    have := axis_row f1 (k := 0) (a := "x") rfl (Or.inl ⟨rfl, rfl⟩) (fun f => vals.map fun vp => f vp.1) hys
    subst this
    refine curve_total htl (path_ne_nil Demo.bracket_regular h Demo.bracket_active) hT (zip_times v1 _).1 ?_ ?_
    · have := htl.nonneg s hm
      linarith
    · obtain ⟨l, hl, rfl⟩ := hT
      have : s.tEnd ≤ l.tEnd := by
        cases hp : Spec.path bs with
        | nil => rw [hp] at hm; cases hm
        | cons x r =>
          have hpart := htl.part
          rw [hp] at hpart hl hm
          exact hpart.le_last hl s hm
      linarith [hcov.2]
  have e1 := d2 0 "x" Vec4.x ys rfl (Or.inl ⟨rfl, rfl⟩) hys _ y hy s hm (by linarith) (by linarith) v hv
  have e2 := (q3 0 "x" Vec4.x ys rfl (Or.inl ⟨rfl, rfl⟩) hys _ y hy (i + 1) s v hs (by linarith) (by linarith) hv).2
    s' (by simpa using hs') (by omega)
  rw [e1, sub_self, t1, t2] at e2
  have : s.tEnd - s.tBegin ≠ 0 := by linarith
  field_simp at e2
  linarith

/-! ## C76: a number of time steps, and wrong arguments -/

theorem plots_steps (hP : Plots bs) {T : ℝ} (hT : EndTime (Spec.path bs) T)
    {axis : List String} (hax : Axes axis) (sb ss sj : Bool) (n : ℕ) :
    ∃ d, ∃ vals : List (Vec4 ℝ × Vec4 ℝ), plotVel axis (.number n) sb ss sj bs = .ok d ∧
      d.times = (List.range n).map (fun i : ℕ => i * (T / n)) ∧ d.abs = vals.map (fun vp => Vec4.norm3 vp.1) ∧
      (∃ fs, List.Forall₂ AxisOf axis fs ∧ d.vel = fs.map (fun f => vals.map fun vp => f vp.1) ∧
        d.pos = fs.map fun f => vals.map fun vp => f vp.2) ∧
      List.Forall₂ (fun t vp => ∃ s ∈ Spec.path bs, Covers s t ∧ s.getVelocity t = .ok vp.1 ∧
        s.getPosition t = .ok vp.2) d.times vals := by
  have hTe := (endTime_sound hP.sound).2 hT
  have htl : Timeline (Spec.path bs) := hP.sound.isTimeline
  have hT0 : 0 ≤ T := by
    obtain ⟨l, hl, rfl⟩ := hT
    have h1 := htl.nonneg l (List.mem_of_getLast? hl)
    have h2 := htl.duration l (List.mem_of_getLast? hl)
    linarith
  have hin : ∀ (l : List ℕ), (∀ i ∈ l, i < n) → ∀ t ∈ l.map (fun i : ℕ => (i : ℝ) * (T / n)), 0 ≤ t ∧ t ≤ T := by
    intro l hl t ht
    obtain ⟨i, hi, rfl⟩ := List.mem_map.1 ht
    have hi' := hl i hi
    have hn : (0 : ℝ) < n := by
      have : 0 < n := by omega
      exact_mod_cast this
    have hin : (i : ℝ) ≤ n := by exact_mod_cast hi'.le
    refine ⟨by positivity, ?_⟩
    calc (i : ℝ) * (T / n) ≤ n * (T / n) := by
          refine mul_le_mul_of_nonneg_right hin (by positivity)
      _ = T := by field_simp
  have hsort : ((List.range n).map (fun i : ℕ => (i : ℝ) * (T / n))).Pairwise (· ≤ ·) := by
    rw [List.pairwise_map]
    refine List.pairwise_lt_range.imp ?_
    intro a b hab
    have hab' : (a : ℝ) ≤ b := by exact_mod_cast hab.le
    exact mul_le_mul_of_nonneg_right hab' (div_nonneg hT0 (Nat.cast_nonneg n))
  obtain ⟨vals, v1, v2⟩ := hP.sound.isTimeline.sampling hT (hin _ fun i hi => List.mem_range.1 hi) hsort
  obtain ⟨r, r1, _⟩ := hP.sound.isTimeline.sampling hT (ts := ((List.range n).map (fun i : ℕ => (i : ℝ) * (T / n))).take 1)
    (fun t ht => hin _ (fun i hi => List.mem_range.1 hi) t (List.mem_of_mem_take ht)) (hsort.sublist (List.take_sublist _ _))
  obtain ⟨fs, f1, f2⟩ := axes_ok hax.2
  obtain ⟨js, j1, j2⟩ := marks_ok fs sb ss sj bs (hP.marks)
  refine ⟨⟨(List.range n).map (fun i : ℕ => (i : ℝ) * (T / n)), fs.map (fun f => vals.map fun vp => f vp.1),
    fs.map (fun f => vals.map fun vp => f vp.2), vals.map (fun vp => vp.1.norm3),
    if sb then js.map Prod.fst else [], if ss then (Spec.path bs).map Segment.tEnd else [],
    if sj then js.flatMap (fun tj => (tj.1, tj.2.norm3) :: fs.map fun f => (tj.1, f tj.2)) else []⟩, vals, ?_, rfl, rfl,
    ⟨fs, f2, rfl, rfl⟩, v2⟩
  · have ht : plotTimes bs (.number n) = .ok ((List.range n).map (fun i : ℕ => (i : ℝ) * (T / n))) := by
      unfold plotTimes
      simp only [hTe, bind, Except.bind]
      rw [if_neg (by omega)]
      rfl
    unfold plotVel
    simp only [bind, Except.bind, ht, r1, f1, v1, j2]
    rw [if_neg (by simp [hax.1])]

/-- **C76, evenly spaced samples.** With a number of time steps the samples are taken at `i * T / n`, and each is
what a segment at that time reports. -/
theorem c76_steps (hreg : Regular states) (h : plan fw states = .ok bs) {T : ℝ} (hT : EndTime (Spec.path bs) T)
    {axis : List String} (hax : Axes axis) (sb ss sj : Bool) (n : ℕ) :
    ∃ d, ∃ vals : List (Vec4 ℝ × Vec4 ℝ), plotVel axis (.number n) sb ss sj bs = .ok d ∧
      d.times = (List.range n).map (fun i : ℕ => i * (T / n)) ∧ d.abs = vals.map (fun vp => Vec4.norm3 vp.1) ∧
      (∃ fs, List.Forall₂ AxisOf axis fs ∧ d.vel = fs.map (fun f => vals.map fun vp => f vp.1) ∧
        d.pos = fs.map fun f => vals.map fun vp => f vp.2) ∧
      List.Forall₂ (fun t vp => ∃ s ∈ Spec.path bs, Covers s t ∧ s.getVelocity t = .ok vp.1 ∧
        s.getPosition t = .ok vp.2) d.times vals := by
  refine plots_steps ⟨plan_sound hreg h, block_mark hreg h, ?_⟩ hT hax sb ss sj n
  intro he
  obtain ⟨s, hs, _⟩ := hT
  rw [he] at hs
  cases hs

theorem plots_errors (hP : Plots bs)
    (sb ss sj : Bool) :
    (∀ axis n, n < 0 → plotVel axis (.number n) sb ss sj bs = .error .valueError) ∧
      (∀ axis, plotVel axis .other sb ss sj bs = .error .valueError) ∧
      (∀ axis, ¬ (∀ a ∈ axis, a = "x" ∨ a = "y" ∨ a = "z" ∨ a = "e") →
        plotVel axis .constrained sb ss sj bs = .error .keyError) ∧
      ∀ axis, (∀ a ∈ axis, a = "x" ∨ a = "y" ∨ a = "z" ∨ a = "e") → ¬ axis.Nodup →
        plotVel axis .constrained sb ss sj bs = .error .valueError := by
  obtain ⟨T, hT⟩ := hP.exists_end
  have hTe := (endTime_sound hP.sound).2 hT
  obtain ⟨vals, v1, v2, v3⟩ := hP.sound.isTimeline.constrained hT
  have htl : Timeline (Spec.path bs) := hP.sound.isTimeline
  have hT0 : 0 ≤ T := by
    obtain ⟨l, hl, rfl⟩ := hT
    have h1 := htl.nonneg l (List.mem_of_getLast? hl)
    have h2 := htl.duration l (List.mem_of_getLast? hl)
    linarith
  obtain ⟨r, r1, _⟩ := hP.sound.isTimeline.sampling hT (ts := (constrainedTimes (unpack bs)).take 1) (by
    intro t ht
    simp only [constrainedTimes, List.take_succ_cons, List.take_zero, List.mem_singleton] at ht
    rw [ht]
    exact ⟨le_refl _, hT0⟩) (by simp [constrainedTimes])
  refine ⟨?_, ?_, ?_, ?_⟩
  · intro axis n hn
    unfold plotVel plotTimes
    simp only [hTe, bind, Except.bind]
    rw [if_pos hn]
  · intro axis
    rfl
  · intro axis hax
    have hk : axisEntries (K := ℝ) axis = .error .keyError := by
      induction axis with
      | nil => exact absurd (by simp) hax
      | cons a l ih =>
        rw [axisEntries]
        by_cases ha : a = "x" ∨ a = "y" ∨ a = "z" ∨ a = "e"
        · have hl : axisEntries (K := ℝ) l = .error .keyError := by
            refine ih fun hl => hax ?_
            intro b hb
            rcases List.mem_cons.1 hb with rfl | hb
            · exact ha
            · exact hl b hb
          rw [hl]
          rcases ha with rfl | rfl | rfl | rfl <;> rfl
        · have : axisEntry (K := ℝ) a = .error .keyError := by
            push Not at ha
            unfold axisEntry
            split
            · exact absurd rfl ha.1
            · exact absurd rfl ha.2.1
            · exact absurd rfl ha.2.2.1
            · exact absurd rfl ha.2.2.2
            · rfl
          rw [this]
          rfl
    unfold plotVel plotTimes
    simp only [bind, Except.bind, r1, hk]
  · intro axis hax hnd
    obtain ⟨fs, f1, f2⟩ := axes_ok hax
    obtain ⟨js, j1, j2⟩ := marks_ok fs sb ss sj bs (hP.marks)
    unfold plotVel plotTimes
    simp only [bind, Except.bind, r1, f1, v1, j2]
    rw [if_pos ⟨by simp [constrainedTimes], hnd⟩]

/-- **C76, wrong arguments.** A negative number of steps and any other value but `"constrained"` raise `ValueError`,
unknown axes `KeyError`, repeated axes `ValueError`. -/
theorem c76_errors (hreg : Regular states) (h : plan fw states = .ok bs) (hact : active none states ≠ [])
    (sb ss sj : Bool) :
    (∀ axis n, n < 0 → plotVel axis (.number n) sb ss sj bs = .error .valueError) ∧
      (∀ axis, plotVel axis .other sb ss sj bs = .error .valueError) ∧
      (∀ axis, ¬ (∀ a ∈ axis, a = "x" ∨ a = "y" ∨ a = "z" ∨ a = "e") →
        plotVel axis .constrained sb ss sj bs = .error .keyError) ∧
      ∀ axis, (∀ a ∈ axis, a = "x" ∨ a = "y" ∨ a = "z" ∨ a = "e") → ¬ axis.Nodup →
        plotVel axis .constrained sb ss sj bs = .error .valueError :=
  plots_errors (plan_plots hreg h hact) sb ss sj

/-! ## The theorems apply to the demo program and to the bracket -/

example (fw : Firmware) : ∃ bs d, plan fw Demo.prog = .ok bs ∧
    plotVel ["x", "e"] .constrained true true true bs = .ok d ∧ ∃ y, Plotted (d.times.zip d.abs) (0, y) := by
  obtain ⟨bs, T, h, hT, h0⟩ := Demo.end_time fw
  obtain ⟨d, d1, d2, _⟩ := c76_speed Demo.regular h (by rw [Demo.active_prog]; simp) (axis := ["x", "e"])
    ⟨by decide, by simp⟩ true true true
  have htl : Timeline (Spec.path bs) := plan_timeline Demo.regular h
  have hT0 : 0 ≤ T := by
    obtain ⟨l, hl, rfl⟩ := hT
    have h1 := htl.nonneg l (List.mem_of_getLast? hl)
    have h2 := htl.duration l (List.mem_of_getLast? hl)
    linarith
  exact ⟨bs, d, h, d1, d2 T hT 0 (le_refl _) hT0⟩

example : ∃ bs d, plan .default Demo.bracket = .ok bs ∧
    plotVel ["x", "y"] .constrained false false true bs = .ok d ∧ d.vel.length = 2 := by
  obtain ⟨bs, T, h, _⟩ := exists_endTime .default Demo.bracket_regular Demo.bracket_active
  obtain ⟨d, d1, d2, _⟩ := c76_default_partial Demo.bracket_regular h Demo.bracket_active (axis := ["x", "y"])
    ⟨by decide, by simp⟩ false false true
  exact ⟨bs, d, h, d1, d2⟩

end PyGCD
