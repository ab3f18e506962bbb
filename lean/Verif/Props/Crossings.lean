import Verif.Props.Submodel
import Verif.Props.Itinerary
import Verif.Proofs.OptimalLemmas

/-!
# Properties C79 and C80: when `write_submodel_times` returns, and what its times mean
-/

set_option linter.unusedSectionVars false
set_option linter.unusedSimpArgs false

namespace PyGCD
open Vec4 Spec

variable {fw : Firmware} {states : List (PState ℝ)} {bs : List (Block ℝ)}

/-! ## Geometry: lines and boxes -/

theorem crossing_first {c : Box ℝ} {A B : Vec4 ℝ} {f : ℝ} (h : Crossing c.orig c.side A B f true) :
    FirstIn c.orig c.side A B f := by
  rw [crossing_iff] at h
  obtain ⟨h0, h1, hin, i, hi, hf⟩ := h
  refine ⟨h0, h1, hin, fun g g0 g1 hg => ?_⟩
  rw [inBox_iff] at hg
  have := hg i
  rw [axisOf_line] at this
  rcases hf with ⟨h2, h3⟩ | ⟨h2, h3⟩
  · have h3 := h3.1 rfl
    nlinarith
  · have h3 := h3.1 rfl
    nlinarith

theorem crossing_last {c : Box ℝ} {A B : Vec4 ℝ} {f : ℝ} (h : Crossing c.orig c.side A B f false) :
    LastIn c.orig c.side A B f := by
  rw [crossing_iff] at h
  obtain ⟨h0, h1, hin, i, hi, hf⟩ := h
  have hne : axisOf i B - axisOf i A ≠ 0 := by
    intro h
    rw [h, abs_zero] at hi
    norm_num at hi
  refine ⟨h0, h1, hin, fun g g0 g1 hg => ?_⟩
  rw [inBox_iff] at hg
  have := hg i
  rw [axisOf_line] at this
  rcases hf with ⟨h2, h3⟩ | ⟨h2, h3⟩
  · have h3 : axisOf i A < axisOf i B := by
      rcases lt_trichotomy (axisOf i A) (axisOf i B) with h | h | h
      · exact h
      · exact absurd (by rw [h, sub_self]) hne
      · exact absurd (h3.2 h) (by simp)
    nlinarith
  · have h3 : axisOf i B < axisOf i A := by
      rcases lt_trichotomy (axisOf i A) (axisOf i B) with h | h | h
      · exact absurd (h3.2 h) (by simp)
      · exact absurd (by rw [h, sub_self]) hne
      · exact h
    nlinarith

theorem crossing_surface {c : Box ℝ} {A B : Vec4 ℝ} {f : ℝ} {e : Bool}
    (h : Crossing c.orig c.side A B f e) : Surface c.orig c.side (A.add ((B.sub A).mul f)) := by
  obtain ⟨_, _, hin, h⟩ := h
  refine ⟨hin, ?_⟩
  rcases h with ⟨_, ⟨h, _⟩ | ⟨h, _⟩⟩ | ⟨_, ⟨h, _⟩ | ⟨h, _⟩⟩ | ⟨_, ⟨h, _⟩ | ⟨h, _⟩⟩
  · exact Or.inl h
  · exact Or.inr (Or.inl h)
  · exact Or.inr (Or.inr (Or.inl h))
  · exact Or.inr (Or.inr (Or.inr (Or.inl h)))
  · exact Or.inr (Or.inr (Or.inr (Or.inr (Or.inl h))))
  · exact Or.inr (Or.inr (Or.inr (Or.inr (Or.inr h))))

theorem steep_iff (c : Box ℝ) (p q : Vec4 ℝ) : Steep c.orig c.side p q ↔
    ∀ i, axisOf i p < c.lo i ∨ c.hi i < axisOf i p → 1e-6 < |axisOf i q - axisOf i p| := by
  constructor
  · rintro ⟨h1, h2, h3⟩ i
    fin_cases i
    · exact h1
    · exact h2
    · exact h3
  · intro h
    exact ⟨h 0, h 1, h 2⟩

/-- Along one axis: where a line that starts beside the box reaches it. -/
theorem reach {a b lo hi g : ℝ} (h0 : 0 ≤ g) (hg : lo ≤ a + (b - a) * g ∧ a + (b - a) * g ≤ hi)
    (hout : a < lo ∨ hi < a) : ∃ f, 0 < f ∧ f ≤ g ∧
      ((a + (b - a) * f = hi ∧ b < a) ∨ (a + (b - a) * f = lo ∧ a < b)) ∧
      (∀ x, f ≤ x → x ≤ g → lo ≤ a + (b - a) * x ∧ a + (b - a) * x ≤ hi) := by
  rcases hout with h | h
  · have hd : 0 < b - a := by nlinarith
    have hd' := hd.ne'
    have he : a + (b - a) * ((lo - a) / (b - a)) = lo := by field_simp; ring
    refine ⟨(lo - a) / (b - a), div_pos (by linarith) hd, ?_, Or.inr ⟨he, by linarith⟩, ?_⟩
    · rw [div_le_iff₀ hd]
      linarith
    · intro x hx hxg
      have := mul_le_mul_of_nonneg_left hx hd.le
      have := mul_le_mul_of_nonneg_left hxg hd.le
      constructor <;> linarith
  · have hd : b - a < 0 := by nlinarith
    have hd' := hd.ne
    have he : a + (b - a) * ((hi - a) / (b - a)) = hi := by field_simp; ring
    refine ⟨(hi - a) / (b - a), div_pos_of_neg_of_neg (by linarith) hd, ?_, Or.inl ⟨he, by linarith⟩, ?_⟩
    · rw [div_le_iff_of_neg hd]
      linarith
    · intro x hx hxg
      have := mul_le_mul_of_nonpos_left hx hd.le
      have := mul_le_mul_of_nonpos_left hxg hd.le
      constructor <;> linarith

/-- A line that starts outside the box and gets inside enters it through a face. -/
theorem crossing_entry {c : Box ℝ} {A B : Vec4 ℝ} {g : ℝ} (h0 : 0 ≤ g) (h1 : g ≤ 1)
    (hin : InBox c.orig c.side (A.add ((B.sub A).mul g))) (hA : ¬ InBox c.orig c.side A)
    (hs : Steep c.orig c.side A B) : ∃ f, 0 < f ∧ f ≤ g ∧ Crossing c.orig c.side A B f true := by
  rw [inBox_iff] at hin hA
  rw [steep_iff] at hs
  simp only [axisOf_line] at hin
  -- where the line is within the limits of each axis
  have key : ∀ i, ∃ f, 0 ≤ f ∧ f ≤ g ∧
      (∀ x, f ≤ x → x ≤ g → c.lo i ≤ axisOf i A + (axisOf i B - axisOf i A) * x ∧
        axisOf i A + (axisOf i B - axisOf i A) * x ≤ c.hi i) ∧
      (¬ (c.lo i ≤ axisOf i A ∧ axisOf i A ≤ c.hi i) → 0 < f) ∧
      (0 < f → 1e-6 < |axisOf i B - axisOf i A| ∧
        ((axisOf i A + (axisOf i B - axisOf i A) * f = c.hi i ∧ axisOf i B < axisOf i A) ∨
          (axisOf i A + (axisOf i B - axisOf i A) * f = c.lo i ∧ axisOf i A < axisOf i B))) := by
    intro i
    by_cases hi : c.lo i ≤ axisOf i A ∧ axisOf i A ≤ c.hi i
    · refine ⟨0, le_refl _, h0, ?_, fun h => absurd hi h, fun h => absurd h (lt_irrefl _)⟩
      intro x hx hxg
      obtain ⟨e1, e2⟩ := hin i
      rcases le_total 0 (axisOf i B - axisOf i A) with hd | hd
      · have := mul_le_mul_of_nonneg_left hxg hd
        have := mul_nonneg hd hx
        constructor <;> linarith [hi.1, hi.2]
      · have := mul_le_mul_of_nonpos_left hxg hd
        have := mul_nonpos_of_nonpos_of_nonneg hd hx
        constructor <;> linarith [hi.1, hi.2]
    · have ho : axisOf i A < c.lo i ∨ c.hi i < axisOf i A := by
        by_contra hc
        push Not at hc
        exact hi hc
      obtain ⟨f, f1, f2, f3, f4⟩ := reach h0 (hin i) ho
      exact ⟨f, f1.le, f2, f4, fun _ => f1, fun _ => ⟨hs i ho, f3⟩⟩
  choose F k0 k1 k2 k3 k4 using key
  obtain ⟨j, hj⟩ : ∃ j, ∀ i, F i ≤ F j := by
    obtain ⟨j, _, hj⟩ := Finset.exists_max_image Finset.univ F ⟨(0 : Fin 3), Finset.mem_univ _⟩
    exact ⟨j, fun i => hj i (Finset.mem_univ _)⟩
  have hpos : 0 < F j := by
    obtain ⟨i, hi⟩ := not_forall.1 hA
    exact lt_of_lt_of_le (k3 i hi) (hj i)
  obtain ⟨m1, m2⟩ := k4 j hpos
  refine ⟨F j, hpos, k1 j, ?_⟩
  rw [crossing_iff]
  refine ⟨hpos.le, le_trans (k1 j) h1, ?_, j, m1, ?_⟩
  · rw [inBox_iff]
    intro i
    rw [axisOf_line]
    exact k2 i _ (hj i) (k1 j)
  · rcases m2 with ⟨m2, m3⟩ | ⟨m2, m3⟩
    · exact Or.inl ⟨m2, by simpa using m3⟩
    · exact Or.inr ⟨m2, by simpa using m3⟩

theorem line_reverse (A B : Vec4 ℝ) (f : ℝ) :
    A.add ((B.sub A).mul f) = B.add ((A.sub B).mul (1 - f)) := by
  ext <;> simp only [Vec4.add, Vec4.mul, Vec4.sub] <;> ring

theorem onFace_reverse {o d a b q : ℝ} (h : OnFace o d b a q true) : OnFace o d a b q false := by
  obtain ⟨h1, h2⟩ := h
  refine ⟨by rw [abs_sub_comm]; exact h1, ?_⟩
  rcases h2 with ⟨h2, h3⟩ | ⟨h2, h3⟩
  · have := h3.1 rfl
    exact Or.inl ⟨h2, by simp; linarith⟩
  · have := h3.1 rfl
    exact Or.inr ⟨h2, by simp; linarith⟩

/-- A line that has been in the box and ends outside leaves it through a face. -/
theorem crossing_exit {c : Box ℝ} {A B : Vec4 ℝ} {g : ℝ} (h0 : 0 ≤ g) (h1 : g ≤ 1)
    (hin : InBox c.orig c.side (A.add ((B.sub A).mul g))) (hB : ¬ InBox c.orig c.side B)
    (hs : Steep c.orig c.side B A) : ∃ f, g ≤ f ∧ f < 1 ∧ Crossing c.orig c.side A B f false := by
  rw [line_reverse] at hin
  obtain ⟨f, f0, f1, k0, k1, k2, k3⟩ := crossing_entry (sub_nonneg.2 h1) (by linarith) hin hB hs
  have e : B.add ((A.sub B).mul f) = A.add ((B.sub A).mul (1 - f)) := line_reverse B A f
  rw [e] at k2
  have hx := congrArg Vec4.x e
  have hy := congrArg Vec4.y e
  have hz := congrArg Vec4.z e
  simp only [Vec4.add, Vec4.mul, Vec4.sub] at hx hy hz
  refine ⟨1 - f, by linarith, by linarith, by linarith, by linarith, k2, ?_⟩
  rw [hx, hy, hz] at k3
  rcases k3 with k | k | k
  · exact Or.inl (onFace_reverse k)
  · exact Or.inr (Or.inl (onFace_reverse k))
  · exact Or.inr (Or.inr (onFace_reverse k))

theorem Spec.FirstIn.unique {o d A B : Vec4 ℝ} {f f' : ℝ} (h : FirstIn o d A B f)
    (h' : FirstIn o d A B f') : f = f' := by
  rcases lt_trichotomy f f' with hl | hl | hl
  · exact absurd h.2.2.1 (h'.2.2.2 f h.1 hl)
  · exact hl
  · exact absurd h'.2.2.1 (h.2.2.2 f' h'.1 hl)

theorem Spec.LastIn.unique {o d A B : Vec4 ℝ} {f f' : ℝ} (h : LastIn o d A B f)
    (h' : LastIn o d A B f') : f = f' := by
  rcases lt_trichotomy f f' with hl | hl | hl
  · exact absurd h'.2.2.1 (h.2.2.2 f' hl h'.2.1)
  · exact hl
  · exact absurd h.2.2.1 (h'.2.2.2 f hl h.2.1)

/-! ## Progress along a move -/

theorem vec_mul_mul (u : Vec4 ℝ) (a b : ℝ) : (u.mul a).mul b = u.mul (a * b) := by
  ext <;> simp only [Vec4.mul] <;> ring

theorem dist_strict {u p : Vec4 ℝ} {a vT L w w₁ l l₁ : ℝ} {s : Segment ℝ}
    (g : SegOn u a vT p L s w w₁ l l₁) {t t' : ℝ} (h : Covers s t) (h' : Covers s t') (htt : t < t') :
    l + (w + SegOn.speed s w w₁ t) / 2 * (t - s.tBegin) <
      l + (w + SegOn.speed s w w₁ t') / 2 * (t' - s.tBegin) := by
  have h1 := (g.speed_bounds h).1
  have h2 := (g.speed_bounds h').1
  have hd := sub_pos.2 g.ht
  have e : l + (w + SegOn.speed s w w₁ t') / 2 * (t' - s.tBegin) -
      (l + (w + SegOn.speed s w w₁ t) / 2 * (t - s.tBegin)) =
      (SegOn.speed s w w₁ t + SegOn.speed s w w₁ t') / 2 * (t' - t) := by
    unfold SegOn.speed
    ring
  have hsum : 0 < SegOn.speed s w w₁ t + SegOn.speed s w w₁ t' := by
    -- the speed vanishes at most at one end
    refine lt_of_le_of_ne (by linarith) fun h0 => ?_
    have z1 : SegOn.speed s w w₁ t = 0 := by linarith
    have z2 : SegOn.speed s w w₁ t' = 0 := by linarith
    unfold SegOn.speed at z1 z2
    have hk : (w₁ - w) / (s.tEnd - s.tBegin) * (t' - t) = 0 := by
      linear_combination z2 - z1
    have hw : (w₁ - w) / (s.tEnd - s.tBegin) = 0 := by
      rcases mul_eq_zero.1 hk with h | h
      · exact h
      · linarith
    have : w₁ = w := by
      rw [div_eq_zero_iff] at hw
      rcases hw with h | h <;> linarith
    have := g.hpos
    rw [hw, MulZeroClass.zero_mul, _root_.add_zero] at z1
    linarith
  have : 0 < (SegOn.speed s w w₁ t + SegOn.speed s w w₁ t') / 2 * (t' - t) := by
    have := sub_pos.2 htt
    positivity
  linarith

/-- During a travelling move the nozzle runs forwards all the time. -/
theorem ramp_strict {u : Vec4 ℝ} {a vT : ℝ} (hu : u.norm3 = 1) {p p' : Vec4 ℝ} {t₀ t₀' v v' : ℝ}
    {ss : List (Segment ℝ)} (h : Ramp u a vT p t₀ v ss p' t₀' v') :
    (∀ s ∈ ss, ∀ t, Covers s t → t₀ ≤ t ∧ ∃ g, 0 ≤ g ∧ s.getPosition t = .ok (p.add (u.mul g)) ∧
      (t₀ < t → 0 < g)) ∧
    ∀ s ∈ ss, ∀ s' ∈ ss, ∀ t t' g g', Covers s t → Covers s' t' → t < t' →
      s.getPosition t = .ok (p.add (u.mul g)) → s'.getPosition t' = .ok (p.add (u.mul g')) → g < g' := by
  have huc : ∀ {p : Vec4 ℝ} {l d : ℝ}, p.add (u.mul l) = p.add (u.mul d) → l = d :=
    fun h => unit_cancel (eo := false) (by simpa [UnitDir] using hu) h
  have huc' : ∀ {p : Vec4 ℝ} {l d : ℝ}, (Except.ok (p.add (u.mul l)) : Except PyErr (Vec4 ℝ)) =
      .ok (p.add (u.mul d)) → l = d := fun h => huc (by rwa [Except.ok.injEq] at h)
  induction h with
  | nil p t v => exact ⟨fun s hs => (List.not_mem_nil hs).elim, fun s hs => (List.not_mem_nil hs).elim⟩
  | @cons t t₁ v v₁ t' v' p p₁ p' ss hv hv₁ ht hacc hpos hp hrest ih =>
    obtain ⟨ih1, ih2⟩ := ih
    set d := (v + v₁) / 2 * (t₁ - t) with hd
    have hdp : 0 < d := by
      have := sub_pos.2 ht
      positivity
    have G : SegOn u a vT p d ⟨t, t₁, p, u.mul v, p₁, u.mul v₁⟩ v v₁ 0 d :=
      ⟨hv, hv₁, ht, hacc, hpos, rfl, rfl, by rw [Vec4.mul_zero, Vec4.add_zero], hp, le_refl _, le_refl _,
        by rw [zero_add]⟩
    -- the head
    have head : ∀ τ, Covers (⟨t, t₁, p, u.mul v, p₁, u.mul v₁⟩ : Segment ℝ) τ → ∃ g, 0 ≤ g ∧ g ≤ d ∧
        (⟨t, t₁, p, u.mul v, p₁, u.mul v₁⟩ : Segment ℝ).getPosition τ = .ok (p.add (u.mul g)) ∧
        (t < τ → 0 < g) ∧ (τ < t₁ → g < d) := by
      intro τ hτ
      refine ⟨_, (G.dist_bounds hτ).1, (G.dist_bounds hτ).2, G.getPosition hτ, ?_, ?_⟩
      · intro hlt
        have := dist_strict G (t := t) (t' := τ) ⟨le_refl _, ht.le⟩ hτ hlt
        simpa using this
      · intro hlt
        have := dist_strict G (t := τ) (t' := t₁) hτ ⟨ht.le, le_refl _⟩ hlt
        have e : (0 : ℝ) + (v + SegOn.speed (⟨t, t₁, p, u.mul v, p₁, u.mul v₁⟩ : Segment ℝ) v v₁ t₁) / 2 *
            (t₁ - t) = d := by
          have := (sub_pos.2 ht).ne'
          rw [hd]
          unfold SegOn.speed
          simp only
          field_simp
          ring
        rw [e] at this
        exact this
    -- the tail
    have tail : ∀ s ∈ ss, ∀ τ, Covers s τ → t₁ ≤ τ ∧ ∃ g, d ≤ g ∧ s.getPosition τ = .ok (p.add (u.mul g)) ∧
        s.getPosition τ = .ok (p₁.add (u.mul (g - d))) ∧ (t₁ < τ → d < g) := by
      intro s hs τ hτ
      obtain ⟨k0, g, k1, k2, k3⟩ := ih1 s hs τ hτ
      refine ⟨k0, d + g, by linarith, ?_, ?_, fun h => by linarith [k3 h]⟩
      · rw [k2, hp, add_mul_add]
      · rw [k2, add_sub_cancel_left]
    constructor
    · intro s hs τ hτ
      rcases List.mem_cons.1 hs with rfl | hs
      · obtain ⟨g, k0, _, k1, k2, _⟩ := head τ hτ
        exact ⟨hτ.1, g, k0, k1, k2⟩
      · obtain ⟨k0, g, k1, k2, _, k4⟩ := tail s hs τ hτ
        exact ⟨by linarith, g, by linarith, k2, fun _ => by linarith⟩
    · intro s hs s' hs' τ τ' g g' hτ hτ' hlt e e'
      rcases List.mem_cons.1 hs with rfl | hs
      · rcases List.mem_cons.1 hs' with rfl | hs'
        · rw [G.getPosition hτ] at e
          rw [G.getPosition hτ'] at e'
          have := dist_strict G hτ hτ' hlt
          rw [huc' e, huc' e'] at this
          exact this
        · obtain ⟨x, _, x1, x2, _, x3⟩ := head τ hτ
          obtain ⟨k0, y, y1, y2, _, y3⟩ := tail s' hs' τ' hτ'
          have ex := huc' (e.symm.trans x2)
          have ey := huc' (e'.symm.trans y2)
          rw [ex, ey]
          rcases lt_or_eq_of_le k0 with h | h
          · linarith [y3 h]
          · linarith [x3 (by linarith)]
      · rcases List.mem_cons.1 hs' with rfl | hs'
        · have := (tail s hs τ hτ).1
          have := hτ'.2
          simp only at this
          linarith
        · obtain ⟨_, x, _, x2, x3, _⟩ := tail s hs τ hτ
          obtain ⟨_, y, _, y2, y3, _⟩ := tail s' hs' τ' hτ'
          have ex := huc' (e.symm.trans x2)
          have ey := huc' (e'.symm.trans y2)
          have := ih2 s hs s' hs' τ τ' _ _ hτ hτ' hlt x3 y3
          rw [ex, ey]
          linarith

/-- A block whose end points differ in space is a travelling move: its direction and length. -/
theorem Good.travelling {b : Block ℝ} (hg : Good b)
    {A : PState ℝ} (hA : b.stateA = some A) (hL : 0 < (b.stateB.position.sub A.position).norm3) :
    ∃ u s0 s1, MoveB b A u s0 s1 ∧ u.norm3 = 1 ∧
      b.stateB.position.sub A.position = u.mul (b.stateB.position.sub A.position).norm3 := by
  rcases hg with ⟨A', u, s0, s1, hm⟩ | ⟨A', p, hm⟩
  swap
  · have := hm.hA
    rw [hA, Option.some.injEq] at this
    rw [hm.hpos, ← this, Vec4.sub_self, norm3_zero] at hL
    exact absurd hL (lt_irrefl _)
  have hAA := hm.hA
  rw [hA, Option.some.injEq] at hAA
  subst hAA
  obtain ⟨hu, hdist, hpos, heo, _⟩ := hm.toHdr.unit
  have hn : u.norm3 = 1 := by
    cases he : (moveDistance A b.stateB).2
    · rw [he] at hu
      simpa [UnitDir] using hu
    · rw [heo.1 he] at hL
      exact absurd hL (lt_irrefl _)
  have e1 : b.stateB.position.sub A.position = u.mul (moveDistance A b.stateB).1 := by
    conv_lhs => rw [hpos]
    ext <;> simp [Vec4.sub, Vec4.add]
  have e2 : (moveDistance A b.stateB).1 = (b.stateB.position.sub A.position).norm3 := by
    rw [e1, norm3_mul, hn, one_mul, abs_of_pos hdist]
  exact ⟨u, s0, s1, hm, hn, by rw [← e2]; exact e1⟩

theorem travelling (hreg : Regular states) (h : plan fw states = .ok bs) {b : Block ℝ} (hb : b ∈ bs)
    {A : PState ℝ} (hA : b.stateA = some A) (hL : 0 < (b.stateB.position.sub A.position).norm3) :
    ∃ u s0 s1, MoveB b A u s0 s1 ∧ u.norm3 = 1 ∧
      b.stateB.position.sub A.position = u.mul (b.stateB.position.sub A.position).norm3 :=
  ((plan_ok hreg h).1 b hb).travelling hA hL

/-- During a travelling move, later points are further on the line from its start to its end. -/
theorem move_strict (hreg : Regular states) (h : plan fw states = .ok bs) {b : Block ℝ} (hb : b ∈ bs)
    {A : PState ℝ} (hA : b.stateA = some A) (hL : 0 < (b.stateB.position.sub A.position).norm3)
    {s s' : Segment ℝ} (hs : s ∈ b.segments) (hs' : s' ∈ b.segments) {t t' g g' : ℝ} (ht : Covers s t)
    (ht' : Covers s' t') (htt : t < t')
    (e : s.getPosition t = .ok (A.position.add ((b.stateB.position.sub A.position).mul g)))
    (e' : s'.getPosition t' = .ok (A.position.add ((b.stateB.position.sub A.position).mul g'))) : g < g' := by
  obtain ⟨u, s0, s1, hm, hn, hd⟩ := travelling hreg h hb hA hL
  rw [hd, vec_mul_mul] at e e'
  have := (ramp_strict hn hm.hramp).2 s hs s' hs' t t' _ _ ht ht' htt e e'
  exact lt_of_mul_lt_mul_left this hL.le

/-- During a move the nozzle is on the line from its start to its end. -/
theorem move_on_line (hreg : Regular states) (h : plan fw states = .ok bs) {b : Block ℝ} (hb : b ∈ bs)
    {A : PState ℝ} (hA : b.stateA = some A) {s : Segment ℝ} (hs : s ∈ b.segments) {t : ℝ} (ht : Covers s t) :
    ∃ g, 0 ≤ g ∧ g ≤ 1 ∧
      s.getPosition t = .ok (A.position.add ((b.stateB.position.sub A.position).mul g)) := by
  rcases (plan_ok hreg h).1 b hb with ⟨A', u, s0, s1, hm⟩ | ⟨A', q, hm⟩
  · have hAA := hm.hA
    rw [hA, Option.some.injEq] at hAA
    subst hAA
    obtain ⟨hu, hdist, hpos, _⟩ := hm.toHdr.unit
    obtain ⟨L, hL0, hLp, hmem⟩ := hm.hramp.mem
    obtain ⟨w, w₁, k, k₁, g⟩ := hmem s hs
    have hLN : (moveDistance A b.stateB).1 = L := by
      refine unit_cancel hu (p := A.position) ?_
      rw [← hLp, ← hpos]
    rw [hLN] at hdist
    have hd : b.stateB.position.sub A.position = u.mul L := by
      conv_lhs => rw [hLp]
      ext <;> simp [Vec4.sub, Vec4.add]
    have hb := g.dist_bounds ht
    refine ⟨_, div_nonneg (le_trans g.hl hb.1) hdist.le, (div_le_one hdist).2 (le_trans hb.2 g.hl₁), ?_⟩
    rw [g.getPosition ht, hd, vec_mul_mul]
    congr 3
    field_simp
  · have hAA := hm.hA
    rw [hA, Option.some.injEq] at hAA
    subst hAA
    obtain ⟨t₀, ht₀⟩ := hm.hseg
    rw [ht₀, List.mem_singleton] at hs
    subst hs
    refine ⟨0, le_refl _, zero_le_one, ?_⟩
    rw [Vec4.mul_zero, Vec4.add_zero]
    unfold Segment.getPosition Segment.getVelocity
    have h' : ¬ (t < t₀ ∨ t₀ + q < t) := by
      push Not
      exact ht
    simp only [h', if_false, bind, Except.bind]
    split <;> congr 1 <;> ext <;> simp [Vec4.add, Vec4.mul, Vec4.div, Vec4.zero, Vec4.sub]

/-! ## C79: the outcome -/

/-- The time at which a travelling move is at its start: an error if it starts from rest. -/
theorem Good.inverse_start {b : Block ℝ} (hg : Good b)
    {A : PState ℝ} (hA : b.stateA = some A) (hL : 0 < (b.stateB.position.sub A.position).norm3) :
    ∃ s rest, b.segments = s :: rest ∧ Covers s s.tBegin ∧ s.getPosition s.tBegin = .ok A.position ∧
      b.inverseTimeAtPos 0 = if 0 < s.velBegin.norm3 then .ok s.tBegin else .error .valueError := by
  obtain ⟨u, s0, s1, hm, hn, hd⟩ := hg.travelling hA hL
  have hr := hm.hramp
  generalize b.t0 = T₀ at hr
  generalize b.t1 = T₁ at hr
  unfold Block.inverseTimeAtPos
  revert hr
  generalize b.segments = ss
  intro hr
  generalize hp' : b.stateB.position = p' at hr
  cases hr with
  | nil =>
    rw [hp', Vec4.sub_self, norm3_zero] at hL
    exact absurd hL (lt_irrefl _)
  | @cons _ t₁ _ v₁ _ _ _ p₁ _ ss hv hv₁ ht hacc hpos hp hrest =>
    set d := (s0 + v₁) / 2 * (t₁ - T₀) with hdd
    have hdp : 0 < d := by
      have := sub_pos.2 ht
      positivity
    have G : SegOn u b.stateB.pAcc b.stateB.speed A.position d
        ⟨T₀, t₁, A.position, u.mul s0, p₁, u.mul v₁⟩ s0 v₁ 0 d :=
      ⟨hv, hv₁, ht, hacc, hpos, rfl, rfl, by rw [Vec4.mul_zero, Vec4.add_zero], hp, le_refl _, le_refl _,
        by rw [zero_add]⟩
    have hlen : Segment.len ⟨T₀, t₁, A.position, u.mul s0, p₁, u.mul v₁⟩ = d := by
      unfold Segment.len
      simp only [hp]
      have : (A.position.add (u.mul d)).sub A.position = u.mul d := by ext <;> simp [Vec4.add, Vec4.sub]
      rw [this, norm3_mul, hn, one_mul, abs_of_pos hdp]
    have hc : Covers (⟨T₀, t₁, A.position, u.mul s0, p₁, u.mul v₁⟩ : Segment ℝ) T₀ := ⟨le_refl _, ht.le⟩
    have hwn : (u.mul s0).norm3 = s0 := by rw [norm3_mul, hn, one_mul, abs_of_nonneg hv.1]
    refine ⟨_, _, rfl, hc, ?_, ?_⟩
    · rw [G.getPosition hc]
      simp only [sub_self, MulZeroClass.mul_zero, _root_.add_zero]
      rw [Vec4.mul_zero, Vec4.add_zero]
    · unfold inverseTimeLoop
      simp only [hlen]
      rw [if_pos (by linarith)]
      have hx : d - (0 + d - 0) = 0 := by ring
      rw [hx]
      unfold Segment.interpolateTimeToSpace
      have hk : ((u.mul v₁).sub (u.mul s0)).norm3 = |v₁ - s0| := by
        have : (u.mul v₁).sub (u.mul s0) = u.mul (v₁ - s0) := by
          ext <;> simp only [Vec4.mul, Vec4.sub] <;> ring
        rw [this, norm3_mul, hn, one_mul]
      simp only [hk, hwn, MulZeroClass.mul_zero, zero_add, sqrt_real]
      have hdt := sub_pos.2 ht
      by_cases h0 : 0 < s0
      · rw [if_pos h0, if_pos (mul_pos h0 h0), Real.sqrt_mul_self h0.le, sub_self, zero_div,
          MulZeroClass.mul_zero, zero_add, zero_div, MulZeroClass.mul_zero, zero_add]
        split <;> rfl
      · have hz : s0 = 0 := le_antisymm (not_lt.1 h0) hv.1
        subst hz
        have hv1 : 0 < v₁ := by linarith
        rw [if_neg (lt_irrefl _), if_pos (by rw [sub_zero, abs_of_pos hv1]; positivity), if_neg (by simp)]

theorem inverse_start (hreg : Regular states) (h : plan fw states = .ok bs) {b : Block ℝ} (hb : b ∈ bs)
    {A : PState ℝ} (hA : b.stateA = some A) (hL : 0 < (b.stateB.position.sub A.position).norm3) :
    ∃ s rest, b.segments = s :: rest ∧ Covers s s.tBegin ∧ s.getPosition s.tBegin = .ok A.position ∧
      b.inverseTimeAtPos 0 = if 0 < s.velBegin.norm3 then .ok s.tBegin else .error .valueError :=
  ((plan_ok hreg h).1 b hb).inverse_start hA hL

theorem crossing_length {c : Box ℝ} {A B : Vec4 ℝ} {f : ℝ} {e : Bool}
    (h : Crossing c.orig c.side A B f e) : 0 < (B.sub A).norm3 := by
  refine lt_of_le_of_ne (norm3_nonneg _) (Ne.symm fun h0 => ?_)
  obtain ⟨e1, e2, e3⟩ := norm3_eq_zero.1 h0
  simp only [Vec4.sub] at e1 e2 e3
  obtain ⟨_, _, _, ⟨h, _⟩ | ⟨h, _⟩ | ⟨h, _⟩⟩ := h
  · rw [e1, abs_zero] at h
    norm_num at h
  · rw [e2, abs_zero] at h
    norm_num at h
  · rw [e3, abs_zero] at h
    norm_num at h

/-- The time of a crossing of the box is found, unless the move starts from rest at that point. -/
theorem crossing_time (hreg : Regular states) (h : plan fw states = .ok bs) {b : Block ℝ} (hb : b ∈ bs)
    {A : PState ℝ} (hA : b.stateA = some A) {c : Box ℝ} {f : ℝ} {e : Bool}
    (hc : Crossing c.orig c.side A.position b.stateB.position f e) :
    (f = 0 ∧ (∃ s ∈ b.segments.head?, s.velBegin.norm3 = 0) ∧
      b.inverseTimeAtPos ((b.stateB.position.sub A.position).mul f).norm3 = .error .valueError) ∨
    ¬ (f = 0 ∧ ∃ s ∈ b.segments.head?, s.velBegin.norm3 = 0) ∧
      ∃ t, b.inverseTimeAtPos ((b.stateB.position.sub A.position).mul f).norm3 = .ok t := by
  have hL := crossing_length hc
  obtain ⟨f0, f1, _⟩ := hc
  rcases lt_or_eq_of_le f0 with hf | hf
  · right
    refine ⟨fun h => hf.ne' h.1, ?_⟩
    have hn : ((b.stateB.position.sub A.position).mul f).norm3 = (b.stateB.position.sub A.position).norm3 * f := by
      rw [norm3_mul, abs_of_pos hf]
    obtain ⟨t, s, r, _⟩ := c42_law hreg h hb hA rfl (d := ((b.stateB.position.sub A.position).mul f).norm3)
      (by rw [hn]; positivity) (by rw [hn]; nlinarith)
    exact ⟨t, r⟩
  · subst hf
    obtain ⟨s, rest, e1, e2, e3, e4⟩ := inverse_start hreg h hb hA hL
    rw [Vec4.mul_zero, norm3_zero, e4, e1]
    simp only [List.head?_cons, Option.mem_def, Option.some.injEq, exists_eq_left', true_and]
    by_cases hv : 0 < s.velBegin.norm3
    · right
      rw [if_pos hv]
      exact ⟨hv.ne', _, rfl⟩
    · left
      rw [if_neg hv]
      exact ⟨le_antisymm (not_lt.1 hv) (norm3_nonneg _), rfl⟩

/-- What the search in one block does. -/
theorem blockCrossings_outcome (hreg : Regular states) (h : plan fw states = .ok bs) {b : Block ℝ}
    (hb : b ∈ bs) {A : PState ℝ} (hA : b.stateA = some A) (c : Box ℝ) : ∀ pls : List (Fin 3 × Bool),
    (∃ pl ∈ pls, ∃ q e, isectLinePlane A.position b.stateB.position pl (c.planeAt pl) = some (q, 0, e) ∧
        pointInside c q = true ∧ ∃ s ∈ b.segments.head?, s.velBegin.norm3 = 0) ∧
      blockCrossings c b A pls = .error .valueError ∨
    (¬ ∃ pl ∈ pls, ∃ q e, isectLinePlane A.position b.stateB.position pl (c.planeAt pl) = some (q, 0, e) ∧
        pointInside c q = true ∧ ∃ s ∈ b.segments.head?, s.velBegin.norm3 = 0) ∧
      ∃ l, blockCrossings c b A pls = .ok l := by
  intro pls
  induction pls with
  | nil => exact Or.inr ⟨by simp, [], rfl⟩
  | cons pl pls ih =>
    unfold blockCrossings
    cases hi : isectLinePlane A.position b.stateB.position pl (c.planeAt pl) with
    | none => simpa [hi] using ih
    | some r =>
      obtain ⟨q, d, e⟩ := r
      by_cases hp : pointInside c q = true
      swap
      · simp only [hp, Bool.false_eq_true, if_false]
        rcases ih with ⟨⟨pl', i1, i2⟩, i3⟩ | ⟨i1, i3⟩
        · exact Or.inl ⟨⟨pl', by simp [i1], i2⟩, i3⟩
        · refine Or.inr ⟨?_, i3⟩
          rintro ⟨pl', j1, q', e', j2, j3, j4⟩
          rcases List.mem_cons.1 j1 with rfl | j1
          · rw [hi, Option.some.injEq, Prod.mk.injEq] at j2
            rw [← j2.1] at j3
            exact hp j3
          · exact i1 ⟨pl', j1, q', e', j2, j3, j4⟩
      have hcr : ∃ f, Crossing c.orig c.side A.position b.stateB.position f e ∧
          d = ((b.stateB.position.sub A.position).mul f).norm3 := by
        obtain ⟨f, f1, f2, f3, f4, f5, rfl, rfl⟩ := (isectLinePlane_iff _ _ _ _ _ _ _).1 hi
        refine ⟨f, ?_, rfl⟩
        rw [crossing_iff]
        refine ⟨f1, f2, (pointInside_iff c _).1 hp, pl.1, f3, ?_⟩
        unfold Box.planeAt at f4
        cases hpl : pl.2
        · rw [hpl] at f4 f5
          exact Or.inr ⟨by simpa using f4, by simpa using f5⟩
        · rw [hpl] at f4 f5
          exact Or.inl ⟨by simpa using f4, by simpa using f5⟩
      obtain ⟨f, hc, hd⟩ := hcr
      have hL := crossing_length hc
      have hd0 : d = 0 ↔ f = 0 := by
        rw [hd, norm3_mul, abs_of_nonneg hc.1, mul_eq_zero]
        exact ⟨fun h => h.resolve_left hL.ne', Or.inr⟩
      rcases crossing_time hreg h hb hA hc with ⟨k1, k2, k3⟩ | ⟨k1, t, k3⟩
      · left
        rw [← hd] at k3
        refine ⟨⟨pl, by simp, q, e, ?_, hp, k2⟩, ?_⟩
        · rw [hi, hd0.2 k1]
        · simp only [hp, if_true, k3, bind, Except.bind]
      · rw [← hd] at k3
        simp only [hp, if_true, k3, bind, Except.bind]
        rcases ih with ⟨⟨pl', i1, i2⟩, i3⟩ | ⟨i1, l, i3⟩
        · left
          exact ⟨⟨pl', by simp [i1], i2⟩, by rw [i3]⟩
        · right
          refine ⟨?_, (t, e) :: l, by rw [i3]⟩
          rintro ⟨pl', j1, q', e', j2, j3, j4⟩
          rcases List.mem_cons.1 j1 with rfl | j1
          · rw [hi, Option.some.injEq, Prod.mk.injEq, Prod.mk.injEq] at j2
            exact k1 ⟨hd0.1 j2.2.1, j4⟩
          · exact i1 ⟨pl', j1, q', e', j2, j3, j4⟩

/-- The move of the block meets the surface of the box in the point with the fraction `f`, and does not run
inside the box altogether. -/
def Block.Meets (b : Block ℝ) (c : Box ℝ) (f : ℝ) (e : Bool) : Prop :=
  ∃ A, b.stateA = some A ∧ ¬ (InBox c.orig c.side A.position ∧ InBox c.orig c.side b.stateB.position) ∧
    Crossing c.orig c.side A.position b.stateB.position f e

theorem isect_of_crossing {c : Box ℝ} {A B : Vec4 ℝ} {f : ℝ} {e : Bool}
    (hc : Crossing c.orig c.side A B f e) : ∃ pl ∈ planes, ∃ q,
      isectLinePlane A B pl (c.planeAt pl) = some (q, ((B.sub A).mul f).norm3, e) ∧ pointInside c q = true := by
  rw [crossing_iff] at hc
  obtain ⟨f1, f2, f3, i, f4, f5⟩ := hc
  rcases f5 with ⟨f5, f6⟩ | ⟨f5, f6⟩
  · refine ⟨(i, true), by fin_cases i <;> simp [planes], _,
      (isectLinePlane_iff _ _ _ _ _ _ _).2 ⟨f, f1, f2, f4, ?_, ?_, rfl, rfl⟩, (pointInside_iff c _).2 f3⟩
    · simpa [Box.planeAt] using f5
    · simpa using f6
  · refine ⟨(i, false), by fin_cases i <;> simp [planes], _,
      (isectLinePlane_iff _ _ _ _ _ _ _).2 ⟨f, f1, f2, f4, ?_, ?_, rfl, rfl⟩, (pointInside_iff c _).2 f3⟩
    · simpa [Box.planeAt] using f5
    · simpa using f6

theorem crossing_of_isect {c : Box ℝ} {A B : Vec4 ℝ} {pl : Fin 3 × Bool} {q : Vec4 ℝ} {d : ℝ} {e : Bool}
    (hi : isectLinePlane A B pl (c.planeAt pl) = some (q, d, e)) (hp : pointInside c q = true) :
    ∃ f, Crossing c.orig c.side A B f e ∧ d = ((B.sub A).mul f).norm3 := by
  obtain ⟨f, f1, f2, f3, f4, f5, rfl, rfl⟩ := (isectLinePlane_iff _ _ _ _ _ _ _).1 hi
  refine ⟨f, ?_, rfl⟩
  rw [crossing_iff]
  refine ⟨f1, f2, (pointInside_iff c _).1 hp, pl.1, f3, ?_⟩
  unfold Box.planeAt at f4
  cases hpl : pl.2
  · rw [hpl] at f4 f5
    exact Or.inr ⟨by simpa using f4, by simpa using f5⟩
  · rw [hpl] at f4 f5
    exact Or.inl ⟨by simpa using f4, by simpa using f5⟩

theorem timetable_outcome (hreg : Regular states) (h : plan fw states = .ok bs) (c : Box ℝ) :
    ∀ bs' : List (Block ℝ), (∀ b ∈ bs', b ∈ bs) →
    (∃ b ∈ bs', (∃ e, b.Meets c 0 e) ∧ ∃ s ∈ b.segments.head?, s.velBegin.norm3 = 0) ∧
      timetable c bs' = .error .valueError ∨
    (¬ ∃ b ∈ bs', (∃ e, b.Meets c 0 e) ∧ ∃ s ∈ b.segments.head?, s.velBegin.norm3 = 0) ∧
      ∃ l, timetable c bs' = .ok l := by
  intro bs'
  induction bs' with
  | nil => exact fun _ => Or.inr ⟨by simp, [], rfl⟩
  | cons b bs' ih =>
    intro hmem
    have hb := hmem b (by simp)
    obtain ⟨A, _, _, hA, _⟩ := ((plan_ok hreg h).1 b hb).facts
    have here : ((∃ e, b.Meets c 0 e) ∧ ∃ s ∈ b.segments.head?, s.velBegin.norm3 = 0) ∧
        (if intersectPossible c A.position b.stateB.position = true then blockCrossings c b A planes
          else Except.ok []) = .error .valueError ∨
      (¬ ((∃ e, b.Meets c 0 e) ∧ ∃ s ∈ b.segments.head?, s.velBegin.norm3 = 0)) ∧
        ∃ l, (if intersectPossible c A.position b.stateB.position = true then blockCrossings c b A planes
          else Except.ok []) = .ok l := by
      by_cases hp : intersectPossible c A.position b.stateB.position = true
      · rw [if_pos hp]
        have hni := intersectPossible_not_inside c _ _ hp
        rcases blockCrossings_outcome hreg h hb hA c planes with ⟨⟨pl, k1, q, e, k2, k3, k4⟩, k5⟩ | ⟨k1, k2⟩
        · left
          refine ⟨⟨⟨e, A, hA, hni, ?_⟩, k4⟩, k5⟩
          obtain ⟨f, g1, g2⟩ := crossing_of_isect k2 k3
          have hL := crossing_length g1
          rw [norm3_mul, abs_of_nonneg g1.1] at g2
          have : f = 0 := (mul_eq_zero.1 g2.symm).resolve_left hL.ne'
          rwa [this] at g1
        · right
          refine ⟨?_, k2⟩
          rintro ⟨⟨e, A', hA', hni', hc⟩, hs⟩
          rw [hA, Option.some.injEq] at hA'
          subst hA'
          obtain ⟨pl, m1, q, m2, m3⟩ := isect_of_crossing hc
          rw [Vec4.mul_zero, norm3_zero] at m2
          exact k1 ⟨pl, m1, q, e, m2, m3, hs⟩
      · rw [if_neg hp]
        right
        refine ⟨?_, [], rfl⟩
        rintro ⟨⟨e, A', hA', hni', hc⟩, hs⟩
        rw [hA, Option.some.injEq] at hA'
        subst hA'
        exact hp ((intersectPossible_iff c _ _ hc.1 hc.2.1 hc.2.2.1).2 hni')
    have hun : timetable c (b :: bs') = ((if intersectPossible c A.position b.stateB.position = true then
          blockCrossings c b A planes else Except.ok []) >>= fun here => timetable c bs' >>= fun rest =>
          Except.ok (here ++ rest)) := by
      conv_lhs => unfold timetable
      rw [hA]
      simp only
      split <;> rfl
    rw [hun]
    rcases here with ⟨k1, k2⟩ | ⟨k1, l, k2⟩
    · left
      exact ⟨⟨b, by simp, k1⟩, by rw [k2]; rfl⟩
    · rw [k2]
      simp only [bind, Except.bind]
      rcases ih fun x hx => hmem x (by simp [hx]) with ⟨⟨b', i1, i2⟩, i3⟩ | ⟨i1, l', i3⟩
      · left
        exact ⟨⟨b', by simp [i1], i2⟩, by rw [i3]⟩
      · right
        refine ⟨?_, l ++ l', by rw [i3]⟩
        rintro ⟨b', j1, j2⟩
        rcases List.mem_cons.1 j1 with rfl | j1
        · exact k1 j2
        · exact i1 ⟨b', j1, j2⟩

/-- **C79.** For an executable program, `write_submodel_times` fails with a `ValueError` if some move that is
not wholly inside the box starts from rest on a face which it then crosses, with an `IndexError` if there is
no such move and no move meets the surface of the box, and otherwise it returns. -/
theorem c79_outcome (hreg : Regular states) (h : plan fw states = .ok bs) (c : Box ℝ) :
    ((∃ b ∈ bs, (∃ e, b.Meets c 0 e) ∧ ∃ s ∈ b.segments.head?, s.velBegin.norm3 = 0) →
      submodelTimes c bs = .error .valueError) ∧
    ((¬ ∃ b ∈ bs, (∃ e, b.Meets c 0 e) ∧ ∃ s ∈ b.segments.head?, s.velBegin.norm3 = 0) →
      ((¬ ∃ b ∈ bs, ∃ f e, b.Meets c f e) → submodelTimes c bs = .error .indexError) ∧
      ((∃ b ∈ bs, ∃ f e, b.Meets c f e) → ∃ r, submodelTimes c bs = .ok r)) := by
  rcases timetable_outcome hreg h c bs (fun b hb => hb) with ⟨k1, k2⟩ | ⟨k1, l, k2⟩
  · refine ⟨fun _ => ?_, fun h => absurd k1 h⟩
    unfold submodelTimes
    rw [k2]
    rfl
  · refine ⟨fun h => absurd h k1, fun _ => ⟨fun hno => ?_, ?_⟩⟩
    · have hl : l = [] := by
        cases l with
        | nil => rfl
        | cons x l =>
          exfalso
          obtain ⟨b, hb, A, hA, hni, f, hc, _⟩ := (timetable_mem c bs _ k2 x.1 x.2).1 (by simp)
          exact hno ⟨b, hb, f, x.2, A, hA, hni, hc⟩
      unfold submodelTimes
      rw [k2, hl]
      rfl
    · rintro ⟨b, hb, f, e, A, hA, hni, hc⟩
      have hmem : ∃ x, x ∈ l := by
        rcases crossing_time hreg h hb hA hc with ⟨k3, k4, k5⟩ | ⟨_, t, k5⟩
        · subst k3
          exact absurd ⟨b, hb, ⟨e, A, hA, hni, hc⟩, k4⟩ k1
        · exact ⟨(t, e), (timetable_mem c bs _ k2 t e).2 ⟨b, hb, A, hA, hni, f, hc, k5⟩⟩
      obtain ⟨x, hx⟩ := hmem
      have hne : l.isEmpty = false := by
        rw [List.isEmpty_eq_false_iff]
        exact List.ne_nil_of_mem hx
      obtain ⟨b', hb'⟩ : ∃ b', bs.getLast? = some b' := by
        cases hc : bs.getLast? with
        | none => rw [List.getLast?_eq_none_iff] at hc; rw [hc] at hb; cases hb
        | some b' => exact ⟨b', rfl⟩
      obtain ⟨_, _, q', _, _, e3, _⟩ := ((plan_ok hreg h).1 b' (List.mem_of_getLast? hb')).facts
      have hT : endTime bs = .ok q'.tEnd := by
        unfold endTime
        rw [hb']
        simp [lastSeg_ok e3, Except.map]
      unfold submodelTimes
      simp only [k2, bind, Except.bind, hne, Bool.false_eq_true, if_false, hT]
      exact ⟨_, rfl⟩

/-! ## C80: the times -/

/-- **C80, the exact law of the times.** Every entry (exit) time belongs to a move that is not wholly inside
the box, and to the first (last) point of its line inside the box, which lies on the surface: the simulated
nozzle is at this point if it is reached in a segment that does not decelerate, and otherwise falls short of it
by the acceleration times the square of the time since the begin of the segment. -/
theorem c80_law (hreg : Regular states) (h : plan fw states = .ok bs) {c : Box ℝ} {r : SubmodelTimes ℝ}
    (hr : submodelTimes c bs = .ok r) {e : Bool} {t : ℝ} (ht : t ∈ (if e then r.timeIn else r.timeOut)) :
    ∃ b ∈ bs, ∃ A, b.stateA = some A ∧
      ¬ (InBox c.orig c.side A.position ∧ InBox c.orig c.side b.stateB.position) ∧
      ∃ f, (if e then FirstIn c.orig c.side A.position b.stateB.position f
        else LastIn c.orig c.side A.position b.stateB.position f) ∧
      Surface c.orig c.side (A.position.add ((b.stateB.position.sub A.position).mul f)) ∧
      ∃ s ∈ b.segments, Covers s t ∧
        (s.posBegin.sub A.position).norm3 ≤ (b.stateB.position.sub A.position).norm3 * f ∧
        (b.stateB.position.sub A.position).norm3 * f ≤ (s.posEnd.sub A.position).norm3 ∧
        s.getPosition t = .ok (A.position.add ((b.stateB.position.sub A.position).mul
          (if s.velBegin.norm3 ≤ s.velEnd.norm3 then f
            else f - b.stateB.pAcc * (t - s.tBegin) ^ 2 / (b.stateB.position.sub A.position).norm3))) ∧
        0 < (b.stateB.position.sub A.position).norm3 := by
  obtain ⟨b, hb, A, hA, hni, f, hc, hi⟩ := ((c43_crossings c bs r hr).1 e t).1 ht
  refine ⟨b, hb, A, hA, hni, f, ?_, crossing_surface hc, ?_⟩
  · cases e
    · exact crossing_last hc
    · exact crossing_first hc
  have hL := crossing_length hc
  set N := (b.stateB.position.sub A.position).norm3 with hN
  rcases lt_or_eq_of_le hc.1 with hf | hf
  · have hn : ((b.stateB.position.sub A.position).mul f).norm3 = N * f := by
      rw [norm3_mul, abs_of_pos hf]
    rw [hn] at hi
    obtain ⟨t', s, r1, r2, r3, r4, r5, r6, _⟩ := c42_law hreg h hb hA rfl (d := N * f) (by positivity)
      (by nlinarith [hc.2.1])
    rw [r1, Except.ok.injEq] at hi
    subst hi
    refine ⟨s, r2, r3, r4.le, r5, ?_, hL⟩
    rw [r6, ← hN]
    congr 3
    split
    · field_simp
    · field_simp
  · subst hf
    obtain ⟨s, rest, e1, e2, e3, e4⟩ := inverse_start hreg h hb hA hL
    rw [Vec4.mul_zero, norm3_zero, e4] at hi
    split at hi
    swap
    · cases hi
    rw [Except.ok.injEq] at hi
    subst hi
    have hpb : s.posBegin = A.position := by
      obtain ⟨A', s', _, k1, k2, _, _, k4, _⟩ := ((plan_ok hreg h).1 b hb).facts
      rw [hA, Option.some.injEq] at k1
      rw [e1, List.head?_cons, Option.some.injEq] at k2
      rw [k1, k2, k4]
    refine ⟨s, by simp [e1], e2, ?_, ?_, ?_, hL⟩
    · rw [hpb, Vec4.sub_self, norm3_zero, MulZeroClass.mul_zero]
    · rw [MulZeroClass.mul_zero]
      exact norm3_nonneg _
    · rw [e3]
      simp only [sub_self, ne_eq, OfNat.ofNat_ne_zero, not_false_eq_true, zero_pow, MulZeroClass.mul_zero, zero_div,
        ite_self, Vec4.mul_zero, Vec4.add_zero]

/-- C80, early times: the nozzle has not passed the point of the surface yet. -/
theorem time_not_late (hreg : Regular states) (h : plan fw states = .ok bs) {b : Block ℝ} (hb : b ∈ bs)
    {A : PState ℝ} (hA : b.stateA = some A) (hL : 0 < (b.stateB.position.sub A.position).norm3) {f : ℝ}
    (f0 : 0 < f) (f1 : f ≤ 1) :
    ∃ t s g, b.inverseTimeAtPos ((b.stateB.position.sub A.position).mul f).norm3 = .ok t ∧ s ∈ b.segments ∧
      Covers s t ∧ g ≤ f ∧
      s.getPosition t = .ok (A.position.add ((b.stateB.position.sub A.position).mul g)) := by
  set N := (b.stateB.position.sub A.position).norm3 with hN
  have hn : ((b.stateB.position.sub A.position).mul f).norm3 = N * f := by
    rw [norm3_mul, abs_of_pos f0]
  obtain ⟨t, s, r1, r2, r3, _, _, r6, _⟩ := c42_law hreg h hb hA rfl (d := N * f) (by positivity)
    (by nlinarith)
  refine ⟨t, s, _, by rw [hn]; exact r1, r2, r3, ?_, r6⟩
  rw [← hN, div_le_iff₀ hL]
  split
  · rw [mul_comm]
  · have ha : 0 ≤ b.stateB.pAcc * (t - s.tBegin) ^ 2 := by
      obtain ⟨u, s0, s1, hm, _⟩ := travelling hreg h hb hA hL
      have := hm.ha
      positivity
    linarith [mul_comm N f]

theorem inBox_congr {o d p q : Vec4 ℝ} (hx : p.x = q.x) (hy : p.y = q.y) (hz : p.z = q.z) :
    InBox o d p ↔ InBox o d q := by
  unfold InBox
  rw [hx, hy, hz]

/-- **C80, all entries are listed.** For a move that starts outside the box and gets inside there is an entry
time during this move which is not later than any time at which the nozzle is inside. -/
theorem c80_entries (hreg : Regular states) (h : plan fw states = .ok bs) {c : Box ℝ} {r : SubmodelTimes ℝ}
    (hr : submodelTimes c bs = .ok r) {b : Block ℝ} (hb : b ∈ bs) {A : PState ℝ} (hA : b.stateA = some A)
    (hout : ¬ InBox c.orig c.side A.position) (hs : Steep c.orig c.side A.position b.stateB.position)
    {s : Segment ℝ} (hsb : s ∈ b.segments) {t : ℝ} (ht : Covers s t) {p : Vec4 ℝ}
    (hp : s.getPosition t = .ok p) (hin : InBox c.orig c.side p) :
    ∃ t' ∈ r.timeIn, t' ≤ t ∧ ∃ s' ∈ b.segments, Covers s' t' := by
  obtain ⟨g, g0, g1, hg⟩ := move_on_line hreg h hb hA hsb ht
  rw [hg, Except.ok.injEq] at hp
  subst hp
  obtain ⟨f, f0, f1, hc⟩ := crossing_entry g0 g1 hin hout hs
  have hL := crossing_length hc
  obtain ⟨t', s', g', k1, k2, k3, k4, k5⟩ := time_not_late hreg h hb hA hL f0 hc.2.1
  refine ⟨t', ?_, ?_, s', k2, k3⟩
  · have := ((c43_crossings c bs r hr).1 true t').2 ⟨b, hb, A, hA, fun h => hout h.1, f, hc, k1⟩
    simpa using this
  · by_contra hlt
    push Not at hlt
    have := move_strict hreg h hb hA hL hsb k2 ht k3 hlt hg k5
    linarith

/-- **C80, all exits are listed.** For a move that has been inside the box and ends outside there is an exit
time during this move. -/
theorem c80_exits (hreg : Regular states) (h : plan fw states = .ok bs) {c : Box ℝ} {r : SubmodelTimes ℝ}
    (hr : submodelTimes c bs = .ok r) {b : Block ℝ} (hb : b ∈ bs) {A : PState ℝ} (hA : b.stateA = some A)
    (hout : ¬ InBox c.orig c.side b.stateB.position)
    (hs : Steep c.orig c.side b.stateB.position A.position)
    {s : Segment ℝ} (hsb : s ∈ b.segments) {t : ℝ} (ht : Covers s t) {p : Vec4 ℝ}
    (hp : s.getPosition t = .ok p) (hin : InBox c.orig c.side p) :
    ∃ t' ∈ r.timeOut, ∃ s' ∈ b.segments, Covers s' t' := by
  obtain ⟨g, g0, g1, hg⟩ := move_on_line hreg h hb hA hsb ht
  rw [hg, Except.ok.injEq] at hp
  subst hp
  obtain ⟨f, f0, f1, hc⟩ := crossing_exit g0 g1 hin hout hs
  have hL := crossing_length hc
  have hm : ∀ {t'}, b.inverseTimeAtPos ((b.stateB.position.sub A.position).mul f).norm3 = .ok t' →
      t' ∈ r.timeOut := by
    intro t' k1
    have := ((c43_crossings c bs r hr).1 false t').2 ⟨b, hb, A, hA, fun h => hout h.2, f, hc, k1⟩
    simpa using this
  rcases crossing_time hreg h hb hA hc with ⟨k3, k4, _⟩ | ⟨k3, t', k4⟩
  · subst k3
    have := (c79_outcome hreg h c).1 ⟨b, hb, ⟨false, A, hA, fun h => hout h.2, hc⟩, k4⟩
    rw [hr] at this
    cases this
  · refine ⟨t', hm k4, ?_⟩
    rcases lt_or_eq_of_le hc.1 with hf | hf
    · obtain ⟨t'', s', _, r1, r2, r3, _⟩ := time_not_late hreg h hb hA hL hf hc.2.1
      rw [r1, Except.ok.injEq] at k4
      subst k4
      exact ⟨s', r2, r3⟩
    · subst hf
      obtain ⟨s', rest, e1, e2, _, e4⟩ := inverse_start hreg h hb hA hL
      rw [Vec4.mul_zero, norm3_zero, e4] at k4
      split at k4
      · rw [Except.ok.injEq] at k4
        subst k4
        exact ⟨s', by simp [e1], e2⟩
      · cases k4

/-- The part of the trajectory in which the nozzle brakes does not touch the surface of the box. -/
def BrakesElsewhere (c : Box ℝ) (bs : List (Block ℝ)) : Prop :=
  ∀ b ∈ bs, ∀ s ∈ b.segments, s.velEnd.norm3 < s.velBegin.norm3 → ∀ x, 0 ≤ x → x ≤ 1 →
    ¬ Surface c.orig c.side (s.posBegin.add ((s.posEnd.sub s.posBegin).mul x))

/-- C80 as wanted: at an entry (exit) time the nozzle is on the surface of the box, and before that (after
that) it is outside during the move. -/
def C80At (c : Box ℝ) (bs : List (Block ℝ)) (r : SubmodelTimes ℝ) : Prop :=
  ∀ (e : Bool) t, t ∈ (if e then r.timeIn else r.timeOut) → ∃ b ∈ bs, ∃ s ∈ b.segments, Covers s t ∧
    (∃ p, s.getPosition t = .ok p ∧ Surface c.orig c.side p) ∧
    ∀ s' ∈ b.segments, ∀ t', Covers s' t' → (if e then t' < t else t < t') → ∀ p, s'.getPosition t' = .ok p →
      ¬ InBox c.orig c.side p

def C80Full : Prop :=
  ∀ (fw : Firmware) (states : List (PState ℝ)) (bs : List (Block ℝ)) (c : Box ℝ) (r : SubmodelTimes ℝ),
    Regular states → plan fw states = .ok bs → submodelTimes c bs = .ok r → C80At c bs r

/-- **C80, for boxes at whose surface the nozzle does not brake.** What is missing are the others, for which it
is false (`c80_law`, `c80_refuted`). -/
theorem c80_times_partial (hreg : Regular states) (h : plan fw states = .ok bs) {c : Box ℝ}
    {r : SubmodelTimes ℝ} (hr : submodelTimes c bs = .ok r) (hbr : BrakesElsewhere c bs) : C80At c bs r := by
  intro e t ht
  obtain ⟨b, hb, A, hA, hni, f, hf, hsf, s, hs, hcov, d1, d2, hp, hL⟩ := c80_law hreg h hr ht
  have hle : s.velBegin.norm3 ≤ s.velEnd.norm3 := by
    by_contra hlt
    push Not at hlt
    obtain ⟨u, s0, s1, hm, hn, hd⟩ := travelling hreg h hb hA hL
    obtain ⟨L, hL0, hLp, hmem⟩ := hm.hramp.mem
    obtain ⟨w, w₁, k, k₁, g⟩ := hmem s hs
    set N := (b.stateB.position.sub A.position).norm3 with hN
    have hdistn : ∀ y, 0 ≤ y → ((A.position.add (u.mul y)).sub A.position).norm3 = y := by
      intro y hy
      have : (A.position.add (u.mul y)).sub A.position = u.mul y := by ext <;> simp [Vec4.sub, Vec4.add]
      rw [this, norm3_mul, hn, one_mul, abs_of_nonneg hy]
    have hlt' : k < k₁ := by
      rw [g.hlen]
      have := mul_pos (half_pos g.hpos) (sub_pos.2 g.ht)
      linarith
    rw [g.hpb, hdistn k g.hl] at d1
    rw [g.hpe, hdistn k₁ (by linarith [g.hl])] at d2
    have hkk := sub_pos.2 hlt'
    refine hbr b hb s hs hlt ((N * f - k) / (k₁ - k)) (div_nonneg (by linarith) hkk.le)
      ((div_le_one hkk).2 (by linarith)) ?_
    have e1 : s.posBegin.add ((s.posEnd.sub s.posBegin).mul ((N * f - k) / (k₁ - k))) =
        A.position.add ((b.stateB.position.sub A.position).mul f) := by
      rw [g.hpb, g.hpe, hd, vec_mul_mul]
      have := hkk.ne'
      ext <;> simp only [Vec4.add, Vec4.sub, Vec4.mul] <;> field_simp <;> ring
    rw [e1]
    exact hsf
  rw [if_pos hle] at hp
  refine ⟨b, hb, s, hs, hcov, ⟨_, hp, hsf⟩, ?_⟩
  intro s' hs' t' hcov' htt p' hp'
  obtain ⟨g, g0, g1, hg⟩ := move_on_line hreg h hb hA hs' hcov'
  rw [hg, Except.ok.injEq] at hp'
  subst hp'
  cases e
  · simp only [Bool.false_eq_true, if_false] at hf htt
    exact hf.2.2.2 g (move_strict hreg h hb hA hL hs hs' hcov hcov' htt hp hg) g1
  · simp only [if_true] at hf htt
    exact hf.2.2.2 g g0 (move_strict hreg h hb hA hL hs' hs hcov' hcov htt hg hp)

/-- A chain of braking segments is as long as it takes to brake. -/
theorem braking_length {u : Vec4 ℝ} {a vT : ℝ} (hu : u.norm3 = 1) {p p' : Vec4 ℝ} {t t' v v' : ℝ}
    {ss : List (Segment ℝ)} (h : Ramp u a vT p t v ss p' t' v') :
    (∀ s ∈ ss, s.velBegin = s.velEnd.add (u.mul (a * (s.tEnd - s.tBegin)))) →
    ∃ L, 0 ≤ L ∧ p' = p.add (u.mul L) ∧ 2 * a * L = v ^ 2 - v' ^ 2 := by
  induction h with
  | nil p t v => exact fun _ => ⟨0, le_refl _, by rw [Vec4.mul_zero, Vec4.add_zero], by ring⟩
  | @cons t t₁ v v₁ t' v' p p₁ p' ss hv hv₁ ht hacc hpos hp hrest ih =>
    intro hall
    obtain ⟨L, h1, h2, h3⟩ := ih fun s hs => hall s (by simp [hs])
    have h0 := hall _ List.mem_cons_self
    simp only [] at h0
    have hvv : v = v₁ + a * (t₁ - t) := by
      refine unit_cancel (eo := false) (u := u) (p := Vec4.zero) (by simpa [UnitDir] using hu) ?_
      rw [h0]
      ext <;> simp only [Vec4.add, Vec4.mul, Vec4.zero] <;> ring
    have hdp : 0 < (v + v₁) / 2 * (t₁ - t) := by
      have := sub_pos.2 ht
      positivity
    refine ⟨(v + v₁) / 2 * (t₁ - t) + L, by linarith, by rw [h2, hp, add_mul_add], ?_⟩
    have : a * (t₁ - t) = v - v₁ := by linarith
    linear_combination (v + v₁) * this + h3

/-- In a move the nozzle brakes only within the braking distance from full speed before the end. -/
theorem braking_zone (hreg : Regular states) (h : plan fw states = .ok bs) {b : Block ℝ} (hb : b ∈ bs)
    {A : PState ℝ} (hA : b.stateA = some A) {s : Segment ℝ} (hs : s ∈ b.segments)
    (hbr : s.velEnd.norm3 < s.velBegin.norm3) {x : ℝ} (x0 : 0 ≤ x) (x1 : x ≤ 1) :
    ∃ g, 0 ≤ g ∧ g ≤ 1 ∧ s.posBegin.add ((s.posEnd.sub s.posBegin).mul x) =
        A.position.add ((b.stateB.position.sub A.position).mul g) ∧
      (b.stateB.position.sub A.position).norm3 * (1 - g) ≤ b.stateB.speed ^ 2 / (2 * b.stateB.pAcc) := by
  rcases (plan_ok hreg h).1 b hb with ⟨A', u, s0, s1, hm⟩ | ⟨A', q, hm⟩
  swap
  · obtain ⟨t₀, ht₀⟩ := hm.hseg
    rw [ht₀, List.mem_singleton] at hs
    subst hs
    exact absurd hbr (lt_irrefl _)
  have hAA := hm.hA
  rw [hA, Option.some.injEq] at hAA
  subst hAA
  obtain ⟨hu, hdist, hpos, heo, _⟩ := hm.toHdr.unit
  have ha := hm.ha
  obtain ⟨up, cruise, down, hsplit, hup, hcr, hdn, -⟩ := hm.hprof
  obtain ⟨L, hL0, hLp, hmem⟩ := hm.hramp.mem
  obtain ⟨w, w₁, k, k₁, g⟩ := hmem s hs
  have hn : u.norm3 = 1 := by
    cases he : (moveDistance A b.stateB).2
    · rw [he] at hu
      simpa [UnitDir] using hu
    · exfalso
      rw [he] at hu
      have hz : u.norm3 = 0 := by
        obtain ⟨h1, h2, h3, _⟩ : u.x = 0 ∧ u.y = 0 ∧ u.z = 0 ∧ |u.e| = 1 := by simpa [UnitDir] using hu
        exact norm3_eq_zero.2 ⟨h1, h2, h3⟩
      rw [g.hvb, g.hve, norm3_mul, norm3_mul, hz, MulZeroClass.zero_mul, MulZeroClass.zero_mul] at hbr
      exact absurd hbr (lt_irrefl _)
  have hdt := sub_pos.2 g.ht
  have hwn : s.velBegin.norm3 = w := by rw [g.hvb, norm3_mul, hn, one_mul, abs_of_nonneg g.hw.1]
  have hwn₁ : s.velEnd.norm3 = w₁ := by rw [g.hve, norm3_mul, hn, one_mul, abs_of_nonneg g.hw₁.1]
  rw [hwn, hwn₁] at hbr
  have huc : ∀ {x y : ℝ}, u.mul x = u.mul y → x = y := by
    intro x y hxy
    refine unit_cancel (eo := false) (u := u) (p := Vec4.zero) (by simpa [UnitDir] using hn) ?_
    rw [hxy]
  have hsd : s ∈ down := by
    rw [hsplit] at hs
    rcases List.mem_append.1 hs with hs | hs
    · exfalso
      rcases List.mem_append.1 hs with hs | hs
      · have e := hup s hs
        rw [g.hve, g.hvb] at e
        have : w₁ = w + b.stateB.pAcc * (s.tEnd - s.tBegin) := by
          refine huc ?_
          rw [e]
          ext <;> simp only [Vec4.add, Vec4.mul] <;> ring
        nlinarith
      · have e := hcr s hs
        rw [g.hve, g.hvb] at e
        have e1 := huc e.1
        have e2 := huc e.2
        linarith
    · exact hs
  have hr := hm.hramp
  rw [hsplit] at hr
  obtain ⟨p₁, t₁, v₁, hr1, hr2⟩ := hr.split
  obtain ⟨l, l0, hl, _⟩ := hr1.mem
  obtain ⟨D, D0, hD, hD2⟩ := braking_length hn hr2 hdn
  obtain ⟨D', _, hD', hmem'⟩ := hr2.mem
  obtain ⟨y, y₁, m, m₁, g'⟩ := hmem' s hsd
  have hv1 : v₁ ≤ b.stateB.speed ∧ 0 ≤ v₁ := by
    cases hr2 with
    | nil => exact absurd hsd (by simp)
    | cons hv => exact ⟨hv.2, hv.1⟩
  have hLD : L = l + D := by
    refine unit_cancel hu (p := A.position) ?_
    rw [← hLp, hD, hl, add_mul_add]
  have hkm : k = l + m := by
    refine unit_cancel hu (p := A.position) ?_
    rw [← g.hpb, g'.hpb, hl, add_mul_add]
  have hLp0 : 0 < L := by
    have : (moveDistance A b.stateB).1 = L := by
      refine unit_cancel hu (p := A.position) ?_
      rw [← hLp, ← hpos]
    rw [← this]
    exact hdist
  have hd : b.stateB.position.sub A.position = u.mul L := by
    conv_lhs => rw [hLp]
    ext <;> simp [Vec4.sub, Vec4.add]
  have hlt' : k < k₁ := by
    rw [g.hlen]
    have := mul_pos (half_pos g.hpos) hdt
    linarith
  have hDle : D ≤ b.stateB.speed ^ 2 / (2 * b.stateB.pAcc) := by
    rw [le_div_iff₀ (by linarith)]
    have := mul_self_le_mul_self hv1.2 hv1.1
    nlinarith [sq_nonneg s1]
  have hz0 : l ≤ k + (k₁ - k) * x := by
    have := mul_nonneg (sub_pos.2 hlt').le x0
    have := g'.hl
    linarith
  have hz1 : k + (k₁ - k) * x ≤ L := by
    have := mul_le_mul_of_nonneg_left x1 (sub_pos.2 hlt').le
    have := g.hl₁
    linarith
  refine ⟨(k + (k₁ - k) * x) / L, div_nonneg (by linarith) hLp0.le, (div_le_one hLp0).2 hz1, ?_, ?_⟩
  · rw [g.hpb, g.hpe, hd, vec_mul_mul]
    have := hLp0.ne'
    ext <;> simp only [Vec4.add, Vec4.sub, Vec4.mul] <;> field_simp <;> ring
  · rw [hd, norm3_mul, hn, one_mul, abs_of_pos hLp0]
    have : L * (1 - (k + (k₁ - k) * x) / L) = L - (k + (k₁ - k) * x) := by
      have := hLp0.ne'
      field_simp
    rw [this]
    linarith

/-- **C80, a criterion in terms of the program**: the times are exact if no move meets the surface of the box
within the braking distance `v² / (2 a)` before its end. -/
theorem c80_criterion (hreg : Regular states) (h : plan fw states = .ok bs) {c : Box ℝ}
    (hz : ∀ b ∈ bs, ∀ A, b.stateA = some A → ∀ g, 0 ≤ g → g ≤ 1 →
      (b.stateB.position.sub A.position).norm3 * (1 - g) ≤ b.stateB.speed ^ 2 / (2 * b.stateB.pAcc) →
      ¬ Surface c.orig c.side (A.position.add ((b.stateB.position.sub A.position).mul g)))
    {r : SubmodelTimes ℝ} (hr : submodelTimes c bs = .ok r) : C80At c bs r := by
  refine c80_times_partial hreg h hr ?_
  intro b hb s hs hbr x x0 x1
  obtain ⟨A, _, _, hA, _⟩ := ((plan_ok hreg h).1 b hb).facts
  obtain ⟨g, g0, g1, e1, e2⟩ := braking_zone hreg h hb hA hs hbr x0 x1
  rw [e1]
  exact hz b hb A hA g g0 g1 e2

/-- C80 as wanted is false of the code: a move that stops on the surface of the box is said to enter it before
it gets there. -/
theorem c80_refuted : ¬ C80Full := by
  intro hfull
  obtain ⟨b, t, s, h, hA, hB, hL, r1, r2, r3, _, _, r7, r6⟩ := Demo.braked_end
  have hc : Crossing (⟨11, 0, 0, 0⟩ : Vec4 ℝ) ⟨2, 2, 2, 0⟩ Demo.a0.position b.stateB.position 1 true := by
    rw [hB]
    refine ⟨by norm_num, le_refl _, ?_, Or.inl ⟨?_, Or.inr ⟨?_, ?_⟩⟩⟩
    · simp only [InBox, Demo.a0, Demo.a1, Vec4.add, Vec4.sub, Vec4.mul]
      norm_num
    · simp only [Demo.a0, Demo.a1]
      rw [abs_of_pos] <;> norm_num
    · simp only [Demo.a0, Demo.a1]
      norm_num
    · simp only [Demo.a0, Demo.a1]
      norm_num
  have hni : ¬ (InBox (⟨11, 0, 0, 0⟩ : Vec4 ℝ) ⟨2, 2, 2, 0⟩ Demo.a0.position ∧
      InBox (⟨11, 0, 0, 0⟩ : Vec4 ℝ) ⟨2, 2, 2, 0⟩ b.stateB.position) := by
    rintro ⟨h, _⟩
    simp only [InBox, Demo.a0] at h
    norm_num at h
  have hno : ¬ ∃ b' ∈ [b], (∃ e, b'.Meets (⟨⟨11, 0, 0, 0⟩, ⟨2, 2, 2, 0⟩⟩ : Box ℝ) 0 e) ∧
      ∃ s ∈ b'.segments.head?, s.velBegin.norm3 = 0 := by
    rintro ⟨b', hb', ⟨e, A, hA', _, h0⟩, _⟩
    rw [List.mem_singleton] at hb'
    subst hb'
    rw [hA, Option.some.injEq] at hA'
    subst hA'
    have := h0.2.2.1
    rw [Vec4.mul_zero, Vec4.add_zero] at this
    simp only [InBox, Demo.a0] at this
    norm_num at this
  obtain ⟨r, hr⟩ := ((c79_outcome Demo.regular_a' h ⟨⟨11, 0, 0, 0⟩, ⟨2, 2, 2, 0⟩⟩).2 hno).2
    ⟨b, by simp, 1, true, Demo.a0, hA, hni, hc⟩
  have hone : (b.stateB.position.sub Demo.a0.position).mul 1 = b.stateB.position.sub Demo.a0.position := by
    ext <;> simp [Vec4.mul]
  have ht : t ∈ r.timeIn := by
    have := ((c43_crossings _ _ r hr).1 true t).2 ⟨b, by simp, Demo.a0, hA, hni, 1, hc, by rw [hone]; exact r1⟩
    simpa using this
  obtain ⟨b', hb', s', hs', hc', ⟨p, hp, hsf⟩, _⟩ := hfull _ _ _ _ _ Demo.regular_a' h hr true t (by simpa using ht)
  rw [List.mem_singleton] at hb'
  subst hb'
  have htl := plan_timeline Demo.regular_a' h
  have hu : unpack [b'] = b'.segments := by simp [unpack]
  have heq := htl.part.position_unique s (by rw [hu]; exact r2) s' (by rw [hu]; exact hs') r3 hc'
  rw [r6, hp, Except.ok.injEq] at heq
  have hx := hsf.1.1.1
  rw [← heq, hB] at hx
  rw [hB] at hL
  have hq := sub_pos.2 r7
  generalize (Demo.a1.position.sub Demo.a0.position).norm3 = N at hL hx
  simp only [Vec4.add, Vec4.mul, Vec4.sub, Demo.a0, Demo.a1] at hx
  have h2 : (N - 100 * (t - s.tBegin) ^ 2) / N < 1 := by
    rw [div_lt_one hL]
    have : 0 < 100 * (t - s.tBegin) ^ 2 := by positivity
    linarith
  linarith

/-! ## C80: the number of filaments -/

open Classical in
theorem blockCrossings_count (c : Box ℝ) (b : Block ℝ) (A : PState ℝ) (e : Bool) : ∀ (pls : List (Fin 3 × Bool))
    (l : List (ℝ × Bool)), blockCrossings c b A pls = .ok l → (l.filter fun p => p.2 == e).length =
      (pls.filter fun pl => decide (∃ q d, isectLinePlane A.position b.stateB.position pl (c.planeAt pl) =
        some (q, d, e) ∧ pointInside c q = true)).length := by
  intro pls
  induction pls with
  | nil =>
    intro l h
    simp only [blockCrossings, Except.ok.injEq] at h
    subst h
    rfl
  | cons pl pls ih =>
    intro l h
    unfold blockCrossings at h
    rw [List.filter_cons]
    cases hi : isectLinePlane A.position b.stateB.position pl (c.planeAt pl) with
    | none =>
      rw [hi] at h
      rw [ih l h]
      simp
    | some r =>
      obtain ⟨q, d, e'⟩ := r
      rw [hi] at h
      simp only at h
      split at h
      · rename_i hin
        cases ht : b.inverseTimeAtPos d with
        | error x => rw [ht] at h; cases h
        | ok t' =>
          cases hr : blockCrossings c b A pls with
          | error x => rw [ht, hr] at h; cases h
          | ok rest =>
            rw [ht, hr] at h
            simp only [bind, Except.bind, Except.ok.injEq] at h
            subst h
            rw [List.filter_cons]
            by_cases hee : e' = e
            · subst hee
              have : ∃ q' d', some (q, d, e') = some (q', d', e') ∧ pointInside c q' = true :=
                ⟨q, d, rfl, hin⟩
              rw [if_pos (by simp), if_pos (by simpa using this), List.length_cons, List.length_cons, ih rest hr]
            · have : ¬ ∃ q' d', some (q, d, e') = some (q', d', e) ∧ pointInside c q' = true := by
                rintro ⟨q', d', h, _⟩
                rw [Option.some.injEq, Prod.mk.injEq, Prod.mk.injEq] at h
                exact hee h.2.2
              rw [if_neg (by simpa using hee), if_neg (by simpa using this), ih rest hr]
      · rename_i hin
        rw [ih l h]
        have : ¬ ∃ q' d', some (q, d, e') = some (q', d', e) ∧ pointInside c q' = true := by
          rintro ⟨q', d', h, h2⟩
          rw [Option.some.injEq, Prod.mk.injEq, Prod.mk.injEq] at h
          rw [← h.1] at h2
          exact hin h2
        rw [if_neg (by simpa using this)]

theorem faceMet_iff (c : Box ℝ) (A B : Vec4 ℝ) (i : Fin 3) (up e : Bool) :
    FaceMet c.orig c.side A B (axisOf i) up e ↔ ∃ q d, isectLinePlane A B (i, up) (c.planeAt (i, up)) =
      some (q, d, e) ∧ pointInside c q = true := by
  simp only [isectLinePlane_iff]
  constructor
  · rintro ⟨f, f0, f1, hin, h1, h2, h3⟩
    exact ⟨_, _, ⟨f, f0, f1, h1, h2, h3, rfl, rfl⟩, (pointInside_iff c _).2 hin⟩
  · rintro ⟨q, d, ⟨f, f0, f1, h1, h2, h3, rfl, rfl⟩, hin⟩
    exact ⟨f, f0, f1, (pointInside_iff c _).1 hin, h1, h2, h3⟩

theorem facesMet_eq (c : Box ℝ) (A B : Vec4 ℝ) (e : Bool) [DecidablePred fun pl : Fin 3 × Bool =>
      ∃ q d, isectLinePlane A B pl (c.planeAt pl) = some (q, d, e) ∧ pointInside c q = true] :
    facesMet c.orig c.side A B e = (planes.filter fun pl => decide (∃ q d,
      isectLinePlane A B pl (c.planeAt pl) = some (q, d, e) ∧ pointInside c q = true)).length := by
  classical
  unfold facesMet
  have hl : [((Vec4.x : Vec4 ℝ → ℝ), true), (Vec4.x, false), (Vec4.y, true), (Vec4.y, false), (Vec4.z, true),
      (Vec4.z, false)] = planes.map fun pl => (axisOf pl.1, pl.2) := rfl
  rw [hl, List.filter_map, List.length_map]
  congr 1
  refine List.filter_congr fun pl _ => ?_
  simp only [Function.comp, decide_eq_decide]
  exact faceMet_iff c A B pl.1 pl.2 e

/-- The number of crossings that one block contributes. -/
noncomputable def Block.crossings (c : Box ℝ) (e : Bool) (b : Block ℝ) : ℕ :=
  open Classical in
  match b.stateA with
  | none => 0
  | some A => if InBox c.orig c.side A.position ∧ InBox c.orig c.side b.stateB.position then 0
    else facesMet c.orig c.side A.position b.stateB.position e

theorem timetable_count (c : Box ℝ) (e : Bool) : ∀ (bs : List (Block ℝ)) (l : List (ℝ × Bool)),
    timetable c bs = .ok l → (l.filter fun p => p.2 == e).length = (bs.map (Block.crossings c e)).sum := by
  classical
  intro bs
  induction bs with
  | nil =>
    intro l h
    simp only [timetable, Except.ok.injEq] at h
    subst h
    rfl
  | cons b bs ih =>
    intro l h
    unfold timetable at h
    cases hA : b.stateA with
    | none => rw [hA] at h; cases h
    | some A =>
      rw [hA] at h
      replace h : ((if intersectPossible c A.position b.stateB.position = true then
          blockCrossings c b A planes else Except.ok []) >>= fun here => timetable c bs >>= fun rest =>
          Except.ok (here ++ rest)) = Except.ok l := by
        rw [← h]
        simp only
        split <;> rfl
      cases hh : (if intersectPossible c A.position b.stateB.position = true then blockCrossings c b A planes
          else Except.ok []) with
      | error x => rw [hh] at h; cases h
      | ok here =>
        cases hr : timetable c bs with
        | error x => rw [hh, hr] at h; cases h
        | ok rest =>
          rw [hh, hr] at h
          simp only [bind, Except.bind, Except.ok.injEq] at h
          subst h
          rw [List.filter_append, List.length_append, List.map_cons, List.sum_cons, ih rest hr]
          congr 1
          unfold Block.crossings
          simp only [hA]
          by_cases hp : intersectPossible c A.position b.stateB.position = true
          · rw [if_pos hp] at hh
            rw [if_neg (intersectPossible_not_inside c _ _ hp), facesMet_eq c A.position b.stateB.position e]
            exact blockCrossings_count c b A e planes here hh
          · rw [if_neg hp, Except.ok.injEq] at hh
            subst hh
            rw [List.filter_nil, List.length_nil]
            split
            · rfl
            · rename_i hni
              symm
              rw [facesMet_eq c A.position b.stateB.position e, List.length_eq_zero_iff, List.filter_eq_nil_iff]
              intro pl _ hc
              obtain ⟨q, d, h1, h2⟩ := of_decide_eq_true hc
              obtain ⟨f, hf, _⟩ := crossing_of_isect h1 h2
              exact hp ((intersectPossible_iff c _ _ hf.1 hf.2.1 hf.2.2.1).2 hni)

theorem insertByTime_perm (x : ℝ × Bool) (l : List (ℝ × Bool)) : (insertByTime x l).Perm (x :: l) := by
  induction l with
  | nil => exact List.Perm.refl _
  | cons z l ih =>
    unfold insertByTime
    split
    · exact List.Perm.refl _
    · exact (ih.cons z).trans (List.Perm.swap x z l)

theorem sortByTime_perm (l : List (ℝ × Bool)) : (sortByTime l).Perm l := by
  unfold sortByTime
  induction l with
  | nil => exact List.Perm.refl _
  | cons x l ih => exact (insertByTime_perm x _).trans (ih.cons x)

/-- **C80, the number of filaments.** `n_filaments` is the number of entries: over all moves that are not
wholly inside the box, the faces through which they enter. -/
theorem c80_count {c : Box ℝ} {r : SubmodelTimes ℝ} (hr : submodelTimes c bs = .ok r) :
    r.nFilaments = (bs.map (Block.crossings c true)).sum ∧ r.timeIn.length = r.nFilaments ∧
      r.timeOut.length = (bs.map (Block.crossings c false)).sum := by
  unfold submodelTimes at hr
  cases ht : timetable c bs with
  | error x => rw [ht] at hr; cases hr
  | ok tt =>
    rw [ht] at hr
    simp only [bind, Except.bind] at hr
    split at hr
    · cases hr
    · cases he : endTime bs with
      | error x => rw [he] at hr; cases hr
      | ok T =>
        rw [he] at hr
        simp only [Except.ok.injEq] at hr
        subst hr
        have hperm := sortByTime_perm tt
        simp only [List.length_map]
        have e1 : (fun p : ℝ × Bool => p.2) = fun p => p.2 == true := by
          funext p
          cases p.2 <;> rfl
        have e2 : (fun p : ℝ × Bool => !p.2) = fun p => p.2 == false := by
          funext p
          cases p.2 <;> rfl
        rw [e1, e2, (hperm.filter _).length_eq, (hperm.filter _).length_eq, timetable_count c true bs tt ht,
          timetable_count c false bs tt ht]
        exact ⟨rfl, trivial, rfl⟩

open Classical in
/-- **C80, filaments in general position.** If no move enters the box through more than one face at once, that
is through an edge or a corner, then `n_filaments` is the number of moves that enter. -/
theorem c80_general_position {c : Box ℝ} {r : SubmodelTimes ℝ} (hr : submodelTimes c bs = .ok r)
    (hgen : ∀ b ∈ bs, ∀ A, b.stateA = some A →
      facesMet c.orig c.side A.position b.stateB.position true ≤ 1) :
    r.nFilaments = (bs.filter fun b => decide (∃ f, b.Meets c f true)).length := by
  rw [(c80_count hr).1]
  clear hr
  induction bs with
  | nil => rfl
  | cons b bs ih =>
    rw [List.map_cons, List.sum_cons, ih fun b' hb' => hgen b' (by simp [hb']), List.filter_cons]
    have key : Block.crossings c true b = if ∃ f, b.Meets c f true then 1 else 0 := by
      unfold Block.crossings
      cases hA : b.stateA with
      | none =>
        rw [if_neg]
        rintro ⟨f, A, hA', _⟩
        rw [hA] at hA'
        cases hA'
      | some A =>
        have h1 := hgen b (by simp) A hA
        by_cases hni : InBox c.orig c.side A.position ∧ InBox c.orig c.side b.stateB.position
        · simp only [hni, and_self, if_true]
          rw [if_neg]
          rintro ⟨f, A', hA', hn', _⟩
          rw [hA, Option.some.injEq] at hA'
          subst hA'
          exact hn' hni
        · simp only [hni, if_false]
          by_cases hm : ∃ f, b.Meets c f true
          · rw [if_pos hm]
            obtain ⟨f, A', hA', _, hc⟩ := hm
            rw [hA, Option.some.injEq] at hA'
            subst hA'
            refine le_antisymm h1 ?_
            obtain ⟨pl, m1, q, m2, m3⟩ := isect_of_crossing hc
            rw [facesMet_eq c A.position b.stateB.position true]
            refine List.length_pos_of_mem (a := pl) (List.mem_filter.2 ⟨m1, ?_⟩)
            exact decide_eq_true ⟨q, _, m2, m3⟩
          · rw [if_neg hm, facesMet_eq c A.position b.stateB.position true, List.length_eq_zero_iff,
              List.filter_eq_nil_iff]
            intro pl _ hc
            obtain ⟨q, d, h1, h2⟩ := of_decide_eq_true hc
            obtain ⟨f, hf, _⟩ := crossing_of_isect h1 h2
            exact hm ⟨f, A, hA, hni, hf⟩
    rw [key]
    by_cases hm : ∃ f, b.Meets c f true
    · simp only [hm, if_true, decide_true, List.length_cons]
      omega
    · simp only [hm, if_false, decide_false, Bool.false_eq_true]
      omega

/-! ## The theorems apply -/

/-- The demo move. -/
theorem Demo.one_move (fw : Firmware) : ∃ b : Block ℝ, plan fw [Demo.a0, Demo.a1] = .ok [b] ∧
    b.stateA = some Demo.a0 ∧ b.stateB = Demo.a1 := by
  obtain ⟨_, bs, _, _, h, _⟩ := c26_correction_total fw Demo.regular_a'
  have h28 := c28_blocks Demo.regular_a' h
  rw [Demo.active_a'] at h28
  obtain ⟨b, rfl⟩ : ∃ b, bs = [b] := by
    have := congrArg List.length h28
    simp only [List.length_map, List.length_cons, List.length_nil] at this
    exact List.length_eq_one_iff.1 this
  simp only [List.map_cons, List.map_nil, List.cons.injEq, Prod.mk.injEq, and_true] at h28
  exact ⟨b, h, h28.1, h28.2⟩

/-- C79: the demo move starts from rest on a face of a box behind it. -/
example (fw : Firmware) : ∃ bs, plan fw [Demo.a0, Demo.a1] = .ok bs ∧
    submodelTimes (⟨⟨-1, 0, 0, 0⟩, ⟨2, 2, 2, 0⟩⟩ : Box ℝ) bs = .error .valueError := by
  obtain ⟨b, h, hA, hB⟩ := Demo.one_move fw
  refine ⟨[b], h, (c79_outcome Demo.regular_a' h _).1 ⟨b, by simp, ⟨false, Demo.a0, hA, ?_, ?_⟩, ?_⟩⟩
  · rintro ⟨_, h⟩
    rw [hB] at h
    simp only [InBox, Demo.a1] at h
    norm_num at h
  · rw [hB]
    refine ⟨le_refl _, zero_le_one, ?_, Or.inl ⟨?_, Or.inl ⟨?_, ?_⟩⟩⟩
    · simp only [InBox, Demo.a0, Demo.a1, Vec4.add, Vec4.sub, Vec4.mul]
      norm_num
    · simp only [Demo.a0, Demo.a1]
      rw [abs_of_pos] <;> norm_num
    · simp only [Demo.a0, Demo.a1]
      norm_num
    · simp only [Demo.a0, Demo.a1]
      norm_num
  · obtain ⟨_, s, _, _, e2, _, _, _, e5, _⟩ := ((plan_ok Demo.regular_a' h).1 b (by simp)).facts
    refine ⟨s, e2, ?_⟩
    rw [e5]
    exact ((plan_ok Demo.regular_a' h).2.2.1 b (by simp)).2.1

/-- C79: the demo move does not meet a box far away. -/
example (fw : Firmware) : ∃ bs, plan fw [Demo.a0, Demo.a1] = .ok bs ∧
    submodelTimes (⟨⟨100, 0, 0, 0⟩, ⟨2, 2, 2, 0⟩⟩ : Box ℝ) bs = .error .indexError := by
  obtain ⟨b, h, hA, hB⟩ := Demo.one_move fw
  have hno : ∀ f e, ¬ b.Meets (⟨⟨100, 0, 0, 0⟩, ⟨2, 2, 2, 0⟩⟩ : Box ℝ) f e := by
    rintro f e ⟨A, hA', _, hc⟩
    rw [hA, Option.some.injEq] at hA'
    subst hA'
    have h1 := hc.2.1
    have h2 := hc.2.2.1.1.1
    rw [hB] at h2
    simp only [Demo.a0, Demo.a1, Vec4.add, Vec4.sub, Vec4.mul] at h2
    linarith
  refine ⟨[b], h, ((c79_outcome Demo.regular_a' h _).2 ?_).1 ?_⟩
  · rintro ⟨b', hb', ⟨e, hm⟩, _⟩
    rw [List.mem_singleton] at hb'
    subst hb'
    exact hno _ _ hm
  · rintro ⟨b', hb', f, e, hm⟩
    rw [List.mem_singleton] at hb'
    subst hb'
    exact hno _ _ hm

/-- C79 and C80: the demo move through a box around its middle, far from where it brakes. -/
theorem Demo.through (fw : Firmware) : ∃ b r, plan fw [Demo.a0, Demo.a1] = .ok [b] ∧
    b.stateA = some Demo.a0 ∧ b.stateB = Demo.a1 ∧
    submodelTimes (⟨⟨5, 0, 0, 0⟩, ⟨2, 2, 2, 0⟩⟩ : Box ℝ) [b] = .ok r ∧ r.timeIn ≠ [] ∧
    C80At ⟨⟨5, 0, 0, 0⟩, ⟨2, 2, 2, 0⟩⟩ [b] r := by
  obtain ⟨b, h, hA, hB⟩ := Demo.one_move fw
  have hc : Crossing (⟨5, 0, 0, 0⟩ : Vec4 ℝ) ⟨2, 2, 2, 0⟩ Demo.a0.position b.stateB.position (4 / 10) true := by
    rw [hB]
    refine ⟨by norm_num, by norm_num, ?_, Or.inl ⟨?_, Or.inr ⟨?_, ?_⟩⟩⟩
    · simp only [InBox, Demo.a0, Demo.a1, Vec4.add, Vec4.sub, Vec4.mul]
      norm_num
    · simp only [Demo.a0, Demo.a1]
      rw [abs_of_pos] <;> norm_num
    · simp only [Demo.a0, Demo.a1]
      norm_num
    · simp only [Demo.a0, Demo.a1]
      norm_num
  have hni : ¬ (InBox (⟨5, 0, 0, 0⟩ : Vec4 ℝ) ⟨2, 2, 2, 0⟩ Demo.a0.position ∧
      InBox (⟨5, 0, 0, 0⟩ : Vec4 ℝ) ⟨2, 2, 2, 0⟩ b.stateB.position) := by
    rintro ⟨h, _⟩
    simp only [InBox, Demo.a0] at h
    norm_num at h
  have hno : ¬ ∃ b' ∈ [b], (∃ e, b'.Meets (⟨⟨5, 0, 0, 0⟩, ⟨2, 2, 2, 0⟩⟩ : Box ℝ) 0 e) ∧
      ∃ s ∈ b'.segments.head?, s.velBegin.norm3 = 0 := by
    rintro ⟨b', hb', ⟨e, A, hA', _, h0⟩, _⟩
    rw [List.mem_singleton] at hb'
    subst hb'
    rw [hA, Option.some.injEq] at hA'
    subst hA'
    have := h0.2.2.1
    rw [Vec4.mul_zero, Vec4.add_zero] at this
    simp only [InBox, Demo.a0] at this
    norm_num at this
  obtain ⟨r, hr⟩ := ((c79_outcome Demo.regular_a' h ⟨⟨5, 0, 0, 0⟩, ⟨2, 2, 2, 0⟩⟩).2 hno).2
    ⟨b, by simp, 4 / 10, true, Demo.a0, hA, hni, hc⟩
  refine ⟨b, r, h, hA, hB, hr, ?_, c80_criterion Demo.regular_a' h ?_ hr⟩
  · obtain ⟨t, _, _, r1, _⟩ := time_not_late Demo.regular_a' h (b := b) (by simp) hA
      (crossing_length (c := ⟨⟨5, 0, 0, 0⟩, ⟨2, 2, 2, 0⟩⟩) hc)
      (f := 4 / 10) (by norm_num) (by norm_num)
    have := ((c43_crossings _ _ r hr).1 true t).2 ⟨b, by simp, Demo.a0, hA, hni, _, hc, r1⟩
    exact List.ne_nil_of_mem (by simpa using this)
  · intro b' hb' A hA' g g0 g1 hg hsf
    rw [List.mem_singleton] at hb'
    subst hb'
    rw [hA, Option.some.injEq] at hA'
    subst hA'
    have hL : (b'.stateB.position.sub Demo.a0.position).norm3 = 10 := by
      rw [hB]
      simp only [Demo.a0, Demo.a1, Vec4.sub, Vec4.norm3, sqrt_real]
      rw [show (10 - 0) * (10 - 0) + (0 - 0) * (0 - 0) + (0 - 0) * (0 - 0) = (10 : ℝ) ^ 2 by norm_num]
      exact Real.sqrt_sq (by norm_num)
    rw [hL, hB] at hg
    simp only [Demo.a1] at hg
    have h2 := hsf.1.1.2
    rw [hB] at h2
    simp only [Demo.a0, Demo.a1, Vec4.add, Vec4.sub, Vec4.mul] at h2
    norm_num at hg h2
    linarith

/-- The demo move meets the hypotheses of `c80_entries`, `c80_exits` and `c80_general_position`: it is one
filament, with an entry and an exit. -/
example (fw : Firmware) : ∃ b r, plan fw [Demo.a0, Demo.a1] = .ok [b] ∧
    submodelTimes (⟨⟨5, 0, 0, 0⟩, ⟨2, 2, 2, 0⟩⟩ : Box ℝ) [b] = .ok r ∧ r.nFilaments = 1 ∧
    ∃ t ∈ r.timeIn, ∃ t' ∈ r.timeOut, (∃ s ∈ b.segments, Covers s t) ∧ ∃ s ∈ b.segments, Covers s t' := by
  classical
  obtain ⟨b, r, h, hA, hB, hr, hne, hat⟩ := Demo.through fw
  obtain ⟨t, ht⟩ := List.exists_mem_of_ne_nil _ hne
  obtain ⟨b', hb', s, hs, hcov, ⟨p, hp, hsf⟩, _⟩ := hat true t (by simpa using ht)
  rw [List.mem_singleton] at hb'
  subst hb'
  have hx : (1e-6 : ℝ) < |(10 : ℝ) - 0| := by
    rw [abs_of_pos] <;> norm_num
  obtain ⟨t₁, h1, _, h3⟩ := c80_entries Demo.regular_a' h hr (b := b') (by simp) hA
    (by simp only [InBox, Demo.a0]; norm_num)
    (by
      rw [hB]
      refine ⟨fun _ => hx, ?_, ?_⟩ <;> simp only [Demo.a0] <;> intro h <;> norm_num at h) hs hcov hp hsf.1
  obtain ⟨t₂, h4, h5⟩ := c80_exits Demo.regular_a' h hr (b := b') (by simp) hA
    (by rw [hB]; simp only [InBox, Demo.a1]; norm_num)
    (by
      rw [hB]
      refine ⟨fun _ => by rw [abs_sub_comm]; exact hx, ?_, ?_⟩ <;> simp only [Demo.a1] <;> intro h <;>
        norm_num at h) hs hcov hp hsf.1
  refine ⟨b', r, h, hr, ?_, t₁, h1, t₂, h4, h3, h5⟩
  have hc := c80_general_position hr (by
    intro b'' hb'' A hA'
    rw [List.mem_singleton] at hb''
    subst hb''
    rw [hA, Option.some.injEq] at hA'
    subst hA'
    unfold facesMet
    have e1 : ¬ FaceMet (⟨5, 0, 0, 0⟩ : Vec4 ℝ) ⟨2, 2, 2, 0⟩ Demo.a0.position b''.stateB.position Vec4.x true true := by
      rintro ⟨f, _, _, _, _, _, h⟩
      rw [hB] at h
      simp only [Demo.a0, Demo.a1, if_true, true_iff] at h
      norm_num at h
    have e2 : ∀ up, ¬ FaceMet (⟨5, 0, 0, 0⟩ : Vec4 ℝ) ⟨2, 2, 2, 0⟩ Demo.a0.position b''.stateB.position Vec4.y up true := by
      rintro up ⟨f, _, _, _, h, _⟩
      rw [hB] at h
      simp only [Demo.a0, Demo.a1] at h
      norm_num at h
    have e3 : ∀ up, ¬ FaceMet (⟨5, 0, 0, 0⟩ : Vec4 ℝ) ⟨2, 2, 2, 0⟩ Demo.a0.position b''.stateB.position Vec4.z up true := by
      rintro up ⟨f, _, _, _, h, _⟩
      rw [hB] at h
      simp only [Demo.a0, Demo.a1] at h
      norm_num at h
    simp only [List.filter_cons, e1, e2, e3, decide_false, Bool.false_eq_true, if_false, List.filter_nil]
    split <;> simp)
  have hpos : 0 < r.nFilaments := by
    rw [← (c80_count hr).2.1]
    exact List.length_pos_of_mem h1
  have hle : r.nFilaments ≤ 1 := by
    rw [hc]
    exact List.length_filter_le _ _
  omega

end PyGCD
