import Verif.Spec.Itinerary
import Verif.Props.Query
import Verif.Props.Stops

/-!
# Property C68: the machine visits the places of the states in order
-/

set_option linter.unusedSectionVars false
set_option linter.unusedSimpArgs false

namespace PyGCD
open Spec

variable {fw : Firmware} {states : List (PState ℝ)} {bs : List (Block ℝ)}

/-! ## Inside a block -/

section
variable {u p : Vec4 ℝ} {a vT L : ℝ} {eo : Bool}

theorem SegOn.dist_mono {w w₁ l l₁ : ℝ} {s : Segment ℝ} (g : SegOn u a vT p L s w w₁ l l₁) {t t' : ℝ}
    (h : Covers s t) (h' : Covers s t') (htt : t ≤ t') :
    l + (w + SegOn.speed s w w₁ t) / 2 * (t - s.tBegin) ≤
      l + (w + SegOn.speed s w w₁ t') / 2 * (t' - s.tBegin) := by
  have h1 := (g.speed_bounds h).1
  have h2 := (g.speed_bounds h').1
  have e : l + (w + SegOn.speed s w w₁ t') / 2 * (t' - s.tBegin) -
      (l + (w + SegOn.speed s w w₁ t) / 2 * (t - s.tBegin)) =
      (SegOn.speed s w w₁ t + SegOn.speed s w w₁ t') / 2 * (t' - t) := by
    unfold SegOn.speed
    ring
  have : 0 ≤ (SegOn.speed s w w₁ t + SegOn.speed s w w₁ t') / 2 * (t' - t) := by
    have := sub_nonneg.2 htt
    positivity
  linarith

/-- Along segments on one line, the distance from the beginning never shrinks. -/
theorem segs_mono (hu : UnitDir u eo) {ss : List (Segment ℝ)} (hp : Part ss)
    (hon : ∀ s ∈ ss, ∃ w w₁ l l₁, SegOn u a vT p L s w w₁ l l₁) :
    ∀ s ∈ ss, ∀ s' ∈ ss, ∀ t t' d d', Covers s t → Covers s' t' → t ≤ t' →
      s.getPosition t = .ok (p.add (u.mul d)) → s'.getPosition t' = .ok (p.add (u.mul d')) → d ≤ d' := by
  induction ss with
  | nil => simp
  | cons x ss ih =>
    have later : ∀ {ss : List (Segment ℝ)} {x : Segment ℝ}, Part (x :: ss) →
        (∀ s ∈ x :: ss, ∃ w w₁ l l₁, SegOn u a vT p L s w w₁ l l₁) → ∀ {e}, x.posEnd = p.add (u.mul e) →
        ∀ s ∈ ss, ∀ d, s.posBegin = p.add (u.mul d) → e ≤ d := by
      intro ss
      induction ss with
      | nil => simp
      | cons y ss ih =>
        intro x hx hon e he s hs d hd
        have h1 := (List.isChain_cons_cons.1 hx.place).1
        rcases List.mem_cons.1 hs with rfl | hs
        · refine (unit_cancel hu (p := p) ?_).le
          rw [← he, ← hd, h1]
        · obtain ⟨w, w₁, l, l₁, g⟩ := hon y (by simp)
          have h2 := ih hx.tail (fun s hs => hon s (List.mem_cons_of_mem _ hs)) g.hpe s hs d hd
          have h3 : e = l := by
            refine unit_cancel hu (p := p) ?_
            rw [← he, ← g.hpb, h1]
          have h4 : 0 ≤ (w + w₁) / 2 * (y.tEnd - y.tBegin) := by
            have := sub_nonneg.2 g.ht.le
            have := g.hpos
            positivity
          have := g.hlen
          linarith
    intro s hs s' hs' t t' d d' hst hst' htt hd hd'
    rcases List.mem_cons.1 hs with rfl | hsm
    · rcases List.mem_cons.1 hs' with rfl | hsm'
      · obtain ⟨w, w₁, l, l₁, g⟩ := hon _ hs
        rw [g.getPosition hst, Except.ok.injEq] at hd
        rw [g.getPosition hst', Except.ok.injEq] at hd'
        rw [← unit_cancel hu hd, ← unit_cancel hu hd']
        exact g.dist_mono hst hst' htt
      · obtain ⟨w, w₁, l, l₁, g⟩ := hon _ hs
        obtain ⟨w', w₁', l', l₁', g'⟩ := hon _ hs'
        rw [g.getPosition hst, Except.ok.injEq] at hd
        rw [g'.getPosition hst', Except.ok.injEq] at hd'
        rw [← unit_cancel hu hd, ← unit_cancel hu hd']
        have := later hp hon g.hpe s' hsm' l' g'.hpb
        have := (g.dist_bounds hst).2
        have := (g'.dist_bounds hst').1
        linarith
    · rcases List.mem_cons.1 hs' with rfl | hsm'
      · have h1 := hp.le s hsm
        have h2 : t = t' := le_antisymm htt (hst'.2.trans (h1.trans hst.1))
        subst h2
        have := hp.position_unique s hs s' hs' hst hst'
        rw [hd, hd', Except.ok.injEq] at this
        exact (unit_cancel hu this).le
      · exact ih hp.tail (fun s hs => hon s (List.mem_cons_of_mem _ hs)) s hsm s' hsm' t t' d d' hst hst' htt hd hd'

end

/-- A function of time gives the positions of the segments. -/
def Gives (pos : ℝ → Vec4 ℝ) (ss : List (Segment ℝ)) : Prop :=
  ∀ s ∈ ss, ∀ t, Covers s t → s.getPosition t = .ok (pos t)

/-- Every timeline has a function that gives its positions. -/
theorem Part.gives {ss : List (Segment ℝ)} (h : Part ss) : ∃ pos, Gives pos ss := by
  classical
  have : ∀ t, ∃ q, ∀ s ∈ ss, Covers s t → s.getPosition t = .ok q := by
    intro t
    by_cases he : ∃ s ∈ ss, Covers s t
    · obtain ⟨s, hs, hc⟩ := he
      obtain ⟨q, hq⟩ := getPosition_total hc
      refine ⟨q, fun s' hs' hc' => ?_⟩
      rw [← hq]
      exact h.position_unique s' hs' s hs hc' hc
    · exact ⟨Vec4.zero, fun s hs hc => absurd ⟨s, hs, hc⟩ he⟩
  choose pos hpos using this
  exact ⟨pos, fun s hs t ht => hpos t s hs ht⟩

theorem cover_exists {ss : List (Segment ℝ)} (h : Part ss) {s s' : Segment ℝ} (h1 : ss.head? = some s)
    (h2 : ss.getLast? = some s') {t : ℝ} (h3 : s.tBegin ≤ t) (h4 : t ≤ s'.tEnd) : ∃ x ∈ ss, Covers x t := by
  obtain ⟨r, hr⟩ := searchWarm_complete h h1 h2 h3 h4 0
  obtain ⟨_, e1, e2⟩ := searchWarm_sound hr
  exact ⟨r.1, List.mem_of_getElem? e1, e2⟩

/-- A block goes straight from its first state to its second. -/
theorem SoundRun.block_straight (hr : SoundRun bs) {b : Block ℝ} (hb : b ∈ bs)
    {pos : ℝ → Vec4 ℝ} (hpos : Gives pos b.segments) {A : PState ℝ} (hA : b.stateA = some A) :
    Straight pos A.position b.stateB.position b.t0 b.t1 := by
  have hg := hr.good b hb
  have hkin := hr.isTimeline.part
  have hsub : ∀ s ∈ b.segments, s ∈ unpack bs := fun s hs => List.mem_flatMap.2 ⟨b, hb, hs⟩
  obtain ⟨pre, post, hsplit⟩ := List.append_of_mem hb
  have hpart : Part b.segments := by
    have e : unpack bs = unpack pre ++ (b.segments ++ unpack post) := by
      rw [hsplit]
      simp [unpack]
    have h1 := hkin.time
    have h2 := hkin.place
    rw [e] at h1 h2
    exact ⟨(h1.right_of_append).left_of_append, (h2.right_of_append).left_of_append,
      fun s hs => hkin.duration s (hsub s hs), fun s hs => hkin.kinematic s (hsub s hs)⟩
  obtain ⟨A', s, s', e1, e2, e3, e4, e5, _, e7, e8, _⟩ := hg.facts
  rw [hA, Option.some.injEq] at e1
  subst e1
  have hm := List.mem_of_mem_head? e2
  have hm' := List.mem_of_getLast? e3
  have hbeg : pos b.t0 = A.position := by
    have h1 := hpos s hm b.t0 (by rw [← e4]; exact ⟨le_refl _, hpart.duration s hm⟩)
    rw [← e4, getPosition_begin (hpart.duration s hm), Except.ok.injEq, e5] at h1
    rw [← e4]
    exact h1.symm
  have hend : pos b.t1 = b.stateB.position := by
    have h1 := hpos s' hm' b.t1 (by rw [← e7]; exact ⟨hpart.duration s' hm', le_refl _⟩)
    rw [← e7, getPosition_end (hpart.kinematic s' hm') (hpart.duration s' hm'), Except.ok.injEq, e8] at h1
    rw [← e7]
    exact h1.symm
  have hcov : ∀ t ∈ Set.Icc b.t0 b.t1, ∃ x ∈ b.segments, Covers x t := fun t ht =>
    cover_exists hpart e2 e3 (by rw [e4]; exact ht.1) (by rw [e7]; exact ht.2)
  rcases hg with ⟨A', u, s0, s1, hmv⟩ | ⟨A', q, hmv⟩
  · have hA' := hmv.hA
    rw [hA, Option.some.injEq] at hA'
    subst hA'
    obtain ⟨hu, hdist, hp, heo, _⟩ := hmv.toHdr.unit
    obtain ⟨L, hL0, hLp, hL⟩ := hmv.hramp.mem
    have hLd : L = (moveDistance A b.stateB).1 := by
      refine unit_cancel hu (p := A.position) ?_
      rw [← hLp, ← hp]
    rw [← hLd] at hdist hp
    have hd : ∀ t, ∃ d, t ∈ Set.Icc b.t0 b.t1 → pos t = A.position.add (u.mul d) ∧ 0 ≤ d ∧ d ≤ L := by
      intro t
      by_cases ht : t ∈ Set.Icc b.t0 b.t1
      · obtain ⟨x, hx, hxt⟩ := hcov t ht
        obtain ⟨w, w₁, l, l₁, g⟩ := hL x hx
        have := hpos x hx t hxt
        rw [g.getPosition hxt, Except.ok.injEq] at this
        obtain ⟨b1, b2⟩ := g.dist_bounds hxt
        exact ⟨_, fun _ => ⟨this.symm, le_trans g.hl b1, le_trans b2 g.hl₁⟩⟩
      · exact ⟨0, fun h => absurd h ht⟩
    choose d hd using hd
    refine ⟨fun t => d t / L, ?_, hbeg, hend, ?_⟩
    · intro t ht t' ht' htt
      obtain ⟨x, hx, hxt⟩ := hcov t ht
      obtain ⟨x', hx', hxt'⟩ := hcov t' ht'
      refine div_le_div_of_nonneg_right ?_ hL0
      refine segs_mono hu hpart hL x hx x' hx' t t' _ _ hxt hxt' htt ?_ ?_
      · rw [hpos x hx t hxt, (hd t ht).1]
      · rw [hpos x' hx' t' hxt', (hd t' ht').1]
    · intro t ht
      obtain ⟨h1, h2, h3⟩ := hd t ht
      refine ⟨div_nonneg h2 hL0, (div_le_one hdist).2 h3, ?_⟩
      rw [h1, hp]
      ext <;> simp only [Vec4.add, Vec4.sub, Vec4.mul] <;> field_simp <;> ring
  · refine ⟨fun _ => 0, fun _ _ _ _ _ => le_refl _, hbeg, hend, ?_⟩
    intro t ht
    obtain ⟨x, hx, hxt⟩ := hcov t ht
    refine ⟨le_refl _, zero_le_one, ?_⟩
    obtain ⟨t0, ht0⟩ := hmv.hseg
    have hA' := hmv.hA
    rw [hA, Option.some.injEq] at hA'
    subst hA'
    have := hpos x hx t hxt
    rw [ht0, List.mem_singleton] at hx
    subst hx
    rw [static_position this, Vec4.mul_zero, Vec4.add_zero]

theorem block_straight (hreg : Regular states) (h : plan fw states = .ok bs) {b : Block ℝ} (hb : b ∈ bs)
    {pos : ℝ → Vec4 ℝ} (hpos : Gives pos b.segments) {A : PState ℝ} (hA : b.stateA = some A) :
    Straight pos A.position b.stateB.position b.t0 b.t1 :=
  (plan_sound hreg h).block_straight hb hpos hA

/-! ## From block to block -/

/-- The times at which the states are reached. -/
theorem exists_times {pa : PState ℝ} {states : List (PState ℝ)} {bs : List (Block ℝ)} (hc : bs.IsChain LinkT)
    (hact : bs.map (fun b => (b.stateA, b.stateB)) = active (some pa) states) {t0 : ℝ}
    (h0 : ∀ b ∈ bs.head?, b.t0 = t0) :
    ∃ τ : Nat → ℝ, τ 0 = t0 ∧ (bs = [] → τ states.length = t0) ∧
      (∀ b ∈ bs.getLast?, τ states.length = b.t1) ∧
      (∀ i A B, (pa :: states)[i]? = some A → (pa :: states)[i + 1]? = some B →
        (∃ b ∈ bs, b.stateA = some A ∧ b.stateB = B ∧ b.t0 = τ i ∧ b.t1 = τ (i + 1)) ∨
        (B.pause = none ∧ B.position = A.position ∧ τ (i + 1) = τ i)) ∧
      ∀ i A, (pa :: states)[i]? = some A →
        (∃ b ∈ bs, b.t0 = τ i ∧ b.stateA.map PState.position = some A.position) ∨
        (∃ b ∈ bs, b.t1 = τ i ∧ b.stateB.position = A.position) ∨
        (bs = [] ∧ τ i = t0 ∧ A.position = pa.position) := by
  induction states generalizing pa bs t0 with
  | nil =>
    have : bs = [] := by
      rw [show active (some pa) [] = [] from rfl, List.map_eq_nil_iff] at hact
      exact hact
    subst this
    refine ⟨fun _ => t0, rfl, fun _ => rfl, by simp, by simp, ?_⟩
    intro i A hA
    cases i with
    | zero =>
      cases hA
      exact Or.inr (Or.inr ⟨rfl, rfl, rfl⟩)
    | succ i => cases hA
  | cons s states ih =>
    by_cases hs : s.pause ≠ none ∨ ∃ A, some pa = some A ∧ s.position ≠ A.position
    · rw [active_cons_take _ hs] at hact
      cases bs with
      | nil => simp at hact
      | cons b bs =>
        rw [List.map_cons, List.cons.injEq, Prod.mk.injEq] at hact
        obtain ⟨⟨e1, e2⟩, e3⟩ := hact
        have hb0 : ∀ c ∈ bs.head?, c.t0 = b.t1 := by
          intro c hc'
          cases bs with
          | nil => cases hc'
          | cons c' bs =>
            cases hc'
            exact (List.isChain_cons_cons.1 hc).1.2.2.2
        obtain ⟨τ, h1, h2, h3, h4, h5⟩ := ih hc.tail e3 hb0
        refine ⟨fun n => match n with | 0 => t0 | n + 1 => τ n, rfl, by simp, ?_, ?_, ?_⟩
        · intro c hc'
          cases hbs : bs with
          | nil =>
            rw [hbs] at hc'
            cases hc'
            exact h2 hbs
          | cons c' bs' =>
            rw [hbs] at hc'
            rw [List.getLast?_cons_cons, ← hbs] at hc'
            exact h3 c hc'
        · intro i A B hA hB
          cases i with
          | zero =>
            cases hA
            cases hB
            exact Or.inl ⟨b, by simp, e1, e2, h0 b (by simp), h1.symm⟩
          | succ i =>
            rcases h4 i A B hA hB with ⟨c, g1, g2⟩ | g
            · exact Or.inl ⟨c, List.mem_cons_of_mem _ g1, g2⟩
            · exact Or.inr g
        · intro i A hA
          cases i with
          | zero =>
            cases hA
            exact Or.inl ⟨b, by simp, h0 b (by simp), by rw [e1]; rfl⟩
          | succ i =>
            rcases h5 i A hA with ⟨c, g1, g2⟩ | ⟨c, g1, g2⟩ | ⟨_, g2, g3⟩
            · exact Or.inl ⟨c, List.mem_cons_of_mem _ g1, g2⟩
            · exact Or.inr (Or.inl ⟨c, List.mem_cons_of_mem _ g1, g2⟩)
            · exact Or.inr (Or.inl ⟨b, by simp, g2.symm, by rw [e2]; exact g3.symm⟩)
    · push Not at hs
      rw [active_cons_skip _ (fun A' hA' => hs.2 A' hA') hs.1] at hact
      obtain ⟨τ, h1, h2, h3, h4, h5⟩ := ih hc hact h0
      refine ⟨fun n => match n with | 0 => t0 | n + 1 => τ n, rfl, h2, h3, ?_, ?_⟩
      · intro i A B hA hB
        cases i with
        | zero =>
          cases hA
          cases hB
          exact Or.inr ⟨hs.1, hs.2 _ rfl, h1⟩
        | succ i => exact h4 i A B hA hB
      · have hpos := hs.2 _ rfl
        intro i A hA
        cases i with
        | zero =>
          cases hA
          have := h5 0 s rfl
          rw [h1, hpos] at this
          exact this
        | succ i =>
          have := h5 i A hA
          rw [hpos] at this
          exact this

/-- The first state of a program that can be executed does not pause. -/
theorem Spec.Regular.first {s : PState ℝ} {states : List (PState ℝ)} (h : Regular (s :: states)) :
    s.pause = none := by
  by_contra hp
  obtain ⟨A, hA, _⟩ := h.stays [] s states rfl hp
  cases hA

/-- **C68.** The machine visits the places of the states in order: there are times, from `0` to the end of the
print, between which it goes straight from each place to the next one or waits as long as it is told. Whatever
was asked before and in whichever unit, `get_values` gives these positions. -/
theorem c68_itinerary (hreg : Regular states) (h : plan fw states = .ok bs) {T : ℝ}
    (hT : EndTime (Spec.path bs) T) :
    ∃ τ pos, Itinerary (states.map place) τ T pos ∧ ∀ own u f, InUnit (Option.getD u own) f → ∀ start history t,
        (0 ≤ t → t < T → ∃ v p,
          (getValues (unpack bs) own u t (queryHistory (unpack bs) own history start)).1 = .ok (v, p)) ∧
        ∀ v p, (getValues (unpack bs) own u t (queryHistory (unpack bs) own history start)).1 = .ok (v, p) →
          p = (pos t).mul f := by
  obtain ⟨hg, hc, hf, hact, _⟩ := plan_ok hreg h
  have hpart := (plan_timeline hreg h).part
  obtain ⟨pos, hpos⟩ := hpart.gives
  have hne : bs ≠ [] := by
    rintro rfl
    obtain ⟨s, hs, _⟩ := hT
    cases hs
  cases states with
  | nil =>
    rw [show active none [] = [] from rfl, List.map_eq_nil_iff] at hact
    exact absurd hact hne
  | cons s0 states =>
    have hskip : active none (s0 :: states) = active (some s0) states :=
      active_cons_skip _ (by rintro A ⟨⟩) hreg.first
    rw [hskip] at hact
    obtain ⟨τ, h1, h2, h3, h4, h5⟩ := exists_times hc hact (t0 := 0) (fun b hb => (hf b hb).1)
    obtain ⟨l, hl⟩ : ∃ l, bs.getLast? = some l := by
      cases hl : bs.getLast? with
      | none => exact absurd (List.getLast?_eq_none_iff.1 hl) hne
      | some l => exact ⟨l, rfl⟩
    have hgl := hg l (List.mem_of_getLast? hl)
    have hfin : τ states.length = T := by
      obtain ⟨_, _, s', _, _, e3, _, _, _, e7, _⟩ := hgl.facts
      obtain ⟨s, hs, rfl⟩ := hT
      rw [getLast?_flatMap_segments hl hgl.ne_nil, e3] at hs
      cases hs
      rw [h3 l hl, e7]
    have get : ∀ {i : Nat} {x}, ((s0 :: states).map place)[i]? = some x →
        ∃ A, (s0 :: states)[i]? = some A ∧ place A = x := by
      intro i x hx
      rw [List.getElem?_map, Option.map_eq_some_iff] at hx
      exact hx
    refine ⟨τ, pos, ⟨h1, by simpa using hfin, ?_, ?_, ?_, ?_⟩, ?_⟩
    · intro i A B hA hB
      replace hA := get hA
      obtain ⟨A, hA, rfl⟩ := hA
      replace hB := get hB
      obtain ⟨B, hB, rfl⟩ := hB
      simp only [place]
      rcases h4 i A B hA hB with ⟨b, g1, g2, g3, g4, g5⟩ | ⟨_, g2, g3⟩
      · rw [← g4, ← g5, ← g3]
        exact block_straight hreg h g1 (fun s hs => hpos s (List.mem_flatMap.2 ⟨b, g1, hs⟩)) g2
      · have hat : pos (τ i) = A.position := by
          rcases h5 i A hA with ⟨b, b1, b2, b3⟩ | ⟨b, b1, b2, b3⟩ | ⟨b1, _⟩
          · obtain ⟨A', hA'⟩ : ∃ A', b.stateA = some A' := by
              obtain ⟨A', _, _, e, _⟩ := (hg b b1).facts
              exact ⟨A', e⟩
            obtain ⟨_, _, e, _⟩ := block_straight hreg h b1 (fun s hs => hpos s (List.mem_flatMap.2 ⟨b, b1, hs⟩)) hA'
            rw [hA', Option.map_some, Option.some.injEq] at b3
            rw [← b2, e, b3]
          · obtain ⟨A', hA'⟩ : ∃ A', b.stateA = some A' := by
              obtain ⟨A', _, _, e, _⟩ := (hg b b1).facts
              exact ⟨A', e⟩
            obtain ⟨_, _, _, e, _⟩ :=
              block_straight hreg h b1 (fun s hs => hpos s (List.mem_flatMap.2 ⟨b, b1, hs⟩)) hA'
            rw [← b2, e, b3]
          · exact absurd b1 hne
        refine ⟨fun _ => 0, fun _ _ _ _ _ => le_refl _, hat, by rw [g3, hat, g2], ?_⟩
        intro t ht
        rw [g3] at ht
        have : t = τ i := le_antisymm ht.2 ht.1
        subst this
        refine ⟨le_refl _, zero_le_one, ?_⟩
        rw [hat, Vec4.mul_zero, Vec4.add_zero]
    · intro i A B hA hB hp hmv
      replace hA := get hA
      obtain ⟨A, hA, rfl⟩ := hA
      replace hB := get hB
      obtain ⟨B, hB, rfl⟩ := hB
      simp only [place] at hp hmv
      rcases h4 i A B hA hB with ⟨b, g1, g2, g3, g4, g5⟩ | ⟨_, g2, _⟩
      · rw [← g4, ← g5]
        rcases hg b g1 with ⟨A', u, s0, s1, hm⟩ | ⟨A', q, hm⟩
        · exact hm.facts.2.2.2.2.2
        · rw [← g3, hm.hpause] at hp
          cases hp
      · exact absurd g2 hmv
    · intro i B p hB hp
      replace hB := get hB
      obtain ⟨B, hB, rfl⟩ := hB
      simp only [place] at hp
      obtain ⟨A, hA⟩ : ∃ A, (s0 :: states)[i]? = some A := by
        rw [List.getElem?_eq_some_iff] at hB
        obtain ⟨hi, _⟩ := hB
        exact ⟨_, List.getElem?_eq_getElem (by omega)⟩
      rcases h4 i A B hA hB with ⟨b, g1, g2, g3, g4, g5⟩ | ⟨g1, _⟩
      · obtain ⟨_, s, _, e2, e3, _⟩ := c27_dwell hreg h g1 (by rw [g3]; exact hp)
        obtain ⟨_, x, x', _, f2, f3, f4, _, _, f7, _⟩ := (hg b g1).facts
        rw [e2] at f2 f3
        cases f2
        rw [List.getLast?_singleton, Option.some.injEq] at f3
        subst f3
        linarith
      · rw [hp] at g1
        cases g1
    · intro i A B hA hB hp hst
      replace hA := get hA
      obtain ⟨A, hA, rfl⟩ := hA
      replace hB := get hB
      obtain ⟨B, hB, rfl⟩ := hB
      simp only [place] at hp hst
      rcases h4 i A B hA hB with ⟨b, g1, g2, g3, g4, g5⟩ | ⟨_, _, g3⟩
      · rcases hg b g1 with ⟨A', u, s0, s1, hm⟩ | ⟨A', q, hm⟩
        · have := hm.hA
          rw [g2, Option.some.injEq] at this
          subst this
          rw [← g3] at hst
          exact absurd hst hm.hne
        · rw [← g3, hm.hpause] at hp
          cases hp
      · exact g3
    · intro own u f hf start history t
      constructor
      · intro t0 t1
        obtain ⟨_, _, v, p, _, _, _, e⟩ := (c30_answers hreg h hT hf start history t).1 t0 t1
        exact ⟨_, _, e⟩
      intro v p hv
      obtain ⟨s, i, f', w, q, a1, a2, a3, a4, a5, a6, _⟩ := getValues_inv hv
      obtain ⟨c1, c2⟩ := findSegment_sound a1
      have := hpos s (List.mem_of_getElem? c1) t c2
      rw [a4, Except.ok.injEq] at this
      rw [hf.scaling, Except.ok.injEq] at a2
      rw [a6, this, a2]

/-- The hypotheses of `c68_itinerary` hold for the demo program. -/
example (fw : Firmware) : ∃ bs T τ pos, plan fw Demo.prog = .ok bs ∧ EndTime (Spec.path bs) T ∧
    Itinerary (Demo.prog.map place) τ T pos := by
  obtain ⟨bs, T, h, hT, _⟩ := Demo.end_time fw
  obtain ⟨τ, pos, h1, _⟩ := c68_itinerary Demo.regular h hT
  exact ⟨bs, T, τ, pos, h, hT, h1⟩

end PyGCD
