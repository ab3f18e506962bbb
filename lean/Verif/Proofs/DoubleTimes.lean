import Verif.Proofs.DoublePace

/-!
# Speeds and times of all blocks of a program in double precision, with every junction handling
-/

set_option linter.unusedSectionVars false
set_option linter.unusedSimpArgs false

namespace PyGCD
open PyGCD.Spec Vec4

/-- The time for a move or pause of doubles. -/
noncomputable def dspan (x : Option (PState Dbl) × PState Dbl) : ℝ := span (x.1.map PState.real, x.2.real)

/-- The time for the moves and pauses `hist`, with a little room for rounding. -/
noncomputable def budget (hist : List (Option (PState Dbl) × PState Dbl)) : ℝ := (hist.map fun x => dspan x + 2e-8).sum

/-- The moves and pauses are not too many, not too slow and no nonsense. -/
def Roomy (hist : List (Option (PState Dbl) × PState Dbl)) : Prop :=
  budget hist ≤ 450000 ∧ ∀ x ∈ hist, 1e-6 ≤ x.2.speed.r ∧ 0 ≤ dspan x

theorem budget_cons (x : Option (PState Dbl) × PState Dbl) (hist : List (Option (PState Dbl) × PState Dbl)) :
    budget (x :: hist) = dspan x + 2e-8 + budget hist := by
  unfold budget
  rw [List.map_cons, List.sum_cons]

theorem Roomy.tail {x : Option (PState Dbl) × PState Dbl} {hist : List (Option (PState Dbl) × PState Dbl)}
    (h : Roomy (x :: hist)) : Roomy hist := by
  refine ⟨?_, fun y hy => h.2 y (List.mem_cons_of_mem _ hy)⟩
  have h1 := h.1
  rw [budget_cons] at h1
  have := (h.2 x List.mem_cons_self).2
  linarith

theorem Roomy.nonneg {hist : List (Option (PState Dbl) × PState Dbl)} (h : Roomy hist) : 0 ≤ budget hist := by
  refine List.sum_nonneg ?_
  intro x hx
  obtain ⟨y, hy, rfl⟩ := List.mem_map.1 hx
  have := (h.2 y hy).2
  linarith

/-- The speeds of a block: along its direction, and limited. -/
def SpeedsOk (b : Block Dbl) : Prop :=
  (∀ u, b.direction = some u → ∀ s ∈ b.segments, ∃ v w, s.velBegin = u.mul v ∧ s.velEnd = u.mul w ∧
    Lim b.stateB.speed.r b.stateB.pAcc.r v ∧ Lim b.stateB.speed.r b.stateB.pAcc.r w) ∧
  (b.direction = none → ∀ s ∈ b.segments, s.velBegin = Vec4.zero ∧ s.velEnd = Vec4.zero)

/-- What the states and the direction of a block are. -/
def Sound (b : Block Dbl) : Prop := ∃ A, Placed b A ∧ (b.direction ≠ none → b.stateB.pause = none)

/-- A block that runs forward in time and keeps its speed, and ends within the time for it and the blocks before it. -/
def Kept (hist : List (Option (PState Dbl) × PState Dbl)) (b : Block Dbl) : Prop :=
  Sound b ∧ SpeedsOk b ∧ ∃ f l, b.segments.head? = some f ∧ b.segments.getLast? = some l ∧
    Ahead f.tBegin b.segments l.tEnd ∧ (Roomy (b.ends :: hist) → |l.tEnd.r| ≤ budget (b.ends :: hist))

/-- A block that has just been planned. -/
def New (hist : List (Option (PState Dbl) × PState Dbl)) (b : Block Dbl) : Prop :=
  Sound b ∧ SpeedsOk b ∧ ∃ f l, b.segments.head? = some f ∧ b.segments.getLast? = some l ∧
    Ahead f.tBegin b.segments l.tEnd ∧ (Roomy (b.ends :: hist) → |f.tBegin.r| ≤ budget (b.ends :: hist) ∧
      |l.tEnd.r| ≤ budget (b.ends :: hist) ∧ l.tEnd.r - f.tBegin.r ≤ dspan b.ends + 1e-8)

/-- The block `c` begins when `p` ends, or later. -/
def Next (hist : List (Option (PState Dbl) × PState Dbl)) (p c : Block Dbl) : Prop :=
  Roomy (c.ends :: p.ends :: hist) →
    ∃ l f, p.segments.getLast? = some l ∧ c.segments.head? = some f ∧ l.tEnd.r - 1e-9 ≤ f.tBegin.r

theorem ahead_le : ∀ {ss : List (Segment Dbl)} {t t' : Dbl}, Ahead t ss t' → t.r ≤ t'.r
  | [], _, _, h => h
  | _ :: _, _, _, h => h.1.trans (h.2.1.trans (ahead_le h.2.2))

theorem ahead_last : ∀ {ss : List (Segment Dbl)} {t t' : Dbl} {l : Segment Dbl}, Ahead t ss t' → ss.getLast? = some l →
    l.tEnd.r ≤ t'.r ∧ Ahead t ss l.tEnd
  | [], _, _, _, _, hl => by cases hl
  | [s], t, t', l, h, hl => by
    cases hl
    exact ⟨h.2.2, h.1, h.2.1, le_rfl⟩
  | s :: s' :: ss, t, t', l, h, hl => by
    rw [List.getLast?_cons_cons] at hl
    obtain ⟨h1, h2⟩ := ahead_last h.2.2 hl
    exact ⟨h1, h.1, h.2.1, h2⟩

theorem ahead_ends {ss : List (Segment Dbl)} {t t' : Dbl} {f l : Segment Dbl} (h : Ahead t ss t') (hf : ss.head? = some f)
    (hl : ss.getLast? = some l) : t.r ≤ f.tBegin.r ∧ l.tEnd.r ≤ t'.r ∧ Ahead f.tBegin ss l.tEnd := by
  obtain ⟨h1, h2⟩ := ahead_last h hl
  cases ss with
  | nil => cases hf
  | cons s ss =>
    cases hf
    exact ⟨h.1, h1, le_rfl, h2.2⟩

theorem dbl_add_mono {a b : Dbl} (h : a.r ≤ b.r) (d : Dbl) : (a + d).r ≤ (b + d).r := by
  have h' : a.val ≤ b.val := by
    have : (a.val : ℝ) ≤ (b.val : ℝ) := h
    exact_mod_cast this
  have : rnd (a.val + d.val) ≤ rnd (b.val + d.val) := rnd_mono (by linarith)
  exact (Rat.cast_le (K := ℝ)).2 this

theorem ahead_shift (d : Dbl) : ∀ {ss : List (Segment Dbl)} {t t' : Dbl}, Ahead t ss t' →
    Ahead (t + d) (ss.map (Segment.shift d)) (t' + d)
  | [], _, _, h => dbl_add_mono h d
  | _ :: _, _, _, h => ⟨dbl_add_mono h.1 d, dbl_add_mono h.2.1 d, ahead_shift d h.2.2⟩

/-- A planned move. -/
theorem moveMaker_new {b b' : Block Dbl} {pb : Option (Block Dbl)} {v : Dbl}
    {hist : List (Option (PState Dbl) × PState Dbl)} (hb : Sound b) (hv : 0 ≤ v.r)
    (hpb : ∀ p ∈ pb, ∃ l, p.lastSeg = .ok l ∧ (Roomy hist → |l.tEnd.r| ≤ budget hist))
    (h : moveMaker b pb v = .ok b') (hne : b'.segments ≠ []) : New hist b' ∧
      ∀ p ∈ pb, ∃ l f, p.segments.getLast? = some l ∧ b'.segments.head? = some f ∧ l.tEnd.r ≤ f.tBegin.r := by
  obtain ⟨A, ⟨h1, h2⟩, h3⟩ := hb
  have core : ∀ (prev : Segment Dbl) (u : Vec4 Dbl) (ur : Vec4 ℝ) (r : List (Segment Dbl) × BlockType),
      b.direction = some u → UsualMove A b.stateB u ur → (Roomy hist → |prev.tEnd.r| ≤ budget hist) →
      planMove prev u b.stateB (moveDistance A b.stateB).1 (moveDistance A b.stateB).2 v = .ok r → r.1 ≠ [] →
      New hist { b with segments := r.1, blocktype := some r.2 } ∧
        ∃ f, r.1.head? = some f ∧ prev.tEnd.r ≤ f.tBegin.r := by
    intro prev u ur r hu hm ht hr hne
    have hlen : LenHyp b.stateB.pAcc b.stateB.speed
        (if prev.velEnd.norm3 < b.stateB.speed then prev.velEnd.norm3 else b.stateB.speed) v
        (moveDistance A b.stateB).1 (moveLength A.position.real b.stateB.position.real)
        (b.stateB.speed.r * b.stateB.speed.r / b.stateB.pAcc.r) := by
      refine ⟨hm.acc, ?_, ?_, hv, hm.dist, hm.length, le_rfl, hm.ramp⟩
      · split
        · exact dbl_norm3_nonneg _
        · exact hm.speed.le
      · split
        · rename_i hlt
          exact ((Dbl.lt_iff _ _).1 hlt).le
        · exact le_rfl
    obtain ⟨p1, ds, t', p2, p3, p4, p5⟩ := planMove_pace hr hlen hm.hu hm.hd hm.speed
    obtain ⟨rs, rt⟩ := r
    simp only at p1 p4 hne ⊢
    obtain ⟨l, hl⟩ : ∃ l, rs.getLast? = some l := ⟨_, List.getLast?_eq_getLast_of_ne_nil hne⟩
    obtain ⟨f, hf⟩ : ∃ f, rs.head? = some f := by
      cases rs with
      | nil => exact absurd rfl hne
      | cons f rs => exact ⟨f, rfl⟩
    obtain ⟨e1, e2, e3⟩ := ahead_ends p4 hf hl
    refine ⟨⟨⟨A, ⟨h1, Or.inl ⟨u, ur, hu, hm⟩⟩, h3⟩, ⟨?_, ?_⟩, f, l, hf, hl, e3, ?_⟩, f, hf, e1⟩
    · intro u' hu' s hs
      have hu'' : b.direction = some u' := hu'
      rw [hu] at hu''
      cases hu''
      exact p1 s hs
    · intro hn
      have hn' : b.direction = none := hn
      rw [hu] at hn'
      cases hn'
    · intro hroom
      have he := eps_pos
      have he' := eps_lt
      have hsp : dspan b.ends = 3 * b.stateB.speed.r / b.stateB.pAcc.r +
          2 * moveLength A.position.real b.stateB.position.real / b.stateB.speed.r := by
        unfold dspan Block.ends span
        have : b.stateB.real.pause = none := by
          show b.stateB.pause.map Dbl.r = none
          rw [h3 (by rw [hu]; simp)]
          rfl
        simp only [h1, Option.map_some, this]
        rfl
      have hroom' : Roomy (b.ends :: hist) := hroom
      have hb1 := hroom'.1
      rw [budget_cons] at hb1
      have hv6 := (hroom'.2 _ List.mem_cons_self).1
      have hh := hroom'.tail
      have hh0 := hh.nonneg
      have hprev := ht hh
      have hs := p5 hv6
      have hk1 : 0 ≤ b.stateB.speed.r / b.stateB.pAcc.r := div_nonneg hm.speed.le hm.acc.le
      have hk2 : 0 ≤ moveLength A.position.real b.stateB.position.real / b.stateB.speed.r :=
        div_nonneg ((by norm_num : (0 : ℝ) ≤ 1e-6).trans hm.length) hm.speed.le
      rw [mul_div_assoc, mul_div_assoc] at hs hsp
      have hsum : (ds.map fun x => max x.r 0).sum ≤ dspan b.ends := by linarith
      have hl3 : (ds.length : ℝ) ≤ 3 := by exact_mod_cast p3
      have hd0 : 0 ≤ dspan b.ends := (hroom'.2 _ List.mem_cons_self).2
      have htk := ticks_le ds prev.tEnd t' 1000000 p2 p3 (by linarith) le_rfl
      have hsm : (ds.length : ℝ) * (3 * eps * 1000000) ≤ 1e-8 := by nlinarith
      have hmid := ahead_le e3
      obtain ⟨q1, q2⟩ := abs_le.1 hprev
      show |f.tBegin.r| ≤ budget (b.ends :: hist) ∧ |l.tEnd.r| ≤ budget (b.ends :: hist) ∧
        l.tEnd.r - f.tBegin.r ≤ dspan b.ends + 1e-8
      rw [budget_cons]
      refine ⟨?_, ?_, ?_⟩
      · rw [abs_le]
        constructor <;> linarith
      · rw [abs_le]
        constructor <;> linarith
      · linarith
  unfold moveMaker at h
  rcases h2 with ⟨u, ur, hu, hm⟩ | ⟨hd, _⟩
  · simp only [h1, hu, bind, Except.bind] at h
    cases pb with
    | none =>
      simp only at h
      split at h
      · cases h
      · rename_i r hr
        cases h
        obtain ⟨g1, _⟩ := core _ u ur r hu hm (by
          intro hh
          have := hh.nonneg
          simpa [Segment.initial, Dbl.r_zero] using this) hr hne
        exact ⟨by simpa [h1, hu] using g1, by simp⟩
    | some c =>
      obtain ⟨l, l1, l2⟩ := hpb c rfl
      simp only [l1] at h
      split at h
      · cases h
      · rename_i r hr
        cases h
        obtain ⟨g1, f, g2, g3⟩ := core _ u ur r hu hm l2 hr hne
        refine ⟨by simpa [h1, hu] using g1, ?_⟩
        rintro _ ⟨⟩
        refine ⟨l, f, ?_, g2, g3⟩
        unfold Block.lastSeg at l1
        split at l1
        · rename_i hh
          cases l1
          exact hh
        · cases l1
  · simp only [h1, hd] at h
    cases h

theorem Kept.last {hist : List (Option (PState Dbl) × PState Dbl)} {b : Block Dbl} (h : Kept hist b) :
    ∃ l, b.lastSeg = .ok l ∧ (Roomy (b.ends :: hist) → |l.tEnd.r| ≤ budget (b.ends :: hist)) := by
  obtain ⟨_, _, f, l, _, h2, _, h4⟩ := h
  exact ⟨l, by unfold Block.lastSeg; rw [h2], h4⟩

theorem New.kept {hist : List (Option (PState Dbl) × PState Dbl)} {b : Block Dbl} (h : New hist b) : Kept hist b := by
  obtain ⟨h1, h2, f, l, h3, h4, h5, h6⟩ := h
  exact ⟨h1, h2, f, l, h3, h4, h5, fun hr => (h6 hr).2.1⟩

/-- The rule for speeds and times. -/
theorem time_rule : PlanRule New Kept Next where
  kept := fun _ _ h => h.kept
  again := by
    intro hist b pb v b' hb h0 hpb h hne
    obtain ⟨g1, g2⟩ := moveMaker_new (hist := hist) hb.1 (dbl_norm3_nonneg v) (by
      intro p hp
      obtain ⟨h, rfl, hk⟩ := hpb p hp
      exact hk.last) h hne
    refine ⟨g1, ?_⟩
    intro p hp _
    obtain ⟨l, f, g3, g4, g5⟩ := g2 p hp
    exact ⟨l, f, g3, g4, by linarith⟩
  shifted := by
    intro hist p b l f hp hb hl hf
    obtain ⟨l', k1, k2⟩ := hp.last
    rw [hl] at k1
    cases k1
    obtain ⟨⟨A, hA, hA'⟩, ⟨s1, s2⟩, f', m, h3, h4, h5, h6⟩ := hb
    have hf' : f' = f := by
      unfold Block.firstSeg at hf
      rw [h3] at hf
      cases hf
      rfl
    subst hf'
    set d := l.tEnd - f'.tBegin with hd
    have hhead : (b.timeshift d).segments.head? = some (f'.shift d) := by
      show (b.segments.map _).head? = _
      rw [List.head?_map, h3]
      rfl
    have hlast : (b.timeshift d).segments.getLast? = some (m.shift d) := by
      show (b.segments.map _).getLast? = _
      rw [List.getLast?_map, h4]
      rfl
    have key : Roomy (b.ends :: p.ends :: hist) → |(m.tEnd + d).r| ≤ budget (b.ends :: p.ends :: hist) ∧
        l.tEnd.r - 1e-9 ≤ (f'.tBegin + d).r := by
      intro hroom
      obtain ⟨q1, q2, q3⟩ := h6 hroom
      have q4 := k2 hroom.tail
      have he := eps_pos
      have he' := eps_lt
      have hB := hroom.1
      have hd0 : 0 ≤ dspan b.ends := (hroom.2 _ List.mem_cons_self).2
      have hp0 := hroom.tail.nonneg
      have hmid := ahead_le h5
      have e1 := (Dbl.r_sub l.tEnd f'.tBegin).abs_sub (by norm_num)
      have e2 := (Dbl.r_add m.tEnd d).abs_sub (by norm_num)
      have e3 := (Dbl.r_add f'.tBegin d).abs_sub (by norm_num)
      rw [← hd] at e1
      push_cast at e1 e2 e3
      rw [budget_cons] at q1 q2 hB ⊢
      have b1 : |l.tEnd.r - f'.tBegin.r| ≤ 1000000 := by
        refine (abs_sub _ _).trans ?_
        linarith
      have b1' : eps * |l.tEnd.r - f'.tBegin.r| ≤ eps * 1000000 := by gcongr
      have b2 : |d.r| ≤ 1000001 := by
        have := abs_add_le (d.r - (l.tEnd.r - f'.tBegin.r)) (l.tEnd.r - f'.tBegin.r)
        rw [sub_add_cancel] at this
        linarith
      have b3 : |m.tEnd.r + d.r| ≤ 2000000 := (abs_add_le _ _).trans (by linarith)
      have b4 : |f'.tBegin.r + d.r| ≤ 2000000 := (abs_add_le _ _).trans (by linarith)
      have b3' : eps * |m.tEnd.r + d.r| ≤ eps * 2000000 := by gcongr
      have b4' : eps * |f'.tBegin.r + d.r| ≤ eps * 2000000 := by gcongr
      obtain ⟨x1, x2⟩ := abs_le.1 e1
      obtain ⟨y1, y2⟩ := abs_le.1 e2
      obtain ⟨z1, z2⟩ := abs_le.1 e3
      obtain ⟨w1, w2⟩ := abs_le.1 q4
      refine ⟨?_, by linarith⟩
      rw [abs_le]
      constructor <;> linarith
    refine ⟨⟨⟨A, hA, hA'⟩, ⟨?_, ?_⟩, _, _, hhead, hlast, ahead_shift d h5, fun hroom => (key hroom).1⟩, ?_⟩
    · intro u hu s hs
      obtain ⟨s', hs', rfl⟩ := List.mem_map.1 hs
      exact s1 u hu s' hs'
    · intro hn s hs
      obtain ⟨s', hs', rfl⟩ := List.mem_map.1 hs
      exact s2 hn s' hs'
    · intro hroom
      refine ⟨l, _, ?_, hhead, (key hroom).2⟩
      unfold Block.lastSeg at hl
      split at hl
      · rename_i hh
        cases hl
        exact hh
      · cases hl

/-- New blocks of a usual program. -/
theorem mkBlock_new {fw : Firmware} {states : List (PState Dbl)} (hreg : Regular (states.map PState.real))
    (hus : Usual (states.map PState.real)) {done rest : List (PState Dbl)} {s : PState Dbl}
    {hist : List (Option (PState Dbl) × PState Dbl)} {pb : Option (Block Dbl)} {b : Block Dbl}
    (hst : states = done ++ s :: rest) (h0 : pb = none → hist = [])
    (hpb : ∀ p ∈ pb, ∃ h, hist = p.ends :: h ∧ New h p) (h : mkBlock fw done.getLast? s rest pb = .ok b)
    (hne : b.segments ≠ []) : New hist b := by
  have hmem : s ∈ states := by rw [hst]; simp
  have hmem' : s.real ∈ states.map PState.real := List.mem_map_of_mem hmem
  have hlast : ∀ p ∈ pb, ∃ l, p.lastSeg = .ok l ∧ (Roomy hist → |l.tEnd.r| ≤ budget hist) := by
    intro p hp
    obtain ⟨h, rfl, hk⟩ := hpb p hp
    exact hk.kept.last
  by_cases hp : s.pause = none
  · unfold mkBlock at h
    simp only [hp, bind, Except.bind] at h
    by_cases hz : (targetVel done.getLast? s).notZero = true
    · simp only [hz, if_true] at h
      cases hA : done.getLast? with
      | none =>
        rw [hA] at hz
        simp only [targetVel, dbl_zero_still] at hz
        cases hz
      | some A =>
        rw [hA] at hz h
        simp only [targetVel] at hz h
        have hpos : s.position.real ≠ A.position.real := by
          intro heq
          rw [move_nowhere_dbl heq] at hz
          cases hz
        obtain ⟨pre, hpre⟩ := List.getLast?_eq_some_iff.1 hA
        have hAmem : A ∈ states := by
          rw [hst]
          exact List.mem_append_left _ (List.mem_of_getLast? hA)
        have hsplit : states.map PState.real = pre.map PState.real ++ A.real :: s.real :: rest.map PState.real := by
          rw [hst, hpre]; simp
        obtain ⟨u, ur, u1, u2, u3, _, u5, u6, u7⟩ := move_direction_dbl hpos (hreg.speed _ hmem')
        have hm : UsualMove A s u ur := ⟨u2, u3, u5, u6, hreg.speed _ hmem', hreg.acc _ hmem', hus.ramp _ hmem',
          hus.length _ _ _ _ hsplit hpos, hus.flow _ _ _ _ hsplit hpos, hus.coord _ (List.mem_map_of_mem hAmem),
          hus.coord _ hmem'⟩
        split at h
        · cases h
        · rename_i b1 hb1
          cases h
          obtain ⟨g1, _⟩ := moveMaker_new (hist := hist) ⟨A, ⟨rfl, Or.inl ⟨u, ur, u1, hm⟩⟩, fun _ => hp⟩
            (junction_nonneg_dbl fw (some A) rest hm.speed.le (hreg.jerk _ hmem')) hlast hb1 hne
          exact g1
    · simp only [hz, if_false] at h
      cases h
      exact absurd rfl hne
  · have hp' : s.real.pause ≠ none := by simpa [PState.real] using hp
    have hst2 : states.map PState.real = done.map PState.real ++ s.real :: rest.map PState.real := by
      rw [hst]; simp
    obtain ⟨A', hA', heq⟩ := hreg.stays _ _ _ hst2 hp'
    rw [List.getLast?_map] at hA'
    obtain ⟨A, hA, rfl⟩ := Option.map_eq_some_iff.1 hA'
    obtain ⟨p, hpp⟩ := Option.ne_none_iff_exists'.1 hp
    unfold mkBlock at h
    have hn : (connectState A s).normDir4 = none := normDir4_still (connect_rel A s) (connectState_self heq)
    simp only [hA, targetVel, move_nowhere_dbl heq, Bool.false_eq_true, if_false, hpp, bind, Except.bind] at h
    cases pb with
    | none => cases h
    | some c =>
      obtain ⟨l, l1, l2⟩ := hlast c rfl
      simp only [dwellSegment, l1, bind, Except.bind] at h
      split at h
      · cases h
      · rename_i sg hs
        cases h
        have hs' := make_dbl hs
        obtain ⟨t1, _⟩ := make_times hs
        refine ⟨⟨A, ⟨rfl, Or.inr ⟨hn, heq⟩⟩, fun hd => absurd hn hd⟩, ⟨?_, ?_⟩, sg, sg, rfl, rfl, ?_, ?_⟩
        · intro u hu
          have : (connectState A s).normDir4 = some u := hu
          rw [hn] at this
          cases this
        · intro _ x hx
          rw [List.mem_singleton.1 hx, hs']
          exact ⟨rfl, rfl⟩
        · rw [hs']
          exact ⟨le_rfl, t1, le_rfl⟩
        · intro hroom
          have hroom' : Roomy ((some A, s) :: hist) := hroom
          have hsp : dspan (some A, s) = p.r := by
            unfold dspan span
            have : s.real.pause = some p.r := by
              show s.pause.map Dbl.r = _
              rw [hpp]
              rfl
            simp only [Option.map_some, this]
          have hb1 := hroom'.1
          have hq := l2 hroom'.tail
          have hh0 := hroom'.tail.nonneg
          have hd0 := (hroom'.2 _ List.mem_cons_self).2
          have he := eps_pos
          have he' := eps_lt
          have htk := tick_le t1 hq (le_refl p.r) (hsp ▸ hd0)
          show |sg.tBegin.r| ≤ budget ((some A, s) :: hist) ∧ |sg.tEnd.r| ≤ budget ((some A, s) :: hist) ∧
            sg.tEnd.r - sg.tBegin.r ≤ dspan (some A, s) + 1e-8
          rw [budget_cons] at hb1 ⊢
          rw [hs']
          simp only
          rw [hsp] at hb1 hd0 ⊢
          have hsm : eps * (budget hist + p.r) ≤ eps * 450000 := by
            apply mul_le_mul_of_nonneg_left _ he.le
            linarith
          obtain ⟨q1, q2⟩ := abs_le.1 hq
          refine ⟨?_, ?_, ?_⟩
          · rw [abs_le]
            constructor <;> linarith
          · rw [abs_le]
            constructor <;> linarith
          · linarith

/-- Speeds and times of the plan of a usual program. -/
theorem plan_times {fw : Firmware} {states : List (PState Dbl)} (hreg : Regular (states.map PState.real))
    (hus : Usual (states.map PState.real)) {bs : List (Block Dbl)} (h : plan fw states = .ok bs) :
    (∀ n b, bs[n]? = some b → Kept (((bs.take n).map Block.ends).reverse) b) ∧
      ∀ n b c, bs[n]? = some b → bs[n + 1]? = some c → Next (((bs.take n).map Block.ends).reverse) b c :=
  time_rule.plan (fun _ _ _ _ _ _ hst h0 hpb hb hne => mkBlock_new hreg hus hst h0 hpb hb hne) h

end PyGCD
