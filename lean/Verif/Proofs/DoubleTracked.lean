import Verif.Proofs.DoubleTrack

/-!
# The segments of all blocks of a program in double precision
-/

set_option linter.unusedSectionVars false
set_option linter.unusedSimpArgs false

namespace PyGCD
open PyGCD.Spec Vec4

/-- The segments of a move are laid along pieces from its begin, with time errors `τ`. -/
def Tracked (τ : Segment Dbl → ℝ) (b : Block Dbl) : Prop :=
  ∀ A u, b.stateA = some A → b.direction = some u → ∃ f Ls, b.segments.head? = some f ∧
    Pieces (moveLength A.position.real b.stateB.position.real) (b.stateB.speed.r * b.stateB.speed.r / b.stateB.pAcc.r) Ls ∧
    Ls.length ≤ 3 ∧ (∀ L ∈ Ls, -(1.2e-8 + 10 * eps * moveLength A.position.real b.stateB.position.real +
      40 * eps * (b.stateB.speed.r * b.stateB.speed.r / b.stateB.pAcc.r)) ≤ L.r) ∧
    ∀ s ∈ b.segments, Laid b.stateB.speed.r b.stateB.pAcc.r u f.posBegin Ls s (τ s)

theorem Laid.mono {F a : ℝ} {u P : Vec4 Dbl} {Ls : List Dbl} {s : Segment Dbl} {τ τ' : ℝ} (h : Laid F a u P Ls s τ)
    (hτ : τ ≤ τ') : Laid F a u P Ls s τ' := by
  obtain ⟨pre, L, post, v, w, h1, h2, h3, h4, h5, h6, h7⟩ := h
  refine ⟨pre, L, post, v, w, h1, h2, h3, h4, h5, h6, ?_⟩
  unfold WayAgrees at h7 ⊢
  have : (v.r + w.r) / 2 * τ ≤ (v.r + w.r) / 2 * τ' :=
    mul_le_mul_of_nonneg_left hτ (div_nonneg (add_nonneg h5.1 h6.1) zero_le_two)
  linarith

theorem Laid.shift {F a : ℝ} {u P : Vec4 Dbl} {Ls : List Dbl} {s : Segment Dbl} {τ : ℝ} (h : Laid F a u P Ls s τ)
    (d : Dbl) : Laid F a u P Ls (s.shift d) (τ + 2 * eps * |(s.tEnd + d).r| + 2 * eps * |(s.tBegin + d).r|) := by
  obtain ⟨pre, L, post, v, w, h1, h2, h3, h4, h5, h6, h7⟩ := h
  refine ⟨pre, L, post, v, w, h1, h2, h3, h4, h5, h6, ?_⟩
  unfold WayAgrees at h7 ⊢
  have hv : 0 ≤ (v.r + w.r) / 2 := div_nonneg (add_nonneg h5.1 h6.1) zero_le_two
  have e1 := (Dbl.r_add s.tEnd d).symm.abs_sub (by norm_num)
  have e2 := (Dbl.r_add s.tBegin d).symm.abs_sub (by norm_num)
  push_cast at e1 e2
  show |(v.r + w.r) / 2 * ((s.tEnd + d).r - (s.tBegin + d).r) - L.r| ≤ _
  have e3 : |(v.r + w.r) / 2 * ((s.tEnd + d).r - (s.tBegin + d).r) - (v.r + w.r) / 2 * (s.tEnd.r - s.tBegin.r)| ≤
      (v.r + w.r) / 2 * (2 * eps * |(s.tEnd + d).r| + 2 * eps * |(s.tBegin + d).r|) := by
    rw [← mul_sub, abs_mul, abs_of_nonneg hv]
    gcongr
    rw [show (s.tEnd + d).r - (s.tBegin + d).r - (s.tEnd.r - s.tBegin.r) =
      (s.tBegin.r + d.r - (s.tBegin + d).r) - (s.tEnd.r + d.r - (s.tEnd + d).r) by ring]
    refine (abs_sub _ _).trans ?_
    linarith
  have := err_add e3 h7
  linarith

/-- A planned move is tracked. -/
theorem moveMaker_laid {b b' : Block Dbl} {pb : Option (Block Dbl)} {v : Dbl} (hb : Sound b) (hv : 0 ≤ v.r)
    (h : moveMaker b pb v = .ok b') (hne : b'.segments ≠ []) : Tracked (fun s => 2 * eps * |s.tEnd.r|) b' := by
  obtain ⟨A, ⟨h1, h2⟩, h3⟩ := hb
  have core : ∀ (prev : Segment Dbl) (u : Vec4 Dbl) (ur : Vec4 ℝ) (r : List (Segment Dbl) × BlockType),
      b.direction = some u → UsualMove A b.stateB u ur →
      planMove prev u b.stateB (moveDistance A b.stateB).1 (moveDistance A b.stateB).2 v = .ok r → r.1 ≠ [] →
      Tracked (fun s => 2 * eps * |s.tEnd.r|) { b with segments := r.1, blocktype := some r.2 } := by
    intro prev u ur r hu hm hr hne A' u' hA' hu'
    have hu'' : b.direction = some u' := hu'
    rw [hu] at hu''
    cases hu''
    have hA'' : b.stateA = some A' := hA'
    rw [h1] at hA''
    cases hA''
    have hlen : LenHyp b.stateB.pAcc b.stateB.speed
        (if prev.velEnd.norm3 < b.stateB.speed then prev.velEnd.norm3 else b.stateB.speed) v
        (moveDistance A b.stateB).1 (moveLength A.position.real b.stateB.position.real)
        (b.stateB.speed.r * b.stateB.speed.r / b.stateB.pAcc.r) := by
      refine ⟨hm.acc, ?_, ?_, hv, hm.dist, hm.length, le_rfl, hm.ramp⟩
      · split
        · exact dbl_norm3_nonneg _
        · exact hm.speed.le
      · split
        · rename_i hlt
          exact ((Dbl.lt_iff _ _).1 hlt).le
        · exact le_rfl
    obtain ⟨Ls, p1, p2, p3, p4⟩ := planMove_track hr hlen hm.hu hm.hd hm.speed
    obtain ⟨Ls', _, _, l3⟩ := planMove_leads hr hlen
    obtain ⟨rs, rt⟩ := r
    simp only at p4 l3 hne ⊢
    cases rs with
    | nil => exact absurd rfl hne
    | cons f rs =>
      refine ⟨f, Ls, rfl, p1, p2, p3, ?_⟩
      rw [l3.1]
      exact p4
  unfold moveMaker at h
  rcases h2 with ⟨u, ur, hu, hm⟩ | ⟨hd, _⟩
  · simp only [h1, hu, bind, Except.bind] at h
    cases pb with
    | none =>
      simp only at h
      split at h
      · cases h
      · rename_i r hr
        cases h
        simpa [h1, hu] using core _ u ur r hu hm hr hne
    | some c =>
      simp only at h
      split at h
      · cases h
      · split at h
        · cases h
        · rename_i r hr
          cases h
          simpa [h1, hu] using core _ u ur r hu hm hr hne
  · simp only [h1, hd] at h
    cases h

theorem ahead_mem : ∀ {ss : List (Segment Dbl)} {t t' : Dbl}, Ahead t ss t' → ∀ s ∈ ss,
    t.r ≤ s.tBegin.r ∧ s.tBegin.r ≤ s.tEnd.r ∧ s.tEnd.r ≤ t'.r
  | [], _, _, _, _, hs => by cases hs
  | a :: ss, t, t', h, s, hs => by
    rcases List.mem_cons.1 hs with rfl | hs
    · exact ⟨h.1, h.2.1, ahead_le h.2.2⟩
    · obtain ⟨h1, h2, h3⟩ := ahead_mem h.2.2 s hs
      exact ⟨h.1.trans (h.2.1.trans h1), h2, h3⟩

/-- A block without a direction has a single segment. -/
def Lone (b : Block Dbl) : Prop := b.direction = none → ∃ s, b.segments = [s]

theorem moveMaker_lone {b b' : Block Dbl} {pb : Option (Block Dbl)} {v : Dbl} (hb : Sound b)
    (h : moveMaker b pb v = .ok b') : Lone b' := by
  obtain ⟨A, ⟨h1, h2⟩, h3⟩ := hb
  unfold moveMaker at h
  rcases h2 with ⟨u, ur, hu, hm⟩ | ⟨hd, _⟩
  · simp only [h1, hu, bind, Except.bind] at h
    intro hn
    cases pb with
    | none =>
      simp only at h
      split at h
      · cases h
      · cases h
        cases hn
    | some c =>
      simp only at h
      split at h
      · cases h
      · split at h
        · cases h
        · cases h
          cases hn
  · simp only [h1, hd] at h
    cases h

/-- New blocks, with their tracks. -/
def NewTrack (hist : List (Option (PState Dbl) × PState Dbl)) (b : Block Dbl) : Prop :=
  (New hist b ∧ Lone b) ∧ Tracked (fun s => 2 * eps * |s.tEnd.r|) b

/-- Blocks with their tracks. -/
def KeptTrack (hist : List (Option (PState Dbl) × PState Dbl)) (b : Block Dbl) : Prop :=
  (Kept hist b ∧ Lone b) ∧ (Roomy (b.ends :: hist) → Tracked (fun _ => 1e-9) b)

theorem Tracked.mono {τ τ' : Segment Dbl → ℝ} {b : Block Dbl} (h : Tracked τ b) (hτ : ∀ s ∈ b.segments, τ s ≤ τ' s) :
    Tracked τ' b := by
  intro A u hA hu
  obtain ⟨f, Ls, h1, h2, h3, h4, h5⟩ := h A u hA hu
  exact ⟨f, Ls, h1, h2, h3, h4, fun s hs => (h5 s hs).mono (hτ s hs)⟩

theorem abs_between {x a b M : ℝ} (ha : |a| ≤ M) (hb : |b| ≤ M) (h1 : a ≤ x) (h2 : x ≤ b) : |x| ≤ M := by
  rw [abs_le] at ha hb ⊢
  constructor <;> linarith

theorem track_rule : PlanRule NewTrack KeptTrack Next where
  kept := by
    intro hist b h
    refine ⟨⟨h.1.1.kept, h.1.2⟩, fun hroom => ?_⟩
    obtain ⟨_, _, f, l, _, _, h5, h6⟩ := h.1.1
    obtain ⟨q1, q2, _⟩ := h6 hroom
    have he := eps_pos
    have he' := eps_lt
    refine h.2.mono ?_
    intro s hs
    obtain ⟨a1, a2, a3⟩ := ahead_mem h5 s hs
    have h7 := abs_between q1 q2 (a1.trans a2) a3
    have h8 := hroom.1
    have : eps * |s.tEnd.r| ≤ eps * 450000 := by gcongr; linarith
    linarith
  again := by
    intro hist b pb v b' hb h0 hpb h hne
    obtain ⟨g1, g2⟩ := time_rule.again hist b pb v b' hb.1.1 h0 (by
      intro p hp
      obtain ⟨h, e, hk⟩ := hpb p hp
      exact ⟨h, e, hk.1.1⟩) h hne
    exact ⟨⟨⟨g1, moveMaker_lone hb.1.1.1 h⟩, moveMaker_laid hb.1.1.1 (dbl_norm3_nonneg v) h hne⟩, g2⟩
  shifted := by
    intro hist p b l f hp hb hl hf
    obtain ⟨s1, s2⟩ := time_rule.shifted hist p b l f hp.1.1 hb.1.1 hl hf
    have hlone : Lone (b.timeshift (l.tEnd - f.tBegin)) := by
      intro hn
      obtain ⟨s, hs⟩ := hb.1.2 hn
      refine ⟨s.shift (l.tEnd - f.tBegin), ?_⟩
      show b.segments.map _ = _
      rw [hs]
      rfl
    refine ⟨⟨⟨s1, hlone⟩, fun hroom => ?_⟩, s2⟩
    clear hlone
    have he := eps_pos
    have he' := eps_lt
    generalize hd : l.tEnd - f.tBegin = d at s1 s2 hroom ⊢
    have hroom' : Roomy (b.ends :: p.ends :: hist) := hroom
    obtain ⟨_, _, f1, l1, k1, k2, k3, k4⟩ := hb.1.1
    obtain ⟨q1, q2, _⟩ := k4 hroom'
    obtain ⟨_, _, f2, l2, m1, m2, m3, m4⟩ := s1
    have q3 := m4 hroom
    obtain ⟨l3, f3, n1, n2, n3⟩ := s2 hroom'
    rw [m1] at n2
    cases n2
    obtain ⟨l4, j1, j2⟩ := hp.1.1.last
    have hl34 : l4 = l3 := by
      unfold Block.lastSeg at j1
      rw [n1] at j1
      cases j1
      rfl
    subst hl34
    have q4 := j2 hroom'.tail
    have hB := hroom'.1
    have hB' := hroom'.tail.1
    have hB0 : budget ((b.timeshift d).ends :: p.ends :: hist) = budget (b.ends :: p.ends :: hist) := rfl
    rw [hB0] at q3
    intro A u hA hu
    obtain ⟨g, Ls, t1, t2, t3, t4, t5⟩ := hb.2 A u hA hu
    refine ⟨g.shift d, Ls, ?_, t2, t3, t4, ?_⟩
    · show (b.segments.map _).head? = _
      rw [List.head?_map, t1]
      rfl
    · intro s hs
      have hs0 := ahead_mem m3 s hs
      obtain ⟨s', hs', rfl⟩ := List.mem_map.1 hs
      refine ((t5 s' hs').shift d).mono ?_
      obtain ⟨a1, a2, a3⟩ := ahead_mem k3 s' hs'
      obtain ⟨b1, b2, b3⟩ := hs0
      have e1 : |s'.tEnd.r| ≤ 450000 := abs_between (q1.trans hB) (q2.trans hB) (a1.trans a2) a3
      have lo : -450001 ≤ f2.tBegin.r := by
        have := (abs_le.1 (q4.trans hB')).1
        linarith
      have hi := (abs_le.1 (q3.trans hB)).2
      have e2 : |(s'.tEnd + d).r| ≤ 450001 := by
        rw [abs_le]
        have b1' : f2.tBegin.r ≤ (s'.tBegin + d).r := b1
        have b2' : (s'.tBegin + d).r ≤ (s'.tEnd + d).r := b2
        have b3' : (s'.tEnd + d).r ≤ l2.tEnd.r := b3
        constructor <;> linarith
      have e3 : |(s'.tBegin + d).r| ≤ 450001 := by
        rw [abs_le]
        have b1' : f2.tBegin.r ≤ (s'.tBegin + d).r := b1
        have b2' : (s'.tBegin + d).r ≤ (s'.tEnd + d).r := b2
        have b3' : (s'.tEnd + d).r ≤ l2.tEnd.r := b3
        constructor <;> linarith
      have e1' : eps * |s'.tEnd.r| ≤ eps * 450000 := by gcongr
      have e2' : eps * |(s'.tEnd + d).r| ≤ eps * 450001 := by gcongr
      have e3' : eps * |(s'.tBegin + d).r| ≤ eps * 450001 := by gcongr
      linarith

/-- New blocks of a usual program. -/
theorem mkBlock_newTrack {fw : Firmware} {states : List (PState Dbl)} (hreg : Regular (states.map PState.real))
    (hus : Usual (states.map PState.real)) {done rest : List (PState Dbl)} {s : PState Dbl}
    {hist : List (Option (PState Dbl) × PState Dbl)} {pb : Option (Block Dbl)} {b : Block Dbl}
    (hst : states = done ++ s :: rest) (h0 : pb = none → hist = [])
    (hpb : ∀ p ∈ pb, ∃ h, hist = p.ends :: h ∧ NewTrack h p) (h : mkBlock fw done.getLast? s rest pb = .ok b)
    (hne : b.segments ≠ []) : NewTrack hist b := by
  have hnew := mkBlock_new hreg hus hst h0 (fun p hp => by
    obtain ⟨h, e, hk⟩ := hpb p hp
    exact ⟨h, e, hk.1.1⟩) h hne
  suffices hs : Lone b ∧ Tracked (fun s => 2 * eps * |s.tEnd.r|) b from ⟨⟨hnew, hs.1⟩, hs.2⟩
  clear hnew
  have hmem : s ∈ states := by rw [hst]; simp
  have hmem' : s.real ∈ states.map PState.real := List.mem_map_of_mem hmem
  by_cases hp : s.pause = none
  · unfold mkBlock at h
    simp only [hp, bind, Except.bind] at h
    by_cases hz : (targetVel done.getLast? s).notZero = true
    · simp only [hz, if_true] at h
      cases hA : done.getLast? with
      | none =>
        rw [hA] at hz
        simp only [targetVel, dbl_zero_still] at hz
        cases hz
      | some A =>
        rw [hA] at hz h
        simp only [targetVel] at hz h
        have hpos : s.position.real ≠ A.position.real := by
          intro heq
          rw [move_nowhere_dbl heq] at hz
          cases hz
        obtain ⟨pre, hpre⟩ := List.getLast?_eq_some_iff.1 hA
        have hAmem : A ∈ states := by
          rw [hst]
          exact List.mem_append_left _ (List.mem_of_getLast? hA)
        have hsplit : states.map PState.real = pre.map PState.real ++ A.real :: s.real :: rest.map PState.real := by
          rw [hst, hpre]; simp
        obtain ⟨u, ur, u1, u2, u3, _, u5, u6, u7⟩ := move_direction_dbl hpos (hreg.speed _ hmem')
        have hm : UsualMove A s u ur := ⟨u2, u3, u5, u6, hreg.speed _ hmem', hreg.acc _ hmem', hus.ramp _ hmem',
          hus.length _ _ _ _ hsplit hpos, hus.flow _ _ _ _ hsplit hpos, hus.coord _ (List.mem_map_of_mem hAmem),
          hus.coord _ hmem'⟩
        split at h
        · cases h
        · rename_i b1 hb1
          cases h
          have hT := moveMaker_laid ⟨A, ⟨rfl, Or.inl ⟨u, ur, u1, hm⟩⟩, fun _ => hp⟩
            (junction_nonneg_dbl fw (some A) rest hm.speed.le (hreg.jerk _ hmem')) hb1 hne
          have hL := moveMaker_lone ⟨A, ⟨rfl, Or.inl ⟨u, ur, u1, hm⟩⟩, fun _ => hp⟩ hb1
          exact ⟨hL, hT⟩
    · simp only [hz, if_false] at h
      cases h
      exact absurd rfl hne
  · have hp' : s.real.pause ≠ none := by simpa [PState.real] using hp
    have hst2 : states.map PState.real = done.map PState.real ++ s.real :: rest.map PState.real := by
      rw [hst]; simp
    obtain ⟨A', hA', heq⟩ := hreg.stays _ _ _ hst2 hp'
    rw [List.getLast?_map] at hA'
    obtain ⟨A, hA, rfl⟩ := Option.map_eq_some_iff.1 hA'
    obtain ⟨p, hpp⟩ := Option.ne_none_iff_exists'.1 hp
    unfold mkBlock at h
    have hn : (connectState A s).normDir4 = none := normDir4_still (connect_rel A s) (connectState_self heq)
    simp only [hA, targetVel, move_nowhere_dbl heq, Bool.false_eq_true, if_false, hpp, bind, Except.bind] at h
    split at h
    · cases h
    · cases h
      refine ⟨fun _ => ⟨_, rfl⟩, ?_⟩
      intro A' u' _ hu'
      have hu'' : (connectState A s).normDir4 = some u' := hu'
      rw [hn] at hu''
      cases hu''

/-- The tracks of the plan of a usual program. -/
theorem plan_laid {fw : Firmware} {states : List (PState Dbl)} (hreg : Regular (states.map PState.real))
    (hus : Usual (states.map PState.real)) {bs : List (Block Dbl)} (h : plan fw states = .ok bs) (n : ℕ) (b : Block Dbl)
    (hb : bs[n]? = some b) : KeptTrack (((bs.take n).map Block.ends).reverse) b :=
  (track_rule.plan (fun _ _ _ _ _ _ hst h0 hpb hb hne => mkBlock_newTrack hreg hus hst h0 hpb hb hne) h).1 n b hb

end PyGCD
