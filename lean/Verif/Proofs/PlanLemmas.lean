import Verif.Proofs.CorrectLemmas
import Verif.Spec.Programs
import Verif.Props.Junctions

/-!
# Planning a whole program
-/

set_option linter.unusedSectionVars false
set_option linter.unusedSimpArgs false

namespace PyGCD
open Vec4 Spec

/-! ## The correction of the whole list -/

theorem Link.timeshift {b c : Block ℝ} (hb : Good b) (d : ℝ) (h : Link b c) :
    Link (b.timeshift d) c :=
  ⟨h.1, by rw [(timeshift_views hb.ne_nil d).2.2.2]; exact h.2.1,
    by rw [(timeshift_views hb.ne_nil d).2.2.2]; exact h.2.2.1, h.2.2.2.imp (·.timeshift d) id⟩

theorem correctFrom_spec : ∀ (tl rp : List (Block ℝ)) (b : Block ℝ), Zip rp b →
    (∀ c ∈ tl, Good c) → (b :: tl).IsChain Link →
    ∃ out, correctFrom rp b tl = .ok out ∧ (∀ c ∈ out, Good c) ∧
      out.IsChain (fun x y => LinkT x y ∧ LinkO x y) ∧
      out.map Block.key = (rp.reverse ++ b :: tl).map Block.key ∧
      (∀ f ∈ out.head?, f.t0 = 0 ∧ f.nIn = 0 ∧ f.stateB.pause = none) ∧
      ∀ l ∈ out.getLast?, ∀ l' ∈ (b :: tl).getLast?, l.nOut = l'.nOut ∧ (l'.ExitR → l.ExitR) := by
  intro tl
  induction tl with
  | nil =>
    intro rp b hz _ _
    refine ⟨rp.reverse ++ [b], by simp [correctFrom, selfCorrection, bind, Except.bind], ?_, ?_, rfl, ?_, ?_⟩
    · intro c hc
      exact hz.good c (by simpa [or_comm] using hc)
    · have h := List.isChain_reverse.2 hz.chain
      rw [List.reverse_cons] at h
      exact h
    · intro f hf
      apply hz.first f
      rw [← List.reverse_cons, List.head?_reverse] at hf
      exact hf
    · intro l hl l' hl'
      simp only [List.getLast?_append, List.getLast?_singleton, Option.some_or, Option.mem_def,
        Option.some.injEq] at hl hl'
      rw [← hl, ← hl']
      exact ⟨rfl, id⟩
  | cons nx tl ih =>
    intro rp b hz hg hch
    obtain ⟨hl, hch'⟩ := List.isChain_cons_cons.1 hch
    have hnx := hg nx (by simp)
    obtain ⟨rp', b', δ, h1, h2, h3, h4⟩ := selfCorrection_spec rp b nx hz hnx hl
    have hz' : Zip (b' :: rp') (nx.timeshift δ) := h2.cons (hnx.timeshift δ) h3
    have hch'' : (nx.timeshift δ :: tl).IsChain Link := by
      cases tl with
      | nil => exact List.isChain_singleton _
      | cons y tl =>
        rw [List.isChain_cons_cons] at hch' ⊢
        exact ⟨hch'.1.timeshift hnx δ, hch'.2⟩
    obtain ⟨out, o1, o2, o3, o4, o5, o6⟩ := ih (b' :: rp') _ hz' (fun c hc => hg c (by simp [hc])) hch''
    refine ⟨out, ?_, o2, o3, ?_, o5, ?_⟩
    · simp only [correctFrom, h1, bind, Except.bind, Option.getD_some]
      exact o1
    · rw [o4, List.reverse_cons, List.append_assoc, List.map_append, List.map_append,
        List.map_reverse]
      rw [List.map_cons, List.map_cons] at h4
      injection h4 with h4 h5
      rw [h5, ← List.map_reverse]
      simp only [List.singleton_append, List.map_append, List.map_cons, List.map_nil, h4,
        Block.key_timeshift]
    · intro l hl l' hl'
      cases tl with
      | nil =>
        rw [List.getLast?_cons_cons, List.getLast?_singleton, Option.mem_def, Option.some.injEq] at hl'
        subst hl'
        obtain ⟨q1, q2⟩ := o6 l hl _ (by rw [List.getLast?_singleton]; rfl)
        exact ⟨q1.trans (timeshift_views hnx.ne_nil δ).2.2.2, fun h => q2 (h.timeshift δ)⟩
      | cons y tl => exact o6 l hl l' (by simpa using hl')

/-! ## Generating the blocks -/

theorem velNext_stop {B : PState ℝ} : ∀ {rest : List (PState ℝ)},
    (∀ x ∈ rest, x.position = B.position) → velNext B rest = Vec4.zero := by
  have key : ∀ rest : List (PState ℝ), (∀ x ∈ rest, x.position = B.position) →
      (nextTarget B rest).position = B.position := by
    intro rest
    induction rest with
    | nil => intro _; rfl
    | cons n rest ih =>
      intro h
      unfold nextTarget
      split
      · exact h n (by simp)
      · exact ih fun x hx => h x (by simp [hx])
  intro rest h
  exact connectState_self (key rest h)

theorem connectState_congr {A A' B : PState ℝ} (h : A.position = A'.position) :
    connectState A B = connectState A' B := by
  unfold connectState
  rw [h]

/-- An idle state in between does not change the next move. -/
theorem velNext_idle {A s : PState ℝ} (rest : List (PState ℝ)) (h : s.position = A.position) :
    velNext A (s :: rest) = velNext s rest := by
  have key : ∀ l : List (PState ℝ), l ≠ [] → nextTarget A l = nextTarget s l := by
    intro l
    induction l with
    | nil => intro h; exact absurd rfl h
    | cons n l ih =>
      intro _
      unfold nextTarget
      rw [h]
      split
      · rfl
      · rename_i hx
        apply ih
        rintro rfl
        exact hx (Or.inl rfl)
  unfold velNext
  rw [connectState_congr h.symm]
  congr 1
  rw [nextTarget]
  cases rest with
  | nil => simp [nextTarget]
  | cons n l =>
    rw [if_neg, key _ (by simp)]
    rw [h]
    simp [tDistance4, Vec4.sub_self, norm4_zero]

/-- The end speed that is planned for a block: zero when the next speed is. -/
theorem Shape.stop {a vT vb d : ℝ} {bt : BlockType} {s0 s1 : ℝ} (had : 0 < a * d)
    (h : Shape a vT vb 0 d bt s0 s1) : s1 = 0 := by
  cases h with
  | trapezoid => rfl
  | triangle => rfl
  | up h =>
    exfalso
    have := sq_nonneg vb
    nlinarith
  | down => rfl

theorem Shape.moving {a vT vb ve d : ℝ} {bt : BlockType} {s0 s1 : ℝ} (had : 0 < a * d) (hve : 0 < ve)
    (h : Shape a vT vb ve d bt s0 s1) : 0 < s1 := by
  cases h with
  | trapezoid => exact hve
  | triangle => exact hve
  | up h h0 h1 =>
    refine lt_of_le_of_ne h0.1 ?_
    rintro rfl
    have := sq_nonneg vb
    nlinarith
  | down => exact hve

theorem Shape.le_begin {a vT vb ve d : ℝ} {bt : BlockType} {s0 s1 : ℝ} 
    (h : Shape a vT vb ve d bt s0 s1) : s0 ≤ vb := by
  cases h with
  | trapezoid => exact le_refl _
  | triangle => exact le_refl _
  | up => exact le_refl _
  | down _ h => exact h.2

theorem Shape.exit {a vT vb ve d : ℝ} {bt : BlockType} {s0 s1 : ℝ}
    (h : Shape a vT vb ve d bt s0 s1) : s1 = ve ∨ s1 ^ 2 = s0 ^ 2 + 2 * a * d := by
  cases h with
  | trapezoid => exact Or.inl rfl
  | triangle => exact Or.inl rfl
  | up _ _ h => exact Or.inr h
  | down => exact Or.inl rfl

theorem Shape.exit_le {a vT vb ve d : ℝ} {bt : BlockType} {s0 s1 : ℝ}
    (h : Shape a vT vb ve d bt s0 s1) : s1 ≤ ve := by
  cases h with
  | trapezoid => exact le_refl _
  | triangle => exact le_refl _
  | up _ h => exact h.2
  | down => exact le_refl _

theorem Shape.entry {a vT vb ve d : ℝ} {bt : BlockType} {s0 s1 : ℝ}
    (h : Shape a vT vb ve d bt s0 s1) : s0 = vb ∨ s0 ^ 2 = s1 ^ 2 + 2 * a * d := by
  cases h with
  | trapezoid => exact Or.inl rfl
  | triangle => exact Or.inl rfl
  | up => exact Or.inl rfl
  | down _ _ h => exact Or.inr h

theorem UnitDir.norm3_le {u : Vec4 ℝ} {eo : Bool} (h : UnitDir u eo) : u.norm3 = 0 ∨ u.norm3 = 1 := by
  have := h.norms.1
  cases eo
  · right; simpa using this
  · left; simpa using this

/-- A block that begins and ends at rest. -/
def Block.AtRest (b : Block ℝ) : Prop :=
  (∃ A u, MoveB b A u 0 0) ∨ ∃ A p, DwellB b A p

theorem Block.AtRest.nOut {b : Block ℝ} (h : b.AtRest) : b.nOut = 0 := by
  rcases h with ⟨A, u, h⟩ | ⟨A, p, h⟩
  · obtain ⟨_, _, _, _, _, _, _, _, _, _, _, h10⟩ := h.ends
    rw [h10, MulZeroClass.mul_zero]
  · obtain ⟨t, ht⟩ := h.hseg
    simp [Block.nOut, ht, norm3_zero]

/-- The block of a move. -/
theorem mkBlock_move (fw : Firmware) {A B : PState ℝ} {rest : List (PState ℝ)}
    {pb : Option (Block ℝ)} (hne : B.position ≠ A.position) (hs : 0 < B.speed) (ha : 0 < B.pAcc)
    (hj : 0 ≤ B.jerk) (hp : B.pause = none)
    (hpb : ∀ b ∈ pb, Good b ∧ b.stateB.position = A.position ∧ b.ExitR) :
    ∃ b, mkBlock fw (some A) B rest pb = .ok b ∧ Good b ∧ b.stateA = some A ∧ b.stateB = B ∧
      (∀ c ∈ pb, Link c b ∧ b.t0 = c.t1) ∧ (pb = none → b.t0 = 0 ∧ b.nIn = 0) ∧
      (junctionVel fw (some A) B rest = 0 → b.nOut = 0) ∧
      (0 < junctionVel fw (some A) B rest → 0 < b.nOut) ∧ b.ExitR ∧
      (junctionVel fw (some A) B rest = 0 → (∀ c ∈ pb, c.nOut = 0) → b.AtRest) ∧
      ∃ u s0 s1, MoveB b A u s0 s1 ∧ b.jd = some (u.mul (junctionVel fw (some A) B rest)) := by
  obtain ⟨u, h1, h2, h3, h4, h5, h6, h7⟩ := move_direction hne hs
  have hjv := c17_junction_speed fw (some A) B rest hs.le hj
  have hprev : ∃ prev, (match pb with
      | some pb => pb.lastSeg
      | none => .ok (Segment.initial A.position)) = .ok prev ∧ prev.posEnd = A.position ∧
      (∀ c ∈ pb, prev.tEnd = c.t1 ∧ prev.velEnd.norm3 = c.nOut) ∧
      (pb = none → prev.tEnd = 0 ∧ prev.velEnd.norm3 = 0) := by
    cases pb with
    | none =>
      exact ⟨_, rfl, rfl, by simp, fun _ => ⟨rfl, norm3_zero⟩⟩
    | some c =>
      obtain ⟨hg, hc, _⟩ := hpb c rfl
      obtain ⟨A', s, s', _, _, e3, _, _, _, e7, e8, e9, _⟩ := hg.facts
      refine ⟨s', lastSeg_ok e3, by rw [e8, hc], ?_, by simp⟩
      intro c' hc'
      cases hc'
      exact ⟨e7, e9⟩
  obtain ⟨prev, p1, p2, p3, p4⟩ := hprev
  set b0 : Block ℝ :=
    { stateA := some A, stateB := B, direction := some u,
      isExtruding := false, jd := none, segments := [], blocktype := none } with hb0
  have hh : Hdr b0 A u := ⟨rfl, hne, hs, ha, rfl, h1⟩
  obtain ⟨segs, bt, s0, s1, m1, m2, mp, m3, m4⟩ := moveMaker_spec hh p1 p2 hjv
  have hmb : MoveB
    { stateA := some A, stateB := B, direction := some u,
      isExtruding := decide (A.position.e < B.position.e),
      jd := some (u.mul (junctionVel fw (some A) B rest)),
      segments := segs, blocktype := some bt } A u s0 s1 :=
    ⟨⟨rfl, hne, hs, ha, rfl, h1⟩, hp, rfl, m4 _ rfl, mp, _, rfl, m2.exit_le⟩
  obtain ⟨_, _, _, _, _, _, _, _, _, _, e9, e10⟩ := hmb.ends
  have hun := UnitDir.norm3_le h2
  have hle := m2.le_begin
  have hs0 := hmb.facts.1
  refine ⟨_, ?_, Or.inl ⟨_, _, _, _, hmb⟩, rfl, rfl, ?_, ?_, ?_, ?_, Or.inr ⟨_, _, _, _, hmb,
    m2.exit.imp (fun e => by rw [e]) id⟩, ?_, u, s0, s1, hmb, rfl⟩
  · have hext : A.position.isExtrudingTo B.position = decide (A.position.e < B.position.e) := by
      simp only [isExtrudingTo, if_true]
      congr 1
      simp [sub_pos]
    unfold mkBlock
    simp only [targetVel, h5, if_true, h1, ← hb0, m1, bind, Except.bind, hp, hext]
    rfl
  · intro c hc
    refine ⟨⟨?_, ?_, ?_, Or.inl (hpb c hc).2.2⟩, ?_⟩
    · show some A.position = _
      rw [(hpb c hc).2.1]
    rotate_left
    · rcases hun with h | h
      · exact Or.inr (Or.inr ⟨_, _, _, _, hmb, Or.inl h⟩)
      · rcases m2.entry with h' | h'
        · rw [(p3 c hc).2] at h'
          rcases le_total c.nOut b0.stateB.speed with hle' | hle'
          · left
            rw [e9, h, one_mul, h', min_eq_left hle']
          · exact Or.inr (Or.inr ⟨_, _, _, _, hmb, Or.inr (Or.inl (by rw [h', min_eq_right hle']))⟩)
        · exact Or.inr (Or.inr ⟨_, _, _, _, hmb, Or.inr (Or.inr h')⟩)
    · rw [m3 _ rfl, (p3 c hc).1]
    · rw [e9]
      have hv := (p3 c hc).2
      have hle' : s0 ≤ c.nOut := by
        rw [← hv]
        exact le_trans hle (min_le_left _ _)
      rcases hun with h | h
      · rw [h, MulZeroClass.zero_mul]
        linarith
      · rw [h, one_mul]
        exact hle'
  · intro hn
    refine ⟨by rw [m3 _ rfl, (p4 hn).1], ?_⟩
    rw [e9]
    have : s0 ≤ 0 := by
      rw [← (p4 hn).2]
      exact le_trans hle (min_le_left _ _)
    rw [le_antisymm this hs0, MulZeroClass.mul_zero]
  · intro h0
    rw [h0] at m2
    rw [e10, m2.stop (mul_pos ha h3), MulZeroClass.mul_zero]
  · intro h0
    have hu1 : u.norm3 = 1 := by
      rcases hun with h | h
      · exfalso
        have h9 : (targetVel (some A) B).norm3 = 0 := by
          show (connectState A B).norm3 = 0
          rw [h7, norm3_mul, h, MulZeroClass.zero_mul]
        rw [junctionVel_eonly fw (some A) B rest hj h9] at h0
        exact lt_irrefl _ h0
      · exact h
    rw [e10, hu1, one_mul]
    exact m2.moving (mul_pos ha h3) h0
  · intro h0 hrest
    rw [h0] at m2
    have g1 : s1 = 0 := m2.stop (mul_pos ha h3)
    have g0 : s0 = 0 := by
      refine le_antisymm (le_trans hle (le_trans (min_le_left _ _) (le_of_eq ?_))) hs0
      cases pb with
      | none => exact (p4 rfl).2
      | some c => rw [(p3 c rfl).2, hrest c rfl]
    rw [g0, g1] at hmb
    exact Or.inl ⟨_, _, hmb⟩

/-- The block of a pause. -/
theorem mkBlock_dwell (fw : Firmware) {A B : PState ℝ} {rest : List (PState ℝ)} {c : Block ℝ} {p : ℝ}
    (heq : B.position = A.position) (hp : B.pause = some p) (hp0 : 0 ≤ p) (hc : Good c)
    (hcA : c.stateB.position = A.position) (hcE : c.ExitR) :
    ∃ b, mkBlock fw (some A) B rest (some c) = .ok b ∧ DwellB b A p ∧ b.stateA = some A ∧
      b.stateB = B ∧ Link c b ∧ b.t0 = c.t1 ∧ b.nOut = 0 := by
  obtain ⟨A', s, s', _, _, e3, _, _, _, e7, e8, e9, _, e11, _⟩ := hc.facts
  have hseg : Segment.make s'.tEnd (s'.tEnd + p) s'.posEnd Vec4.zero s'.posEnd Vec4.zero =
      .ok ⟨s'.tEnd, s'.tEnd + p, A.position, Vec4.zero, A.position, Vec4.zero⟩ := by
    have h := make_ok (u := Vec4.zero) (t := s'.tEnd) (t' := s'.tEnd + p) (v := 0) (v' := 0) (l := 0)
      s'.posEnd (by linarith) (by ring)
    rw [Vec4.zero_mul, Vec4.add_zero] at h
    rw [h, e8, hcA]
  have hz : (Vec4.zero : Vec4 ℝ).notZero = false := by
    simp only [notZero, decide_eq_false_iff_not, not_lt]
    rw [(norm4_eq_zero).2 rfl]
  set b : Block ℝ :=
    { stateA := some A, stateB := B, direction := (Vec4.zero : Vec4 ℝ).normDir4,
      isExtruding := false, jd := some Vec4.zero,
      segments := [⟨s'.tEnd, s'.tEnd + p, A.position, Vec4.zero, A.position, Vec4.zero⟩], blocktype := none } with hb
  have hdb : DwellB b A p := ⟨rfl, hp, hp0, heq, rfl, _, rfl⟩
  refine ⟨b, ?_, hdb, rfl, rfl, ⟨?_, ?_, Or.inr (Or.inl ⟨_, _, hdb⟩), Or.inl hcE⟩, ?_, ?_⟩
  · unfold mkBlock
    simp only [targetVel, connectState_self heq, hz, Bool.false_eq_true, if_false, bind, Except.bind,
      hp, dwellSegment, lastSeg_ok e3, hseg]
    rfl
  · show some A.position = _
    rw [hcA]
  · simp only [Block.nIn, hb, List.head?_cons, Option.map_some, Option.getD_some, norm3_zero]
    exact e11
  · simp [Block.t0, hb, e7]
  · simp [Block.nOut, hb, norm3_zero]

/-- A state that neither moves nor pauses gives no segments. -/
theorem mkBlock_skip (fw : Firmware) {A : Option (PState ℝ)} {B : PState ℝ} {rest : List (PState ℝ)}
    {pb : Option (Block ℝ)} (heq : ∀ A' ∈ A, B.position = A'.position) (hp : B.pause = none) :
    ∃ b, mkBlock fw A B rest pb = .ok b ∧ b.segments = [] := by
  have hz : (Vec4.zero : Vec4 ℝ).notZero = false := by
    simp only [notZero, decide_eq_false_iff_not, not_lt]
    rw [(norm4_eq_zero).2 rfl]
  have ht : targetVel A B = Vec4.zero := by
    cases A with
    | none => rfl
    | some A => exact connectState_self (heq A rfl)
  unfold mkBlock
  simp only [ht, hz, Bool.false_eq_true, if_false, bind, Except.bind, hp]
  exact ⟨_, rfl, rfl⟩

theorem withPrev_cons (pa : Option (PState ℝ)) (s : PState ℝ) (rest : List (PState ℝ)) :
    withPrev pa (s :: rest) = (pa, s) :: withPrev (some s) rest := rfl

theorem active_cons_skip {pa : Option (PState ℝ)} {s : PState ℝ} (rest : List (PState ℝ))
    (heq : ∀ A' ∈ pa, s.position = A'.position) (hp : s.pause = none) :
    active pa (s :: rest) = active (some s) rest := by
  unfold active
  rw [withPrev_cons, List.filter_cons_of_neg]
  simp only [hp, decide_eq_true_eq, ne_eq, not_true_eq_false, false_or, not_exists, not_and, not_not]
  exact fun A h => heq A h

theorem active_cons_take {pa : Option (PState ℝ)} {s : PState ℝ} (rest : List (PState ℝ))
    (h : s.pause ≠ none ∨ ∃ A, pa = some A ∧ s.position ≠ A.position) :
    active pa (s :: rest) = (pa, s) :: active (some s) rest := by
  unfold active
  rw [withPrev_cons, List.filter_cons_of_pos]
  simpa using h

theorem actions_cons_skip {pa : Option (PState ℝ)} {s : PState ℝ} (rest : List (PState ℝ))
    (heq : ∀ A' ∈ pa, s.position = A'.position) (hp : s.pause = none) :
    actions pa (s :: rest) = actions (some s) rest := by
  rw [actions, if_neg]
  simp only [hp, ne_eq, not_true_eq_false, false_or, not_exists, not_and, not_not]
  exact fun A h => heq A h

theorem actions_cons_take {pa : Option (PState ℝ)} {s : PState ℝ} (rest : List (PState ℝ))
    (h : s.pause ≠ none ∨ ∃ A, pa = some A ∧ s.position ≠ A.position) :
    actions pa (s :: rest) = (pa, s, rest) :: actions (some s) rest := by
  rw [actions, if_pos h]

/-- A block belongs to an action of the program, and a moving one carries the junction speed. -/
def Acts (fw : Firmware) (b : Block ℝ) (x : Option (PState ℝ) × PState ℝ × List (PState ℝ)) : Prop :=
  b.stateA = x.1 ∧ b.stateB = x.2.1 ∧ (x.2.1.pause = none → ∃ u, b.direction = some u ∧
    b.jd = some (u.mul (junctionVel fw x.1 x.2.1 x.2.2)))

theorem genBlocks_spec (fw : Firmware) {states : List (PState ℝ)} (hreg : Regular states) :
    ∀ (rest done : List (PState ℝ)) (pb : Option (Block ℝ)), states = done ++ rest →
    (pb = none → ∀ x ∈ done, ∀ y ∈ done, x.position = y.position) →
    (∀ b ∈ pb, (Good b ∧ b.ExitR) ∧ ∃ A, done.getLast? = some A ∧ b.stateB.position = A.position) →
    ∃ bs, genBlocks fw done.getLast? pb rest = .ok bs ∧ (∀ b ∈ bs, Good b ∧ b.ExitR) ∧
      (pb.toList ++ bs).IsChain Link ∧
      (pb = none → ∀ f ∈ bs.head?, f.t0 = 0 ∧ f.nIn = 0 ∧ f.stateB.pause = none) ∧
      bs.map (fun b => (b.stateA, b.stateB)) = active done.getLast? rest ∧
      (bs = [] → ∀ A ∈ done.getLast?, ∀ x ∈ rest, x.position = A.position) ∧
      (fw ≠ .marlinJerk → ∀ l ∈ bs.getLast?, l.nOut = 0) ∧
      List.Forall₂ (Acts fw) bs (actions done.getLast? rest) ∧
      ((∀ (A : Option (PState ℝ)) B l, junctionVel fw A B l = 0) → (∀ c ∈ pb, c.nOut = 0) → ∀ b ∈ bs, b.AtRest) ∧
      (fw ≠ .marlinJerk → (∀ c ∈ pb, ∀ A ∈ done.getLast?, (velNext A rest).norm3 = 0 → c.nOut = 0) →
        ∀ b ∈ bs, ∀ v ∈ b.feed, v = Vec4.zero) := by
  intro rest
  induction rest with
  | nil =>
    intro done pb _ _ hpb
    refine ⟨[], rfl, by simp, ?_, by simp, rfl, by simp, by simp, by rw [actions]; exact .nil, by simp, by simp⟩
    cases pb <;> simp
  | cons s rest ih =>
    intro done pb hst hnone hsome
    have hmem : s ∈ states := by rw [hst]; simp
    have hst' : states = (done ++ [s]) ++ rest := by rw [hst]; simp
    have hlast : (done ++ [s]).getLast? = some s := by simp
    by_cases hact : s.pause ≠ none ∨ ∃ A, done.getLast? = some A ∧ s.position ≠ A.position
    · -- a block
      have hblock : ∃ b A, done.getLast? = some A ∧ mkBlock fw done.getLast? s rest pb = .ok b ∧
          (Good b ∧ b.ExitR) ∧ b.stateA = done.getLast? ∧ b.stateB = s ∧ (∀ c ∈ pb, Link c b) ∧
          (pb = none → b.t0 = 0 ∧ b.nIn = 0 ∧ s.pause = none) ∧
          (junctionVel fw done.getLast? s rest = 0 → b.nOut = 0) ∧
          Acts fw b (done.getLast?, s, rest) ∧
          (junctionVel fw done.getLast? s rest = 0 → (∀ c ∈ pb, c.nOut = 0) → b.AtRest) := by
        by_cases hp : s.pause = none
        · obtain ⟨A, hA, hne⟩ := hact.resolve_left (by simpa using hp)
          obtain ⟨b, b1, b2, b3, b4, b5, b6, b7, _, b9, b12, u, s0, s1, b10, b11⟩ := mkBlock_move fw (rest := rest) (pb := pb) hne
            (hreg.speed s hmem) (hreg.acc s hmem) (hreg.jerk s hmem) hp
            (fun b hb => ⟨(hsome b hb).1.1, by
              obtain ⟨A', hA', he⟩ := (hsome b hb).2
              rw [hA] at hA'
              cases hA'
              exact he, (hsome b hb).1.2⟩)
          rw [hA]
          exact ⟨b, A, rfl, b1, ⟨b2, b9⟩, b3, b4, fun c hc => (b5 c hc).1,
            fun h => ⟨(b6 h).1, (b6 h).2, hp⟩, b7, ⟨b3, b4, fun _ => ⟨u, b10.hdir, b11⟩⟩, b12⟩
        · obtain ⟨A, hA, heq⟩ := hreg.stays done s rest hst hp
          obtain ⟨x, hx, y, hy, hxy⟩ := hreg.moved done s rest hst hp
          obtain ⟨p, hp'⟩ := Option.ne_none_iff_exists'.1 hp
          cases pb with
          | none => exact absurd (hnone rfl x hx y hy) hxy
          | some c =>
            obtain ⟨A', hA', hcA⟩ := (hsome c rfl).2
            rw [hA] at hA'
            cases hA'
            obtain ⟨b, b1, b2, b3, b4, b5, b6, b7⟩ := mkBlock_dwell fw (rest := rest) heq hp'
              (hreg.pause s hmem p hp') (hsome c rfl).1.1 hcA (hsome c rfl).1.2
            rw [hA]
            refine ⟨b, A, rfl, b1, ⟨Or.inr ⟨_, _, b2⟩, Or.inl ⟨_, _, b2⟩⟩, b3, b4, ?_, by simp, fun _ => b7, ⟨b3, b4,
              fun h => absurd h hp⟩, fun _ _ => Or.inr ⟨_, _, b2⟩⟩
            intro c' hc'
            cases hc'
            exact b5
      obtain ⟨b, A, hA, b1, b2, b3, b4, b5, b6, b7, b8, b9⟩ := hblock
      obtain ⟨bs, r1, r2, r3, r4, r5, r6, r7, r8, r9, r10⟩ := ih (done ++ [s]) (some b) hst' (by simp) (by
        intro c hc
        cases hc
        exact ⟨b2, s, hlast, by rw [b4]⟩)
      rw [hlast] at r1 r5 r6 r8
      refine ⟨b :: bs, ?_, ?_, ?_, ?_, ?_, by simp, ?_, by rw [actions_cons_take rest hact]; exact .cons b8 r8, ?_, ?_⟩
      · unfold genBlocks
        simp only [b1, bind, Except.bind, List.isEmpty_iff, b2.1.ne_nil, if_false, r1]
      · intro c hc
        rcases List.mem_cons.1 hc with rfl | hc
        · exact b2
        · exact r2 c hc
      · cases pb with
        | none => simpa using r3
        | some c => 
          simp only [Option.toList_some, List.singleton_append, List.isChain_cons_cons]
          exact ⟨b5 c rfl, by simpa using r3⟩
      · intro hn f hf
        simp only [List.head?_cons, Option.mem_def, Option.some.injEq] at hf
        subst hf
        obtain ⟨x1, x2, x3⟩ := b6 hn
        exact ⟨x1, x2, by rw [b4]; exact x3⟩
      · rw [active_cons_take rest hact, List.map_cons, r5, b3, b4]
      · intro hfw l hl
        cases bs with
        | nil =>
          simp only [List.getLast?_singleton, Option.mem_def, Option.some.injEq] at hl
          subst hl
          apply b7
          apply junctionVel_stop hfw _ _ _ (hreg.jerk s hmem)
          rw [velNext_stop (r6 rfl s rfl), norm3_zero]
        | cons y bs => exact r7 hfw l (by simpa using hl)
      · intro h0 hpb c hc
        have hr := b9 (h0 _ _ _) hpb
        rcases List.mem_cons.1 hc with rfl | hc
        · exact hr
        · refine r9 h0 ?_ c hc
          intro c hc
          cases hc
          exact hr.nOut
      · intro hfw hpb c hc v hv
        rcases List.mem_cons.1 hc with rfl | hc
        · obtain ⟨_, _, a3⟩ := b8
          simp only at a3
          have hstop : c.AtRest := by
            by_cases hp : s.pause = none
            · obtain ⟨u, d1, d2⟩ := a3 hp
              have hz : (connectState A s).norm3 = 0 := by
                rcases b2.1 with ⟨A', u', s0, s1, hm⟩ | ⟨A', p, hd⟩
                · rw [hm.hdir] at d1
                  cases d1
                  have hA' := hm.hA
                  rw [b3, hA] at hA'
                  cases hA'
                  rw [← b4, connectState_norm3 A c.stateB hm.hs.le, if_pos]
                  obtain ⟨hu, _, _, h4, _⟩ := hm.toHdr.unit
                  apply h4.1
                  by_contra hx
                  have := hu.norms.1
                  rw [Block.feed_none hm.hdir (by simpa [hx] using this)] at hv
                  cases hv
                · have := hd.hpause
                  rw [b4, hp] at this
                  cases this
              refine b9 (junctionVel_eonly fw _ s rest (hreg.jerk s hmem) (by rw [hA]; exact hz)) ?_
              intro c' hc'
              refine hpb c' hc' A hA ?_
              rw [velNext, nextTarget]
              split
              · exact hz
              · rename_i hx
                exfalso
                apply hx
                right
                obtain ⟨A', hA', hne⟩ := hact.resolve_left (by simpa using hp)
                rw [hA] at hA'
                cases hA'
                refine lt_of_le_of_ne (norm4_nonneg _) (Ne.symm fun h0 => ?_)
                exact hne (Vec4.sub_eq_zero.1 (norm4_eq_zero.1 h0)).symm
            · rcases b2.1 with ⟨A', u', s0, s1, hm⟩ | hd
              · have := hm.hpause
                rw [b4] at this
                exact absurd this hp
              · exact Or.inr hd
          unfold Block.feed at hv
          split at hv
          · rcases hstop with ⟨A', u', hm⟩ | ⟨A', p, hd⟩
            · obtain ⟨q, _, e1, _, _, _, e5, _⟩ := hm.ends
              rw [e1] at hv
              cases hv
              rw [e5]
              exact Vec4.mul_zero _
            · obtain ⟨t, ht⟩ := hd.hseg
              rw [ht] at hv
              cases hv
              rfl
          · cases hv
        · refine r10 hfw ?_ c hc v hv
          intro c' hc' A' hA' hz
          cases hc'
          rw [hlast] at hA'
          cases hA'
          exact b7 (junctionVel_stop hfw _ _ _ (hreg.jerk s hmem) hz)
    · -- no block
      push Not at hact
      obtain ⟨hp, heq⟩ := hact
      have heq' : ∀ A ∈ done.getLast?, s.position = A.position := fun A hA => heq A hA
      obtain ⟨b, b1, b2⟩ := mkBlock_skip fw (rest := rest) (pb := pb) heq' hp
      obtain ⟨bs, r1, r2, r3, r4, r5, r6, r7, r8, r9, r10⟩ := ih (done ++ [s]) pb hst' (by
        intro hn
        have key : ∀ x ∈ done ++ [s], x.position = s.position := by
          intro x hx
          rcases List.mem_append.1 hx with hx | hx
          · obtain ⟨A, hA⟩ : ∃ A, done.getLast? = some A := by
              cases hd : done.getLast? with
              | none =>
                rw [List.getLast?_eq_none_iff] at hd
                rw [hd] at hx
                cases hx
              | some A => exact ⟨A, rfl⟩
            rw [heq A hA]
            exact hnone hn x hx A (List.mem_of_getLast? hA)
          · rw [List.mem_singleton.1 hx]
        intro x hx y hy
        rw [key x hx, key y hy]) (by
        intro c hc
        refine ⟨(hsome c hc).1, ?_⟩
        obtain ⟨A, hA, hcA⟩ := (hsome c hc).2
        exact ⟨s, hlast, by rw [hcA, heq A hA]⟩)
      rw [hlast] at r1 r5 r6 r8
      refine ⟨bs, ?_, r2, r3, r4, ?_, ?_, r7, by rw [actions_cons_skip rest heq' hp]; exact r8, r9, ?_⟩
      · unfold genBlocks
        simp only [b1, bind, Except.bind, List.isEmpty_iff, b2, if_true, r1]
      · rw [r5, active_cons_skip rest heq' hp]
      · intro hn A hA x hx
        rcases List.mem_cons.1 hx with rfl | hx
        · exact heq A hA
        · rw [r6 hn s rfl x hx, heq A hA]
      · intro hfw hpb
        refine r10 hfw ?_
        intro c hc A hA hz
        rw [hlast] at hA
        cases hA
        obtain ⟨A', hA', _⟩ := (hsome c hc).2
        refine hpb c hc A' hA' ?_
        rw [velNext_idle rest (heq A' hA')]
        exact hz

theorem acts_of_key {fw : Firmware} : ∀ {bs bs₀ : List (Block ℝ)}
    {xs : List (Option (PState ℝ) × PState ℝ × List (PState ℝ))},
    bs.map Block.key = bs₀.map Block.key → List.Forall₂ (Acts fw) bs₀ xs →
    List.Forall₂ (Acts fw) bs xs := by
  intro bs
  induction bs with
  | nil =>
    intro bs₀ xs h h'
    cases bs₀ with
    | nil => exact h'
    | cons _ _ => simp at h
  | cons b bs ih =>
    intro bs₀ xs h h'
    cases h' with
    | nil => simp at h
    | cons h1 h2 =>
      rw [List.map_cons, List.map_cons] at h
      injection h with h h''
      refine .cons ?_ (ih h'' h2)
      simp only [Block.key, Prod.mk.injEq] at h
      obtain ⟨e1, e2, e3, _, e5, _⟩ := h
      unfold Acts at h1 ⊢
      rw [e1, e2, e3, e5]
      exact h1

/-- Everything about planning a regular program. -/
theorem plan_spec (fw : Firmware) {states : List (PState ℝ)} (hreg : Regular states) :
    ∃ bs₀ bs, genBlocks fw none none states = .ok bs₀ ∧ correctAll bs₀ = .ok bs ∧
      bs.map Block.key = bs₀.map Block.key ∧ (List.Forall₂ (Acts fw) bs (actions none states) ∧
        bs.IsChain LinkO ∧ ∀ l ∈ bs.getLast?, l.ExitR) ∧ (∀ b ∈ bs, Good b) ∧ bs.IsChain LinkT ∧
      (∀ f ∈ bs.head?, f.t0 = 0 ∧ f.nIn = 0 ∧ f.stateB.pause = none) ∧
      bs.map (fun b => (b.stateA, b.stateB)) = active none states ∧
      (fw ≠ .marlinJerk → ∀ l ∈ bs.getLast?, l.nOut = 0) := by
  obtain ⟨bs₀, g1, g2, g3, g4, g5, g6, g7, g8, _, _⟩ := genBlocks_spec fw hreg states [] none rfl (by simp)
    (by simp)
  simp only [Option.toList_none, List.nil_append, List.getLast?_nil] at g1 g3 g5 g6 g8
  cases bs₀ with
  | nil =>
    exact ⟨[], [], g1, rfl, rfl, ⟨g8, List.IsChain.nil, by simp⟩, by simp, List.IsChain.nil, by simp, g5, by simp⟩
  | cons b tl =>
    have hz : Zip [] b := ⟨by simpa using (g2 b (by simp)).1, List.isChain_singleton _, by
      intro f hf
      simp only [List.getLast?_singleton, Option.mem_def, Option.some.injEq] at hf
      subst hf
      exact g4 rfl b (by simp)⟩
    obtain ⟨out, o1, o2, o3, o4, o5, o6⟩ := correctFrom_spec tl [] b hz
      (fun c hc => (g2 c (by simp [hc])).1) g3
    have hkey : out.map Block.key = (b :: tl).map Block.key := by simpa using o4
    refine ⟨b :: tl, out, g1, o1, hkey, ⟨?_, o3.imp fun _ _ h => h.2, ?_⟩, o2,
      o3.imp fun _ _ h => h.1, o5, ?_, ?_⟩
    · exact acts_of_key hkey g8
    · intro l hl
      cases hb : (b :: tl).getLast? with
      | none => simp at hb
      | some l' => exact (o6 l hl l' hb).2 (g2 l' (List.mem_of_getLast? hb)).2
    · rw [← g5]
      have : ∀ l : List (Block ℝ), l.map (fun b => (b.stateA, b.stateB)) =
          (l.map Block.key).map fun k => (k.1, k.2.1) := by
        intro l
        rw [List.map_map]
        rfl
      rw [this, o4, List.reverse_nil, List.nil_append, ← this]
    · intro hfw l hl
      cases hb : (b :: tl).getLast? with
      | none => simp at hb
      | some l' =>
        rw [(o6 l hl l' hb).1]
        exact g7 hfw l' hb

theorem plan_ok {fw : Firmware} {states : List (PState ℝ)} (hreg : Regular states)
    {bs : List (Block ℝ)} (h : plan fw states = .ok bs) :
    (∀ b ∈ bs, Good b) ∧ bs.IsChain LinkT ∧
      (∀ f ∈ bs.head?, f.t0 = 0 ∧ f.nIn = 0 ∧ f.stateB.pause = none) ∧
      bs.map (fun b => (b.stateA, b.stateB)) = active none states ∧
      (fw ≠ .marlinJerk → ∀ l ∈ bs.getLast?, l.nOut = 0) := by
  obtain ⟨bs₀, bs', h1, h2, _, _, h3⟩ := plan_spec fw hreg
  unfold plan at h
  simp only [h1, bind, Except.bind, h2, Except.ok.injEq] at h
  subst h
  exact h3

/-- The blocks of a plan, the actions they belong to and why they are not faster. -/
theorem plan_opt {fw : Firmware} {states : List (PState ℝ)} (hreg : Regular states)
    {bs : List (Block ℝ)} (h : plan fw states = .ok bs) :
    List.Forall₂ (Acts fw) bs (actions none states) ∧ bs.IsChain LinkO ∧
      ∀ l ∈ bs.getLast?, l.ExitR := by
  obtain ⟨bs₀, bs', h1, h2, _, h3, _⟩ := plan_spec fw hreg
  unfold plan at h
  simp only [h1, bind, Except.bind, h2, Except.ok.injEq] at h
  subst h
  exact h3

/-- With all firmwares but `marlin_jerk` a move without travel begins at rest. -/
theorem plan_feed {fw : Firmware} {states : List (PState ℝ)} (hreg : Regular states) (hfw : fw ≠ .marlinJerk)
    {bs : List (Block ℝ)} (h : plan fw states = .ok bs) : ∀ b ∈ bs, ∀ v ∈ b.feed, v = Vec4.zero := by
  obtain ⟨bs₀, g1, _, _, _, _, _, _, _, _, g10⟩ := genBlocks_spec fw hreg states [] none rfl (by simp)
    (by simp)
  obtain ⟨bs₁, bs', h1, h2, h3, _⟩ := plan_spec fw hreg
  unfold plan at h
  simp only [h1, bind, Except.bind, h2, Except.ok.injEq] at h
  subst h
  rw [List.getLast?_nil, h1] at g1
  cases g1
  intro b hb v hv
  have hk : b.key ∈ bs₀.map Block.key := by
    rw [← h3]
    exact List.mem_map_of_mem hb
  obtain ⟨b', hb', he⟩ := List.mem_map.1 hk
  refine g10 hfw (by simp) b' hb' v ?_
  have : b'.feed = b.feed := congrArg (fun k => k.2.2.2.2.2) he
  rw [this]
  exact hv

/-! ## Plans without corrections -/

theorem Block.AtRest.good {b : Block ℝ} (h : b.AtRest) : Good b := by
  rcases h with ⟨A, u, h⟩ | h
  · exact Or.inl ⟨A, u, 0, 0, h⟩
  · exact Or.inr h

theorem Block.AtRest.nIn {b : Block ℝ} (h : b.AtRest) : b.nIn = 0 := by
  rcases h with ⟨A, u, h⟩ | ⟨A, p, h⟩
  · obtain ⟨_, _, _, _, _, _, _, _, _, _, h9, _⟩ := h.ends
    rw [h9, MulZeroClass.mul_zero]
  · obtain ⟨t, ht⟩ := h.hseg
    simp [Block.nIn, ht, norm3_zero]

theorem Block.AtRest.timeshift {b : Block ℝ} (h : b.AtRest) (d : ℝ) : (b.timeshift d).AtRest := by
  rcases h with ⟨A, u, h⟩ | ⟨A, p, h⟩
  · exact Or.inl ⟨A, u, h.timeshift d⟩
  · exact Or.inr ⟨A, p, h.timeshift d⟩

theorem selfCorrection_rest {rp : List (Block ℝ)} {b : Block ℝ} {nx : Option (Block ℝ)} (hb : b.AtRest)
    (hn : ∀ x ∈ nx, x.AtRest) {r : List (Block ℝ) × Block ℝ × Option (Block ℝ)}
    (h : selfCorrection rp b nx = .ok r) :
    r.1 = rp ∧ r.2.1 = b ∧ ∀ x ∈ r.2.2, x.AtRest := by
  cases nx with
  | none =>
    unfold selfCorrection at h
    cases h
    exact ⟨rfl, rfl, by simp⟩
  | some nx =>
    obtain ⟨_, s, s', _, _, e3, _, _, _, _, _, e9, _⟩ := hb.good.facts
    obtain ⟨_, n, n', _, f2, _, _, _, f6, _⟩ := (hn nx rfl).good.facts
    rw [hb.nOut] at e9
    rw [(hn nx rfl).nIn] at f6
    unfold selfCorrection at h
    simp only [lastSeg_ok e3, firstSeg_ok f2, bind, Except.bind, e9, f6, not_true_eq_false, decide_false,
      Bool.false_and, Bool.false_eq_true, if_false] at h
    split at h
    · cases h
      refine ⟨rfl, rfl, ?_⟩
      intro x hx
      cases hx
      exact (hn nx rfl).timeshift _
    · split at h
      · cases h
      · cases h
        refine ⟨rfl, rfl, ?_⟩
        intro x hx
        cases hx
        exact (hn nx rfl).timeshift _

theorem correctFrom_rest : ∀ {tl rp : List (Block ℝ)} {b : Block ℝ} {out : List (Block ℝ)}, b.AtRest →
    (∀ x ∈ rp, x.AtRest) → (∀ x ∈ tl, x.AtRest) → correctFrom rp b tl = .ok out → ∀ x ∈ out, x.AtRest := by
  intro tl
  induction tl with
  | nil =>
    intro rp b out hb hrp _ h
    unfold correctFrom at h
    cases hr : selfCorrection rp b none with
    | error e =>
      rw [hr] at h
      cases h
    | ok r =>
      obtain ⟨r1, r2, _⟩ := selfCorrection_rest hb (by simp) hr
      rw [hr] at h
      cases h
      intro x hx
      rw [List.mem_append, List.mem_reverse, r1, List.mem_singleton, r2] at hx
      rcases hx with hx | rfl
      · exact hrp x hx
      · exact hb
  | cons nx tl ih =>
    intro rp b out hb hrp htl h
    unfold correctFrom at h
    cases hr : selfCorrection rp b (some nx) with
    | error e =>
      rw [hr] at h
      cases h
    | ok r =>
      obtain ⟨r1, r2, r3⟩ := selfCorrection_rest hb (by
        intro x hx
        cases hx
        exact htl _ (by simp)) hr
      rw [hr] at h
      refine ih (rp := r.2.1 :: r.1) (b := r.2.2.getD nx) ?_ ?_ (fun x hx => htl x (by simp [hx])) h
      · cases hx : r.2.2 with
        | none => exact htl nx (by simp)
        | some y => exact r3 y hx
      · intro x hx
        rw [r1, r2, List.mem_cons] at hx
        rcases hx with rfl | hx
        · exact hb
        · exact hrp x hx

/-- If all junction speeds are zero, every block begins and ends at rest. -/
theorem plan_rest {fw : Firmware} {states : List (PState ℝ)} (hreg : Regular states)
    {bs : List (Block ℝ)} (h : plan fw states = .ok bs)
    (h0 : ∀ (A : Option (PState ℝ)) B l, junctionVel fw A B l = 0) : ∀ b ∈ bs, b.AtRest := by
  obtain ⟨bs₀, g1, _, _, _, _, _, _, _, g9, _⟩ := genBlocks_spec fw hreg states [] none rfl (by simp)
    (by simp)
  have hr := g9 h0 (by simp)
  unfold plan at h
  simp only [List.getLast?_nil] at g1
  simp only [g1, bind, Except.bind] at h
  cases bs₀ with
  | nil =>
    unfold correctAll at h
    cases h
    simp
  | cons b tl =>
    exact correctFrom_rest (hr b (by simp)) (by simp) (fun x hx => hr x (by simp [hx])) h

end PyGCD
