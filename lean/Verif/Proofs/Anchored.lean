import Verif.Proofs.PlanLemmas
import Verif.Spec.Tasks

/-!
# Blocks whose states are not where the machine is

After a move that is not carried out, the positions of the states and of the machine differ. A block `b` is compared
with its anchored version `b'`, whose states are where the machine is: planning and correction treat both alike.
-/

set_option linter.unusedSectionVars false
set_option linter.unusedSimpArgs false

namespace PyGCD
open Vec4 Spec

/-- What planning never changes in a block. -/
def Block.hdr (b : Block ℝ) : Option (PState ℝ) × PState ℝ × Option (Vec4 ℝ) × Bool × Option (Vec4 ℝ) :=
  (b.stateA, b.stateB, b.direction, b.isExtruding, b.jd)

/-- `b'` is `b` with its states elsewhere. -/
structure Anch (b b' : Block ℝ) : Prop where
  segs : b.segments = b'.segments
  bt : b.blocktype = b'.blocktype
  jd : b.jd = b'.jd
  move : b'.direction = none ∨ (b.direction = b'.direction ∧ b.stateB.pAcc = b'.stateB.pAcc ∧
    b.stateB.speed = b'.stateB.speed ∧ ∃ A A', b.stateA = some A ∧ b'.stateA = some A' ∧
      b.stateB.position.sub A.position = b'.stateB.position.sub A'.position)

/-- The same for a list of blocks in reverse order; the states of the first block are in the same place. -/
inductive AnchL : List (Block ℝ) → List (Block ℝ) → Prop
  | one {b b' : Block ℝ} (h : Anch b b') (hA : b.stateA.map PState.position = b'.stateA.map PState.position) :
      AnchL [b] [b']
  | cons {b b' c c' : Block ℝ} {l l' : List (Block ℝ)} (h : Anch b b') (hl : AnchL (c :: l) (c' :: l')) :
      AnchL (b :: c :: l) (b' :: c' :: l')

theorem AnchL.head {b b' : Block ℝ} {l l' : List (Block ℝ)} (h : AnchL (b :: l) (b' :: l')) : Anch b b' := by
  cases h with
  | one h _ => exact h
  | cons h _ => exact h

theorem Anch.lastSeg {b b' : Block ℝ} (h : Anch b b') : b.lastSeg = b'.lastSeg := by
  unfold Block.lastSeg
  rw [h.segs]

theorem Anch.firstSeg {b b' : Block ℝ} (h : Anch b b') : b.firstSeg = b'.firstSeg := by
  unfold Block.firstSeg
  rw [h.segs]

theorem Anch.timeshift {b b' : Block ℝ} (h : Anch b b') (d : ℝ) : Anch (b.timeshift d) (b'.timeshift d) :=
  ⟨by simp [Block.timeshift, h.segs], h.bt, h.jd, h.move⟩

theorem Anch.replan {b b' : Block ℝ} (h : Anch b b') (segs : List (Segment ℝ)) (bt : Option BlockType) :
    Anch { b with segments := segs, blocktype := bt } { b' with segments := segs, blocktype := bt } :=
  ⟨rfl, rfl, h.jd, h.move⟩

theorem AnchL.replace {b b' d d' : Block ℝ} {l l' : List (Block ℝ)} (h : AnchL (b :: l) (b' :: l'))
    (hd : Anch d d') (hA : d.stateA = b.stateA) (hA' : d'.stateA = b'.stateA) : AnchL (d :: l) (d' :: l') := by
  cases h with
  | one h g => exact .one hd (by rw [hA, hA', g])
  | cons h g => exact .cons hd g

theorem planMove_congr {prev : Segment ℝ} {u : Vec4 ℝ} {B B' : PState ℝ} (h1 : B.pAcc = B'.pAcc)
    (h2 : B.speed = B'.speed) (d : ℝ) (eo : Bool) (ve : ℝ) :
    planMove prev u B d eo ve = planMove prev u B' d eo ve := by
  unfold planMove
  rw [h1, h2]

/-- The blocks before two compared blocks. -/
inductive PrevAnch (b b' : Block ℝ) : Option (Block ℝ) → Option (Block ℝ) → Prop
  | none (h : b.stateA.map PState.position = b'.stateA.map PState.position) : PrevAnch b b' none none
  | some {c c' : Block ℝ} (h : c.segments = c'.segments) : PrevAnch b b' (some c) (some c')

theorem AnchL.prev {b b' : Block ℝ} {l l' : List (Block ℝ)} (h : AnchL (b :: l) (b' :: l')) :
    PrevAnch b b' l.head? l'.head? := by
  cases h with
  | one h g => exact .none g
  | cons h g => exact .some g.head.segs

/-- The move maker treats a block like its anchored version. -/
theorem moveMaker_anch {b b' c' : Block ℝ} {pb pb' : Option (Block ℝ)} (ha : Anch b b') (h : PrevAnch b b' pb pb')
    {ve : ℝ} (hm : moveMaker b' pb' ve = .ok c') :
    ∃ segs bt, c' = { b' with segments := segs, blocktype := some bt } ∧
      moveMaker b pb ve = .ok { b with segments := segs, blocktype := some bt } := by
  unfold moveMaker at hm ⊢
  rcases ha.move with hd | ⟨hd, e1, e2, A, A', hA, hA', hpos⟩
  · rw [hd] at hm
    cases hx : b'.stateA with
    | none => rw [hx] at hm; cases hm
    | some _ => rw [hx] at hm; cases hm
  · rw [hA'] at hm
    rw [hA, hd]
    cases hu : b'.direction with
    | none => rw [hu] at hm; cases hm
    | some u =>
      rw [hu] at hm
      simp only at hm ⊢
      have hdist : moveDistance A b.stateB = moveDistance A' b'.stateB := by
        unfold moveDistance tDistance tDistance4
        rw [hpos]
      rw [hdist]
      have key : ∀ x : Except PyErr (Segment ℝ), (do
          let prev ← x
          let r ← planMove prev u b'.stateB (moveDistance A' b'.stateB).1 (moveDistance A' b'.stateB).2 ve
          Except.ok { b' with stateA := some A', direction := some u, segments := r.1, blocktype := some r.2 }) = .ok c' →
          ∃ segs bt, c' = { b' with direction := some u, segments := segs, blocktype := some bt } ∧ (do
          let prev ← x
          let r ← planMove prev u b.stateB (moveDistance A' b'.stateB).1 (moveDistance A' b'.stateB).2 ve
          Except.ok { b with stateA := some A, direction := some u, segments := r.1, blocktype := some r.2 }) =
            .ok { b with stateA := some A, direction := some u, segments := segs, blocktype := some bt } := by
        intro x hx
        cases x with
        | error e => cases hx
        | ok prev =>
          simp only [bind, Except.bind] at hx ⊢
          rw [planMove_congr e1 e2]
          cases hp : planMove prev u b'.stateB (moveDistance A' b'.stateB).1 (moveDistance A' b'.stateB).2 ve with
          | error e => rw [hp] at hx; cases hx
          | ok r =>
            rw [hp] at hx
            cases hx
            exact ⟨_, _, by rw [hA'], rfl⟩
      cases h with
      | none g =>
        rw [hA, hA', Option.map_some, Option.map_some, Option.some.injEq] at g
        simp only at hm ⊢
        rw [g]
        exact key _ hm
      | @some c c' g =>
        simp only at hm ⊢
        have : c.lastSeg = c'.lastSeg := by unfold Block.lastSeg; rw [g]
        rw [this]
        exact key _ hm

/-- The end of a correction. -/
theorem finish_anch {b b' nx nx' : Block ℝ} {rp rp' : List (Block ℝ)} {nfirst : Segment ℝ}
    {r' : List (Block ℝ) × Block ℝ × Option (Block ℝ)} (hb : Anch b b')
    (h : (do
      let last ← b'.lastSeg
      let nx := nx'.timeshift (last.tEnd - nfirst.tBegin)
      if last.posEnd.eq nfirst.posBegin = true then Except.ok (rp', b', some nx)
      else if (1e-12 : ℝ) < (last.posEnd.sub nfirst.posBegin).norm3 then .error PyErr.nameError
      else .ok (rp', b', some nx)) = .ok r') :
    ∃ d, r' = (rp', b', some (nx'.timeshift d)) ∧ (do
      let last ← b.lastSeg
      let nx := nx.timeshift (last.tEnd - nfirst.tBegin)
      if last.posEnd.eq nfirst.posBegin = true then Except.ok (rp, b, some nx)
      else if (1e-12 : ℝ) < (last.posEnd.sub nfirst.posBegin).norm3 then .error PyErr.nameError
      else .ok (rp, b, some nx)) = .ok (rp, b, some (nx.timeshift d)) := by
  rw [hb.lastSeg]
  cases hl : b'.lastSeg with
  | error e => rw [hl] at h; cases h
  | ok last =>
    rw [hl] at h
    simp only [bind, Except.bind] at h ⊢
    refine ⟨last.tEnd - nfirst.tBegin, ?_⟩
    by_cases h1 : last.posEnd.eq nfirst.posBegin = true
    · rw [if_pos h1] at h ⊢
      cases h
      exact ⟨rfl, rfl⟩
    · rw [if_neg h1] at h ⊢
      by_cases h2 : (1e-12 : ℝ) < (last.posEnd.sub nfirst.posBegin).norm3
      · rw [if_pos h2] at h
        cases h
      · rw [if_neg h2] at h ⊢
        cases h
        exact ⟨rfl, rfl⟩

/-- The correction treats blocks like their anchored versions. -/
theorem selfCorrection_anch : ∀ (rp rp' : List (Block ℝ)) (b b' nx nx' : Block ℝ)
    (r' : List (Block ℝ) × Block ℝ × Option (Block ℝ)),
    AnchL (b :: rp) (b' :: rp') → Anch nx nx' → selfCorrection rp' b' (some nx') = .ok r' →
    ∃ r c c' d, r' = (r, c', some (nx'.timeshift d)) ∧ ∃ q, selfCorrection rp b (some nx) = .ok (q, c, some (nx.timeshift d)) ∧
      AnchL (c :: q) (c' :: r) ∧ (c :: q).map Block.hdr = (b :: rp).map Block.hdr := by
  intro rp
  induction rp with
  | nil =>
    intro rp' b b' nx nx' r' hl hn h
    have hb := hl.head
    unfold selfCorrection at h ⊢
    rw [hb.lastSeg, hn.firstSeg]
    cases h1 : b'.lastSeg with
    | error e => rw [h1] at h; cases h
    | ok last =>
      cases h2 : nx'.firstSeg with
      | error e => rw [h1, h2] at h; cases h
      | ok nfirst =>
        rw [h1, h2] at h
        simp only [Except.bind, bind] at h ⊢
        cases hl with
        | one ha hA =>
        cases hf : (decide (¬ last.velEnd.norm3 = nfirst.velBegin.norm3) &&
            decide ((1e-12 : ℝ) < pyAbs (last.velEnd.norm3 - nfirst.velBegin.norm3))) with
        | false =>
          simp only [hf, Bool.false_eq_true, if_false] at h ⊢
          obtain ⟨d, e1, e2⟩ := finish_anch (rp := []) hb (nx := nx) h
          refine ⟨[], b, b', d, e1, [], ?_, .one ha hA, rfl⟩
          exact e2
        | true =>
          simp only [hf, if_true] at h ⊢
          cases hm : moveMaker b' ([] : List (Block ℝ)).head? nfirst.velBegin.norm3 with
          | error e => rw [hm] at h; cases h
          | ok c' =>
            obtain ⟨segs, bt, rfl, hm'⟩ := moveMaker_anch ha (AnchL.one ha hA).prev hm
            rw [hm] at h
            rw [hm']
            simp only at h ⊢
            by_cases hbt : bt = .single
            · rw [if_pos (by rw [hbt])] at h
              cases h
            · rw [if_neg (by simpa using hbt)] at h ⊢
              obtain ⟨d, e1, e2⟩ := finish_anch (rp := []) (hb.replan segs (some bt)) (nx := nx) h
              exact ⟨[], _, _, d, e1, [], e2, .one (hb.replan segs (some bt)) hA, rfl⟩
  | cons p rp ih =>
    intro rp' b b' nx nx' r' hl hn h
    have hb := hl.head
    cases hl with
    | @cons _ _ _ p' _ rp' ha hp =>
    unfold selfCorrection at h ⊢
    rw [hb.lastSeg, hn.firstSeg]
    cases h1 : b'.lastSeg with
    | error e => rw [h1] at h; cases h
    | ok last =>
      cases h2 : nx'.firstSeg with
      | error e => rw [h1, h2] at h; cases h
      | ok nfirst =>
        rw [h1, h2] at h
        simp only [Except.bind, bind] at h ⊢
        cases hf : (decide (¬ last.velEnd.norm3 = nfirst.velBegin.norm3) &&
            decide ((1e-12 : ℝ) < pyAbs (last.velEnd.norm3 - nfirst.velBegin.norm3))) with
        | false =>
          simp only [hf, Bool.false_eq_true, if_false] at h ⊢
          obtain ⟨d, e1, e2⟩ := finish_anch (rp := p :: rp) hb (nx := nx) h
          exact ⟨_, b, b', d, e1, _, e2, .cons ha hp, rfl⟩
        | true =>
          simp only [hf, if_true] at h ⊢
          cases hm : moveMaker b' (p' :: rp').head? nfirst.velBegin.norm3 with
          | error e => rw [hm] at h; cases h
          | ok c' =>
            obtain ⟨segs, bt, rfl, hm'⟩ := moveMaker_anch ha (AnchL.cons ha hp).prev hm
            rw [hm] at h
            rw [hm']
            simp only at h ⊢
            by_cases hbt : bt = .single
            · rw [if_pos (by rw [hbt])] at h ⊢
              cases hs : selfCorrection rp' p' (some { b' with segments := segs, blocktype := some bt }) with
              | error e => rw [hs] at h; cases h
              | ok s' =>
                obtain ⟨q', p₁, p₁', d, e1, q, e2, e3, e4⟩ := ih rp' p p' _ _ s' hp (hb.replan segs (some bt)) hs
                rw [hs] at h
                rw [e2]
                subst e1
                simp only at h ⊢
                have hb2 := (hb.replan segs (some bt)).timeshift d
                obtain ⟨d', f1, f2⟩ := finish_anch (rp := p₁ :: q) hb2 (nx := nx) h
                refine ⟨_, _, _, d', f1, _, f2, .cons hb2 e3, ?_⟩
                rw [List.map_cons, e4]
                rfl
            · rw [if_neg (by simpa using hbt)] at h ⊢
              obtain ⟨d, e1, e2⟩ := finish_anch (rp := p :: rp) (hb.replan segs (some bt)) (nx := nx) h
              exact ⟨_, _, _, d, e1, _, e2, .cons (hb.replan segs (some bt)) hp, rfl⟩

/-- Correcting a list of blocks. -/
theorem correctFrom_anch : ∀ (tl tl' rp rp' : List (Block ℝ)) (b b' : Block ℝ) (out' : List (Block ℝ)),
    AnchL (b :: rp) (b' :: rp') → List.Forall₂ Anch tl tl' → correctFrom rp' b' tl' = .ok out' →
    ∃ out, correctFrom rp b tl = .ok out ∧ List.Forall₂ Anch out out' ∧
      out.map Block.hdr = (rp.reverse ++ b :: tl).map Block.hdr := by
  have hrev : ∀ {l l' : List (Block ℝ)}, AnchL l l' → List.Forall₂ Anch l l' := by
    intro l l' h
    induction h with
    | one h _ => exact .cons h .nil
    | cons h _ ih => exact .cons h ih
  intro tl
  induction tl with
  | nil =>
    intro tl' rp rp' b b' out' hl ht h
    cases ht
    simp only [correctFrom, selfCorrection, bind, Except.bind, Except.ok.injEq] at h ⊢
    subst h
    refine ⟨_, rfl, ?_, rfl⟩
    have := List.forall₂_reverse_iff.2 (hrev hl)
    simpa using this
  | cons nx tl ih =>
    intro tl' rp rp' b b' out' hl ht h
    cases ht with
    | @cons _ nx' _ tl' hn ht =>
    simp only [correctFrom, bind, Except.bind] at h ⊢
    cases hs : selfCorrection rp' b' (some nx') with
    | error e => rw [hs] at h; cases h
    | ok r' =>
      obtain ⟨q', c, c', d, e1, q, e2, e3, e4⟩ := selfCorrection_anch rp rp' b b' nx nx' r' hl hn hs
      rw [hs] at h
      rw [e2]
      subst e1
      simp only [Option.getD_some] at h ⊢
      obtain ⟨out, o1, o2, o3⟩ := ih tl' (c :: q) (c' :: q') _ _ out' (.cons (hn.timeshift d) e3) ht h
      refine ⟨out, o1, o2, ?_⟩
      rw [o3]
      have e5 := congrArg List.reverse e4
      simp only [List.map_append, List.map_cons, List.reverse_cons, List.append_assoc, List.cons_append, List.nil_append,
        List.map_reverse] at e5 ⊢
      rw [List.append_cons, e5, ← List.append_cons]
      rfl

/-! ## Generating the blocks -/

/-- A move from where the machine is. -/
theorem anchored_move {A B : PState ℝ} {pb : Option (Block ℝ)} {vj : ℝ} (hne : B.position ≠ A.position)
    (hs : 0 < B.speed) (ha : 0 < B.pAcc) (hp : B.pause = none) (hjv : 0 ≤ vj ∧ vj ≤ B.speed)
    (hpb : ∀ b ∈ pb, Good b ∧ b.stateB.position = A.position ∧ b.ExitR) :
    ∃ u segs bt, (connectState A B).normDir4 = some u ∧ (connectState A B).notZero = true ∧
      moveMaker ⟨some A, B, some u, false, none, [], none⟩ pb vj = .ok ⟨some A, B, some u, false, none, segs, some bt⟩ ∧
      segs ≠ [] ∧ ∀ b : Block ℝ, b = ⟨some A, B, some u, decide (A.position.e < B.position.e), some (u.mul vj), segs, some bt⟩ →
        Good b ∧ (∀ c ∈ pb, Link c b) ∧ (pb = none → b.t0 = 0 ∧ b.nIn = 0) ∧ (vj = 0 → b.nOut = 0) ∧ b.ExitR ∧
        (vj = 0 → (∀ c ∈ pb, c.nOut = 0) → b.AtRest) := by
  obtain ⟨u, h1, h2, h3, h4, h5, h6, h7⟩ := move_direction hne hs
  have hprev : ∃ prev, (match pb with
      | some pb => pb.lastSeg
      | none => .ok (Segment.initial A.position)) = .ok prev ∧ prev.posEnd = A.position ∧
      (∀ c ∈ pb, prev.tEnd = c.t1 ∧ prev.velEnd.norm3 = c.nOut) ∧
      (pb = none → prev.tEnd = 0 ∧ prev.velEnd.norm3 = 0) := by
    cases pb with
    | none =>
      exact ⟨_, rfl, rfl, by simp, fun _ => ⟨rfl, norm3_zero⟩⟩
    | some c =>
      obtain ⟨hg, hc, _⟩ := hpb c rfl
      obtain ⟨A', s, s', _, _, e3, _, _, _, e7, e8, e9, _⟩ := hg.facts
      refine ⟨s', lastSeg_ok e3, by rw [e8, hc], ?_, by simp⟩
      intro c' hc'
      cases hc'
      exact ⟨e7, e9⟩
  obtain ⟨prev, p1, p2, p3, p4⟩ := hprev
  have hh : Hdr ⟨some A, B, some u, false, none, [], none⟩ A u := ⟨rfl, hne, hs, ha, rfl, h1⟩
  obtain ⟨segs, bt, s0, s1, m1, m2, mp, m3, m4⟩ := moveMaker_spec hh p1 p2 hjv
  have hmb : MoveB ⟨some A, B, some u, decide (A.position.e < B.position.e), some (u.mul vj), segs, some bt⟩ A u s0 s1 :=
    ⟨⟨rfl, hne, hs, ha, rfl, h1⟩, hp, rfl, m4 _ rfl, mp, _, rfl, m2.exit_le⟩
  refine ⟨u, segs, bt, h1, h5, m1, hmb.ne_nil, ?_⟩
  rintro b rfl
  obtain ⟨_, _, _, _, _, _, _, _, _, _, e9, e10⟩ := hmb.ends
  have hun := UnitDir.norm3_le h2
  have hle := m2.le_begin
  have hs0 := hmb.facts.1
  refine ⟨Or.inl ⟨_, _, _, _, hmb⟩, ?_, ?_, ?_, Or.inr ⟨_, _, _, _, hmb, m2.exit.imp (fun e => by rw [e]) id⟩, ?_⟩
  · intro c hc
    refine ⟨?_, ?_, ?_, Or.inl (hpb c hc).2.2⟩
    · show some A.position = _
      rw [(hpb c hc).2.1]
    · rw [e9]
      have hv := (p3 c hc).2
      have hle' : s0 ≤ c.nOut := by
        rw [← hv]
        exact le_trans hle (min_le_left _ _)
      rcases hun with h | h
      · rw [h, MulZeroClass.zero_mul]
        linarith
      · rw [h, one_mul]
        exact hle'
    · rcases hun with h | h
      · exact Or.inr (Or.inr ⟨_, _, _, _, hmb, Or.inl h⟩)
      · rcases m2.entry with h' | h'
        · rw [(p3 c hc).2] at h'
          rcases le_total c.nOut B.speed with hle' | hle'
          · left
            rw [e9, h, one_mul, h', min_eq_left hle']
          · exact Or.inr (Or.inr ⟨_, _, _, _, hmb, Or.inr (Or.inl (by rw [h', min_eq_right hle']))⟩)
        · exact Or.inr (Or.inr ⟨_, _, _, _, hmb, Or.inr (Or.inr h')⟩)
  · intro hn
    refine ⟨by rw [m3 _ rfl, (p4 hn).1], ?_⟩
    rw [e9]
    have : s0 ≤ 0 := by
      rw [← (p4 hn).2]
      exact le_trans hle (min_le_left _ _)
    rw [le_antisymm this hs0, MulZeroClass.mul_zero]
  · intro h0
    rw [h0] at m2
    rw [e10, m2.stop (mul_pos ha h3), MulZeroClass.mul_zero]
  · intro h0 hrest
    rw [h0] at m2
    have g1 : s1 = 0 := m2.stop (mul_pos ha h3)
    have g0 : s0 = 0 := by
      refine le_antisymm (le_trans hle (le_trans (min_le_left _ _) (le_of_eq ?_))) hs0
      cases pb with
      | none => exact (p4 rfl).2
      | some c => rw [(p3 c rfl).2, hrest c rfl]
    rw [g0, g1] at hmb
    exact Or.inl ⟨_, _, hmb⟩

/-- What has been planned so far: nothing, or the last block `c`, whose anchored version is `c'`. -/
inductive Track (done : List (PState ℝ)) : Option (Block ℝ) → Option (Block ℝ) → Option (Vec4 ℝ) → Prop
  | idle (h : ¬ Started done) : Track done none none none
  | run {c c' : Block ℝ} (h : c.segments = c'.segments) (hg : Good c') (he : c'.ExitR) (hs : Started done) :
      Track done (some c) (some c') (some c'.stateB.position)

theorem started_concat {done : List (PState ℝ)} {s : PState ℝ} :
    Started (done ++ [s]) ↔ Started done ∨ ∃ A, done.getLast? = some A ∧ Executes A s := by
  constructor
  · rintro ⟨l, A, B, r, h, hr⟩
    rcases List.eq_nil_or_concat r with rfl | ⟨r', x, rfl⟩
    · right
      have h1 : done ++ [s] = (l ++ [A]) ++ [B] := by rw [h]; simp
      obtain ⟨h2, h3⟩ := List.append_inj' h1 rfl
      injection h3 with h3
      exact ⟨A, by rw [h2]; simp, by rw [h3]; exact hr⟩
    · left
      rw [List.concat_eq_append] at h
      have h1 : done ++ [s] = (l ++ A :: B :: r') ++ [x] := by rw [h]; simp
      exact ⟨l, A, B, r', (List.append_inj' h1 rfl).1, hr⟩
  · rintro (⟨l, A, B, r, h, hr⟩ | ⟨A, hA, hr⟩)
    · exact ⟨l, A, B, r ++ [s], by rw [h]; simp, hr⟩
    · obtain ⟨l, rfl⟩ := List.getLast?_eq_some_iff.1 hA
      exact ⟨l, A, s, [], by simp, hr⟩

theorem Track.prev {done : List (PState ℝ)} {pb pb' : Option (Block ℝ)} {here : Option (Vec4 ℝ)}
    (h : Track done pb pb' here) {A : PState ℝ} : ∀ b ∈ pb', Good b ∧
      b.stateB.position = ({ A with position := here.getD A.position } : PState ℝ).position ∧ b.ExitR := by
  intro b hb
  cases h with
  | idle _ => cases hb
  | run h hg he hs =>
    cases hb
    exact ⟨hg, rfl, he⟩

/-- Two states, moved to another place. -/
theorem connectState_moved (A B : PState ℝ) (q : Vec4 ℝ) (pz : Option ℝ) :
    connectState { A with position := q } { B with position := q.add (B.position.sub A.position), pause := pz } =
      connectState A B := by
  have : (q.add (B.position.sub A.position)).sub q = B.position.sub A.position := by
    ext <;> simp [Vec4.add, Vec4.sub]
  unfold connectState
  simp only [this]

theorem connectState_slow {A B : PState ℝ} (h : B.speed = 0) : connectState A B = Vec4.zero := by
  unfold connectState
  simp only [h]
  exact Vec4.mul_zero _

theorem notZero_zero : (Vec4.zero : Vec4 ℝ).notZero = false := by
  simp only [notZero, decide_eq_false_iff_not, not_lt]
  rw [(norm4_eq_zero).2 rfl]

/-- The move part of a block, whether or not it pauses. -/
theorem moveMaker_tracked {done : List (PState ℝ)} {pb pb' : Option (Block ℝ)} {here : Option (Vec4 ℝ)}
    (h : Track done pb pb' here) {A B : PState ℝ} {vj : ℝ} (hne : B.position ≠ A.position) (hs : 0 < B.speed)
    (ha : 0 < B.pAcc) (hjv : 0 ≤ vj ∧ vj ≤ B.speed) :
    ∃ u segs bt, (connectState A B).normDir4 = some u ∧ (connectState A B).notZero = true ∧
      moveMaker ⟨some A, B, some u, false, none, [], none⟩ pb vj = .ok ⟨some A, B, some u, false, none, segs, some bt⟩ ∧
      segs ≠ [] ∧ ∀ src dst b, src = here.getD A.position → dst = src.add (B.position.sub A.position) →
        b = (⟨some { A with position := src }, { B with position := dst, pause := none }, some u, decide (src.e < dst.e),
          some (u.mul vj), segs, some bt⟩ : Block ℝ) →
        Good b ∧ (∀ c ∈ pb', Link c b) ∧ (pb' = none → b.t0 = 0 ∧ b.nIn = 0) ∧ (vj = 0 → b.nOut = 0) ∧ b.ExitR ∧
        (vj = 0 → (∀ c ∈ pb', c.nOut = 0) → b.AtRest) := by
  have hsub : ∀ q : Vec4 ℝ, (q.add (B.position.sub A.position)).sub q = B.position.sub A.position := by
    intro q
    ext <;> simp [Vec4.add, Vec4.sub]
  set q := here.getD A.position with hq
  obtain ⟨u, segs, bt, h1, h2, h3, h4, h5⟩ := anchored_move (A := { A with position := q })
    (B := { B with position := q.add (B.position.sub A.position), pause := none }) (vj := vj) (by
      show q.add (B.position.sub A.position) ≠ q
      intro e
      apply hne
      have := hsub q
      rw [e, Vec4.sub_self] at this
      exact Vec4.sub_eq_zero.1 this.symm) hs ha rfl hjv h.prev
  rw [connectState_moved] at h1 h2
  have hanch : Anch ⟨some A, B, some u, false, none, [], none⟩ ⟨some { A with position := q },
      { B with position := q.add (B.position.sub A.position), pause := none }, some u, false, none, [], none⟩ :=
    ⟨rfl, rfl, rfl, Or.inr ⟨rfl, rfl, rfl, A, _, rfl, rfl, (hsub q).symm⟩⟩
  obtain ⟨segs', bt', e1, e2⟩ := moveMaker_anch hanch (pb := pb) (by
    cases h with
    | idle _ => exact .none rfl
    | run h _ _ _ => exact .some h) h3
  cases e1
  refine ⟨u, segs, bt, h1, h2, e2, h4, ?_⟩
  rintro src dst b rfl rfl rfl
  exact h5 _ rfl

/-- A state whose move is carried out. -/
theorem mkBlock_tracked_move (fw : Firmware) {done : List (PState ℝ)} {pb pb' : Option (Block ℝ)}
    {here : Option (Vec4 ℝ)} (h : Track done pb pb' here) {A B : PState ℝ} {rest : List (PState ℝ)}
    (hA : done.getLast? = some A) (hr : Executes A B) (ha : 0 < B.pAcc) (hj : 0 ≤ B.jerk) :
    ∃ b b' : Block ℝ, ∃ src dst, src = here.getD A.position ∧ dst = src.add (B.position.sub A.position) ∧
      mkBlock fw (some A) B rest pb = .ok b ∧ b.segments ≠ [] ∧ Anch b b' ∧
      (here = none → b.stateA.map PState.position = b'.stateA.map PState.position) ∧ Good b' ∧ b'.ExitR ∧
      (∀ c ∈ pb', Link c b') ∧ (pb' = none → b'.t0 = 0 ∧ b'.nIn = 0 ∧ b'.stateB.pause = none) ∧
      b.stateA = some A ∧ (b.stateB = B ∧ b.isExtruding = decide (0 < B.speed ∧ A.position.e < B.position.e)) ∧
      b'.stateA = some { A with position := src } ∧ b'.stateB = { B with position := dst } ∧ (junctionVel fw (some A) B rest = 0 → b'.nOut = 0) ∧
      (junctionVel fw (some A) B rest = 0 → (∀ c ∈ pb', c.nOut = 0) → b'.AtRest) ∧
      Track (done ++ [B]) (some b) (some b') (some dst) ∧
      ∃ u, b'.direction = some u ∧ b'.jd = some (u.mul (junctionVel fw (some A) B rest)) := by
  obtain ⟨hp, hne, hs⟩ := hr
  obtain ⟨u, segs, bt, h1, h2, h3, h4, h5⟩ := moveMaker_tracked h hne hs ha
    (c17_junction_speed fw (some A) B rest hs.le hj)
  obtain ⟨g1, g2, g3, g4, g5, g6⟩ := h5 _ _ _ rfl rfl rfl
  have hB : (({ B with position := (here.getD A.position).add (B.position.sub A.position), pause := none } : PState ℝ)) =
      { B with position := (here.getD A.position).add (B.position.sub A.position) } := by rw [hp]
  rw [hB] at g1 g2 g3 g4 g5 g6
  refine ⟨⟨some A, B, some u, A.position.isExtrudingTo B.position, some (u.mul (junctionVel fw (some A) B rest)), segs, some bt⟩,
    _, _, _, rfl, rfl, ?_, h4, ?_, ?_, g1, g5, g2, fun hn => ⟨(g3 hn).1, (g3 hn).2, hp⟩, rfl, ⟨rfl, ?_⟩, rfl, rfl, g4, g6, ?_, u, rfl, rfl⟩
  · unfold mkBlock
    simp only [targetVel, h2, if_true, h1, h3, bind, Except.bind, hp]
    rfl
  · refine ⟨rfl, rfl, rfl, Or.inr ⟨rfl, rfl, rfl, A, _, rfl, rfl, ?_⟩⟩
    ext <;> simp [Vec4.add, Vec4.sub]
  · rintro rfl
    rfl
  · simp [isExtrudingTo, hs]
  · exact .run (c' := ⟨_, { B with position := _ }, _, _, _, segs, _⟩) rfl g1 g5
      (started_concat.2 (Or.inr ⟨A, hA, hp, hne, hs⟩))

/-- The dwell segment. -/
theorem dwell_tracked {c c' : Block ℝ} (h : c.segments = c'.segments) (hg : Good c') {p : ℝ} :
    (0 ≤ p → ∃ t, t = c'.t1 ∧ dwellSegment (some c) p =
      .ok ⟨t, t + p, c'.stateB.position, Vec4.zero, c'.stateB.position, Vec4.zero⟩) ∧
    (p < 0 → dwellSegment (some c) p = .error .valueError) := by
  obtain ⟨A', s, s', _, _, e3, _, _, _, e7, e8, e9, _, e11, _⟩ := hg.facts
  have hl : c.lastSeg = .ok s' := lastSeg_ok (by rw [h]; exact e3)
  constructor
  · intro hp
    have hseg : Segment.make s'.tEnd (s'.tEnd + p) s'.posEnd Vec4.zero s'.posEnd Vec4.zero =
        .ok ⟨s'.tEnd, s'.tEnd + p, s'.posEnd, Vec4.zero, s'.posEnd, Vec4.zero⟩ := by
      have h := make_ok (u := Vec4.zero) (t := s'.tEnd) (t' := s'.tEnd + p) (v := 0) (v' := 0) (l := 0)
        s'.posEnd (by linarith) (by ring)
      rw [Vec4.zero_mul, Vec4.add_zero] at h
      exact h
    refine ⟨s'.tEnd, e7, ?_⟩
    rw [e8] at hseg
    unfold dwellSegment
    simp only [hl, bind, Except.bind, e8, hseg]
  · intro hp
    unfold dwellSegment Segment.make
    simp only [hl, bind, Except.bind]
    rw [if_neg]
    simp only [Segment.selfCheckOk, Bool.and_eq_true, Bool.not_eq_true', decide_eq_false_iff_not, not_and, not_not]
    intro _
    linarith

/-- A state that pauses: what its move is does not matter. -/
theorem mkBlock_pausing (fw : Firmware) {done : List (PState ℝ)} {pb pb' : Option (Block ℝ)}
    {here : Option (Vec4 ℝ)} (h : Track done pb pb' here) {A : Option (PState ℝ)} {B : PState ℝ} {rest : List (PState ℝ)}
    {p : ℝ} (hp : B.pause = some p) (hs : 0 ≤ B.speed) (ha : 0 < B.pAcc) (hj : 0 ≤ B.jerk) :
    ∃ b1 : Block ℝ, b1.stateA = A ∧ (b1.stateB = B ∧
      ∀ A' ∈ A, b1.isExtruding = decide (0 < B.speed ∧ A'.position.e < B.position.e)) ∧ mkBlock fw A B rest pb = (do
      let s ← dwellSegment pb p
      .ok { b1 with jd := some Vec4.zero, segments := [s] }) := by
  by_cases hz : (targetVel A B).notZero = true
  · cases A with
    | none =>
      rw [show targetVel none B = Vec4.zero from rfl, notZero_zero] at hz
      cases hz
    | some A =>
      have hz' : (connectState A B).notZero = true := hz
      have hs' : 0 < B.speed := by
        refine lt_of_le_of_ne hs fun e => ?_
        rw [connectState_slow e.symm, notZero_zero] at hz'
        cases hz'
      have hne : B.position ≠ A.position := by
        intro e
        rw [connectState_self e, notZero_zero] at hz'
        cases hz'
      obtain ⟨u, segs, bt, h1, h2, h3, h4, h5⟩ := moveMaker_tracked h hne hs' ha
        (c17_junction_speed fw (some A) B rest hs hj)
      refine ⟨⟨some A, B, some u, A.position.isExtrudingTo B.position, some (u.mul (junctionVel fw (some A) B rest)), segs,
        some bt⟩, rfl, ⟨rfl, by simp [isExtrudingTo, hs']⟩, ?_⟩
      unfold mkBlock
      simp only [targetVel, h2, if_true, h1, h3, bind, Except.bind, hp]
  · refine ⟨⟨A, B, (targetVel A B).normDir4, false, none, [], none⟩, rfl, ⟨rfl, ?_⟩, ?_⟩
    · rintro A' rfl
      symm
      rw [decide_eq_false_iff_not]
      rintro ⟨h0, he⟩
      obtain ⟨_, _, _, _, h2, _⟩ := moveMaker_tracked h (A := A') (fun e => by rw [e] at he; exact lt_irrefl _ he) h0 ha
        (c17_junction_speed fw (some A') B rest hs hj)
      exact hz h2
    unfold mkBlock
    simp only [hz, if_false, bind, Except.bind, hp, Bool.false_eq_true]

/-- A state that pauses after a move. -/
theorem mkBlock_tracked_dwell (fw : Firmware) {done : List (PState ℝ)} {pb pb' : Option (Block ℝ)}
    {here : Option (Vec4 ℝ)} (h : Track done pb pb' here) {A B : PState ℝ} {rest : List (PState ℝ)}
    {p : ℝ} (hst : Started done) (hp : B.pause = some p) (hp0 : 0 ≤ p) (hs : 0 ≤ B.speed)
    (ha : 0 < B.pAcc) (hj : 0 ≤ B.jerk) :
    ∃ b b' : Block ℝ, ∃ src, here = some src ∧
      mkBlock fw (some A) B rest pb = .ok b ∧ b.segments ≠ [] ∧ Anch b b' ∧ Good b' ∧ b'.ExitR ∧
      (∀ c ∈ pb', Link c b') ∧ pb' ≠ none ∧
      b.stateA = some A ∧ (b.stateB = B ∧ b.isExtruding = decide (0 < B.speed ∧ A.position.e < B.position.e)) ∧
      b'.stateA = some { A with position := src } ∧ b'.stateB = { B with position := src } ∧ b'.nOut = 0 ∧ b'.AtRest ∧
      Track (done ++ [B]) (some b) (some b') (some src) ∧ b'.jd = some Vec4.zero := by
  obtain ⟨b1, e1, e2, e3⟩ := mkBlock_pausing fw h (A := some A) (rest := rest) hp hs ha hj
  cases h with
  | idle h => exact absurd hst h
  | @run c c' h hg he _ =>
    obtain ⟨t, ht, hd⟩ := (dwell_tracked h hg (p := p)).1 hp0
    rw [hd] at e3
    set src := c'.stateB.position with hsrc
    set seg : Segment ℝ := ⟨t, t + p, src, Vec4.zero, src, Vec4.zero⟩ with hseg
    set b' : Block ℝ := ⟨some { A with position := src }, { B with position := src }, none, false, some Vec4.zero, [seg],
      b1.blocktype⟩ with hb'
    have hdb : DwellB b' { A with position := src } p := ⟨rfl, hp, hp0, rfl, rfl, t, rfl⟩
    have hn : b'.nIn = 0 := by simp [Block.nIn, hb', hseg, norm3_zero]
    obtain ⟨_, _, _, _, _, _, _, _, _, _, _, _, _, e11, _⟩ := hg.facts
    refine ⟨_, b', src, rfl, e3, by simp, ⟨rfl, rfl, rfl, Or.inl rfl⟩, Or.inr ⟨_, _, hdb⟩, Or.inl ⟨_, _, hdb⟩, ?_, by simp, e1, ⟨e2.1, e2.2 A rfl⟩,
      rfl, rfl, ?_, Or.inr ⟨_, _, hdb⟩, ?_, rfl⟩
    · intro x hx
      cases hx
      refine ⟨rfl, ?_, Or.inr (Or.inl ⟨_, _, hdb⟩), Or.inl he⟩
      rw [hn]
      exact e11
    · simp [Block.nOut, hb', hseg, norm3_zero]
    · exact .run (c' := b') rfl (Or.inr ⟨_, _, hdb⟩) (Or.inl ⟨_, _, hdb⟩) (started_concat.2 (Or.inl hst))

/-- A state that neither pauses nor runs. -/
theorem mkBlock_tracked_skip (fw : Firmware) {A : Option (PState ℝ)} {B : PState ℝ}
    {rest : List (PState ℝ)} {pb : Option (Block ℝ)} (hp : B.pause = none) (hs : 0 ≤ B.speed)
    (hr : ∀ A' ∈ A, ¬ Executes A' B) :
    ∃ b, mkBlock fw A B rest pb = .ok b ∧ b.segments = [] := by
  have ht : targetVel A B = Vec4.zero := by
    cases A with
    | none => rfl
    | some A =>
      by_cases e : B.position = A.position
      · exact connectState_self e
      · refine connectState_slow (le_antisymm (not_lt.1 fun h => hr A rfl ⟨hp, e, h⟩) hs)
  unfold mkBlock
  simp only [ht, notZero_zero, Bool.false_eq_true, if_false, bind, Except.bind, hp]
  exact ⟨_, rfl, rfl⟩

/-! ## What is carried out -/

theorem executed_none (here : Option (Vec4 ℝ)) (s : PState ℝ) (rest : List (PState ℝ)) :
    executed here none (s :: rest) = executed here (some s) rest := by rw [executed]

theorem executed_skip {here : Option (Vec4 ℝ)} {A : Option (PState ℝ)} {s : PState ℝ} {rest : List (PState ℝ)}
    (hp : s.pause = none) (hr : ∀ A' ∈ A, ¬ Executes A' s) :
    executed here A (s :: rest) = executed here (some s) rest := by
  cases A with
  | none => exact executed_none here s rest
  | some A => 
    rw [executed]
    simp only [hp, ne_eq, not_true_eq_false, if_false, if_neg (hr A rfl)]

theorem executed_run {here : Option (Vec4 ℝ)} {A s : PState ℝ} {rest : List (PState ℝ)} (hr : Executes A s)
    {src dst : Vec4 ℝ} (h1 : src = here.getD A.position) (h2 : dst = src.add (s.position.sub A.position)) :
    executed here (some A) (s :: rest) = ⟨A, s, src, dst⟩ :: executed (some dst) (some s) rest := by
  subst h1
  subst h2
  rw [executed]
  simp only [hr.1, ne_eq, not_true_eq_false, if_false, if_pos hr]

theorem executed_pause {src : Vec4 ℝ} {A s : PState ℝ} {rest : List (PState ℝ)} (hp : s.pause ≠ none) :
    executed (some src) (some A) (s :: rest) = ⟨A, s, src, src⟩ :: executed (some src) (some s) rest := by
  rw [executed]
  simp only [if_pos hp, Option.getD_some]

theorem executed_stop : ∀ {rest : List (PState ℝ)} {here : Option (Vec4 ℝ)} {B : PState ℝ},
    (∀ s ∈ rest, 0 ≤ s.speed) → executed here (some B) rest = [] → velNext B rest = Vec4.zero := by
  intro rest
  induction rest with
  | nil => intro here B _ _; exact connectState_self rfl
  | cons s rest ih =>
    intro here B hs h
    have hp : s.pause = none := by
      by_contra hp
      rw [executed] at h
      simp only [if_pos hp] at h
      cases h
    have hr : ¬ Executes B s := by
      intro hr
      rw [executed_run hr rfl rfl] at h
      cases h
    rw [executed_skip hp (by simpa using hr)] at h
    by_cases e : s.position = B.position
    · rw [velNext_idle rest e]
      exact ih (fun x hx => hs x (by simp [hx])) h
    · have hz : s.speed = 0 := le_antisymm (not_lt.1 fun hx => hr ⟨hp, e, hx⟩) (hs s (by simp))
      have : nextTarget B (s :: rest) = s := by
        rw [nextTarget, if_pos]
        right
        refine lt_of_le_of_ne (norm4_nonneg _) (Ne.symm fun h0 => e ?_)
        exact (Vec4.sub_eq_zero.1 (norm4_eq_zero.1 h0)).symm
      rw [velNext, this]
      exact connectState_slow hz

/-- A block of the plan and the step it belongs to. -/
def Of (b : Block ℝ) (x : Step) : Prop :=
  b.stateA = some x.A ∧ b.stateB = x.B ∧
    b.isExtruding = decide (0 < x.B.speed ∧ x.A.position.e < x.B.position.e)

/-- An anchored block and the step it belongs to. -/
def OfA (b : Block ℝ) (x : Step) : Prop :=
  b.stateA = some { x.A with position := x.src } ∧ b.stateB = { x.B with position := x.dst }

theorem tasks_none (here : Option (Vec4 ℝ)) (s : PState ℝ) (rest : List (PState ℝ)) :
    tasks here none (s :: rest) = tasks here (some s) rest := by rw [tasks]

theorem tasks_skip {here : Option (Vec4 ℝ)} {A : Option (PState ℝ)} {s : PState ℝ} {rest : List (PState ℝ)}
    (hp : s.pause = none) (hr : ∀ A' ∈ A, ¬ Executes A' s) :
    tasks here A (s :: rest) = tasks here (some s) rest := by
  cases A with
  | none => exact tasks_none here s rest
  | some A =>
    rw [tasks]
    simp only [hp, ne_eq, not_true_eq_false, if_false, if_neg (hr A rfl)]

theorem tasks_run {here : Option (Vec4 ℝ)} {A s : PState ℝ} {rest : List (PState ℝ)} (hr : Executes A s)
    {src dst : Vec4 ℝ} (h1 : src = here.getD A.position) (h2 : dst = src.add (s.position.sub A.position)) :
    tasks here (some A) (s :: rest) = (⟨A, s, src, dst⟩, rest) :: tasks (some dst) (some s) rest := by
  subst h1
  subst h2
  rw [tasks]
  simp only [hr.1, ne_eq, not_true_eq_false, if_false, if_pos hr]

theorem tasks_pause {src : Vec4 ℝ} {A s : PState ℝ} {rest : List (PState ℝ)} (hp : s.pause ≠ none) :
    tasks (some src) (some A) (s :: rest) = (⟨A, s, src, src⟩, rest) :: tasks (some src) (some s) rest := by
  rw [tasks]
  simp only [if_pos hp, Option.getD_some]

/-- An anchored block, the step it belongs to and the states behind it. -/
def Does (fw : Firmware) (b : Block ℝ) (x : Step × List (PState ℝ)) : Prop :=
  OfA b x.1 ∧ (x.1.B.pause = none → ∃ u, b.direction = some u ∧
    b.jd = some (u.mul (junctionVel fw (some x.1.A) x.1.B x.2))) ∧ (x.1.B.pause ≠ none → b.jd = some Vec4.zero)

/-- Planning the blocks of any program whose pauses follow moves. -/
theorem genBlocks_tracked (fw : Firmware) {states : List (PState ℝ)} (hsens : Sensible states)
    (hpf : PausesFollow states) :
    ∀ (rest done : List (PState ℝ)) (pb pb' : Option (Block ℝ)) (here : Option (Vec4 ℝ)), states = done ++ rest →
    Track done pb pb' here →
    ∃ bs bs', genBlocks fw done.getLast? pb rest = .ok bs ∧ List.Forall₂ Anch bs bs' ∧
      (∀ b ∈ bs', Good b ∧ b.ExitR) ∧ (pb'.toList ++ bs').IsChain Link ∧
      (pb' = none → ∀ f ∈ bs'.head?, f.t0 = 0 ∧ f.nIn = 0 ∧ f.stateB.pause = none) ∧
      (here = none → ∀ f ∈ bs.head?, ∀ f' ∈ bs'.head?, f.stateA.map PState.position = f'.stateA.map PState.position) ∧
      List.Forall₂ Of bs (executed here done.getLast? rest) ∧ List.Forall₂ OfA bs' (executed here done.getLast? rest) ∧
      (fw ≠ .marlinJerk → ∀ l ∈ bs'.getLast?, l.nOut = 0) ∧
      ((∀ (A : Option (PState ℝ)) B l, junctionVel fw A B l = 0) → (∀ c ∈ pb', c.nOut = 0) → ∀ b ∈ bs', b.AtRest) ∧
      List.Forall₂ (Does fw) bs' (tasks here done.getLast? rest) ∧
      (fw ≠ .marlinJerk → (∀ c ∈ pb', ∀ A ∈ done.getLast?, (velNext A rest).norm3 = 0 → c.nOut = 0) →
        ∀ b ∈ bs', ∀ v ∈ b.feed, v = Vec4.zero) := by
  intro rest
  induction rest with
  | nil =>
    intro done pb pb' here _ ht
    have he : executed here done.getLast? [] = [] := by rw [executed]
    refine ⟨[], [], rfl, .nil, by simp, ?_, by simp, by simp, by rw [he]; exact .nil, by rw [he]; exact .nil, by simp,
      by simp, by rw [tasks]; exact .nil, by simp⟩
    cases pb' <;> simp
  | cons s rest ih =>
    intro done pb pb' here hst ht
    have hmem : s ∈ states := by rw [hst]; simp
    have hst' : states = (done ++ [s]) ++ rest := by rw [hst]; simp
    have hlast : (done ++ [s]).getLast? = some s := by simp
    by_cases hact : s.pause ≠ none ∨ ∃ A, done.getLast? = some A ∧ Executes A s
    · have hblock : ∃ b b' x, mkBlock fw done.getLast? s rest pb = .ok b ∧ b.segments ≠ [] ∧ Anch b b' ∧
          (here = none → b.stateA.map PState.position = b'.stateA.map PState.position) ∧ (Good b' ∧ b'.ExitR) ∧
          (∀ c ∈ pb', Link c b') ∧ (pb' = none → b'.t0 = 0 ∧ b'.nIn = 0 ∧ b'.stateB.pause = none) ∧
          Of b x ∧ OfA b' x ∧ (junctionVel fw done.getLast? s rest = 0 → b'.nOut = 0) ∧
          (junctionVel fw done.getLast? s rest = 0 → (∀ c ∈ pb', c.nOut = 0) → b'.AtRest) ∧
          Track (done ++ [s]) (some b) (some b') (some x.dst) ∧
          executed here done.getLast? (s :: rest) = x :: executed (some x.dst) (some s) rest ∧ Does fw b' (x, rest) ∧
          tasks here done.getLast? (s :: rest) = (x, rest) :: tasks (some x.dst) (some s) rest ∧ x.B = s ∧
          (s.pause = none → done.getLast? = some x.A ∧ Executes x.A s ∧ x.dst = x.src.add (s.position.sub x.A.position)) := by
        by_cases hp : s.pause = none
        · obtain ⟨A, hA, hr⟩ := hact.resolve_left (by simpa using hp)
          obtain ⟨b, b', src, dst, h1, h2, h3, h4, h5, h6, h7, h8, h9, h10, h11, h12, h13, h14, h15, h16, h17, h18⟩ :=
            mkBlock_tracked_move fw ht (rest := rest) hA hr (hsens.acc s hmem) (hsens.jerk s hmem)
          rw [hA]
          exact ⟨b, b', ⟨A, s, src, dst⟩, h3, h4, h5, h6, ⟨h7, h8⟩, h9, h10, ⟨h11, h12⟩, ⟨h13, h14⟩, h15, h16, h17,
            executed_run hr h1 h2, ⟨⟨h13, h14⟩, fun _ => h18, fun h => absurd hp h⟩, tasks_run hr h1 h2, rfl, fun _ => ⟨rfl, hr, h2⟩⟩
        · obtain ⟨p, hp'⟩ := Option.ne_none_iff_exists'.1 hp
          obtain ⟨hp0, hstart⟩ := hpf done s rest hst p hp'
          obtain ⟨A, hA⟩ : ∃ A, done.getLast? = some A := by
            cases hd : done.getLast? with
            | none =>
              rw [List.getLast?_eq_none_iff] at hd
              obtain ⟨l, A, B, r, hl, _⟩ := hstart
              rw [hd] at hl
              simp at hl
            | some A => exact ⟨A, rfl⟩
          obtain ⟨b, b', src, h1, h2, h3, h4, h5, h6, h7, h8, h9, h10, h11, h12, h13, h14, h15, h16⟩ :=
            mkBlock_tracked_dwell fw ht (A := A) (rest := rest) hstart hp' hp0 (hsens.speed s hmem) (hsens.acc s hmem)
              (hsens.jerk s hmem)
          rw [hA]
          subst h1
          exact ⟨b, b', ⟨A, s, src, src⟩, h2, h3, h4, by simp, ⟨h5, h6⟩, h7, fun h => absurd h h8, ⟨h9, h10⟩,
            ⟨h11, h12⟩, fun _ => h13, fun _ _ => h14, h15, executed_pause hp,
            ⟨⟨h11, h12⟩, fun h => absurd h hp, fun _ => h16⟩, tasks_pause hp, rfl, fun h => absurd h hp⟩
      obtain ⟨b, b', x, h1, h2, h3, h4, h5, h6, h7, h8, h9, h10, h11, h12, h13, h14, h15, h16, h17⟩ := hblock
      obtain ⟨bs, bs', r1, r2, r3, r4, _, _, r7, r8, r9, r10, r11, r12⟩ := ih (done ++ [s]) _ _ _ hst' h12
      rw [hlast] at r1 r7 r8 r11
      refine ⟨b :: bs, b' :: bs', ?_, .cons h3 r2, ?_, ?_, ?_, ?_, by rw [h13]; exact .cons h8 r7,
        by rw [h13]; exact .cons h9 r8, ?_, ?_, by rw [h15]; exact .cons h14 r11, ?_⟩
      · unfold genBlocks
        simp only [h1, bind, Except.bind, List.isEmpty_iff, h2, if_false, r1]
      · intro c hc
        rcases List.mem_cons.1 hc with rfl | hc
        · exact h5
        · exact r3 c hc
      · cases pb' with
        | none => simpa using r4
        | some c =>
          simp only [Option.toList_some, List.singleton_append, List.isChain_cons_cons]
          exact ⟨h6 c rfl, by simpa using r4⟩
      · intro hn f hf
        simp only [List.head?_cons, Option.mem_def, Option.some.injEq] at hf
        subst hf
        exact h7 hn
      · intro hn f hf f' hf'
        simp only [List.head?_cons, Option.mem_def, Option.some.injEq] at hf hf'
        subst hf
        subst hf'
        exact h4 hn
      · intro hfw l hl
        cases bs' with
        | nil =>
          simp only [List.getLast?_singleton, Option.mem_def, Option.some.injEq] at hl
          subst hl
          apply h10
          apply junctionVel_stop hfw _ _ _ (hsens.jerk s hmem)
          have he : executed (some x.dst) (some s) rest = [] := by
            cases hx : executed (some x.dst) (some s) rest with
            | nil => rfl
            | cons _ _ =>
              rw [hx] at r8
              cases r8
          rw [executed_stop (fun y hy => hsens.speed y (by rw [hst]; simp [hy])) he, norm3_zero]
        | cons y bs' => exact r9 hfw l (by simpa using hl)
      · intro h0 hpb c hc
        have hr := h11 (h0 _ _ _) hpb
        rcases List.mem_cons.1 hc with rfl | hc
        · exact hr
        · refine r10 h0 ?_ c hc
          intro c hc
          cases hc
          exact hr.nOut
      · intro hfw hpb c hc v hv
        rcases List.mem_cons.1 hc with rfl | hc
        · have hstop : c.AtRest := by
            by_cases hp : s.pause = none
            · obtain ⟨hA, hex, hdst⟩ := h17 hp
              have hz : (connectState x.A s).norm3 = 0 := by
                rcases h5.1 with ⟨A', u', s0, s1, hm⟩ | ⟨A', p, hd⟩
                · have hA' := hm.hA
                  rw [h9.1] at hA'
                  cases hA'
                  have hmv := connectState_moved x.A s x.src s.pause
                  rw [← hdst] at hmv
                  rw [← hmv]
                  have hB := h9.2
                  rw [h16] at hB
                  rw [← hB, connectState_norm3 _ c.stateB hm.hs.le, if_pos]
                  obtain ⟨hu, _, _, h4, _⟩ := hm.toHdr.unit
                  apply h4.1
                  by_contra hx
                  have := hu.norms.1
                  rw [Block.feed_none hm.hdir (by simpa [hx] using this)] at hv
                  cases hv
                · have := hd.hpause
                  rw [h9.2, h16] at this
                  rw [hp] at this
                  cases this
              refine h11 (junctionVel_eonly fw _ s rest (hsens.jerk s hmem) (by rw [hA]; exact hz)) ?_
              intro c' hc'
              refine hpb c' hc' x.A hA ?_
              rw [velNext, nextTarget]
              split
              · exact hz
              · rename_i hx
                exfalso
                apply hx
                right
                refine lt_of_le_of_ne (norm4_nonneg _) (Ne.symm fun h0 => ?_)
                exact hex.2.1 (Vec4.sub_eq_zero.1 (norm4_eq_zero.1 h0)).symm
            · rcases h5.1 with ⟨A', u', s0, s1, hm⟩ | hd
              · have := hm.hpause
                rw [h9.2, h16] at this
                exact absurd this hp
              · exact Or.inr hd
          unfold Block.feed at hv
          split at hv
          · rcases hstop with ⟨A', u', hm⟩ | ⟨A', p, hd⟩
            · obtain ⟨q, _, e1, _, _, _, e5, _⟩ := hm.ends
              rw [e1] at hv
              cases hv
              rw [e5]
              exact Vec4.mul_zero _
            · obtain ⟨t, ht⟩ := hd.hseg
              rw [ht] at hv
              cases hv
              rfl
          · cases hv
        · refine r12 hfw ?_ c hc v hv
          intro c' hc' A' hA' hz
          cases hc'
          rw [hlast] at hA'
          cases hA'
          exact h10 (junctionVel_stop hfw _ _ _ (hsens.jerk s hmem) hz)
    · push Not at hact
      obtain ⟨hp, hr⟩ := hact
      obtain ⟨b, h1, h2⟩ := mkBlock_tracked_skip fw (rest := rest) (pb := pb) hp (hsens.speed s hmem) hr
      have ht' : Track (done ++ [s]) pb pb' here := by
        cases ht with
        | idle h =>
          refine .idle fun hx => ?_
          rcases started_concat.1 hx with hx | ⟨A, hA, hx⟩
          · exact h hx
          · exact hr A hA hx
        | run h hg he hs => exact .run h hg he (started_concat.2 (Or.inl hs))
      obtain ⟨bs, bs', r1, r2, r3, r4, r5, r6, r7, r8, r9, r10, r11, r12⟩ := ih (done ++ [s]) _ _ _ hst' ht'
      rw [hlast] at r1 r7 r8 r11
      refine ⟨bs, bs', ?_, r2, r3, r4, r5, r6, by rw [executed_skip hp hr]; exact r7, by rw [executed_skip hp hr]; exact r8,
        r9, r10, by rw [tasks_skip hp hr]; exact r11, ?_⟩
      · unfold genBlocks
        simp only [h1, bind, Except.bind, List.isEmpty_iff, h2, if_true, r1]
      · intro hfw hpb
        refine r12 hfw ?_
        intro c hc A hA hz
        rw [hlast] at hA
        cases hA
        cases hd : done.getLast? with
        | none =>
          exfalso
          rw [List.getLast?_eq_none_iff] at hd
          cases ht with
          | idle _ => cases hc
          | run _ _ _ hs =>
            obtain ⟨l, A, B, r, hl, _⟩ := hs
            rw [hd] at hl
            simp at hl
        | some A =>
          refine hpb c hc A hd ?_
          by_cases hpos : s.position = A.position
          · rw [velNext_idle rest hpos]
            exact hz
          · have hs0 : s.speed = 0 := by
              refine le_antisymm (not_lt.1 fun h0 => hr A hd ⟨hp, hpos, h0⟩) (hsens.speed s hmem)
            have hn : nextTarget A (s :: rest) = s := by
              rw [nextTarget, if_pos]
              right
              refine lt_of_le_of_ne (norm4_nonneg _) (Ne.symm fun h0 => ?_)
              exact hpos (Vec4.sub_eq_zero.1 (norm4_eq_zero.1 h0)).symm
            rw [velNext, hn, connectState_norm3 A s hs0.ge, hs0, ite_self]

/-- The first pause that does not follow a move, or is negative, ends the planning. -/
theorem genBlocks_error (fw : Firmware) {states : List (PState ℝ)} (hsens : Sensible states) :
    ∀ (rest done : List (PState ℝ)) (s : PState ℝ) (post : List (PState ℝ)) (pb pb' : Option (Block ℝ))
      (here : Option (Vec4 ℝ)), states = done ++ rest ++ s :: post → Track done pb pb' here →
    (∀ pre x post', done ++ rest = pre ++ x :: post' → ∀ p ∈ x.pause, 0 ≤ p ∧ Started pre) →
    ∀ p, s.pause = some p →
    (¬ Started (done ++ rest) → genBlocks fw done.getLast? pb (rest ++ s :: post) = .error .attributeError) ∧
    (Started (done ++ rest) → p < 0 → genBlocks fw done.getLast? pb (rest ++ s :: post) = .error .valueError) := by
  intro rest
  induction rest with
  | nil =>
    intro done s post pb pb' here hst ht _ p hp
    have hmem : s ∈ states := by rw [hst]; simp
    obtain ⟨b1, e1, e2, e3⟩ := mkBlock_pausing fw ht (A := done.getLast?) (rest := post) hp (hsens.speed s hmem)
      (hsens.acc s hmem) (hsens.jerk s hmem)
    rw [List.append_nil, List.nil_append]
    constructor
    · intro hn
      cases ht with
      | idle h =>
        unfold genBlocks
        rw [e3]
        rfl
      | run h hg he hs => exact absurd hs hn
    · intro hs hp0
      cases ht with
      | idle h => exact absurd hs h
      | run h hg he hs =>
        unfold genBlocks
        rw [e3, (dwell_tracked h hg).2 hp0]
        rfl
  | cons x rest ih =>
    intro done s post pb pb' here hst ht hpf p hp
    have hmem : x ∈ states := by rw [hst]; simp
    have hlast : (done ++ [x]).getLast? = some x := by simp
    have happ : done ++ x :: rest = (done ++ [x]) ++ rest := by simp
    by_cases hact : x.pause ≠ none ∨ ∃ A, done.getLast? = some A ∧ Executes A x
    · have hblock : ∃ b b' h', mkBlock fw done.getLast? x (rest ++ s :: post) pb = .ok b ∧ b.segments ≠ [] ∧
          Track (done ++ [x]) (some b) (some b') h' := by
        by_cases hpx : x.pause = none
        · obtain ⟨A, hA, hr⟩ := hact.resolve_left (by simpa using hpx)
          obtain ⟨b, b', src, dst, h1, h2, h3, h4, h5, h6, h7, h8, h9, h10, h11, h12, h13, h14, h15, h16, h17, h18⟩ :=
            mkBlock_tracked_move fw ht (rest := rest ++ s :: post) hA hr (hsens.acc x hmem) (hsens.jerk x hmem)
          rw [hA]
          exact ⟨b, b', _, h3, h4, h17⟩
        · obtain ⟨q, hq⟩ := Option.ne_none_iff_exists'.1 hpx
          obtain ⟨hp0, hstart⟩ := hpf done x rest rfl q hq
          obtain ⟨A, hA⟩ : ∃ A, done.getLast? = some A := by
            cases hd : done.getLast? with
            | none =>
              rw [List.getLast?_eq_none_iff] at hd
              obtain ⟨l, A, B, r, hl, _⟩ := hstart
              rw [hd] at hl
              simp at hl
            | some A => exact ⟨A, rfl⟩
          obtain ⟨b, b', src, h1, h2, h3, h4, h5, h6, h7, h8, h9, h10, h11, h12, h13, h14, h15, _⟩ :=
            mkBlock_tracked_dwell fw ht (A := A) (rest := rest ++ s :: post) hstart hq hp0 (hsens.speed x hmem)
              (hsens.acc x hmem) (hsens.jerk x hmem)
          rw [hA]
          exact ⟨b, b', _, h2, h3, h15⟩
      obtain ⟨b, b', h', h1, h2, h3⟩ := hblock
      obtain ⟨i1, i2⟩ := ih (done ++ [x]) s post _ _ _ (by rw [hst, happ]) h3 (by rw [← happ]; exact hpf) p hp
      rw [← happ, hlast] at i1 i2
      constructor
      · intro hn
        rw [List.cons_append, genBlocks]
        simp only [h1, bind, Except.bind, List.isEmpty_iff, h2, if_false, i1 hn]
      · intro hs hp0
        rw [List.cons_append, genBlocks]
        simp only [h1, bind, Except.bind, List.isEmpty_iff, h2, if_false, i2 hs hp0]
    · push Not at hact
      obtain ⟨hpx, hr⟩ := hact
      obtain ⟨b, h1, h2⟩ := mkBlock_tracked_skip fw (rest := rest ++ s :: post) (pb := pb) hpx (hsens.speed x hmem) hr
      have ht' : Track (done ++ [x]) pb pb' here := by
        cases ht with
        | idle h =>
          refine .idle fun hx => ?_
          rcases started_concat.1 hx with hx | ⟨A, hA, hx⟩
          · exact h hx
          · exact hr A hA hx
        | run h hg he hs => exact .run h hg he (started_concat.2 (Or.inl hs))
      obtain ⟨i1, i2⟩ := ih (done ++ [x]) s post _ _ _ (by rw [hst, happ]) ht' (by rw [← happ]; exact hpf) p hp
      rw [← happ, hlast] at i1 i2
      constructor
      · intro hn
        rw [List.cons_append, genBlocks]
        simp only [h1, bind, Except.bind, List.isEmpty_iff, h2, if_true, i1 hn]
      · intro hs hp0
        rw [List.cons_append, genBlocks]
        simp only [h1, bind, Except.bind, List.isEmpty_iff, h2, if_true, i2 hs hp0]

/-- Everything about planning a program whose pauses follow moves. -/
theorem plan_tracked (fw : Firmware) {states : List (PState ℝ)} (hsens : Sensible states) (hpf : PausesFollow states) :
    ∃ bs bs', plan fw states = .ok bs ∧ List.Forall₂ Anch bs bs' ∧ (∀ b ∈ bs', Good b) ∧ bs'.IsChain LinkT ∧
      (∀ f ∈ bs'.head?, f.t0 = 0 ∧ f.nIn = 0 ∧ f.stateB.pause = none) ∧
      List.Forall₂ Of bs (executed none none states) ∧ List.Forall₂ OfA bs' (executed none none states) ∧
      (fw ≠ .marlinJerk → ∀ l ∈ bs'.getLast?, l.nOut = 0) ∧
      ((∀ (A : Option (PState ℝ)) B l, junctionVel fw A B l = 0) → ∀ b ∈ bs', b.AtRest) ∧
      List.Forall₂ (Does fw) bs' (tasks none none states) ∧ bs'.IsChain LinkO ∧ (∀ l ∈ bs'.getLast?, l.ExitR) ∧
      (fw ≠ .marlinJerk → ∀ b ∈ bs', ∀ v ∈ b.feed, v = Vec4.zero) := by
  have hns : ¬ Started ([] : List (PState ℝ)) := by
    rintro ⟨l, A, B, r, h, _⟩
    simp at h
  obtain ⟨bs₀, bs₀', g1, g2, g3, g4, g5, g6, g7, g8, g9, g10, g11, g12⟩ :=
    genBlocks_tracked fw hsens hpf states [] none none none rfl (.idle hns)
  simp only [Option.toList_none, List.nil_append, List.getLast?_nil] at g1 g4 g7 g8 g11
  unfold plan
  rw [g1]
  simp only [bind, Except.bind]
  cases bs₀' with
  | nil =>
    cases g2
    exact ⟨[], [], rfl, .nil, by simp, .nil, by simp, g7, g8, by simp, by simp, g11, .nil, by simp, by simp⟩
  | cons b' tl' =>
    cases bs₀ with
    | nil => cases g2
    | cons b tl =>
    cases g2 with
    | cons hb htl =>
    have hz : Zip [] b' := ⟨by simpa using (g3 b' (by simp)).1, List.isChain_singleton _, by
      intro f hf
      simp only [List.getLast?_singleton, Option.mem_def, Option.some.injEq] at hf
      subst hf
      exact g5 rfl b' (by simp)⟩
    obtain ⟨out', o1, o2, o3, o4, o5, o6⟩ := correctFrom_spec tl' [] b' hz (fun c hc => (g3 c (by simp [hc])).1) g4
    obtain ⟨out, q1, q2, q3⟩ := correctFrom_anch tl tl' [] [] b b' out' (.one hb (g6 rfl b rfl b' rfl)) htl o1
    have hkey : out'.map Block.key = (b' :: tl').map Block.key := by simpa using o4
    have hhdr : out.map Block.hdr = (b :: tl).map Block.hdr := by simpa using q3
    have tr : ∀ {l l' : List (Block ℝ)} {xs : List Step}, l.map Block.hdr = l'.map Block.hdr →
        List.Forall₂ Of l' xs → List.Forall₂ Of l xs := by
      intro l
      induction l with
      | nil =>
        intro l' xs h h'
        cases l' with
        | nil => exact h'
        | cons _ _ => simp at h
      | cons y l ih =>
        intro l' xs h h'
        cases l' with
        | nil => simp at h
        | cons y' l' =>
          cases h' with
          | cons h1 h2 =>
          simp only [List.map_cons, List.cons.injEq] at h
          refine .cons ?_ (ih h.2 h2)
          have h := h.1
          simp only [Block.hdr, Prod.mk.injEq] at h
          unfold Of at h1 ⊢
          rw [h.1, h.2.1, h.2.2.2.1]
          exact h1
    have tr' : ∀ {l l' : List (Block ℝ)} {xs : List Step}, l.map Block.key = l'.map Block.key →
        List.Forall₂ OfA l' xs → List.Forall₂ OfA l xs := by
      intro l
      induction l with
      | nil =>
        intro l' xs h h'
        cases l' with
        | nil => exact h'
        | cons _ _ => simp at h
      | cons y l ih =>
        intro l' xs h h'
        cases l' with
        | nil => simp at h
        | cons y' l' =>
          cases h' with
          | cons h1 h2 =>
          simp only [List.map_cons, List.cons.injEq] at h
          refine .cons ?_ (ih h.2 h2)
          have h := h.1
          simp only [Block.key, Prod.mk.injEq] at h
          unfold OfA at h1 ⊢
          rw [h.1, h.2.1]
          exact h1
    have trD : ∀ {l l' : List (Block ℝ)} {xs : List (Step × List (PState ℝ))}, l.map Block.key = l'.map Block.key →
        List.Forall₂ (Does fw) l' xs → List.Forall₂ (Does fw) l xs := by
      intro l
      induction l with
      | nil =>
        intro l' xs h h'
        cases l' with
        | nil => exact h'
        | cons _ _ => simp at h
      | cons y l ih =>
        intro l' xs h h'
        cases l' with
        | nil => simp at h
        | cons y' l' =>
          cases h' with
          | cons h1 h2 =>
          simp only [List.map_cons, List.cons.injEq] at h
          refine .cons ?_ (ih h.2 h2)
          have h := h.1
          simp only [Block.key, Prod.mk.injEq] at h
          unfold Does OfA at h1 ⊢
          rw [h.1, h.2.1, h.2.2.1, h.2.2.2.2.1]
          exact h1
    refine ⟨out, out', q1, q2, o2, o3.imp fun _ _ h => h.1, o5, tr hhdr g7, tr' hkey g8, ?_, ?_, trD hkey g11,
      o3.imp fun _ _ h => h.2, ?_, ?_⟩
    · intro hfw l hl
      cases hb : (b' :: tl').getLast? with
      | none => simp at hb
      | some l' =>
        rw [(o6 l hl l' hb).1]
        exact g9 hfw l' hb
    · intro h0
      have hrest := g10 h0 (by simp)
      exact correctFrom_rest (hrest b' (by simp)) (by simp) (fun c hc => hrest c (by simp [hc])) o1
    · intro l hl
      cases hb : (b' :: tl').getLast? with
      | none => simp at hb
      | some l' => exact (o6 l hl l' hb).2 (g3 l' (List.mem_of_getLast? hb)).2
    · intro hfw c hc v hv
      have hk : c.key ∈ (b' :: tl').map Block.key := by
        rw [← hkey]
        exact List.mem_map_of_mem hc
      obtain ⟨c', hc', he⟩ := List.mem_map.1 hk
      refine g12 hfw (by simp) c' hc' v ?_
      have : c'.feed = c.feed := congrArg (fun k => k.2.2.2.2.2) he
      rw [this]
      exact hv

end PyGCD
