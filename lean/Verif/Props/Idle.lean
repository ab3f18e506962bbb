import Verif.Spec.Idle
import Verif.Props.FileTime

/-!
# Property C128: lines that neither move nor wait
-/

set_option linter.unusedSectionVars false
set_option linter.unusedSimpArgs false

namespace PyGCD
open Vec4 Spec

variable {fw : Firmware} {l l' : List (PState ℝ)}

/-- What of a state matters for the motion. -/
def PState.gist (s : PState ℝ) : PState ℝ := { s with layer := none }

/-- What of a block matters for the motion. -/
def Block.gist (b : Block ℝ) : Block ℝ :=
  { b with
    stateA := b.stateA.map fun A => ⟨A.position, 0, 0, 0, none, none⟩
    stateB := b.stateB.gist }

theorem Spec.Alike.gist {s s' : PState ℝ} (h : Alike s s') : s.gist = s'.gist := by
  obtain ⟨h1, h2, h3, h4, h5⟩ := h
  simp [PState.gist, h1, h2, h3, h4, h5]

theorem Block.gist_last (b : Block ℝ) : b.gist.lastSeg = b.lastSeg := rfl

theorem Block.gist_first (b : Block ℝ) : b.gist.firstSeg = b.firstSeg := rfl

theorem moveMaker_gist (b : Block ℝ) (pb : Option (Block ℝ)) (v : ℝ) :
    moveMaker b.gist (pb.map Block.gist) v = (moveMaker b pb v).map Block.gist := by
  obtain ⟨A, B, u, ext, jd, segs, ty⟩ := b
  cases A with
  | none => cases u <;> rfl
  | some A =>
    cases u with
    | none => rfl
    | some u =>
      simp only [moveMaker, Block.gist, Option.map_some, bind, Except.bind]
      cases pb with
      | none =>
        simp only [Option.map_none]
        have : planMove (Segment.initial A.position) u B.gist (moveDistance ⟨A.position, 0, 0, 0, none, none⟩ B.gist).1
            (moveDistance ⟨A.position, 0, 0, 0, none, none⟩ B.gist).2 v =
            planMove (Segment.initial A.position) u B (moveDistance A B).1 (moveDistance A B).2 v := rfl
        rw [this]
        cases planMove (Segment.initial A.position) u B (moveDistance A B).1 (moveDistance A B).2 v <;> rfl
      | some pb =>
        simp only [Option.map_some]
        rw [Block.gist_last]
        cases pb.lastSeg with
        | error e => rfl
        | ok prev =>
          simp only
          have : planMove prev u B.gist (moveDistance ⟨A.position, 0, 0, 0, none, none⟩ B.gist).1
              (moveDistance ⟨A.position, 0, 0, 0, none, none⟩ B.gist).2 v =
              planMove prev u B (moveDistance A B).1 (moveDistance A B).2 v := rfl
          rw [this]
          cases planMove prev u B (moveDistance A B).1 (moveDistance A B).2 v <;> rfl

/-- The parts of a correction. -/
def gists (r : List (Block ℝ) × Block ℝ × Option (Block ℝ)) : List (Block ℝ) × Block ℝ × Option (Block ℝ) :=
  (r.1.map Block.gist, r.2.1.gist, r.2.2.map Block.gist)

theorem selfCorrection_gist : ∀ (rp : List (Block ℝ)) (b : Block ℝ) (nx : Option (Block ℝ)),
    selfCorrection (rp.map Block.gist) b.gist (nx.map Block.gist) = (selfCorrection rp b nx).map gists := by
  have step : ∀ (rp : List (Block ℝ)), (∀ p rp', rp = p :: rp' → ∀ b : Block ℝ,
      selfCorrection (rp'.map Block.gist) p.gist (some b.gist) = (selfCorrection rp' p (some b)).map gists) →
      ∀ b nx : Block ℝ, selfCorrection (rp.map Block.gist) b.gist (some nx.gist) = (selfCorrection rp b (some nx)).map gists := by
    intro rp ih b nx
    rw [selfCorrection.eq_def, selfCorrection.eq_def rp]
    have hh : (rp.map Block.gist).head? = rp.head?.map Block.gist := by simp
    simp only [Block.gist_last, Block.gist_first, hh, moveMaker_gist, bind, Except.bind]
    cases b.lastSeg with
    | error e => rfl
    | ok last =>
      simp only
      cases nx.firstSeg with
      | error e => rfl
      | ok nf =>
        simp only
        split
        · cases moveMaker b rp.head? nf.velBegin.norm3 with
          | error e => rfl
          | ok b' =>
            have hb : b'.gist.blocktype = b'.blocktype := rfl
            have e1 : Except.map Block.gist (Except.ok b' : Except PyErr (Block ℝ)) = .ok b'.gist := rfl
            rw [e1]
            simp only [hb]
            split
            · cases rp with
              | nil => rfl
              | cons p rp' =>
                simp only [List.map_cons]
                rw [ih p rp' rfl b']
                cases selfCorrection rp' p (some b') with
                | error e => rfl
                | ok r =>
                  obtain ⟨r1, r2, r3⟩ := r
                  cases r3 with
                  | none =>
                    have e2 : Except.map gists (Except.ok (r1, r2, none)) =
                      (.ok (r1.map Block.gist, r2.gist, none) : Except PyErr _) := rfl
                    rw [e2]
                    simp only [Block.gist_last]
                    cases b'.lastSeg with
                    | error e => rfl
                    | ok last =>
                      simp only
                      split_ifs <;> rfl
                  | some b'' =>
                    have e2 : Except.map gists (Except.ok (r1, r2, some b'')) =
                      (.ok (r1.map Block.gist, r2.gist, some b''.gist) : Except PyErr _) := rfl
                    rw [e2]
                    simp only [Block.gist_last]
                    cases b''.lastSeg with
                    | error e => rfl
                    | ok last =>
                      simp only
                      split_ifs <;> rfl
            · simp only [Block.gist_last]
              cases b'.lastSeg with
              | error e => rfl
              | ok last =>
                simp only
                split_ifs <;> rfl
        · split_ifs <;> rfl
  intro rp
  induction rp with
  | nil =>
    intro b nx
    cases nx with
    | none => simp only [selfCorrection, Option.map_none, List.map_nil]; rfl
    | some nx => exact step [] (by intro p rp' e; cases e) b nx
  | cons p rp ih =>
    intro b nx
    cases nx with
    | none => simp only [selfCorrection, Option.map_none, List.map_cons]; rfl
    | some nx => exact step (p :: rp) (by intro p' rp' e; cases e; exact fun b' => ih p (some b')) b nx

theorem correctFrom_gist : ∀ (tl rp : List (Block ℝ)) (b : Block ℝ),
    correctFrom (rp.map Block.gist) b.gist (tl.map Block.gist) = (correctFrom rp b tl).map (List.map Block.gist)
  | [], rp, b => by
    simp only [List.map_nil, correctFrom, bind, Except.bind]
    have := selfCorrection_gist rp b none
    rw [Option.map_none] at this
    rw [this]
    cases selfCorrection rp b none with
    | error e => rfl
    | ok r => simp [Except.map, gists]
  | nx :: tl, rp, b => by
    simp only [List.map_cons, correctFrom, bind, Except.bind]
    have := selfCorrection_gist rp b (some nx)
    rw [Option.map_some] at this
    rw [this]
    cases selfCorrection rp b (some nx) with
    | error e => rfl
    | ok r =>
      obtain ⟨r1, r2, r3⟩ := r
      have ih := correctFrom_gist tl (r2 :: r1) (r3.getD nx)
      simp only [Except.map, gists]
      rw [List.map_cons] at ih
      rw [show ((r3.map Block.gist).getD nx.gist) = (r3.getD nx).gist by cases r3 <;> rfl]
      exact ih

theorem correctAll_gist : ∀ bs : List (Block ℝ), correctAll (bs.map Block.gist) = (correctAll bs).map (List.map Block.gist)
  | [] => rfl
  | b :: tl => correctFrom_gist tl [] b

/-! ## Blocks -/

theorem alike_nil {p : Option (Vec4 ℝ)} (h : Thinned p [] l') : l' = [] := by
  cases h
  rfl

theorem tDistance4_pos_iff (p q : Vec4 ℝ) : 0 < p.tDistance4 q ↔ p ≠ q := by
  refine ⟨fun h e => ?_, fun h => lt_of_le_of_ne (norm4_nonneg _) fun h0 => ?_⟩
  · unfold tDistance4 at h
    rw [e, Vec4.sub_self, norm4_zero] at h
    exact lt_irrefl _ h
  · exact h (Vec4.sub_eq_zero.1 (norm4_eq_zero.1 h0.symm))

/-- The junction sees the same next move, or none. -/
theorem next_alike {B B' : PState ℝ} (hB : Alike B B') : ∀ {l l' : List (PState ℝ)}, Thinned (some B.position) l l' →
    Alike (nextTarget B l) (nextTarget B' l') ∨
      (nextTarget B l).position = B.position ∧ (nextTarget B' l').position = B.position := by
  intro l l' h
  generalize hp : some B.position = p at h
  induction h with
  | nil => exact Or.inl hB
  | @keep p s s' l l' hs h ih =>
    have hd : B'.position.tDistance4 s'.position = B.position.tDistance4 s.position := by rw [hB.position, hs.position]
    rw [nextTarget, nextTarget, hd]
    by_cases hm : 0 < B.position.tDistance4 s.position
    · rw [if_pos (Or.inr hm), if_pos (Or.inr hm)]
      exact Or.inl hs
    · have he : s.position = B.position := by
        by_contra hne
        exact hm ((tDistance4_pos_iff _ _).2 (Ne.symm hne))
      replace ih := ih (by rw [he])
      cases l with
      | nil =>
        rw [alike_nil h, if_pos (by simp), if_pos (by simp)]
        exact Or.inl hs
      | cons x l =>
        rw [if_neg (by simp [hm])]
        cases l' with
        | nil =>
          rw [if_pos (by simp)]
          refine Or.inr ⟨?_, hs.position.symm.trans he⟩
          rcases ih with ih | ih
          · rw [ih.position, nextTarget, hB.position]
          · exact ih.1
        | cons x' l' =>
          rw [if_neg (by simp [hm])]
          exact ih
  | first => cases hp
  | @drop s l l' hs h ih =>
    injection hp with hp
    have hm : ¬ 0 < B.position.tDistance4 s.position := fun h => (tDistance4_pos_iff _ _).1 h hp
    rw [nextTarget]
    cases l with
    | nil =>
      rw [alike_nil h, if_pos (by simp)]
      exact Or.inr ⟨hp.symm, hB.position.symm⟩
    | cons x l =>
      rw [if_neg (by simp [hm])]
      exact ih (by rw [hp])

theorem connect_alike {A A' B B' : PState ℝ} (hA : A.position = A'.position) (hB : Alike B B') :
    connectState A B = connectState A' B' := by
  rw [connectState, connectState, hA, hB.position, hB.speed]

theorem junctionVel_alike {A A' : Option (PState ℝ)} {B B' : PState ℝ} (hA : A.map PState.position = A'.map PState.position)
    (hB : Alike B B') (h : Thinned (some B.position) l l') : junctionVel fw A B l = junctionVel fw A' B' l' := by
  have h0 : targetVel A B = targetVel A' B' := by
    cases A <;> cases A' <;> simp only [Option.map_none, Option.map_some, reduceCtorEq, Option.some.injEq] at hA
    · rfl
    · exact connect_alike hA hB
  have h1 : velNext B l = velNext B' l' := by
    rcases next_alike hB h with hn | ⟨h1, h2⟩
    · exact connect_alike hB.position hn
    · rw [velNext, velNext, connectState_self h1, connectState_self (h2.trans hB.position)]
  have h2 : ((nextTarget B l).position.sub B'.position) = ((nextTarget B' l').position.sub B'.position) := by
    rcases next_alike hB h with hn | ⟨h1, h2⟩
    · rw [hn.position]
    · rw [h1, h2]
  obtain ⟨b1, b2, b3, b4, b5⟩ := hB
  cases fw <;> simp only [junctionVel, h0, h1, h2, calcJD, calcKlipper, calcJerk, calcMKA, b1, b2, b3, b4, b5]

/-- The block with a given junction speed. -/
noncomputable def blockOf (A : Option (PState ℝ)) (B : PState ℝ) (v : ℝ) (pb : Option (Block ℝ)) : Except PyErr (Block ℝ) := do
  let tv := targetVel A B
  let b0 : Block ℝ :=
    { stateA := A, stateB := B, direction := tv.normDir4, isExtruding := false, jd := none, segments := [], blocktype := none }
  let b1 ←
    if tv.notZero then do
      let b ← moveMaker b0 pb v
      let ext := match A with
        | some A => A.position.isExtrudingTo B.position
        | none => false
      .ok { b with jd := b0.direction.map (·.mul v), isExtruding := ext }
    else .ok b0
  match B.pause with
  | none => .ok b1
  | some p => do
    let s ← dwellSegment pb p
    .ok { b1 with jd := some Vec4.zero, segments := [s] }

theorem mkBlock_of (A : Option (PState ℝ)) (B : PState ℝ) (l : List (PState ℝ)) (pb : Option (Block ℝ)) :
    mkBlock fw A B l pb = blockOf A B (junctionVel fw A B l) pb := by
  unfold mkBlock blockOf
  cases A <;> cases B.pause <;> rfl

theorem dwell_gist (pb : Option (Block ℝ)) (p : ℝ) : dwellSegment (pb.map Block.gist) p = dwellSegment pb p := by
  cases pb <;> rfl

theorem blockOf_gist (A : Option (PState ℝ)) (B : PState ℝ) (v : ℝ) (pb : Option (Block ℝ)) :
    blockOf (A.map fun A => ⟨A.position, 0, 0, 0, none, none⟩) B.gist v (pb.map Block.gist) =
      (blockOf A B v pb).map Block.gist := by
  have h0 : targetVel (A.map fun A => ⟨A.position, 0, 0, 0, none, none⟩) B.gist = targetVel A B := by cases A <;> rfl
  have h1 : moveMaker ⟨A.map fun A => ⟨A.position, 0, 0, 0, none, none⟩, B.gist, (targetVel A B).normDir4, false, none, [], none⟩
      (pb.map Block.gist) v = _ := moveMaker_gist ⟨A, B, (targetVel A B).normDir4, false, none, [], none⟩ pb v
  have hp : B.gist.pause = B.pause := rfl
  unfold blockOf
  simp only [h0, dwell_gist, hp, bind, Except.bind]
  rw [h1]
  split
  · cases moveMaker ⟨A, B, (targetVel A B).normDir4, false, none, [], none⟩ pb v with
    | error e => rfl
    | ok b =>
      cases B.pause with
      | none => cases A <;> rfl
      | some p =>
        simp only
        cases dwellSegment pb p <;> cases A <;> rfl
  · cases B.pause with
    | none => rfl
    | some p =>
      simp only
      cases dwellSegment pb p <;> rfl

theorem mkBlock_gist {A A' : Option (PState ℝ)} {B B' : PState ℝ} {pb pb' : Option (Block ℝ)}
    (hA : A.map PState.position = A'.map PState.position)
    (hB : Alike B B') (h : Thinned (some B.position) l l') (hpb : pb.map Block.gist = pb'.map Block.gist) :
    (mkBlock fw A B l pb).map Block.gist = (mkBlock fw A' B' l' pb').map Block.gist := by
  have hA' : (A.map fun A => (⟨A.position, 0, 0, 0, none, none⟩ : PState ℝ)) =
      A'.map fun A => ⟨A.position, 0, 0, 0, none, none⟩ := by
    cases A <;> cases A' <;> simp_all
  rw [mkBlock_of, mkBlock_of, ← blockOf_gist, ← blockOf_gist, hA', hB.gist, hpb, junctionVel_alike hA hB h]

/-- A state that neither moves nor pauses gives a block without segments. -/
theorem mkBlock_still {A B : PState ℝ} (hA : B.position = A.position) (hp : B.pause = none) (pb : Option (Block ℝ)) :
    ∃ b, mkBlock fw (some A) B l pb = .ok b ∧ b.segments = [] := by
  have h0 : targetVel (some A) B = Vec4.zero := connectState_self hA
  unfold mkBlock
  simp only [h0, notZero_zero, hp, bind, Except.bind]
  exact ⟨_, rfl, rfl⟩

/-- The first state, if it does not pause, gives a block without segments. -/
theorem mkBlock_start {B : PState ℝ} (hp : B.pause = none) (pb : Option (Block ℝ)) :
    ∃ b, mkBlock fw none B l pb = .ok b ∧ b.segments = [] := by
  have h0 : targetVel none B = (Vec4.zero : Vec4 ℝ) := rfl
  unfold mkBlock
  simp only [h0, notZero_zero, hp, bind, Except.bind]
  exact ⟨_, rfl, rfl⟩

theorem genBlocks_gist {p : Option (Vec4 ℝ)} (h : Thinned p l l') : ∀ {A A' : Option (PState ℝ)} {pb pb' : Option (Block ℝ)},
    A.map PState.position = p → A'.map PState.position = p → pb.map Block.gist = pb'.map Block.gist →
    (genBlocks fw A pb l).map (List.map Block.gist) = (genBlocks fw A' pb' l').map (List.map Block.gist) := by
  induction h with
  | nil => intros; rfl
  | @first s s' l l' hs h1 h2 h ih =>
    intro A A' pb pb' hA hA' hpb
    obtain rfl : A = none := by cases A <;> simp_all
    obtain rfl : A' = none := by cases A' <;> simp_all
    obtain ⟨b, e1, e2⟩ := mkBlock_start (fw := fw) (l := l) h1 pb
    obtain ⟨b', e1', e2'⟩ := mkBlock_start (fw := fw) (l := l') h2 pb'
    rw [genBlocks, genBlocks]
    simp only [bind, Except.bind, e1, e2, e1', e2', List.isEmpty_nil, if_true]
    exact ih rfl (by rw [Option.map_some, hs]) hpb
  | @keep p s s' l l' hs h ih =>
    intro A A' pb pb' hA hA' hpb
    have hb := mkBlock_gist (fw := fw) (hA.trans hA'.symm) hs h hpb
    rw [genBlocks, genBlocks]
    simp only [bind, Except.bind]
    cases h1 : mkBlock fw A s l pb with
    | error e =>
      cases h2 : mkBlock fw A' s' l' pb' with
      | error e' =>
        rw [h1, h2] at hb
        simp only [Except.map, Except.error.injEq] at hb
        rw [hb]
      | ok b' =>
        rw [h1, h2] at hb
        cases hb
    | ok b =>
      cases h2 : mkBlock fw A' s' l' pb' with
      | error e' =>
        rw [h1, h2] at hb
        cases hb
      | ok b' =>
        rw [h1, h2] at hb
        simp only [Except.map, Except.ok.injEq] at hb
        have hseg : b.gist.segments = b'.gist.segments := congrArg Block.segments hb
        change b.segments = b'.segments at hseg
        simp only
        rw [hseg]
        split
        · exact ih rfl (by rw [Option.map_some, hs.position]) hpb
        · have := @ih (some s) (some s') (some b) (some b') rfl (by rw [Option.map_some, hs.position])
            (by rw [Option.map_some, Option.map_some, hb])
          cases h3 : genBlocks fw (some s) (some b) l <;> cases h4 : genBlocks fw (some s') (some b') l' <;>
            rw [h3, h4] at this <;> simp only [Except.map, Except.ok.injEq, Except.error.injEq, reduceCtorEq] at this ⊢
          · exact this
          · rw [List.map_cons, List.map_cons, this, hb]
  | @drop s l l' hs h ih =>
    intro A A' pb pb' hA hA' hpb
    obtain ⟨A, rfl⟩ : ∃ a, A = some a := by
      cases A with
      | none => cases hA
      | some a => exact ⟨a, rfl⟩
    rw [Option.map_some, Option.some.injEq] at hA
    obtain ⟨b, h1, h2⟩ := mkBlock_still (fw := fw) (l := l) hA.symm hs pb
    rw [genBlocks]
    simp only [bind, Except.bind, h1, h2, List.isEmpty_nil, if_true]
    exact ih rfl hA' hpb

/-- **C128, states.** States that neither move nor pause, the settings of the first state, and layers do not matter for the
motion: the segments of all blocks and whether they extrude are the same without them, and so are the errors. -/
theorem c128_idle (h : Thinned none l l') :
    (simulate fw l).map (List.map fun b => (b.segments, b.isExtruding)) =
      (simulate fw l').map (List.map fun b => (b.segments, b.isExtruding)) := by
  have hg := genBlocks_gist (fw := fw) h (A := none) (A' := none) (pb := none) (pb' := none) rfl rfl rfl
  have key : ∀ r : Except PyErr (List (Block ℝ)), (r.bind correctAll).map (List.map Block.gist) =
      ((r.map (List.map Block.gist)).bind correctAll) := by
    intro r
    cases r with
    | error e => rfl
    | ok bs =>
      simp only [Except.bind, Except.map]
      rw [correctAll_gist]
      rfl
  have hp : (plan fw l).map (List.map Block.gist) = (plan fw l').map (List.map Block.gist) := by
    unfold plan
    simp only [bind]
    rw [key, hg, ← key]
  have hend : ∀ bs : List (Block ℝ), endTime (bs.map Block.gist) = endTime bs := by
    intro bs
    unfold endTime
    rw [List.getLast?_map]
    cases bs.getLast? <;> rfl
  have fin : ∀ ll, (simulate fw ll).map (List.map fun b => (b.segments, b.isExtruding)) =
      (((plan fw ll).map (List.map Block.gist)).bind fun bs => (endTime bs).bind fun _ => .ok bs).map
        (List.map fun b => (b.segments, b.isExtruding)) := by
    intro ll
    unfold simulate
    simp only [bind]
    cases plan fw ll with
    | error e => rfl
    | ok bs =>
      simp only [Except.bind, Except.map, hend]
      cases endTime bs with
      | error e => rfl
      | ok t => simp [Block.gist]
  rw [fin, hp, ← fin]

variable {pf : List Char → Option ℝ} {d d' : Dict (SVal ℝ)} {q q' : Printer} {ls ls' : List Line} {content content' : List Char}

/-- The state that asks for it. -/
def Spec.Doing.state (x : Doing) : PState ℝ := ⟨x.place, x.feed, x.acc, x.jerk, x.wait, none⟩

theorem file_thinned : ∀ {ls : List Line} {q : Printer} {ps : List (PState ℝ)}, List.Forall₂ Shows ps (q.run pf ls) →
    Thinned (some q.point) ps ((q.doings pf ls).map Doing.state)
  | [], q, ps, h => by
    cases h
    exact .nil _
  | l :: ls, q, ps, h => by
    rw [Printer.run] at h
    cases h with
    | @cons s _ ps _ hs h =>
      have ih := file_thinned h
      have hpos : s.position = (q.exec pf l).point := hs.position
      rw [Printer.doings]
      split_ifs with hi
      · rw [← hi.1, ← hpos]
        exact .drop (hs.pause.trans hi.2) (by rw [hpos]; exact ih)
      · rw [List.map_cons]
        exact .keep ⟨hs.position, hs.speed, hs.acc, hs.jerk, hs.pause⟩ (by rw [hpos]; exact ih)

/-- **C128, files.** Plain files that make printers do the same from the same place give the same segments, or fail alike, with
any setups for the same firmware. How the file says it - absolute or relative, after which G92, in lines with which comments,
setting things on which lines - does not matter, nor do settings of the setups that are overwritten before the first move. -/
theorem c128_same_doings (hpf : FloatLike pf) (hd : SetupAccepted d) (hd' : SetupAccepted d') (hq : PrinterOf d q)
    (hq' : PrinterOf d' q') (hfw : firmwareOf d = firmwareOf d') (hp : ∀ l ∈ ls, l.Plain pf) (hp' : ∀ l ∈ ls', l.Plain pf)
    (hc : FileOf ls content) (hc' : FileOf ls' content') (h0 : q.point = q'.point) (h : q.doings pf ls = q'.doings pf ls') :
    (simulateFile pf d content).map (List.map fun b => (b.segments, b.isExtruding)) =
      (simulateFile pf d' content').map (List.map fun b => (b.segments, b.isExtruding)) := by
  have key : ∀ {d : Dict (SVal ℝ)} {q : Printer} {ls : List Line} {content : List Char}, SetupAccepted d → PrinterOf d q →
      (∀ l ∈ ls, l.Plain pf) → FileOf ls content →
      (simulateFile pf d content).map (List.map fun b => (b.segments, b.isExtruding)) =
        (simulate (firmwareOf d) (⟨q.point, 0, 0, 0, none, none⟩ :: (q.doings pf ls).map Doing.state)).map
          (List.map fun b => (b.segments, b.isExtruding)) := by
    intro d q ls content hd hq hp hc
    obtain ⟨ps, h1, h2⟩ := c67_read_as_written hpf hq hp hc
    simp only [simulateFile, (c46_validation d).1.2 hd, h1, bind, Except.bind]
    cases h2 with
    | @cons A _ ps _ hA h2 =>
      refine c128_idle (.first hA.position hA.pause rfl ?_)
      rw [hA.position]
      exact file_thinned h2
  rw [key hd hq hp hc, key hd' hq' hp' hc', h0, h, hfw]

/-- Lines that neither move nor wait nor change anything can be left out. -/
theorem c128_without (hpf : FloatLike pf) (hd : SetupAccepted d) (hq : PrinterOf d q) {drop : Line → Bool}
    (hdrop : ∀ l, drop l → l.wait pf = none ∧ ∀ q : Printer, q.exec pf l = q) (hp : ∀ l ∈ ls, l.Plain pf)
    (hc : FileOf ls content) (hc' : FileOf (ls.filter fun l => !drop l) content') :
    (simulateFile pf d content).map (List.map fun b => (b.segments, b.isExtruding)) =
      (simulateFile pf d content').map (List.map fun b => (b.segments, b.isExtruding)) := by
  have key : ∀ (ls : List Line) (q : Printer), q.doings pf ls = q.doings pf (ls.filter fun l => !drop l) := by
    intro ls
    induction ls with
    | nil => intro q; rfl
    | cons l ls ih =>
      intro q
      by_cases hl : drop l
      · obtain ⟨h1, h2⟩ := hdrop l hl
        rw [List.filter_cons_of_neg (by simp [hl]), Printer.doings]
        simp only [h2, h1, and_self, if_true]
        exact ih q
      · rw [List.filter_cons_of_pos (by simp [hl]), Printer.doings, Printer.doings, ih]
  exact c128_same_doings hpf hd hd hq hq rfl hp (fun l hl => hp l (List.mem_filter.1 hl).1) hc hc' rfl (key ls q)

/-- The file without the lines that do nothing, with a needless change to relative coordinates. -/
def Demo.terse : List Line :=
  [⟨some .G1, [⟨1, 'X', ['1', '0']⟩, ⟨1, 'F', ['1', '0']⟩], 1, some [' ', 'g', 'o'], []⟩,
    ⟨some .M83, [], 0, none, []⟩,
    ⟨some .G91, [], 0, none, []⟩,
    ⟨some .G4, [⟨1, 'P', ['1', '0']⟩], 0, none, []⟩,
    ⟨some .G1, [⟨1, 'E', ['1', '0']⟩], 0, none, []⟩]

theorem Demo.terse_doings : Demo.printer.doings Demo.num Demo.plain = Demo.printer.doings Demo.num Demo.terse := by
  simp [Printer.doings, Demo.plain, Demo.terse, Line.wait, Line.value, Demo.num, Printer.exec, Demo.printer, Printer.point,
    letter, Printer.abs]

theorem Demo.terse_file : FileOf Demo.terse "G1 X10 F10 ; go\nM83\nG91\nG4 P10\nG1 E10\n".toList := by
  refine ⟨"G1 X10 F10 ; go\nM83\nG91\nG4 P10\nG1 E10\n".toList, ["G1 X10 F10 ; go\n".toList, "M83\n".toList,
    "G91\n".toList, "G4 P10\n".toList, "G1 E10\n".toList], ?_, ?_, ?_⟩
  · repeat' first | exact .nil | refine .other (by decide) ?_
  · exact .line (l := "G1 X10 F10 ; go".toList) (by decide) (.line (l := "M83".toList) (by decide)
      (.line (l := "G91".toList) (by decide)
        (.line (l := "G4 P10".toList) (by decide) (.line (l := "G1 E10".toList) (by decide) .none))))
  · exact .cons (Or.inr rfl) (.cons (Or.inr rfl) (.cons (Or.inr rfl) (.cons (Or.inr rfl) (.cons (Or.inr rfl) .nil))))

theorem Demo.terse_lines : ∀ l ∈ Demo.terse, l.Plain Demo.num := by
  have h : ∀ l ∈ Demo.terse, l ∈ Demo.plain ∨ l = ⟨some .G91, [], 0, none, []⟩ := by
    simp [Demo.terse, Demo.plain]
  intro l hl
  rcases h l hl with h | rfl
  · exact Demo.plain_lines l h
  · exact ⟨by simp, by simp, by simp, by simp, by simp, by simp, by simp, by simp⟩

/-- The file of the earlier examples and its terse version are simulated, with the same segments. -/
example : ∃ bs bs', simulateFile Demo.num Demo.plainSetup Demo.plainText = .ok bs ∧
    simulateFile Demo.num Demo.plainSetup "G1 X10 F10 ; go\nM83\nG91\nG4 P10\nG1 E10\n".toList = .ok bs' ∧
    bs.map Block.segments = bs'.map Block.segments := by
  obtain ⟨bs, t, _, _, h1, h2, _⟩ := c69_simulated_as_written Demo.num_floatLike Demo.plain_accepted Demo.printer_of
    Demo.plain_lines Demo.workable Demo.plain_file
  have h := c128_same_doings Demo.num_floatLike Demo.plain_accepted Demo.plain_accepted Demo.printer_of Demo.printer_of rfl
    Demo.plain_lines Demo.terse_lines Demo.plain_file Demo.terse_file rfl Demo.terse_doings
  rw [h1] at h
  cases h3 : simulateFile Demo.num Demo.plainSetup "G1 X10 F10 ; go\nM83\nG91\nG4 P10\nG1 E10\n".toList with
  | error e =>
    rw [h3] at h
    cases h
  | ok bs' =>
    rw [h3] at h
    injection h with h
    refine ⟨bs, bs', h1, rfl, ?_⟩
    have := congrArg (List.map Prod.fst) h
    rwa [List.map_map, List.map_map] at this

end PyGCD
