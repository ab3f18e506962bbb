import Verif.Spec.Waits
import Verif.Spec.Tuning
import Verif.Props.FilePairs

/-!
# Property C130: waiting longer
-/

set_option linter.unusedSectionVars false
set_option linter.unusedSimpArgs false

namespace PyGCD
open Vec4 Spec

variable {fw : Firmware} {states states' : List (PState ℝ)} {bs bs' : List (Block ℝ)}

/-- Two computations that fail alike or give related results. -/
def InStep {α β : Type} (R : α → β → Prop) : Except PyErr α → Except PyErr β → Prop
  | .ok a, .ok b => R a b
  | .error e, .error e' => e = e'
  | _, _ => False

theorem InStep.bind {α β γ δ : Type} {R : α → β → Prop} {S : γ → δ → Prop} {x : Except PyErr α} {y : Except PyErr β}
    {f : α → Except PyErr γ} {g : β → Except PyErr δ} (h : InStep R x y) (hf : ∀ a b, R a b → InStep S (f a) (g b)) :
    InStep S (x >>= f) (y >>= g) := by
  cases x <;> cases y
  · exact h
  · exact h.elim
  · exact h.elim
  · exact hf _ _ h

theorem InStep.map {α β γ δ : Type} {R : α → β → Prop} {S : γ → δ → Prop} {x : Except PyErr α} {y : Except PyErr β}
    {f : α → γ} {g : β → δ} (h : InStep R x y) (hf : ∀ a b, R a b → S (f a) (g b)) : InStep S (x.map f) (y.map g) := by
  cases x <;> cases y
  · exact h
  · exact h.elim
  · exact h.elim
  · exact hf _ _ h

theorem InStep.rescue {α β : Type} {R : α → β → Prop} {x : Except PyErr α} {y : Except PyErr β} (h : InStep R x y) :
    InStep R (rescueValueError x) (rescueValueError y) := by
  cases x <;> cases y
  · have : _ = _ := h
    subst this
    rename_i e
    cases e <;> rfl
  · exact h.elim
  · exact h.elim
  · exact h

theorem InStep.ite {α β : Type} {R : α → β → Prop} {c : Prop} [Decidable c] {x x' : Except PyErr α} {y y' : Except PyErr β}
    (h : InStep R x y) (h' : InStep R x' y') : InStep R (if c then x else x') (if c then y else y') := by
  split_ifs <;> assumption

/-! ## Moves -/

theorem selfCheck_shift (δ : ℝ) (s : Segment ℝ) : (s.shift δ).selfCheckOk = s.selfCheckOk := by
  unfold Segment.selfCheckOk Segment.shift
  simp only [add_sub_add_right_eq_sub, add_lt_add_iff_right]

theorem make_shift {t t' t1 t1' δ : ℝ} (h : t' = t + δ) (h1 : t1' = t1 + δ) (p v p' v' : Vec4 ℝ) :
    InStep (fun s s' => s' = s.shift δ) (Segment.make t t1 p v p' v') (Segment.make t' t1' p v p' v') := by
  have hc := selfCheck_shift δ ⟨t, t1, p, v, p', v'⟩
  subst h h1
  unfold Segment.make
  simp only
  rw [← hc]
  unfold Segment.shift
  split_ifs
  · rfl
  · rfl

theorem keepSeg_shift (δ : ℝ) (s : Segment ℝ) : keepSeg (s.shift δ) = (keepSeg s).map (Segment.shift δ) := by
  unfold keepSeg Segment.shift
  simp only
  split_ifs <;> rfl

/-- The previous segment ends `δ` later. -/
structure EndsLater (δ : ℝ) (s s' : Segment ℝ) : Prop where
  time : s'.tEnd = s.tEnd + δ
  pos : s'.posEnd = s.posEnd
  vel : s'.velEnd = s.velEnd

theorem trapezoid_later {δ : ℝ} {s s' : Segment ℝ} (h : EndsLater δ s s') (u : Vec4 ℝ) (a vT v v' d : ℝ) (e : Bool) :
    InStep (fun l l' => l' = l.map (Segment.shift δ)) (trapezoid s u a vT v v' d e) (trapezoid s' u a vT v v' d e) := by
  unfold trapezoid
  simp only [h.pos]
  refine InStep.bind (make_shift h.time (by rw [h.time]; ring) ..) ?_
  rintro sA _ rfl
  refine InStep.bind (make_shift (δ := δ) (by rw [h.time]; ring) (by rw [h.time]; ring) ..) ?_
  rintro sB _ rfl
  refine InStep.bind (make_shift (δ := δ) (by rw [h.time]; ring) (by rw [h.time]; ring) ..) ?_
  rintro sC _ rfl
  change _ = _
  simp only [keepSeg_shift, List.map_append]

theorem triang_later {δ : ℝ} {s s' : Segment ℝ} (h : EndsLater δ s s') (u : Vec4 ℝ) (a vP v v' : ℝ) :
    InStep (fun l l' => l' = l.map (Segment.shift δ)) (triang s u a vP v v') (triang s' u a vP v v') := by
  unfold triang
  simp only [h.pos]
  refine InStep.bind (make_shift h.time (by rw [h.time]; ring) ..) ?_
  rintro sA _ rfl
  refine InStep.bind (make_shift (δ := δ) (by rw [h.time]; ring) (by rw [h.time]; ring) ..) ?_
  rintro sC _ rfl
  change _ = _
  simp only [keepSeg_shift, List.map_append]

theorem singlUp_later {δ : ℝ} {s s' : Segment ℝ} (h : EndsLater δ s s') (u : Vec4 ℝ) (a v v' : ℝ) :
    InStep (fun l l' => l' = l.map (Segment.shift δ)) (singlUp s u a v v') (singlUp s' u a v v') := by
  unfold singlUp
  simp only [h.pos]
  refine InStep.bind (make_shift h.time (by rw [h.time]; ring) ..) ?_
  rintro sA _ rfl
  change _ = _
  simp only [keepSeg_shift]

theorem singlDwn_later {δ : ℝ} {s s' : Segment ℝ} (h : EndsLater δ s s') (u : Vec4 ℝ) (a v v' : ℝ) :
    InStep (fun l l' => l' = l.map (Segment.shift δ)) (singlDwn s u a v v') (singlDwn s' u a v v') := by
  unfold singlDwn
  simp only [h.pos]
  refine InStep.bind (make_shift h.time (by rw [h.time]; ring) ..) ?_
  rintro sA _ rfl
  change _ = _
  simp only [keepSeg_shift]

theorem planMove_later {δ : ℝ} {s s' : Segment ℝ} (h : EndsLater δ s s') (u : Vec4 ℝ) {B B' : PState ℝ}
    (hs : B'.speed = B.speed) (ha : B'.pAcc = B.pAcc) (d : ℝ) (e : Bool) (v : ℝ) :
    InStep (fun r r' => r'.1 = r.1.map (Segment.shift δ) ∧ r'.2 = r.2) (planMove s u B d e v) (planMove s' u B' d e v) := by
  unfold planMove
  simp only [h.vel, hs, ha]
  refine InStep.rescue ?_
  refine .ite ((trapezoid_later h ..).map fun _ _ h => ⟨h, rfl⟩) (.ite ((triang_later h ..).map fun _ _ h => ⟨h, rfl⟩)
    (.ite ((singlUp_later h ..).map fun _ _ h => ⟨h, rfl⟩) (.ite ((singlDwn_later h ..).map fun _ _ h => ⟨h, rfl⟩) ?_)))
  rfl

/-! ## Blocks -/

/-- The blocks are about the same step, except for the wait. -/
structure SameStep (b b' : Block ℝ) : Prop where
  stateA : b'.stateA.map PState.position = b.stateA.map PState.position
  position : b'.stateB.position = b.stateB.position
  speed : b'.stateB.speed = b.stateB.speed
  acc : b'.stateB.pAcc = b.stateB.pAcc
  direction : b'.direction = b.direction
  extruding : b'.isExtruding = b.isExtruding
  type : b'.blocktype = b.blocktype

/-- The second block is the first one, beginning `δ` later and ending `ε` later. -/
structure LateBlock (δ ε : ℝ) (b b' : Block ℝ) : Prop extends SameStep b b' where
  segments : b.stateB.pause = none ∧ b'.stateB.pause = none ∧ ε = δ ∧ b'.segments = b.segments.map (Segment.shift δ) ∨
    ∃ p p' s, b.stateB.pause = some p ∧ b'.stateB.pause = some p' ∧ b.direction = none ∧ ε = δ + (p' - p) ∧ b.segments = [s] ∧
      b'.segments = [{ s with tBegin := s.tBegin + δ, tEnd := s.tEnd + ε }] ∧ Holds p s

theorem LateBlock.last {δ ε : ℝ} {b b' : Block ℝ} (h : LateBlock δ ε b b') : InStep (EndsLater ε) b.lastSeg b'.lastSeg := by
  unfold Block.lastSeg
  rcases h.segments with ⟨_, _, rfl, e⟩ | ⟨p, p', s, _, _, _, _, e, e', _⟩
  · rw [e, List.getLast?_map]
    cases b.segments.getLast? with
    | none => rfl
    | some s => exact ⟨rfl, rfl, rfl⟩
  · rw [e, e']
    exact ⟨rfl, rfl, rfl⟩

theorem LateBlock.first {δ ε : ℝ} {b b' : Block ℝ} (h : LateBlock δ ε b b') :
    InStep (fun s s' => s'.tBegin = s.tBegin + δ ∧ s'.posBegin = s.posBegin ∧ s'.velBegin = s.velBegin) b.firstSeg b'.firstSeg := by
  unfold Block.firstSeg
  rcases h.segments with ⟨_, _, rfl, e⟩ | ⟨p, p', s, _, _, _, _, e, e', _⟩
  · rw [e, List.head?_map]
    cases b.segments.head? with
    | none => rfl
    | some s => exact ⟨rfl, rfl, rfl⟩
  · rw [e, e']
    exact ⟨rfl, rfl, rfl⟩

theorem shift_shift (a b : ℝ) (s : Segment ℝ) : (s.shift a).shift b = (s.shift b).shift a := by
  unfold Segment.shift
  simp only [Segment.mk.injEq, and_self, and_true]
  exact ⟨by ring, by ring⟩

theorem Spec.Holds.shift {p : ℝ} {s : Segment ℝ} (h : Holds p s) (d : ℝ) : Holds p (s.shift d) := by
  obtain ⟨h1, h2, h3, h4⟩ := h
  refine ⟨?_, h2, h3, h4⟩
  simp only [Segment.shift, h1]
  ring

theorem LateBlock.timeshift {δ ε : ℝ} {b b' : Block ℝ} (h : LateBlock δ ε b b') (d : ℝ) :
    LateBlock δ ε (b.timeshift d) (b'.timeshift d) := by
  obtain ⟨h1, h2⟩ := h
  refine ⟨⟨h1.1, h1.2, h1.3, h1.4, h1.5, h1.6, h1.7⟩, ?_⟩
  rcases h2 with ⟨a1, a2, a3, e⟩ | ⟨p, p', s, a1, a2, a3, a4, e, e', hh⟩
  · refine Or.inl ⟨a1, a2, a3, ?_⟩
    simp only [Block.timeshift, e, List.map_map]
    exact List.map_congr_left fun s _ => shift_shift ..
  · refine Or.inr ⟨p, p', s.shift d, a1, a2, a3, a4, by simp [Block.timeshift, e], ?_, hh.shift d⟩
    simp only [Block.timeshift, e', List.map_cons, List.map_nil, Segment.shift, List.cons.injEq, Segment.mk.injEq, and_true]
    exact ⟨by ring, by ring⟩

/-- The blocks before, nearest first. -/
inductive Past : ℝ → List (Block ℝ) → List (Block ℝ) → Prop
  | nil : Past 0 [] []
  | cons {δ ε b b' rp rp'} : LateBlock δ ε b b' → Past δ rp rp' → Past ε (b :: rp) (b' :: rp')

/-- The block before, if any. -/
inductive Before : ℝ → Option (Block ℝ) → Option (Block ℝ) → Prop
  | none : Before 0 .none .none
  | some {δ ε b b'} : LateBlock δ ε b b' → Before ε (.some b) (.some b')

theorem Past.head {δ : ℝ} {rp rp' : List (Block ℝ)} (h : Past δ rp rp') : Before δ rp.head? rp'.head? := by
  cases h with
  | nil => exact .none
  | cons h _ => exact .some h

theorem moveMaker_later {δ v : ℝ} {b b' : Block ℝ} {pb pb' : Option (Block ℝ)} (h : SameStep b b')
    (hp : b.stateB.pause = none ∧ b'.stateB.pause = none ∨ b.direction = none) (hb : Before δ pb pb') :
    InStep (LateBlock δ δ) (moveMaker b pb v) (moveMaker b' pb' v) := by
  obtain ⟨A, B, u, ext, jd, segs, ty⟩ := b
  obtain ⟨A', B', u', ext', jd', segs', ty'⟩ := b'
  obtain ⟨h1, h2, h3, h4, h5, h6, h7⟩ := h
  simp only at h1 h2 h3 h4 h5 h6 h7 hp
  subst h5
  unfold moveMaker
  cases A with
  | none =>
    cases A' with
    | some A' => cases h1
    | none => rfl
  | some A =>
    cases A' with
    | none => cases h1
    | some A' =>
      simp only [Option.map_some, Option.some.injEq] at h1
      cases u' with
      | none => rfl
      | some u =>
        simp only [reduceCtorEq, or_false] at hp
        simp only
        have hd : moveDistance A' B' = moveDistance A B := by
          unfold moveDistance
          rw [h1, h2]
        have rest : ∀ s s' : Segment ℝ, EndsLater δ s s' → InStep (LateBlock δ δ)
            (do
              let r ← planMove s u B (moveDistance A B).1 (moveDistance A B).2 v
              .ok ⟨some A, B, some u, ext, jd, r.1, some r.2⟩)
            (do
              let r ← planMove s' u B' (moveDistance A' B').1 (moveDistance A' B').2 v
              .ok ⟨some A', B', some u, ext', jd', r.1, some r.2⟩) := by
          intro s s' hs
          rw [hd]
          refine InStep.bind (planMove_later hs u h3 h4 ..) ?_
          rintro r r' ⟨e1, e2⟩
          exact ⟨⟨by simp [h1], h2, h3, h4, rfl, h6, by simp [e2]⟩, Or.inl ⟨hp.1, hp.2, rfl, e1⟩⟩
        cases hb with
        | none => exact rest _ _ ⟨by simp [Segment.initial], h1, rfl⟩
        | some hb => exact InStep.bind hb.last rest

theorem dwell_later {δ p p' : ℝ} (h0 : 0 ≤ p) (h0' : 0 ≤ p') {pb pb' : Option (Block ℝ)} (hb : Before δ pb pb') :
    InStep (fun s s' => s' = { s with tBegin := s.tBegin + δ, tEnd := s.tEnd + (δ + (p' - p)) } ∧ Holds p s) (dwellSegment pb p)
      (dwellSegment pb' p') := by
  unfold dwellSegment
  cases hb with
  | none => rfl
  | some hb =>
    refine InStep.bind hb.last ?_
    intro s s' hs
    have ok : ∀ (t p : ℝ) (x : Vec4 ℝ), 0 ≤ p → Segment.make t (t + p) x Vec4.zero x Vec4.zero =
        .ok ⟨t, t + p, x, Vec4.zero, x, Vec4.zero⟩ := by
      intro t p x hp
      have e : x.sub (x.add (((Vec4.zero.add (Vec4.zero : Vec4 ℝ)).mul (t + p - t)).div 2)) = Vec4.zero := by
        ext <;> simp [Vec4.add, Vec4.sub, Vec4.mul, Vec4.div, Vec4.zero]
      have hn : (Vec4.zero : Vec4 ℝ).norm3 = 0 := by
        unfold norm3
        rw [sqrt_real]
        simp [Vec4.zero]
      unfold Segment.make
      rw [if_pos]
      unfold Segment.selfCheckOk
      simp only [e, hn]
      have h1 : ¬ ((1e-6 : ℝ) < 0) := by norm_num
      have h2 : ¬ (t + p < t) := by linarith
      simp [h1, h2]
    rw [ok _ _ _ h0, ok _ _ _ h0']
    refine ⟨?_, ⟨rfl, rfl, rfl, rfl⟩⟩
    simp only [hs.time, hs.pos, Segment.mk.injEq, and_true, true_and]
    ring

/-! ## Junctions -/

theorem next_rewaited {B B' : PState ℝ} (hB : Rewaited B B') : ∀ {l l' : List (PState ℝ)}, List.Forall₂ Rewaited l l' →
    Rewaited (nextTarget B l) (nextTarget B' l')
  | [], _, .nil => hB
  | s :: l, _, .cons (l₂ := l') (b := s') hs h => by
    have hd : B'.position.tDistance4 s'.position = B.position.tDistance4 s.position := by rw [hB.position, hs.position]
    have he : l'.isEmpty = l.isEmpty := by cases h <;> rfl
    have ih := next_rewaited hB h
    rw [nextTarget, nextTarget, hd]
    by_cases hm : 0 < B.position.tDistance4 s.position
    · rw [if_pos (Or.inr hm), if_pos (Or.inr hm)]
      exact hs
    · cases h with
      | nil =>
        rw [if_pos (by simp), if_pos (by simp)]
        exact hs
      | cons _ _ =>
        rw [if_neg (by simp [hm]), if_neg (by simp [hm])]
        exact ih

theorem connect_rewaited {A A' B B' : PState ℝ} (hA : A'.position = A.position) (hB : Rewaited B B') :
    connectState A' B' = connectState A B := by
  rw [connectState, connectState, hA, hB.position, hB.speed]

theorem targetVel_rewaited {A A' : Option (PState ℝ)} {B B' : PState ℝ} (hA : A'.map PState.position = A.map PState.position)
    (hB : Rewaited B B') : targetVel A' B' = targetVel A B := by
  cases A <;> cases A' <;> simp only [Option.map_none, Option.map_some, reduceCtorEq, Option.some.injEq] at hA
  · rfl
  · exact connect_rewaited hA hB

theorem junctionVel_rewaited {A A' : Option (PState ℝ)} {B B' : PState ℝ} {l l' : List (PState ℝ)}
    (hA : A'.map PState.position = A.map PState.position) (hB : Rewaited B B') (h : List.Forall₂ Rewaited l l') :
    junctionVel fw A' B' l' = junctionVel fw A B l := by
  have h0 := targetVel_rewaited hA hB
  have hn := next_rewaited hB h
  have h1 : velNext B' l' = velNext B l := connect_rewaited hB.position hn
  have h2 : (nextTarget B' l').position = (nextTarget B l).position := hn.position
  obtain ⟨b1, b2, b3, b4, _⟩ := hB
  cases fw <;> simp only [junctionVel, h0, h1, h2, calcJD, calcKlipper, calcJerk, calcMKA, b1, b2, b3, b4]

/-! ## Generation -/

theorem moveMaker_stateB {v : ℝ} {b c : Block ℝ} {pb : Option (Block ℝ)} (hm : moveMaker b pb v = .ok c) :
    c.stateB = b.stateB := by
  unfold moveMaker at hm
  split at hm
  · simp only [bind, Except.bind] at hm
    repeat' split at hm
    all_goals first | (cases hm; rfl) | cases hm
  · cases hm
  · cases hm

theorem mkBlock_later {A A' : Option (PState ℝ)} {B B' : PState ℝ} {l l' : List (PState ℝ)} {pb pb' : Option (Block ℝ)} {δ : ℝ}
    (hA : A'.map PState.position = A.map PState.position) (hB : Rewaited B B') (h : List.Forall₂ Rewaited l l')
    (hst : B.pause ≠ none → ∀ a ∈ A, B.position = a.position) (hb : Before δ pb pb') :
    InStep (fun b b' => b.stateB = B ∧ (B.pause ≠ none → b.segments ≠ []) ∧
        ∃ ε, ε = δ + (B'.pause.getD 0 - B.pause.getD 0) ∧ LateBlock δ ε b b')
      (mkBlock fw A B l pb) (mkBlock fw A' B' l' pb') := by
  have h0 := targetVel_rewaited hA hB
  unfold mkBlock
  simp only [junctionVel_rewaited hA hB h, h0]
  rcases hB.waits with ⟨e, e'⟩ | ⟨p, p', hp, hp', e, e'⟩
  · simp only [e, e']
    refine .ite ?_ ⟨rfl, fun hx => absurd rfl hx, δ, by simp,
      ⟨hA, hB.position, hB.speed, hB.acc, rfl, rfl, rfl⟩, Or.inl ⟨e, e', rfl, rfl⟩⟩
    refine InStep.bind (R := fun b b' => b.stateB = B ∧ LateBlock δ δ b b') ?_ ?_
    · have := moveMaker_later (δ := δ) (v := junctionVel fw A B l)
        (b := ⟨A, B, (targetVel A B).normDir4, false, none, [], none⟩)
        (b' := ⟨A', B', (targetVel A B).normDir4, false, none, [], none⟩)
        ⟨hA, hB.position, hB.speed, hB.acc, rfl, rfl, rfl⟩ (Or.inl ⟨e, e'⟩) hb
      have hsb : ∀ b, moveMaker ⟨A, B, (targetVel A B).normDir4, false, none, [], none⟩ pb (junctionVel fw A B l) = .ok b →
          b.stateB = B := fun b hm => moveMaker_stateB hm
      revert this hsb
      generalize moveMaker ⟨A, B, (targetVel A B).normDir4, false, none, [], none⟩ pb (junctionVel fw A B l) = x
      generalize moveMaker ⟨A', B', (targetVel A B).normDir4, false, none, [], none⟩ pb' (junctionVel fw A B l) = y
      intro this hsb
      cases x <;> cases y
      · exact this
      · exact this.elim
      · exact this.elim
      · exact ⟨hsb _ rfl, this⟩
    · rintro b b' ⟨hs, hl⟩
      obtain ⟨hl1, hl2⟩ := hl
      refine ⟨hs, fun hx => absurd rfl hx, δ, by simp, ⟨hl1.1, hl1.2, hl1.3, hl1.4, hl1.5, ?_, hl1.7⟩, hl2⟩
      cases A <;> cases A' <;> simp only [Option.map_none, Option.map_some, reduceCtorEq, Option.some.injEq] at hA
      · rfl
      · simp only [hA, hB.position]
  · have ht : targetVel A B = Vec4.zero := by
      cases A with
      | none => rfl
      | some A => exact connectState_self (hst (by simp [e]) A rfl)
    simp only [e, e', ht, notZero_zero]
    refine InStep.bind (R := fun b b' => b = ⟨A, B, (Vec4.zero : Vec4 ℝ).normDir4, false, none, [], none⟩ ∧
      b' = ⟨A', B', (Vec4.zero : Vec4 ℝ).normDir4, false, none, [], none⟩) ⟨rfl, rfl⟩ ?_
    rintro b b' ⟨rfl, rfl⟩
    refine InStep.bind (dwell_later hp hp' hb) ?_
    rintro s _ ⟨rfl, hh⟩
    refine ⟨rfl, by simp, δ + (p' - p), by simp, ⟨hA, hB.position, hB.speed, hB.acc, rfl, rfl, rfl⟩,
      Or.inr ⟨p, p', s, e, e', ?_, rfl, rfl, rfl, hh⟩⟩
    have hn : (Vec4.zero : Vec4 ℝ).norm4 = 0 := norm4_zero
    have hn3 : (Vec4.zero : Vec4 ℝ).norm3 = 0 := by
      unfold norm3
      rw [sqrt_real]
      simp [Vec4.zero]
    simp [normDir4, hn, hn3]

/-- Blocks and what is known about their waits. -/
inductive LateBlocks : ℝ → List (Block ℝ) → List (Block ℝ) → ℝ → Prop
  | nil (δ) : LateBlocks δ [] [] δ
  | cons {δ ε ζ b b' bs bs'} : LateBlock δ ε b b' → LateBlocks ε bs bs' ζ → LateBlocks δ (b :: bs) (b' :: bs') ζ

theorem genBlocks_later : ∀ {l l' : List (PState ℝ)} {A A' : Option (PState ℝ)} {pb pb' : Option (Block ℝ)} {δ : ℝ},
    A'.map PState.position = A.map PState.position → List.Forall₂ Rewaited l l' → PausesStay (A.toList ++ l) → Before δ pb pb' →
    InStep (fun bs bs' => LateBlocks δ bs bs' (δ + longer l l')) (genBlocks fw A pb l) (genBlocks fw A' pb' l')
  | [], _, A, A', pb, pb', δ, _, .nil, _, _ => by
    change LateBlocks _ _ _ _
    rw [longer, _root_.sub_self, _root_.add_zero]
    exact .nil δ
  | s :: l, _, A, A', pb, pb', δ, hA, .cons (l₂ := l') (b := s') hs h, hst, hb => by
    have hst2 : PausesStay ([s] ++ l) := by
      cases A with
      | none => exact hst
      | some a => exact (List.isChain_cons_cons.1 hst).2
    have hst1 : s.pause ≠ none → ∀ a ∈ A, s.position = a.position := by
      intro hp a ha
      cases ha
      exact (List.isChain_cons_cons.1 hst).1 hp
    rw [genBlocks, genBlocks]
    refine InStep.bind (mkBlock_later hA hs h hst1 hb) ?_
    rintro b b' ⟨hsb, hseg, ε, hε, hl⟩
    have hlong : δ + longer (s :: l) (s' :: l') = ε + longer l l' := by
      rw [hε]
      simp only [longer, List.map_cons, List.sum_cons]
      ring
    have hem : b'.segments.isEmpty = b.segments.isEmpty := by
      rcases hl.segments with ⟨_, _, _, e⟩ | ⟨_, _, _, _, _, _, _, e, e', _⟩
      · rw [e]
        cases b.segments <;> rfl
      · rw [e, e']
        rfl
    rw [hem, hlong]
    split_ifs with hx
    · have he : ε = δ := by
        have hp : s.pause = none := by
          by_contra hne
          exact hseg hne (List.isEmpty_iff.1 hx)
        rcases hs.waits with ⟨e, e'⟩ | ⟨_, _, _, _, e, _⟩
        · rw [hε, e, e']
          simp
        · rw [hp] at e
          cases e
      rw [he]
      exact genBlocks_later (A := some s) (A' := some s') (by simp [hs.position]) h hst2 hb
    · refine InStep.bind (genBlocks_later (A := some s) (A' := some s') (by simp [hs.position]) h hst2 (.some hl)) ?_
      intro bs bs' hbs
      exact .cons hl hbs

/-! ## Correction -/

theorem LateBlock.pause {δ ε : ℝ} {b b' : Block ℝ} (h : LateBlock δ ε b b') :
    b.stateB.pause = none ∧ b'.stateB.pause = none ∨ b.direction = none := by
  rcases h.segments with ⟨h1, h2, _⟩ | ⟨_, _, _, _, _, h, _⟩
  · exact Or.inl ⟨h1, h2⟩
  · exact Or.inr h

/-- Related results of a correction. -/
def Corrected (ε ζ : ℝ) (r r' : List (Block ℝ) × Block ℝ × Option (Block ℝ)) : Prop :=
  ∃ δ, Past δ r.1 r'.1 ∧ LateBlock δ ε r.2.1 r'.2.1 ∧
    (r.2.2 = none ∧ r'.2.2 = none ∨ ∃ c c', r.2.2 = some c ∧ r'.2.2 = some c' ∧ LateBlock ε ζ c c')

theorem moveMaker_type {v : ℝ} {b c : Block ℝ} {pb : Option (Block ℝ)} (h : moveMaker b pb v = .ok c) : b.direction ≠ none := by
  obtain ⟨A, B, u, ext, jd, segs, ty⟩ := b
  unfold moveMaker at h
  cases A with
  | none => cases h
  | some A =>
    cases u with
    | none => cases h
    | some u => simp

theorem selfCorrection_later : ∀ {rp rp' : List (Block ℝ)} {δ ε ζ : ℝ} {b b' : Block ℝ} {nx nx' : Option (Block ℝ)},
    Past δ rp rp' → LateBlock δ ε b b' →
    (nx = none ∧ nx' = none ∨ ∃ c c', nx = some c ∧ nx' = some c' ∧ LateBlock ε ζ c c') →
    InStep (Corrected ε ζ) (selfCorrection rp b nx) (selfCorrection rp' b' nx') := by
  have step : ∀ {rp rp' : List (Block ℝ)} {δ ε ζ : ℝ} {b b' c c' : Block ℝ}, Past δ rp rp' → LateBlock δ ε b b' → LateBlock ε ζ c c' →
      (∀ {p r p' r' γ x x'}, rp = p :: r → rp' = p' :: r' → Past γ r r' → LateBlock γ δ p p' → LateBlock δ δ x x' →
        InStep (Corrected δ δ) (selfCorrection r p (some x)) (selfCorrection r' p' (some x'))) →
      InStep (Corrected ε ζ) (selfCorrection rp b (some c)) (selfCorrection rp' b' (some c')) := by
    intro rp rp' δ ε ζ b b' c c' hrp hb hc ih
    rw [selfCorrection.eq_def, selfCorrection.eq_def rp']
    simp only
    refine InStep.bind hb.last ?_
    intro s s' hs
    refine InStep.bind hc.first ?_
    rintro f f' ⟨hf1, hf2, hf3⟩
    simp only [hs.vel, hf3]
    have fin : ∀ {R R' : List (Block ℝ)} {x x' : Block ℝ} {γ : ℝ}, Past γ R R' → LateBlock γ ε x x' → InStep (Corrected ε ζ)
        (do
          let last ← x.lastSeg
          if last.posEnd.eq f.posBegin = true then .ok (R, x, some (c.timeshift (last.tEnd - f.tBegin)))
          else if 1e-12 < (last.posEnd.sub f.posBegin).norm3 then .error .nameError
          else .ok (R, x, some (c.timeshift (last.tEnd - f.tBegin))))
        (do
          let last ← x'.lastSeg
          if last.posEnd.eq f'.posBegin = true then .ok (R', x', some (c'.timeshift (last.tEnd - f'.tBegin)))
          else if 1e-12 < (last.posEnd.sub f'.posBegin).norm3 then .error .nameError
          else .ok (R', x', some (c'.timeshift (last.tEnd - f'.tBegin)))) := by
      intro R R' x x' γ hR hx
      refine InStep.bind hx.last ?_
      intro e e' he
      have ht : e'.tEnd - f'.tBegin = e.tEnd - f.tBegin := by
        rw [he.time, hf1]
        ring
      rw [ht, he.pos, hf2]
      have ok : InStep (Corrected ε ζ) (.ok (R, x, some (c.timeshift (e.tEnd - f.tBegin))))
          (.ok (R', x', some (c'.timeshift (e.tEnd - f.tBegin)))) :=
        ⟨γ, hR, hx, Or.inr ⟨_, _, rfl, rfl, hc.timeshift _⟩⟩
      refine .ite ok (.ite ?_ ok)
      rfl
    refine .ite ?_ (fin hrp hb)
    refine InStep.bind (R := fun x x' => LateBlock δ δ x x' ∧ ε = δ) ?_ ?_
    · have hm := moveMaker_later (v := f.velBegin.norm3) hb.toSameStep hb.pause hrp.head
      have hd := fun x => moveMaker_type (v := f.velBegin.norm3) (b := b) (pb := rp.head?) (c := x)
      revert hm hd
      generalize moveMaker b rp.head? f.velBegin.norm3 = x
      generalize moveMaker b' rp'.head? f.velBegin.norm3 = y
      intro hm hd
      cases x <;> cases y
      · exact hm
      · exact hm.elim
      · exact hm.elim
      · refine ⟨hm, ?_⟩
        rcases hb.segments with ⟨_, _, e, _⟩ | ⟨_, _, _, _, _, e, _⟩
        · exact e
        · exact absurd e (hd _ rfl)
    · rintro x x' ⟨hx, rfl⟩
      rw [hx.type]
      refine .ite ?_ (fin hrp hx)
      cases hrp with
      | nil => rfl
      | cons hp hrp =>
        refine InStep.bind (ih rfl rfl hrp hp hx) ?_
        rintro ⟨r1, r2, r3⟩ ⟨r1', r2', r3'⟩ ⟨γ, g1, g2, g3⟩
        rcases g3 with ⟨e1, e2⟩ | ⟨y, y', e1, e2, hy⟩
        · simp only at e1 e2
          subst e1 e2
          exact fin (.cons g2 g1) hx
        · simp only at e1 e2
          subst e1 e2
          exact fin (.cons g2 g1) hy
  intro rp
  induction rp with
  | nil =>
    intro rp' δ ε ζ b b' nx nx' hrp hb hnx
    rcases hnx with ⟨rfl, rfl⟩ | ⟨c, c', rfl, rfl, hc⟩
    · rw [selfCorrection, selfCorrection]
      exact ⟨δ, hrp, hb, Or.inl ⟨rfl, rfl⟩⟩
    · exact step hrp hb hc (by intro p r p' r' γ x x' e; cases e)
  | cons p rp ih =>
    intro rp' δ ε ζ b b' nx nx' hrp hb hnx
    rcases hnx with ⟨rfl, rfl⟩ | ⟨c, c', rfl, rfl, hc⟩
    · rw [selfCorrection, selfCorrection]
      exact ⟨δ, hrp, hb, Or.inl ⟨rfl, rfl⟩⟩
    · refine step hrp hb hc ?_
      intro q r q' r' γ x x' e e' h1 h2 h3
      cases e
      exact ih h1 h2 (Or.inr ⟨x, x', rfl, rfl, h3⟩)

theorem LateBlocks.append {δ ε ζ : ℝ} {l l' m m' : List (Block ℝ)} (h : LateBlocks δ l l' ε) (h' : LateBlocks ε m m' ζ) :
    LateBlocks δ (l ++ m) (l' ++ m') ζ := by
  induction h with
  | nil => exact h'
  | cons hb _ ih => exact .cons hb (ih h')

theorem Past.blocks {δ : ℝ} {rp rp' : List (Block ℝ)} (h : Past δ rp rp') : LateBlocks 0 rp.reverse rp'.reverse δ := by
  induction h with
  | nil => exact .nil 0
  | cons hb _ ih =>
    rw [List.reverse_cons, List.reverse_cons]
    exact ih.append (.cons hb (.nil _))

theorem correctFrom_later {tl tl' : List (Block ℝ)} {ε ζ : ℝ} (htl : LateBlocks ε tl tl' ζ) :
    ∀ {rp rp' : List (Block ℝ)} {b b' : Block ℝ} {δ : ℝ}, Past δ rp rp' → LateBlock δ ε b b' →
    InStep (fun bs bs' => LateBlocks 0 bs bs' ζ) (correctFrom rp b tl) (correctFrom rp' b' tl') := by
  induction htl with
  | nil =>
    intro rp rp' b b' δ hrp hb
    rw [correctFrom, correctFrom]
    refine InStep.bind (selfCorrection_later (ζ := 0) hrp hb (Or.inl ⟨rfl, rfl⟩)) ?_
    rintro r r' ⟨γ, g1, g2, _⟩
    exact g1.blocks.append (.cons g2 (.nil _))
  | cons hc _ ih =>
    intro rp rp' b b' δ hrp hb
    rw [correctFrom, correctFrom]
    refine InStep.bind (selfCorrection_later hrp hb (Or.inr ⟨_, _, rfl, rfl, hc⟩)) ?_
    rintro ⟨r1, r2, r3⟩ ⟨r1', r2', r3'⟩ ⟨γ, g1, g2, g3⟩
    rcases g3 with ⟨e1, e2⟩ | ⟨y, y', e1, e2, hy⟩
    · simp only at e1 e2
      subst e1 e2
      exact ih (.cons g2 g1) hc
    · simp only at e1 e2
      subst e1 e2
      exact ih (.cons g2 g1) hy

theorem LateBlocks.delayed {δ ζ : ℝ} (h : LateBlocks δ bs bs' ζ) : Delayed δ bs bs' := by
  induction h with
  | nil => exact .nil _
  | cons hb _ ih =>
    rcases hb.segments with ⟨h1, h2, rfl, h3⟩ | ⟨p, p', s, h1, h2, h3, rfl, h4, h5, h6⟩
    · exact .move h1 h2 hb.extruding h3 ih
    · exact .wait h1 h2 hb.extruding h4 h6 h5 ih

/-- Planning with other waits. -/
theorem plan_later (h : List.Forall₂ Rewaited states states') (hst : PausesStay states) :
    InStep (fun bs bs' => LateBlocks 0 bs bs' (longer states states')) (plan fw states) (plan fw states') := by
  unfold plan
  refine InStep.bind (genBlocks_later (A := none) (A' := none) rfl h hst .none) ?_
  intro bs bs' hb
  rw [_root_.zero_add] at hb
  revert hb
  generalize longer states states' = d
  intro hb
  cases hb with
  | nil => exact .nil _
  | cons h1 h2 => exact correctFrom_later h2 .nil h1

theorem LateBlocks.end {δ ζ : ℝ} (h : LateBlocks δ bs bs' ζ) (hne : bs ≠ []) :
    InStep (fun t t' => t' = t + ζ) (endTime bs) (endTime bs') := by
  induction h with
  | nil => exact absurd rfl hne
  | @cons δ ε ζ b b' bs bs' hb h ih =>
    cases h with
    | nil => exact hb.last.map fun _ _ h => h.time
    | @cons _ _ _ c c' cs cs' hc h =>
      have e1 : endTime (b :: c :: cs) = endTime (c :: cs) := by unfold endTime; rw [List.getLast?_cons_cons]
      have e2 : endTime (b' :: c' :: cs') = endTime (c' :: cs') := by unfold endTime; rw [List.getLast?_cons_cons]
      rw [e1, e2]
      exact ih (by simp)

theorem path_endTime {t : ℝ} (h : endTime bs = .ok t) : EndTime (Spec.path bs) t := by
  unfold endTime at h
  cases hb : bs.getLast? with
  | none =>
    rw [hb] at h
    cases h
  | some b =>
    rw [hb] at h
    obtain ⟨pre, rfl⟩ := List.getLast?_eq_some_iff.1 hb
    simp only [Block.lastSeg] at h
    cases hs : b.segments.getLast? with
    | none =>
      rw [hs] at h
      cases h
    | some s =>
      rw [hs] at h
      refine ⟨s, ?_, Except.ok.inj h⟩
      simp [Spec.path, hs]

/-- **C130, states.** Programs that differ only in how long they wait: both are simulated or both fail with the same error. The
blocks are the same, with moves and waits running later by how much longer the machine has waited before, to the very end. -/
theorem c130_waits (h : List.Forall₂ Rewaited states states') (hst : PausesStay states) :
    (∀ e, simulate fw states = .error e → simulate fw states' = .error e) ∧
    ∀ bs, simulate fw states = .ok bs → ∃ bs', simulate fw states' = .ok bs' ∧ Delayed 0 bs bs' ∧
      ∃ t, EndTime (Spec.path bs) t ∧ EndTime (Spec.path bs') (t + longer states states') := by
  have hp := plan_later (fw := fw) h hst
  unfold simulate
  simp only [bind, Except.bind]
  revert hp
  generalize plan fw states = x
  generalize plan fw states' = y
  intro hp
  cases x <;> cases y
  · refine ⟨fun e he => ?_, fun bs hb => by cases hb⟩
    cases he
    exact congrArg Except.error hp.symm
  · exact hp.elim
  · exact hp.elim
  · rename_i bs bs'
    have hp : LateBlocks 0 bs bs' (longer states states') := hp
    revert hp
    generalize longer states states' = d
    intro hp
    simp only
    by_cases hne : bs = []
    · subst hne
      cases hp
      exact ⟨fun e he => he, fun bs hb => by cases hb⟩
    · have he := hp.end hne
      revert he
      cases h1 : endTime bs <;> cases h2 : endTime bs' <;> intro he
      · refine ⟨fun e hx => ?_, fun bs hb => by cases hb⟩
        cases hx
        exact congrArg Except.error he.symm
      · exact he.elim
      · exact he.elim
      · refine ⟨fun e hx => (by cases hx), fun cs hx => ?_⟩
        cases hx
        exact ⟨bs', rfl, hp.delayed, _, path_endTime h1, path_endTime (by rw [h2]; exact congrArg Except.ok he)⟩

theorem Spec.Delayed.tracks {δ : ℝ} (h : Delayed δ bs bs') : Spec.tracks (Spec.path bs') = Spec.tracks (Spec.path bs) := by
  induction h with
  | nil => rfl
  | move _ _ _ h4 _ ih =>
    unfold Spec.tracks Spec.path at ih ⊢
    rw [List.flatMap_cons, List.flatMap_cons, List.map_append, List.map_append, ih, h4, List.map_map]
    rfl
  | wait _ _ _ h4 _ h5 _ ih =>
    unfold Spec.tracks Spec.path at ih ⊢
    rw [List.flatMap_cons, List.flatMap_cons, List.map_append, List.map_append, ih, h4, h5]
    rfl

/-! ## Files -/

section
variable {pf : List Char → Option ℝ} {d d' : Dict (SVal ℝ)} {q q' : Printer} {ls ls' : List Line} {content content' : List Char}

theorem wait_stays {l : Line} (h : l.wait pf ≠ none) : q.exec pf l = q := by
  have hc : l.cmd = some .G4 := by
    by_contra hc
    exact h (if_neg hc)
  unfold Printer.exec
  rw [hc]

theorem doings_stay : ∀ {ls : List Line} {q : Printer} {A : PState ℝ}, A.position = q.point →
    PausesStay (A :: (q.doings pf ls).map Doing.state)
  | [], _, _, _ => .singleton _
  | l :: ls, q, A, hA => by
    rw [Printer.doings]
    split_ifs with h
    · exact doings_stay (hA.trans h.1.symm)
    · rw [List.map_cons]
      refine .cons_cons ?_ (doings_stay rfl)
      intro hw
      rw [hA]
      exact congrArg Printer.point (wait_stays hw)

theorem relaxed_longer : ∀ {l l' : List Doing}, (p : Vec4 ℝ) → longer (program p l) (program p l') = waited l' - waited l := by
  intro l l' p
  simp [longer, program, waited, Doing.state, Function.comp_def]

/-- **C130, files.** If the second file makes its printer do the same as the first one except for how long it waits, both are
simulated or both fail with the same error. The path is the same and taken at the same velocities. The print takes exactly as
much longer as the printer waits longer. -/
theorem c130_file (hpf : FloatLike pf) (hd : SetupAccepted d) (hd' : SetupAccepted d') (hq : PrinterOf d q)
    (hq' : PrinterOf d' q') (hfw : firmwareOf d' = firmwareOf d) (hp : ∀ l ∈ ls, l.Plain pf) (hp' : ∀ l ∈ ls', l.Plain pf)
    (hc : FileOf ls content) (hc' : FileOf ls' content') (h0 : q'.point = q.point)
    (hR : List.Forall₂ Relaxed (q.doings pf ls) (q'.doings pf ls')) :
    (∀ e, simulateFile pf d content = .error e → simulateFile pf d' content' = .error e) ∧
    ∀ bs, simulateFile pf d content = .ok bs → ∃ bs', simulateFile pf d' content' = .ok bs' ∧
      tracks (Spec.path bs') = tracks (Spec.path bs) ∧
      ∃ t, EndTime (Spec.path bs) t ∧ EndTime (Spec.path bs') (t + (waited (q'.doings pf ls') - waited (q.doings pf ls))) := by
  have hs := simulate_program hpf hd hq hp hc
  have hs' := simulate_program hpf hd' hq' hp' hc'
  have hre : List.Forall₂ Rewaited (program q.point (q.doings pf ls)) (program q.point (q'.doings pf ls')) := by
    refine .cons ⟨rfl, rfl, rfl, rfl, Or.inl ⟨rfl, rfl⟩⟩ ?_
    rw [List.forall₂_map_left_iff, List.forall₂_map_right_iff]
    exact hR.imp fun x x' h => ⟨h.place, h.feed, h.acc, h.jerk, h.waits⟩
  obtain ⟨k1, k2⟩ := c130_waits (fw := firmwareOf d) hre (doings_stay rfl)
  rw [relaxed_longer] at k2
  rw [h0, hfw] at hs'
  constructor
  · intro e he
    rw [he] at hs
    cases hm : simulate (firmwareOf d) (program q.point (q.doings pf ls)) with
    | ok cs =>
      rw [hm] at hs
      cases hs
    | error e2 =>
      rw [hm] at hs
      cases hs
      rw [k1 _ hm] at hs'
      cases hf : simulateFile pf d' content' with
      | ok _ =>
        rw [hf] at hs'
        cases hs'
      | error _ =>
        rw [hf] at hs'
        cases hs'
        rfl
  · intro bs hb
    rw [hb] at hs
    cases hm : simulate (firmwareOf d) (program q.point (q.doings pf ls)) with
    | error e2 =>
      rw [hm] at hs
      cases hs
    | ok cs =>
      rw [hm] at hs
      obtain ⟨cs', g1, g2, t, g3, g4⟩ := k2 _ hm
      rw [g1] at hs'
      cases hf : simulateFile pf d' content' with
      | error _ =>
        rw [hf] at hs'
        cases hs'
      | ok bs' =>
        rw [hf] at hs'
        have e1 := path_of_segments (Except.ok.inj hs)
        have e2 := path_of_segments (Except.ok.inj hs')
        refine ⟨bs', rfl, ?_, t, ?_, ?_⟩
        · rw [e1, e2]
          exact g2.tracks
        · rw [e1]
          exact g3
        · rw [e2]
          exact g4

end

/-! ## Examples -/

/-- `c130_waits`: a move and a wait, and the same with another wait. -/
def Demo.pausing (p : ℝ) : List (PState ℝ) :=
  [⟨⟨0, 0, 0, 0⟩, 0, 1, 1, none, none⟩, ⟨⟨10, 0, 0, 0⟩, 5, 100, 1, none, none⟩, ⟨⟨10, 0, 0, 0⟩, 5, 100, 1, some p, none⟩,
    ⟨⟨0, 0, 0, 0⟩, 5, 100, 1, none, none⟩]

example {p p' : ℝ} (h : 0 ≤ p) (h' : 0 ≤ p') : List.Forall₂ Rewaited (Demo.pausing p) (Demo.pausing p') ∧
    PausesStay (Demo.pausing p) ∧ longer (Demo.pausing p) (Demo.pausing p') = p' - p := by
  refine ⟨?_, ?_, ?_⟩
  · exact .cons ⟨rfl, rfl, rfl, rfl, Or.inl ⟨rfl, rfl⟩⟩ (.cons ⟨rfl, rfl, rfl, rfl, Or.inl ⟨rfl, rfl⟩⟩
      (.cons ⟨rfl, rfl, rfl, rfl, Or.inr ⟨p, p', h, h', rfl, rfl⟩⟩ (.cons ⟨rfl, rfl, rfl, rfl, Or.inl ⟨rfl, rfl⟩⟩ .nil)))
  · simp [PausesStay, Demo.pausing]
  · simp [longer, Demo.pausing]

/-- A file that moves and waits. -/
def Demo.pausingLines (n : List Char) : List Line :=
  [⟨some .G1, [⟨1, 'X', ['0']⟩, ⟨1, 'F', ['1', '0']⟩], 0, none, []⟩, ⟨some .G4, [⟨1, 'S', n⟩], 0, none, []⟩]

theorem Demo.pausing_lines {n : List Char} (hn : n = ['0'] ∨ n = ['1', '0']) : ∀ l ∈ Demo.pausingLines n, l.Plain Demo.num := by
  intro l hl
  simp only [Demo.pausingLines, List.mem_cons, List.not_mem_nil, or_false] at hl
  rcases hn with rfl | rfl <;> rcases hl with rfl | rfl <;>
    exact ⟨by simp, by simp, by simp, by simp [plainLetters], by simp, by simp [Demo.num, numChars], by simp, by simp⟩

theorem Demo.pausing_file : FileOf (Demo.pausingLines ['0']) "G1 X0 F10\nG4 S0\n".toList := by
  refine ⟨"G1 X0 F10\nG4 S0\n".toList, ["G1 X0 F10\n".toList, "G4 S0\n".toList], ?_, ?_, ?_⟩
  · repeat' first | exact .nil | refine .other (by decide) ?_
  · exact .line (l := "G1 X0 F10".toList) (by decide) (.line (l := "G4 S0".toList) (by decide) .none)
  · exact .cons (Or.inr rfl) (.cons (Or.inr rfl) .nil)

theorem Demo.pausing_file' : FileOf (Demo.pausingLines ['1', '0']) "G1 X0 F10\nG4 S10\n".toList := by
  refine ⟨"G1 X0 F10\nG4 S10\n".toList, ["G1 X0 F10\n".toList, "G4 S10\n".toList], ?_, ?_, ?_⟩
  · repeat' first | exact .nil | refine .other (by decide) ?_
  · exact .line (l := "G1 X0 F10".toList) (by decide) (.line (l := "G4 S10".toList) (by decide) .none)
  · exact .cons (Or.inr rfl) (.cons (Or.inr rfl) .nil)

theorem Demo.pausing_workable : Workable Demo.num (Demo.printerAt 20 2 35 200 10) (Demo.pausingLines ['0']) where
  settings := by norm_num [Demo.printerAt]
  feed := by simp [Demo.pausingLines, Line.value, Demo.num]
  acc := by simp [Demo.pausingLines]
  jerk := by simp [Demo.pausingLines]
  wait := by simp [Demo.pausingLines, Line.wait, Line.value, Demo.num]
  warm := by
    intro pre l post he hl
    cases pre with
    | nil =>
      rw [List.nil_append, Demo.pausingLines, List.cons.injEq] at he
      rw [← he.1] at hl
      simp [Line.wait] at hl
    | cons z pre =>
      rw [List.cons_append, Demo.pausingLines, List.cons.injEq] at he
      refine ⟨_, List.mem_cons_self, ?_⟩
      rw [← he.1]
      intro h
      have := congrArg Vec4.x h
      simp [Printer.exec, Printer.point, Line.value, Demo.num, Demo.printerAt, letter, Printer.abs] at this
  moves := by
    refine ⟨_, List.mem_cons_self, fun h => ?_⟩
    have := congrArg Vec4.x h
    simp [Printer.exec, Printer.point, Line.value, Demo.num, Demo.printerAt, letter, Printer.abs] at this

theorem Demo.pausing_doings {n : List Char} {x : ℝ} (hn : Demo.num n = some x) :
    (Demo.printerAt 20 2 35 200 10).doings Demo.num (Demo.pausingLines n) =
    [⟨⟨0, 2, 3, 4⟩, 1 / 6, 200, 10, none⟩, ⟨⟨0, 2, 3, 4⟩, 1 / 6, 200, 10, some x⟩] := by
  have h0 : Demo.num ['0'] = some 0 := by simp [Demo.num]
  have h1 : Demo.num ['1', '0'] = some 10 := by simp [Demo.num]
  simp [Printer.doings, Demo.pausingLines, Line.wait, Line.value, h0, h1, hn, Printer.exec, Demo.printerAt, Printer.point,
    letter, Printer.abs]
  norm_num

/-- `c130_file`: a file that waits for ten seconds at its end, and one that waits for no time. -/
example : ∃ bs bs' t, simulateFile Demo.num (Demo.setupAt 20 2 35 200 10 "MKA") "G1 X0 F10\nG4 S0\n".toList = .ok bs ∧
    simulateFile Demo.num (Demo.setupAt 20 2 35 200 10 "MKA") "G1 X0 F10\nG4 S10\n".toList = .ok bs' ∧
    EndTime (Spec.path bs) t ∧ EndTime (Spec.path bs') (t + 10) := by
  obtain ⟨bs, _, _, _, h, _⟩ := c69_simulated_as_written Demo.num_floatLike (Demo.at_accepted 20 2 35 200 10 "MKA")
    (Demo.at_printer ..) (Demo.pausing_lines (Or.inl rfl)) Demo.pausing_workable Demo.pausing_file
  have h0 : Demo.num ['0'] = some 0 := by simp [Demo.num]
  have h1 : Demo.num ['1', '0'] = some 10 := by simp [Demo.num]
  obtain ⟨bs', k1, _, t, k2, k3⟩ := (c130_file Demo.num_floatLike (Demo.at_accepted 20 2 35 200 10 "MKA")
    (Demo.at_accepted 20 2 35 200 10 "MKA") (Demo.at_printer ..) (Demo.at_printer ..) rfl (Demo.pausing_lines (Or.inl rfl))
    (Demo.pausing_lines (Or.inr rfl)) Demo.pausing_file Demo.pausing_file' rfl (by
      rw [Demo.pausing_doings h0, Demo.pausing_doings h1]
      exact .cons ⟨rfl, rfl, rfl, rfl, Or.inl ⟨rfl, rfl⟩⟩
        (.cons ⟨rfl, rfl, rfl, rfl, Or.inr ⟨0, 10, le_refl _, by norm_num, rfl, rfl⟩⟩ .nil))).2 _ h
  rw [Demo.pausing_doings h0, Demo.pausing_doings h1] at k3
  simp only [waited, List.map_cons, List.map_nil, List.sum_cons, List.sum_nil, Option.getD_none, Option.getD_some] at k3
  exact ⟨bs, bs', t, h, k1, k2, by norm_num at k3; exact k3⟩

end PyGCD
