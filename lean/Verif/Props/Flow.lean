import Verif.Spec.Flow
import Verif.Props.Waits

/-!
# Property C131: more or less filament
-/

set_option linter.unusedSectionVars false
set_option linter.unusedSimpArgs false

namespace PyGCD
open Vec4 Spec

variable {fw : Firmware} {states states' : List (PState ℝ)} {bs bs' : List (Block ℝ)}

/-- If two computations succeed, their results are related. -/
structure Akin {α β : Type} (R : α → β → Prop) (x : Except PyErr α) (y : Except PyErr β) : Prop where
  out : ∀ a b, x = .ok a → y = .ok b → R a b

theorem Akin.ok {α β : Type} {R : α → β → Prop} {a : α} {b : β} (h : R a b) : Akin R (.ok a) (.ok b) := by
  refine ⟨fun _ _ e e' => ?_⟩
  cases e
  cases e'
  exact h

theorem Akin.error {α β : Type} {R : α → β → Prop} {e : PyErr} {y : Except PyErr β} : Akin R (.error e : Except PyErr α) y := by
  refine ⟨fun _ _ h _ => ?_⟩
  cases h

theorem Akin.error' {α β : Type} {R : α → β → Prop} {e : PyErr} {x : Except PyErr α} : Akin R x (.error e : Except PyErr β) := by
  refine ⟨fun _ _ _ h => ?_⟩
  cases h

theorem Akin.bind {α β γ δ : Type} {R : α → β → Prop} {S : γ → δ → Prop} {x : Except PyErr α} {y : Except PyErr β}
    {f : α → Except PyErr γ} {g : β → Except PyErr δ} (h : Akin R x y) (hf : ∀ a b, R a b → Akin S (f a) (g b)) :
    Akin S (x >>= f) (y >>= g) := by
  cases x with
  | error e => exact Akin.error
  | ok a =>
    cases y with
    | error e => exact Akin.error'
    | ok b => exact hf _ _ (h.out _ _ rfl rfl)

theorem Akin.map {α β γ δ : Type} {R : α → β → Prop} {S : γ → δ → Prop} {x : Except PyErr α} {y : Except PyErr β}
    {f : α → γ} {g : β → δ} (h : Akin R x y) (hf : ∀ a b, R a b → S (f a) (g b)) : Akin S (x.map f) (y.map g) := by
  cases x with
  | error e => exact Akin.error
  | ok a =>
    cases y with
    | error e => exact Akin.error'
    | ok b => exact .ok (hf _ _ (h.out _ _ rfl rfl))

theorem Akin.rescue {α β : Type} {R : α → β → Prop} {x : Except PyErr α} {y : Except PyErr β} (h : Akin R x y) :
    Akin R (rescueValueError x) (rescueValueError y) := by
  cases x with
  | error e => cases e <;> exact Akin.error
  | ok a =>
    cases y with
    | error e => cases e <;> exact Akin.error'
    | ok b => exact h

theorem Akin.ite {α β : Type} {R : α → β → Prop} {c : Prop} [Decidable c] {x x' : Except PyErr α} {y y' : Except PyErr β}
    (h : Akin R x y) (h' : Akin R x' y') : Akin R (if c then x else x') (if c then y else y') := by
  split_ifs <;> assumption

/-! ## Vectors -/

namespace Spec.SameXYZ
variable {v v' w w' : Vec4 ℝ}

theorem refl (v : Vec4 ℝ) : SameXYZ v v := ⟨rfl, rfl, rfl⟩

theorem norm3 (h : SameXYZ v v') : v'.norm3 = v.norm3 := by rw [Vec4.norm3, Vec4.norm3, h.x, h.y, h.z]

theorem add (h : SameXYZ v v') (k : SameXYZ w w') : SameXYZ (v.add w) (v'.add w') := by
  refine ⟨?_, ?_, ?_⟩ <;> simp only [Vec4.add, h.x, h.y, h.z, k.x, k.y, k.z]

theorem sub (h : SameXYZ v v') (k : SameXYZ w w') : SameXYZ (v.sub w) (v'.sub w') := by
  refine ⟨?_, ?_, ?_⟩ <;> simp only [Vec4.sub, h.x, h.y, h.z, k.x, k.y, k.z]

theorem mul (h : SameXYZ v v') (a : ℝ) : SameXYZ (v.mul a) (v'.mul a) := by
  refine ⟨?_, ?_, ?_⟩ <;> simp only [Vec4.mul, h.x, h.y, h.z]

theorem div (h : SameXYZ v v') (a : ℝ) : SameXYZ (v.div a) (v'.div a) := by
  refine ⟨?_, ?_, ?_⟩ <;> simp only [Vec4.div, h.x, h.y, h.z]

end Spec.SameXYZ

/-! ## Moves -/

theorem make_akin {t t1 : ℝ} {p v q w p' v' q' w' : Vec4 ℝ} :
    Akin (fun s s' => s = ⟨t, t1, p, v, q, w⟩ ∧ s' = ⟨t, t1, p', v', q', w'⟩) (Segment.make t t1 p v q w)
      (Segment.make t t1 p' v' q' w') := by
  unfold Segment.make
  simp only
  split_ifs
  · exact .ok ⟨rfl, rfl⟩
  · exact .error'
  · exact .error
  · exact .error

theorem keep_travel {u p v w : Vec4 ℝ} (hu : u.norm3 ≠ 0) (t t1 k : ℝ) :
    keepSeg ⟨t, t1, p, v, p.add (u.mul k), w⟩ = if k = 0 then [] else [⟨t, t1, p, v, p.add (u.mul k), w⟩] := by
  unfold keepSeg
  by_cases hk : k = 0
  · subst hk
    simp [isTravel, isExtrudingTo, Vec4.add, Vec4.mul, pyAbs_real]
  · rw [if_neg hk, if_pos]
    rw [Bool.or_eq_true]
    left
    simp only [isTravel, Vec4.add, Vec4.mul, pyAbs_real, decide_eq_true_eq]
    by_contra h
    push Not at h
    have h1 : |p.x - (p.x + u.x * k)| = 0 := by linarith [abs_nonneg (p.x - (p.x + u.x * k)), abs_nonneg (p.y - (p.y + u.y * k)), abs_nonneg (p.z - (p.z + u.z * k))]
    have h2 : |p.y - (p.y + u.y * k)| = 0 := by linarith [abs_nonneg (p.x - (p.x + u.x * k)), abs_nonneg (p.y - (p.y + u.y * k)), abs_nonneg (p.z - (p.z + u.z * k))]
    have h3 : |p.z - (p.z + u.z * k)| = 0 := by linarith [abs_nonneg (p.x - (p.x + u.x * k)), abs_nonneg (p.y - (p.y + u.y * k)), abs_nonneg (p.z - (p.z + u.z * k))]
    rw [abs_eq_zero] at h1 h2 h3
    have g1 : u.x = 0 := by
      have : u.x * k = 0 := by linarith
      exact (mul_eq_zero.1 this).resolve_right hk
    have g2 : u.y = 0 := by
      have : u.y * k = 0 := by linarith
      exact (mul_eq_zero.1 this).resolve_right hk
    have g3 : u.z = 0 := by
      have : u.z * k = 0 := by linarith
      exact (mul_eq_zero.1 this).resolve_right hk
    apply hu
    rw [Vec4.norm3, g1, g2, g3, sqrt_real]
    simp

theorem keep_akin {u p v w u' p' v' w' : Vec4 ℝ} (hu : u.norm3 ≠ 0) (h : SameXYZ u u') (hp : SameXYZ p p') (hv : SameXYZ v v')
    (hw : SameXYZ w w') (t t1 k : ℝ) : List.Forall₂ SameNozzle (keepSeg ⟨t, t1, p, v, p.add (u.mul k), w⟩)
      (keepSeg ⟨t, t1, p', v', p'.add (u'.mul k), w'⟩) := by
  rw [keep_travel hu, keep_travel (by rw [h.norm3]; exact hu)]
  split_ifs
  · exact .nil
  · exact .cons ⟨rfl, rfl, hp, hv, hp.add (h.mul k), hw⟩ .nil

variable {s s' : Segment ℝ} {u u' : Vec4 ℝ}

theorem Forall₂.append {α : Type} {R : α → α → Prop} {a a' b b' : List α} (h : List.Forall₂ R a a') (k : List.Forall₂ R b b') :
    List.Forall₂ R (a ++ b) (a' ++ b') := List.rel_append h k

theorem trapezoid_akin (h : SameNozzle s s') (hu : u.norm3 ≠ 0) (k : SameXYZ u u') (a vT v w d : ℝ) :
    Akin (List.Forall₂ SameNozzle) (trapezoid s u a vT v w d false) (trapezoid s' u' a vT v w d false) := by
  unfold trapezoid
  simp only [h.tEnd, (k.mul vT).norm3, Bool.false_eq_true, if_false]
  refine Akin.bind make_akin ?_
  rintro _ _ ⟨rfl, rfl⟩
  refine Akin.bind make_akin ?_
  rintro _ _ ⟨rfl, rfl⟩
  refine Akin.bind make_akin ?_
  rintro _ _ ⟨rfl, rfl⟩
  refine .ok (Forall₂.append (Forall₂.append ?_ ?_) ?_)
  · exact keep_akin hu k h.posEnd (k.mul _) (k.mul _) ..
  · exact keep_akin hu k (h.posEnd.add (k.mul _)) (k.mul _) (k.mul _) ..
  · exact keep_akin hu k ((h.posEnd.add (k.mul _)).add (k.mul _)) (k.mul _) (k.mul _) ..

theorem triang_akin (h : SameNozzle s s') (hu : u.norm3 ≠ 0) (k : SameXYZ u u') (a vP v w : ℝ) :
    Akin (List.Forall₂ SameNozzle) (triang s u a vP v w) (triang s' u' a vP v w) := by
  unfold triang
  simp only [h.tEnd]
  refine Akin.bind make_akin ?_
  rintro _ _ ⟨rfl, rfl⟩
  refine Akin.bind make_akin ?_
  rintro _ _ ⟨rfl, rfl⟩
  refine .ok (Forall₂.append ?_ ?_)
  · exact keep_akin hu k h.posEnd (k.mul _) (k.mul _) ..
  · exact keep_akin hu k (h.posEnd.add (k.mul _)) (k.mul _) (k.mul _) ..

theorem singlUp_akin (h : SameNozzle s s') (hu : u.norm3 ≠ 0) (k : SameXYZ u u') (a v w : ℝ) :
    Akin (List.Forall₂ SameNozzle) (singlUp s u a v w) (singlUp s' u' a v w) := by
  unfold singlUp
  simp only [h.tEnd]
  refine Akin.bind make_akin ?_
  rintro _ _ ⟨rfl, rfl⟩
  exact .ok (keep_akin hu k h.posEnd (k.mul _) (k.mul _) ..)

theorem singlDwn_akin (h : SameNozzle s s') (hu : u.norm3 ≠ 0) (k : SameXYZ u u') (a v w : ℝ) :
    Akin (List.Forall₂ SameNozzle) (singlDwn s u a v w) (singlDwn s' u' a v w) := by
  unfold singlDwn
  simp only [h.tEnd]
  refine Akin.bind make_akin ?_
  rintro _ _ ⟨rfl, rfl⟩
  exact .ok (keep_akin hu k h.posEnd (k.mul _) (k.mul _) ..)

theorem planMove_akin (h : SameNozzle s s') (hu : u.norm3 ≠ 0) (k : SameXYZ u u') {B B' : PState ℝ} (hB : Reflowed B B') (d v : ℝ) :
    Akin (fun r r' => List.Forall₂ SameNozzle r.1 r'.1 ∧ r'.2 = r.2) (planMove s u B d false v) (planMove s' u' B' d false v) := by
  unfold planMove
  simp only [h.velEnd.norm3, hB.speed, hB.acc]
  refine Akin.rescue ?_
  exact .ite ((trapezoid_akin h hu k ..).map fun _ _ h => ⟨h, rfl⟩) (.ite ((triang_akin h hu k ..).map fun _ _ h => ⟨h, rfl⟩)
    (.ite ((singlUp_akin h hu k ..).map fun _ _ h => ⟨h, rfl⟩) (.ite ((singlDwn_akin h hu k ..).map fun _ _ h => ⟨h, rfl⟩) .error)))

/-! ## Blocks -/

/-- The blocks make the nozzle do the same. -/
structure FlowBlock (b b' : Block ℝ) : Prop where
  state : Reflowed b.stateB b'.stateB
  direction : b.direction = none ∨ ∃ A A' u u', b.stateA = some A ∧ b'.stateA = some A' ∧ b.direction = some u ∧
    b'.direction = some u' ∧ SameXYZ A.position A'.position ∧ SameXYZ u u' ∧ u.norm3 ≠ 0 ∧
    b.stateB.position.tDistance A.position ≠ 0
  type : b'.blocktype = b.blocktype
  segments : List.Forall₂ SameNozzle b.segments b'.segments

theorem getLast_akin : ∀ {l l' : List (Segment ℝ)}, List.Forall₂ SameNozzle l l' → ∀ x x', l.getLast? = some x → l'.getLast? = some x' →
    SameNozzle x x'
  | _, _, .nil, _, _, e, _ => by cases e
  | _, _, .cons h .nil, _, _, e, e' => by
    cases e
    cases e'
    exact h
  | _, _, .cons _ (.cons h t), x, x', e, e' => by
    rw [List.getLast?_cons_cons] at e e'
    exact getLast_akin (.cons h t) x x' e e'

variable {b b' : Block ℝ}

theorem FlowBlock.last (h : FlowBlock b b') : Akin SameNozzle b.lastSeg b'.lastSeg := by
  refine ⟨fun x x' e e' => ?_⟩
  unfold Block.lastSeg at e e'
  refine getLast_akin h.segments x x' ?_ ?_
  · cases hx : b.segments.getLast? with
    | none => rw [hx] at e; cases e
    | some s => rw [hx] at e; cases e; rfl
  · cases hx : b'.segments.getLast? with
    | none => rw [hx] at e'; cases e'
    | some s => rw [hx] at e'; cases e'; rfl

theorem FlowBlock.first (h : FlowBlock b b') : Akin SameNozzle b.firstSeg b'.firstSeg := by
  unfold Block.firstSeg
  have := h.segments
  revert this
  generalize b.segments = l
  generalize b'.segments = l'
  intro hl
  cases hl with
  | nil => exact .error
  | cons h _ => exact .ok h

theorem FlowBlock.timeshift (h : FlowBlock b b') (d : ℝ) : FlowBlock (b.timeshift d) (b'.timeshift d) := by
  obtain ⟨h1, h2, h3, h4⟩ := h
  refine ⟨h1, h2, h3, ?_⟩
  unfold Block.timeshift
  simp only [List.forall₂_map_left_iff, List.forall₂_map_right_iff]
  refine h4.imp ?_
  rintro s s' ⟨a1, a2, a3, a4, a5, a6⟩
  exact ⟨by simp [Segment.shift, a1], by simp [Segment.shift, a2], a3, a4, a5, a6⟩

/-- The blocks before, if any. -/
inductive FlowBefore : Option (Block ℝ) → Option (Block ℝ) → Prop
  | none : FlowBefore .none .none
  | some {c c' : Block ℝ} : FlowBlock c c' → FlowBefore (.some c) (.some c')

theorem flow_head {rp rp' : List (Block ℝ)} (h : List.Forall₂ FlowBlock rp rp') : FlowBefore rp.head? rp'.head? := by
  cases h with
  | nil => exact .none
  | cons h _ => exact .some h

theorem moveMaker_akin {v : ℝ} {pb pb' : Option (Block ℝ)} (h : FlowBlock b b') (hb : FlowBefore pb pb') :
    Akin FlowBlock (moveMaker b pb v) (moveMaker b' pb' v) := by
  obtain ⟨A, B, u, ext, jd, segs, ty⟩ := b
  obtain ⟨A', B', u', ext', jd', segs', ty'⟩ := b'
  obtain ⟨h1, h2, h3, h4⟩ := h
  simp only at h1 h2 h3 h4
  rcases h2 with rfl | ⟨A, A', u, u', rfl, rfl, rfl, rfl, hA, hu, hn, hd⟩
  · unfold moveMaker
    cases A <;> exact .error
  · unfold moveMaker
    simp only
    have hd' : B'.position.tDistance A'.position = B.position.tDistance A.position := (h1.place.sub hA).norm3
    have e1 : moveDistance A B = (B.position.tDistance A.position, false) := by
      unfold moveDistance
      simp only [if_neg hd]
    have e2 : moveDistance A' B' = (B.position.tDistance A.position, false) := by
      unfold moveDistance
      simp only [hd', if_neg hd]
    rw [e1, e2]
    have rest : ∀ s s' : Segment ℝ, SameNozzle s s' → Akin FlowBlock
        (do
          let r ← planMove s u B (B.position.tDistance A.position) false v
          .ok ⟨some A, B, some u, ext, jd, r.1, some r.2⟩)
        (do
          let r ← planMove s' u' B' (B.position.tDistance A.position) false v
          .ok ⟨some A', B', some u', ext', jd', r.1, some r.2⟩) := by
      intro s s' hs
      refine Akin.bind (planMove_akin hs hn hu h1 ..) ?_
      rintro r r' ⟨k1, k2⟩
      exact .ok ⟨h1, Or.inr ⟨A, A', u, u', rfl, rfl, rfl, rfl, hA, hu, hn, hd⟩, by simp [k2], k1⟩
    cases hb with
    | none => exact rest _ _ ⟨rfl, rfl, hA, .refl _, hA, .refl _⟩
    | some hb => exact Akin.bind hb.last rest

theorem dwell_akin (p : ℝ) {pb pb' : Option (Block ℝ)} (hb : FlowBefore pb pb') :
    Akin SameNozzle (dwellSegment pb p) (dwellSegment pb' p) := by
  unfold dwellSegment
  cases hb with
  | none => exact .error
  | some hb =>
    refine Akin.bind hb.last ?_
    intro s s' hs
    rw [hs.tEnd]
    refine ⟨fun a a' e e' => ?_⟩
    obtain ⟨rfl, rfl⟩ := make_akin.out a a' e e'
    exact ⟨rfl, rfl, hs.posEnd, .refl _, hs.posEnd, .refl _⟩

/-! ## Junctions -/

/-- States one after the other in both programs. -/
def FlowStep (A A' B B' : PState ℝ) : Prop :=
  (B.position.sub A.position).norm3 ≠ 0 ∨ B.position = A.position ∧ B'.position = A'.position

theorem connect_akin {A A' B B' : PState ℝ} (hA : SameXYZ A.position A'.position) (hB : Reflowed B B') (h : FlowStep A A' B B') :
    SameXYZ (connectState A B) (connectState A' B') ∧
      (connectState A B = Vec4.zero ∧ connectState A' B' = Vec4.zero ∨ (connectState A B).norm3 ≠ 0 ∧
        B.position.tDistance A.position ≠ 0) := by
  rcases h with h | ⟨h, h'⟩
  · have e : (B'.position.sub A'.position).norm3 = (B.position.sub A.position).norm3 := (hB.place.sub hA).norm3
    have hpos : 0 < |(B.position.sub A.position).norm3| := abs_pos.2 h
    have e1 : connectState A B = ((B.position.sub A.position).div (B.position.sub A.position).norm3).mul B.speed := by
      unfold connectState
      simp only [pyAbs_real, if_pos hpos]
    have e2 : connectState A' B' = ((B'.position.sub A'.position).div (B.position.sub A.position).norm3).mul B.speed := by
      unfold connectState
      simp only [pyAbs_real, e, if_pos hpos, hB.speed]
    refine ⟨?_, ?_⟩
    · rw [e1, e2]
      exact ((hB.place.sub hA).div _).mul _
    · by_cases hs : B.speed = 0
      · left
        rw [e1, e2, hs]
        constructor <;> ext <;> simp [Vec4.mul, Vec4.zero]
      · right
        refine ⟨?_, h⟩
        rw [e1]
        intro h0
        apply h
        rw [norm3_eq_zero] at h0 ⊢
        obtain ⟨a, b, c⟩ := h0
        simp only [Vec4.mul, Vec4.div, mul_eq_zero, div_eq_zero_iff, hs, h, or_false] at a b c
        exact ⟨a, b, c⟩
  · rw [connectState_self h, connectState_self h']
    exact ⟨.refl _, Or.inl ⟨rfl, rfl⟩⟩

theorem next_akin {B B' : PState ℝ} (hB : Reflowed B B') : ∀ {C C' : PState ℝ} {l l' : List (PState ℝ)}, Reflowing C C' l l' →
    C.position = B.position → C'.position = B'.position →
    Reflowed (nextTarget B l) (nextTarget B' l') ∧ FlowStep B B' (nextTarget B l) (nextTarget B' l')
  | _, _, _, _, .nil, _, _ => ⟨hB, Or.inr ⟨rfl, rfl⟩⟩
  | C, C', _, _, .travel (B := D) (B' := D') (l := l) (l' := l') hD h ht, e, e' => by
    have h0 : (D.position.sub B.position).norm3 ≠ 0 := by rw [← e]; exact h
    have pos : ∀ {a b : Vec4 ℝ}, (b.sub a).norm3 ≠ 0 → 0 < a.tDistance4 b := by
      intro a b hx
      unfold tDistance4
      refine lt_of_le_of_ne (norm4_nonneg _) fun h0 => hx ?_
      have := norm4_eq_zero.1 h0.symm
      rw [norm3_eq_zero]
      have a1 := congrArg Vec4.x this
      have a2 := congrArg Vec4.y this
      have a3 := congrArg Vec4.z this
      simp only [Vec4.sub, Vec4.zero] at a1 a2 a3 ⊢
      exact ⟨by linarith, by linarith, by linarith⟩
    have h1 : 0 < B.position.tDistance4 D.position := pos h0
    have h2 : 0 < B'.position.tDistance4 D'.position := pos (by rw [(hD.place.sub hB.place).norm3]; exact h0)
    rw [nextTarget, nextTarget, if_pos (Or.inr h1), if_pos (Or.inr h2)]
    exact ⟨hD, Or.inl h0⟩
  | C, C', _, _, .stay (B := D) (B' := D') (l := l) (l' := l') hD h h' ht, e, e' => by
    have zero : ∀ {a b : Vec4 ℝ}, b = a → ¬ 0 < a.tDistance4 b := by
      intro a b hx
      subst hx
      unfold tDistance4
      rw [Vec4.sub_self, norm4_zero]
      simp
    have h1 := zero (h.trans e)
    have h2 := zero (h'.trans e')
    have ih := next_akin hB ht (h.trans e) (h'.trans e')
    rw [nextTarget, nextTarget]
    cases ht with
    | nil =>
      rw [if_pos (by simp), if_pos (by simp)]
      exact ⟨hD, Or.inr ⟨h.trans e, h'.trans e'⟩⟩
    | travel _ _ _ =>
      rw [if_neg (by simp [h1]), if_neg (by simp [h2])]
      exact ih
    | stay _ _ _ _ =>
      rw [if_neg (by simp [h1]), if_neg (by simp [h2])]
      exact ih

/-- The states before, if any. -/
inductive FlowFrom : Option (PState ℝ) → Option (PState ℝ) → PState ℝ → PState ℝ → Prop
  | none {B B'} : FlowFrom .none .none B B'
  | some {A A' B B'} : SameXYZ A.position A'.position → FlowStep A A' B B' → FlowFrom (.some A) (.some A') B B'

theorem target_akin {A A' : Option (PState ℝ)} {B B' : PState ℝ} (hA : FlowFrom A A' B B') (hB : Reflowed B B') :
    SameXYZ (targetVel A B) (targetVel A' B') ∧ (targetVel A B = Vec4.zero ∧ targetVel A' B' = Vec4.zero ∨
      (targetVel A B).norm3 ≠ 0 ∧ ∃ C C', A = some C ∧ A' = some C' ∧ SameXYZ C.position C'.position ∧
        B.position.tDistance C.position ≠ 0) := by
  cases hA with
  | none => exact ⟨.refl _, Or.inl ⟨rfl, rfl⟩⟩
  | some h1 h2 =>
    obtain ⟨k1, k2⟩ := connect_akin h1 hB h2
    refine ⟨k1, k2.imp id ?_⟩
    rintro ⟨a, b⟩
    exact ⟨a, _, _, rfl, rfl, h1, b⟩

theorem junction_akin (hm : fw ≠ .mka) {A A' : Option (PState ℝ)} {B B' : PState ℝ} {l l' : List (PState ℝ)}
    (hA : FlowFrom A A' B B') (hB : Reflowed B B') (h : Reflowing B B' l l') :
    junctionVel fw A' B' l' = junctionVel fw A B l := by
  have h0 := (target_akin hA hB).1
  obtain ⟨hn, hs⟩ := next_akin hB h rfl rfl
  have h1 : SameXYZ (velNext B l) (velNext B' l') := (connect_akin hB.place hn hs).1
  have h2 : ((nextTarget B' l').position.sub B'.position).norm3 = ((nextTarget B l).position.sub B.position).norm3 :=
    (hn.place.sub hB.place).norm3
  obtain ⟨b1, b2, b3, b4, _⟩ := hB
  cases fw with
  | mka => exact absurd rfl hm
  | default => rfl
  | marlinJd => simp only [junctionVel, calcJD, h0.norm3, h1.norm3, h0.x, h0.y, h0.z, h1.x, h1.y, h1.z, b2, b3, b4]
  | klipper =>
    have key : ∀ {v v' w w' : Vec4 ℝ} (d : ℝ), SameXYZ v v' → SameXYZ w w' → calcKlipper v' w' d B' = calcKlipper v w d B := by
      rintro ⟨x, y, z, e⟩ ⟨x', y', z', e'⟩ ⟨a, b, c, i⟩ ⟨a', b', c', i'⟩ d ⟨q1, q2, q3⟩ ⟨r1, r2, r3⟩
      simp only at q1 q2 q3 r1 r2 r3
      subst q1 q2 q3 r1 r2 r3
      unfold calcKlipper
      rw [b2, b3, b4]
      rfl
    simp only [junctionVel, h2]
    exact key _ h0 h1
  | marlinJerk =>
    have e1 := (h0.sub h1).norm3
    have e2 := fun a => (h0.div a).norm3
    simp only [junctionVel, calcJerk, e1, e2, h0.norm3, b4]

/-! ## Generation -/

theorem akin_pair {α β : Type} {R : α → β → Prop} {x : Except PyErr α} {y : Except PyErr β} (h : Akin R x y) {P : α → Prop}
    (hP : ∀ a, x = .ok a → P a) : Akin (fun a b => R a b ∧ P a) x y :=
  ⟨fun a b e e' => ⟨h.out a b e e', hP a e⟩⟩

theorem notZero_travel {v : Vec4 ℝ} (h : v.norm3 ≠ 0) : v.notZero = true := by
  simp only [notZero, decide_eq_true_eq]
  refine lt_of_le_of_ne (norm4_nonneg _) fun h0 => h ?_
  rw [norm4_eq_zero.1 h0.symm, norm3_zero]

theorem normDir_travel {v : Vec4 ℝ} (h : v.norm3 ≠ 0) : v.normDir4 = some (v.div v.norm3) := by
  unfold normDir4
  rw [if_pos (lt_of_le_of_ne (norm3_nonneg _) (Ne.symm h))]

theorem normDir_zero : (Vec4.zero : Vec4 ℝ).normDir4 = none := by
  unfold normDir4
  rw [norm3_zero, norm4_zero]
  simp

theorem mkBlock_akin (hm : fw ≠ .mka) {A A' : Option (PState ℝ)} {B B' : PState ℝ} {l l' : List (PState ℝ)}
    {pb pb' : Option (Block ℝ)} (hA : FlowFrom A A' B B') (hB : Reflowed B B') (h : Reflowing B B' l l') (hb : FlowBefore pb pb') :
    Akin FlowBlock (mkBlock fw A B l pb) (mkBlock fw A' B' l' pb') := by
  have hj := junction_akin hm hA hB h
  obtain ⟨h0, h1⟩ := target_akin hA hB
  unfold mkBlock
  simp only [hj, hB.pause]
  rcases h1 with ⟨e, e'⟩ | ⟨hn, C, C', rfl, rfl, hC, hd⟩
  · simp only [e, e', notZero_zero, Bool.false_eq_true, if_false]
    refine Akin.bind (R := FlowBlock) (.ok ⟨hB, Or.inl normDir_zero, rfl, .nil⟩) ?_
    intro b b' hx
    cases hp : B.pause with
    | none => exact .ok hx
    | some p =>
      refine Akin.bind (dwell_akin p hb) ?_
      intro s s' hs
      exact .ok ⟨hx.state, hx.direction, hx.type, .cons hs .nil⟩
  · have hn' : (targetVel (some C') B').norm3 ≠ 0 := by rw [h0.norm3]; exact hn
    rw [if_pos (notZero_travel hn), if_pos (notZero_travel hn'), normDir_travel hn, normDir_travel hn', h0.norm3]
    refine Akin.bind (moveMaker_akin ⟨hB, Or.inr ⟨C, C', _, _, rfl, rfl, rfl, rfl, hC, h0.div _, ?_, hd⟩, rfl, .nil⟩ hb) ?_
    · intro hz
      rw [norm3_eq_zero] at hz
      obtain ⟨a, b, c⟩ := hz
      simp only [Vec4.div, div_eq_zero_iff, hn, or_false] at a b c
      exact hn (norm3_eq_zero.2 ⟨a, b, c⟩)
    · intro b b' hx
      refine Akin.bind (R := FlowBlock) (.ok ⟨hx.state, hx.direction, hx.type, hx.segments⟩) ?_
      intro b b' hx
      cases hp : B.pause with
      | none => exact .ok hx
      | some p =>
        refine Akin.bind (dwell_akin p hb) ?_
        intro s s' hs
        exact .ok ⟨hx.state, hx.direction, hx.type, .cons hs .nil⟩

theorem genBlocks_step (hm : fw ≠ .mka) {l l' : List (PState ℝ)} {A A' : Option (PState ℝ)} {B B' : PState ℝ}
    {pb pb' : Option (Block ℝ)} (hA : FlowFrom A A' B B') (hB : Reflowed B B') (h : Reflowing B B' l l') (hb : FlowBefore pb pb')
    (ih : ∀ {pb pb' : Option (Block ℝ)}, FlowBefore pb pb' →
      Akin (List.Forall₂ FlowBlock) (genBlocks fw (some B) pb l) (genBlocks fw (some B') pb' l')) :
    Akin (List.Forall₂ FlowBlock) (genBlocks fw A pb (B :: l)) (genBlocks fw A' pb' (B' :: l')) := by
  rw [genBlocks, genBlocks]
  refine Akin.bind (mkBlock_akin hm hA hB h hb) ?_
  intro b b' hx
  have he : b'.segments.isEmpty = b.segments.isEmpty := by
    have := hx.segments
    revert this
    generalize b.segments = x
    generalize b'.segments = y
    intro hxy
    cases hxy <;> rfl
  rw [he]
  refine .ite (ih hb) ?_
  refine Akin.bind (ih (.some hx)) ?_
  intro cs cs' hcs
  exact .ok (.cons hx hcs)

theorem genBlocks_akin (hm : fw ≠ .mka) {l l' : List (PState ℝ)} {A A' : PState ℝ} (h : Reflowing A A' l l') :
    SameXYZ A.position A'.position → ∀ {pb pb' : Option (Block ℝ)}, FlowBefore pb pb' →
    Akin (List.Forall₂ FlowBlock) (genBlocks fw (some A) pb l) (genBlocks fw (some A') pb' l') := by
  induction h with
  | nil => exact fun _ _ _ _ => .ok .nil
  | travel h1 h2 h3 ih => exact fun hA _ _ hb => genBlocks_step hm (.some hA (Or.inl h2)) h1 h3 hb (ih h1.place)
  | stay h1 h2 h2' h3 ih => exact fun hA _ _ hb => genBlocks_step hm (.some hA (Or.inr ⟨h2, h2'⟩)) h1 h3 hb (ih h1.place)

/-! ## Correction -/

/-- Related results of a correction. -/
def FlowCorrected (r r' : List (Block ℝ) × Block ℝ × Option (Block ℝ)) : Prop :=
  List.Forall₂ FlowBlock r.1 r'.1 ∧ FlowBlock r.2.1 r'.2.1 ∧ FlowBefore r.2.2 r'.2.2

theorem selfCorrection_akin : ∀ {rp rp' : List (Block ℝ)} {b b' : Block ℝ} {nx nx' : Option (Block ℝ)},
    List.Forall₂ FlowBlock rp rp' → FlowBlock b b' → FlowBefore nx nx' →
    Akin FlowCorrected (selfCorrection rp b nx) (selfCorrection rp' b' nx') := by
  have step : ∀ {rp rp' : List (Block ℝ)} {b b' c c' : Block ℝ}, List.Forall₂ FlowBlock rp rp' → FlowBlock b b' → FlowBlock c c' →
      (∀ {p r p' r' x x'}, rp = p :: r → rp' = p' :: r' → List.Forall₂ FlowBlock r r' → FlowBlock p p' → FlowBlock x x' →
        Akin FlowCorrected (selfCorrection r p (some x)) (selfCorrection r' p' (some x'))) →
      Akin FlowCorrected (selfCorrection rp b (some c)) (selfCorrection rp' b' (some c')) := by
    intro rp rp' b b' c c' hrp hb hc ih
    rw [selfCorrection.eq_def, selfCorrection.eq_def rp']
    simp only
    refine Akin.bind hb.last ?_
    intro s s' hs
    refine Akin.bind hc.first ?_
    intro f f' hf
    simp only [hs.velEnd.norm3, hf.velBegin.norm3]
    have fin : ∀ {R R' : List (Block ℝ)} {x x' : Block ℝ}, List.Forall₂ FlowBlock R R' → FlowBlock x x' → Akin FlowCorrected
        (do
          let last ← x.lastSeg
          if last.posEnd.eq f.posBegin = true then .ok (R, x, some (c.timeshift (last.tEnd - f.tBegin)))
          else if 1e-12 < (last.posEnd.sub f.posBegin).norm3 then .error .nameError
          else .ok (R, x, some (c.timeshift (last.tEnd - f.tBegin))))
        (do
          let last ← x'.lastSeg
          if last.posEnd.eq f'.posBegin = true then .ok (R', x', some (c'.timeshift (last.tEnd - f'.tBegin)))
          else if 1e-12 < (last.posEnd.sub f'.posBegin).norm3 then .error .nameError
          else .ok (R', x', some (c'.timeshift (last.tEnd - f'.tBegin)))) := by
      intro R R' x x' hR hx
      refine Akin.bind hx.last ?_
      intro e e' he
      rw [he.tEnd, hf.tBegin]
      have ok : Akin FlowCorrected (.ok (R, x, some (c.timeshift (e.tEnd - f.tBegin))))
          (.ok (R', x', some (c'.timeshift (e.tEnd - f.tBegin)))) := .ok ⟨hR, hx, .some (hc.timeshift _)⟩
      split_ifs
      all_goals first | exact ok | exact .error | exact .error'
    refine .ite ?_ (fin hrp hb)
    refine Akin.bind (moveMaker_akin hb (flow_head hrp)) ?_
    intro x x' hx
    rw [hx.type]
    refine .ite ?_ (fin hrp hx)
    cases hrp with
    | nil => exact .error
    | cons hp hrp =>
      refine Akin.bind (ih rfl rfl hrp hp hx) ?_
      rintro ⟨r1, r2, r3⟩ ⟨r1', r2', r3'⟩ ⟨g1, g2, g3⟩
      simp only at g1 g2 g3
      cases g3 with
      | none => exact fin (.cons g2 g1) hx
      | some hy => exact fin (.cons g2 g1) hy
  intro rp
  induction rp with
  | nil =>
    intro rp' b b' nx nx' hrp hb hnx
    cases hnx with
    | none =>
      rw [selfCorrection, selfCorrection]
      exact .ok ⟨hrp, hb, .none⟩
    | some hc => exact step hrp hb hc (by intro p r p' r' x x' e; cases e)
  | cons p rp ih =>
    intro rp' b b' nx nx' hrp hb hnx
    cases hnx with
    | none =>
      rw [selfCorrection, selfCorrection]
      exact .ok ⟨hrp, hb, .none⟩
    | some hc =>
      refine step hrp hb hc ?_
      intro q r q' r' x x' e e' h1 h2 h3
      cases e
      exact ih h1 h2 (.some h3)

theorem correctFrom_akin {tl tl' : List (Block ℝ)} (htl : List.Forall₂ FlowBlock tl tl') :
    ∀ {rp rp' : List (Block ℝ)} {b b' : Block ℝ}, List.Forall₂ FlowBlock rp rp' → FlowBlock b b' →
    Akin (List.Forall₂ FlowBlock) (correctFrom rp b tl) (correctFrom rp' b' tl') := by
  induction htl with
  | nil =>
    intro rp rp' b b' hrp hb
    rw [correctFrom, correctFrom]
    refine Akin.bind (selfCorrection_akin hrp hb .none) ?_
    rintro r r' ⟨g1, g2, _⟩
    exact .ok (Forall₂.append (List.rel_reverse g1) (.cons g2 .nil))
  | cons hc _ ih =>
    intro rp rp' b b' hrp hb
    rw [correctFrom, correctFrom]
    refine Akin.bind (selfCorrection_akin hrp hb (.some hc)) ?_
    rintro ⟨r1, r2, r3⟩ ⟨r1', r2', r3'⟩ ⟨g1, g2, g3⟩
    simp only at g1 g2 g3
    cases g3 with
    | none => exact ih (.cons g2 g1) hc
    | some hy => exact ih (.cons g2 g1) hy

theorem plan_akin (hm : fw ≠ .mka) {A A' : PState ℝ} {l l' : List (PState ℝ)} (hA : Reflowed A A') (h : Reflowing A A' l l') :
    Akin (List.Forall₂ FlowBlock) (plan fw (A :: l)) (plan fw (A' :: l')) := by
  unfold plan
  refine Akin.bind (R := List.Forall₂ FlowBlock) ?_ ?_
  · exact genBlocks_step hm .none hA h .none (genBlocks_akin hm h hA.place)
  · intro cs cs' hcs
    cases hcs with
    | nil => exact .ok .nil
    | cons h1 h2 => exact correctFrom_akin h2 .nil h1

theorem flow_path : ∀ {bs bs' : List (Block ℝ)}, List.Forall₂ FlowBlock bs bs' →
    List.Forall₂ SameNozzle (Spec.path bs) (Spec.path bs')
  | _, _, .nil => .nil
  | _, _, .cons h t => Forall₂.append h.segments (flow_path t)

/-- **C131.** Two programs that differ only in how much filament their travel moves take or give, with every firmware but `MKA`:
if both are planned, the nozzle does exactly the same at the same times. -/
theorem c131_nozzle (hm : fw ≠ .mka) {A A' : PState ℝ} {l l' : List (PState ℝ)} (hA : Reflowed A A') (h : Reflowing A A' l l')
    (hb : plan fw (A :: l) = .ok bs) (hb' : plan fw (A' :: l') = .ok bs') :
    List.Forall₂ SameNozzle (Spec.path bs) (Spec.path bs') ∧
      ∀ t, EndTime (Spec.path bs) t ↔ EndTime (Spec.path bs') t := by
  have hp := flow_path ((plan_akin hm hA h).out _ _ hb hb')
  refine ⟨hp, fun t => ?_⟩
  have hl : (Spec.path bs).length = (Spec.path bs').length := hp.length_eq
  constructor
  · rintro ⟨s, h1, rfl⟩
    cases h2 : (Spec.path bs').getLast? with
    | none =>
      rw [List.getLast?_eq_none_iff] at h2
      rw [h2, List.length_nil, List.length_eq_zero_iff] at hl
      rw [hl] at h1
      cases h1
    | some s' => exact ⟨s', h2, (getLast_akin hp _ _ h1 h2).tEnd⟩
  · rintro ⟨s', h1, rfl⟩
    cases h2 : (Spec.path bs).getLast? with
    | none =>
      rw [List.getLast?_eq_none_iff] at h2
      rw [h2, List.length_nil, eq_comm, List.length_eq_zero_iff] at hl
      rw [hl] at h1
      cases h1
    | some s => exact ⟨s, h2, (getLast_akin hp _ _ h2 h1).tEnd.symm⟩

/-! ## Which programs can be planned -/

theorem Spec.Reflowing.pairs {A A' : PState ℝ} {l l' : List (PState ℝ)} (h : Reflowing A A' l l') : List.Forall₂ Reflowed l l' := by
  induction h with
  | nil => exact .nil
  | travel h _ _ ih => exact .cons h ih
  | stay h _ _ _ ih => exact .cons h ih

theorem Spec.SameXYZ.symm {v v' : Vec4 ℝ} (h : SameXYZ v v') : SameXYZ v' v := ⟨h.x.symm, h.y.symm, h.z.symm⟩

theorem Spec.Reflowed.symm {s s' : PState ℝ} (h : Reflowed s s') : Reflowed s' s :=
  ⟨h.place.symm, h.speed.symm, h.acc.symm, h.jerk.symm, h.pause.symm⟩

theorem Spec.Reflowing.symm {A A' : PState ℝ} {l l' : List (PState ℝ)} (h : Reflowing A A' l l') :
    SameXYZ A.position A'.position → Reflowing A' A l' l := by
  induction h with
  | nil => exact fun _ => .nil
  | travel h1 h2 _ ih =>
    intro hA
    exact .travel h1.symm (by rw [(h1.place.sub hA).norm3]; exact h2) (ih h1.place)
  | stay h1 h2 h3 _ ih => exact fun _ => .stay h1.symm h3 h2 (ih h1.place)

theorem Spec.Reflowing.take {A A' : PState ℝ} {l l' : List (PState ℝ)} (h : Reflowing A A' l l') :
    ∀ k, Reflowing A A' (l.take k) (l'.take k) := by
  induction h with
  | nil =>
    intro k
    rw [List.take_nil]
    exact .nil
  | travel h1 h2 _ ih =>
    intro k
    cases k with
    | zero => exact .nil
    | succ k => exact .travel h1 h2 (ih k)
  | stay h1 h2 h3 _ ih =>
    intro k
    cases k with
    | zero => exact .nil
    | succ k => exact .stay h1 h2 h3 (ih k)

theorem Spec.Reflowing.started {A A' : PState ℝ} {l l' : List (PState ℝ)} (h : Reflowing A A' l l') :
    SameXYZ A.position A'.position → Started (A :: l) → Started (A' :: l') := by
  induction h with
  | nil => exact fun _ hs => absurd hs not_started_one
  | @travel A A' B B' l l' h1 h2 _ ih =>
    intro hA hs
    rw [started_cons] at hs ⊢
    refine hs.imp ?_ (ih h1.place)
    rintro ⟨k1, _, k3⟩
    refine ⟨by rw [h1.pause, k1], fun e => h2 ?_, by rw [h1.speed]; exact k3⟩
    rw [← (h1.place.sub hA).norm3, e, Vec4.sub_self, norm3_zero]
  | @stay A A' B B' l l' h1 h2 h3 _ ih =>
    intro hA hs
    rw [started_cons] at hs ⊢
    refine hs.imp ?_ (ih h1.place)
    rintro ⟨_, k2, _⟩
    exact absurd h2 k2

theorem Spec.Reflowing.pausesFollow {A A' : PState ℝ} {l l' : List (PState ℝ)} (hA : Reflowed A A') (h : Reflowing A A' l l')
    (hp : PausesFollow (A :: l)) : PausesFollow (A' :: l') := by
  intro pre' s' post' he p hs
  have hf : List.Forall₂ Reflowed (A :: l) (A' :: l') := .cons hA h.pairs
  have hlen := hf.length_eq
  have hk' : (A' :: l')[pre'.length]? = some s' := by rw [he]; simp
  have hlt : pre'.length < (A :: l).length := by rw [hlen, he]; simp
  have hk : (A :: l)[pre'.length]? = some (A :: l)[pre'.length] := List.getElem?_eq_getElem hlt
  have hr : Reflowed (A :: l)[pre'.length] s' := by
    have := List.forall₂_iff_get.1 hf
    have h2 := this.2 pre'.length hlt (by rw [← hlen]; exact hlt)
    have e : (A' :: l')[pre'.length]'(by rw [← hlen]; exact hlt) = s' := by
      rw [List.getElem?_eq_getElem (by rw [← hlen]; exact hlt)] at hk'
      exact Option.some.inj hk'
    simpa [e] using h2
  have hsplit : A :: l = (A :: l).take pre'.length ++ (A :: l)[pre'.length] :: (A :: l).drop (pre'.length + 1) := by
    rw [List.cons_getElem_drop_succ, List.take_append_drop]
  obtain ⟨g1, g2⟩ := hp _ _ _ hsplit p (by rw [← hr.pause]; exact hs)
  refine ⟨g1, ?_⟩
  have e' : pre' = (A' :: l').take pre'.length := by rw [he]; simp
  rw [e']
  cases hn : pre'.length with
  | zero =>
    rw [hn] at g2
    exact absurd g2 not_started_nil
  | succ k =>
    rw [hn] at g2
    exact (h.take k).started hA.place g2

theorem reflowed_sensible {l l' : List (PState ℝ)} (h : List.Forall₂ Reflowed l l') (hs : Sensible l) : Sensible l' := by
  have key : ∀ s' ∈ l', ∃ s ∈ l, Reflowed s s' := by
    intro s' hs'
    obtain ⟨i, hi, rfl⟩ := List.getElem_of_mem hs'
    have := List.forall₂_iff_get.1 h
    have hl : i < l.length := by rw [this.1]; exact hi
    exact ⟨l[i], List.getElem_mem hl, by simpa using this.2 i hl hi⟩
  refine ⟨?_, ?_, ?_⟩ <;> intro s' hs' <;> obtain ⟨s, k1, k2⟩ := key s' hs'
  · rw [k2.speed]; exact hs.speed s k1
  · rw [k2.acc]; exact hs.acc s k1
  · rw [k2.jerk]; exact hs.jerk s k1

/-- **C131.** With sensible settings one of the programs can be planned if and only if the other one can. -/
theorem c131_plannable {A A' : PState ℝ} {l l' : List (PState ℝ)} (hsens : Sensible (A :: l)) (hA : Reflowed A A')
    (h : Reflowing A A' l l') : (∃ bs, plan fw (A :: l) = .ok bs) ↔ ∃ bs, plan fw (A' :: l') = .ok bs := by
  rw [c86_plannable fw hsens, c86_plannable fw (reflowed_sensible (.cons hA h.pairs) hsens)]
  exact ⟨h.pausesFollow hA, (h.symm hA.place).pausesFollow hA.symm⟩

/-! ## Files -/

section
variable {pf : List Char → Option ℝ} {d d' : Dict (SVal ℝ)} {q q' : Printer} {ls ls' : List Line} {content content' : List Char}

theorem Spec.Refilled.reflowing {p p' : Vec4 ℝ} {l l' : List Doing} (h : Refilled p p' l l') :
    ∀ {A A' : PState ℝ}, A.position = p → A'.position = p' → SameXYZ p p' →
      Reflowing A A' (l.map Doing.state) (l'.map Doing.state) := by
  induction h with
  | nil => exact fun _ _ _ => .nil
  | travel h1 h2 h3 h4 h5 h6 _ ih =>
    intro A A' e e' hA
    subst e e'
    exact .travel ⟨h1, h3, h4, h5, h6⟩ h2 (ih rfl rfl h1)
  | @stay p p' x x' l l' h1 h2 h3 h4 h5 h6 _ ih =>
    intro A A' e e' hA
    subst e e'
    have hx : SameXYZ x.place x'.place := by rw [h1, h2]; exact hA
    exact .stay ⟨hx, h3, h4, h5, h6⟩ h1 h2 (ih rfl rfl hx)

/-- **C131, files.** If the second file makes its printer do the same as the first one except for the filament, and neither moves
the filament alone, the second one is simulated as well, and the nozzle does exactly the same at the same times; with every
firmware but `MKA`. -/
theorem c131_file (hpf : FloatLike pf) (hd : SetupAccepted d) (hd' : SetupAccepted d') (hq : PrinterOf d q)
    (hq' : PrinterOf d' q') (hfw : firmwareOf d' = firmwareOf d) (hp : ∀ l ∈ ls, l.Plain pf) (hp' : ∀ l ∈ ls', l.Plain pf)
    (hw : Decent pf q ls) (hc : FileOf ls content) (hc' : FileOf ls' content') (hm : firmwareOf d ≠ .mka)
    (h0 : SameXYZ q.point q'.point) (hR : Refilled q.point q'.point (q.doings pf ls) (q'.doings pf ls'))
    (h : simulateFile pf d content = .ok bs) :
    ∃ bs', simulateFile pf d' content' = .ok bs' ∧ List.Forall₂ SameNozzle (Spec.path bs) (Spec.path bs') ∧
      ∀ t, EndTime (Spec.path bs) t ↔ EndTime (Spec.path bs') t := by
  obtain ⟨T, hT⟩ := simulated_end h hpf hd hq hp hw hc
  obtain ⟨cs, k1, k2⟩ := program_planned hpf hd hq hp hc h
  have hs := program_sensible hw q.point
  have hA : Reflowed (⟨q.point, 0, 1, 1, none, none⟩ : PState ℝ) ⟨q'.point, 0, 1, 1, none, none⟩ := ⟨h0, rfl, rfl, rfl, rfl⟩
  have hl := hR.reflowing (A := ⟨q.point, 0, 1, 1, none, none⟩) (A' := ⟨q'.point, 0, 1, 1, none, none⟩) rfl rfl h0
  obtain ⟨cs', g1⟩ := (c131_plannable (fw := firmwareOf d) hs hA hl).1 ⟨cs, k1⟩
  obtain ⟨g2, g3⟩ := c131_nozzle hm hA hl k1 g1
  have g4 := simulate_of_endTime (reflowed_sensible (.cons hA hl.pairs) hs) g1 ((g3 T).1 (by rw [k2]; exact hT))
  rw [← hfw] at g4
  obtain ⟨bs', e1, e2⟩ := planned_simulated hpf hd' hq' hp' hc' g4
  refine ⟨bs', e1, ?_, ?_⟩
  · rw [e2, ← k2]
    exact g2
  · rw [e2, ← k2]
    exact g3

end

/-! ## Questions -/

section
variable {P P' : List (Segment ℝ)}

theorem getVelocity_nozzle {s s' : Segment ℝ} (h : SameNozzle s s') (t : ℝ) :
    (∃ v v', s.getVelocity t = .ok v ∧ s'.getVelocity t = .ok v' ∧ SameXYZ v v') ∨
      s.getVelocity t = .error .valueError ∧ s'.getVelocity t = .error .valueError := by
  unfold Segment.getVelocity
  rw [h.tBegin, h.tEnd]
  split
  · exact Or.inr ⟨rfl, rfl⟩
  · refine Or.inl ⟨_, _, rfl, rfl, h.velBegin.add (SameXYZ.mul ?_ _)⟩
    split
    · exact (h.velEnd.sub h.velBegin).div _
    · exact .refl _

theorem getPosition_nozzle {s s' : Segment ℝ} (h : SameNozzle s s') (t : ℝ) :
    (∃ v v', s.getPosition t = .ok v ∧ s'.getPosition t = .ok v' ∧ SameXYZ v v') ∨
      s.getPosition t = .error .valueError ∧ s'.getPosition t = .error .valueError := by
  unfold Segment.getPosition
  rw [h.tBegin, h.tEnd]
  split
  · exact Or.inr ⟨rfl, rfl⟩
  · rcases getVelocity_nozzle h t with ⟨v, v', e, e', hv⟩ | ⟨e, e'⟩
    · rw [e, e']
      exact Or.inl ⟨_, _, rfl, rfl, h.posBegin.add (((h.velBegin.add hv).mul _).div _)⟩
    · rw [e, e']
      exact Or.inr ⟨rfl, rfl⟩

/-- What a search finds. -/
def FoundAlike (r r' : Option (Segment ℝ × Nat)) : Prop := Option.Rel (fun x x' => SameNozzle x.1 x'.1 ∧ x'.2 = x.2) r r'

theorem searchFresh_nozzle {t : ℝ} (h : List.Forall₂ SameNozzle P P') : ∀ i, FoundAlike (searchFresh t i P) (searchFresh t i P') := by
  induction h with
  | nil => exact fun _ => .none
  | cons h _ ih =>
    intro i
    simp only [searchFresh, h.tBegin, h.tEnd]
    split
    · exact .some ⟨h, rfl⟩
    · exact ih _

theorem searchWarm_nozzle {t : ℝ} (h : List.Forall₂ SameNozzle P P') : ∀ i, FoundAlike (searchWarm t i P) (searchWarm t i P') := by
  induction h with
  | nil => exact fun _ => .none
  | cons h _ ih =>
    intro i
    simp only [searchWarm, h.tBegin, h.tEnd]
    split
    · exact .some ⟨h, rfl⟩
    · exact ih _

theorem nozzle_get (h : List.Forall₂ SameNozzle P P') : ∀ i : Nat, Option.Rel SameNozzle P[i]? P'[i]? := by
  induction h with
  | nil => exact fun _ => .none
  | cons h _ ih =>
    intro i
    cases i with
    | zero => exact .some h
    | succ i => exact ih i

theorem useFresh_nozzle (h : List.Forall₂ SameNozzle P P') (t : ℝ) (last : Option Nat) : useFresh P' t last = useFresh P t last := by
  unfold useFresh
  cases last with
  | none => rfl
  | some i =>
    simp only
    have hi := nozzle_get h i
    generalize P[i]? = x at hi ⊢
    generalize P'[i]? = x' at hi ⊢
    cases hi with
    | none => rfl
    | some h => simp only [h.tBegin]

theorem findSegment_nozzle (h : List.Forall₂ SameNozzle P P') (t : ℝ) (last : Option Nat) :
    (∃ r r', findSegment P t last = .ok r ∧ findSegment P' t last = .ok r' ∧ FoundAlike r r') ∨
      ∃ e, findSegment P t last = .error e ∧ findSegment P' t last = .error e := by
  unfold findSegment
  rw [useFresh_nozzle h]
  have hl : Option.Rel SameNozzle P.getLast? P'.getLast? := by
    rw [List.getLast?_eq_getElem?, List.getLast?_eq_getElem?, ← h.length_eq]
    exact nozzle_get h _
  generalize P.getLast? = x at hl ⊢
  generalize P'.getLast? = x' at hl ⊢
  cases hl with
  | none => exact Or.inr ⟨_, rfl, rfl⟩
  | some hl =>
    simp only [hl.tEnd]
    split
    · exact Or.inl ⟨_, _, rfl, rfl, .none⟩
    · split
      · have := searchFresh_nozzle (t := t) h 0
        unfold FoundAlike at this
        generalize searchFresh t 0 P = y at this ⊢
        generalize searchFresh t 0 P' = y' at this ⊢
        cases this with
        | none => exact Or.inr ⟨_, rfl, rfl⟩
        | some k => exact Or.inl ⟨_, _, rfl, rfl, .some k⟩
      · have := searchWarm_nozzle (t := t) (List.forall₂_drop (last.getD 0) h) (last.getD 0)
        unfold FoundAlike at this
        generalize searchWarm t (last.getD 0) (P.drop (last.getD 0)) = y at this ⊢
        generalize searchWarm t (last.getD 0) (P'.drop (last.getD 0)) = y' at this ⊢
        cases this with
        | none => exact Or.inr ⟨_, rfl, rfl⟩
        | some k => exact Or.inl ⟨_, _, rfl, rfl, .some k⟩

theorem Spec.SameAnswer.error {e : PyErr} : SameAnswer (.error e) (.error e) :=
  ⟨fun _ => Iff.rfl, fun _ _ _ _ h => by cases h⟩

/-- **C131, questions.** Whenever, in whatever unit and after whatever earlier questions one asks for the values at a time, the
answers of both prints agree in X, Y and Z, or both questions fail in the same way. -/
theorem c131_values (h : List.Forall₂ SameNozzle P P') (own : String) (u : Option String) (t : ℝ) (last : Option Nat) :
    SameAnswer (getValues P own u t last).1 (getValues P' own u t last).1 ∧
      (getValues P' own u t last).2 = (getValues P own u t last).2 := by
  unfold getValues
  rcases findSegment_nozzle h t last with ⟨r, r', e, e', hr⟩ | ⟨e, h1, h2⟩
  · rw [e, e']
    unfold FoundAlike at hr
    cases hr with
    | none => exact ⟨.error, rfl⟩
    | @some x x' hr =>
      obtain ⟨s, i⟩ := x
      obtain ⟨s', i'⟩ := x'
      obtain ⟨hs, hi⟩ := hr
      simp only at hs hi
      subst hi
      refine ⟨?_, rfl⟩
      rcases getVelocity_nozzle hs t with ⟨v, v', e1, e2, hv⟩ | ⟨e1, e2⟩
      · rcases getPosition_nozzle hs t with ⟨p, p', e3, e4, hp⟩ | ⟨e3, e4⟩
        · simp only [e1, e2, e3, e4]
          cases (simScaling (u.getD own) : Except PyErr ℝ) with
          | error e => exact .error
          | ok f =>
            refine ⟨fun _ => ⟨(fun k => nomatch k), (fun k => nomatch k)⟩, fun _ _ _ _ k k' => ?_⟩
            cases k
            cases k'
            exact ⟨hv.mul _, hp.mul _⟩
        · simp only [e1, e2, e3, e4]
          exact .error
      · simp only [e1, e2]
        exact .error
  · rw [h1, h2]
    exact ⟨.error, rfl⟩

end

/-! ## Event series -/

theorem abaqusRows_nozzle (tol f : ℝ) : ∀ {vs vs' : List (ℝ × Vec4 ℝ)},
    List.Forall₂ (fun v v' => v'.1 = v.1 ∧ SameXYZ v.2 v'.2) vs vs' →
      List.Forall₂ SameRow (abaqusRows tol f vs) (abaqusRows tol f vs')
  | _, _, .nil => .nil
  | _, _, .cons h .nil => by
    rw [abaqusRows, abaqusRows]
    exact .cons ⟨h.1, by rw [h.2.x], by rw [h.2.y], by rw [h.2.z]⟩ .nil
  | _, _, .cons h (.cons k t) => by
    rw [abaqusRows, abaqusRows]
    exact .cons ⟨h.1, by rw [h.2.x], by rw [h.2.y], by rw [h.2.z]⟩ (abaqusRows_nozzle tol f (.cons k t))

theorem abaqusVertices_nozzle {P P' : List (Segment ℝ)} (h : List.Forall₂ SameNozzle P P') :
    List.Forall₂ (fun v v' => v'.1 = v.1 ∧ SameXYZ v.2 v'.2) (abaqusVertices P) (abaqusVertices P') := by
  cases h with
  | nil => exact .nil
  | cons h t =>
    unfold abaqusVertices
    refine .cons ⟨rfl, h.posBegin⟩ ?_
    rw [List.forall₂_map_left_iff, List.forall₂_map_right_iff]
    exact (List.Forall₂.cons h t).imp fun _ _ k => ⟨k.tEnd, k.posEnd⟩

/-- **C131, event series.** The event series for ABAQUS of both prints have the same times and places, in any unit and with any
tolerance, or both fail in the same way. Only the flags can differ. -/
theorem c131_events (h : List.Forall₂ SameNozzle (Spec.path bs) (Spec.path bs')) (own : String) (u : Option String) (tol : ℝ) :
    (∃ e, abaqusEvents bs own u tol = .error e ∧ abaqusEvents bs' own u tol = .error e) ∨
      ∃ rows rows', abaqusEvents bs own u tol = .ok rows ∧ abaqusEvents bs' own u tol = .ok rows' ∧
        List.Forall₂ SameRow rows rows' := by
  have h : List.Forall₂ SameNozzle (unpack bs) (unpack bs') := h
  have hv := abaqusVertices_nozzle h
  have he : (unpack bs').isEmpty = (unpack bs).isEmpty := by
    clear hv
    generalize unpack bs = P at h ⊢
    generalize unpack bs' = P' at h ⊢
    cases h with
    | nil => rfl
    | cons _ _ => rfl
  unfold abaqusEvents
  rw [he]
  split
  · exact Or.inl ⟨_, rfl, rfl⟩
  · cases (simScaling (u.getD own) : Except PyErr ℝ) with
    | error e => exact Or.inl ⟨e, rfl, rfl⟩
    | ok f => exact Or.inr ⟨_, _, rfl, rfl, abaqusRows_nozzle tol f hv⟩

/-! ## The firmware that looks at the filament -/

/-- A place on a line, reached with 10 mm/s; the filament is at `e`. The jerk is 20 mm/s. -/
noncomputable def Demo.bead (x e : ℝ) : PState ℝ := ⟨⟨x, 0, 0, e⟩, 10, 100, 20, none, none⟩

/-- Two moves of 1 mm in a row, the first one with the filament `e`. -/
noncomputable def Demo.beads (e : ℝ) : List (PState ℝ) := [Demo.bead 1 e, Demo.bead 2 e]

theorem Demo.bead_norm {x x' e e' : ℝ} (h : x' = x + 1) : ((Demo.bead x' e').position.sub (Demo.bead x e).position).norm3 = 1 := by
  unfold norm3
  rw [sqrt_real, Real.sqrt_eq_one]
  simp only [Demo.bead, Vec4.sub, h]
  ring

theorem Demo.beads_reflowing (e e' : ℝ) : Reflowing (Demo.bead 0 0) (Demo.bead 0 0) (Demo.beads e) (Demo.beads e') := by
  refine .travel ⟨⟨rfl, rfl, rfl⟩, rfl, rfl, rfl, rfl⟩ ?_ (.travel ⟨⟨rfl, rfl, rfl⟩, rfl, rfl, rfl, rfl⟩ ?_ .nil)
  · rw [Demo.bead_norm (by norm_num)]; exact one_ne_zero
  · rw [Demo.bead_norm (by norm_num)]; exact one_ne_zero

theorem Demo.beads_speed {e : ℝ} (he : 0 ≤ e) : junctionVel .mka (some (Demo.bead 0 0)) (Demo.bead 1 e) [Demo.bead 2 e] =
    Spec.mka 10 20 0 0 0 (10 * e) := by
  have n1 := Demo.bead_norm (x := 0) (x' := 1) (e := 0) (e' := e) (by norm_num)
  have n2 := Demo.bead_norm (x := 1) (x' := 2) (e := e) (e' := e) (by norm_num)
  have hn : NextMove (Demo.bead 1 e) [Demo.bead 2 e] (Demo.bead 2 e) :=
    ⟨[], [], rfl, by simp, by simp [Demo.bead]⟩
  rw [c61_mka_law (u := ⟨1, 0, 0, e⟩) (w := ⟨1, 0, 0, 0⟩) hn (by rw [n1]; norm_num) (by rw [n2]; norm_num)
    (by norm_num [Demo.bead]) (by norm_num [Demo.bead]) (by norm_num [Demo.bead])
    (by rw [n1]; ext <;> norm_num [Demo.bead, Vec4.add, Vec4.mul])
    (by rw [n2]; ext <;> norm_num [Demo.bead, Vec4.add, Vec4.mul])]
  have ha : |e| = e := abs_of_nonneg he
  norm_num [Demo.bead, axisJump, ha, he]

/-- **C131** does not hold for `MKA`: with more filament the same moves take longer. -/
theorem c131_mka : ∃ bs bs' t t', plan .mka (Demo.bead 0 0 :: Demo.beads 0) = .ok bs ∧ EndTime (Spec.path bs) t ∧
    plan .mka (Demo.bead 0 0 :: Demo.beads 10) = .ok bs' ∧ EndTime (Spec.path bs') t' ∧ t + 0.05 ≤ t' := by
  have hs : ∀ e, Sensible (Demo.bead 0 0 :: Demo.beads e) := by
    intro e
    refine ⟨?_, ?_, ?_⟩ <;> intro s hs <;> simp only [Demo.beads, List.mem_cons, List.not_mem_nil, or_false] at hs <;>
      rcases hs with rfl | rfl | rfl <;> norm_num [Demo.bead]
  have hf : ∀ e, PausesFollow (Demo.bead 0 0 :: Demo.beads e) := by
    intro e pre s post he p hp
    have hm : s ∈ Demo.bead 0 0 :: Demo.beads e := by rw [he]; simp
    simp only [Demo.beads, List.mem_cons, List.not_mem_nil, or_false] at hm
    rcases hm with rfl | rfl | rfl <;> cases hp
  have x1 : ∀ e, Executes (Demo.bead 0 0) (Demo.bead 1 e) := fun e => ⟨rfl, by simp [Demo.bead], by norm_num [Demo.bead]⟩
  have x2 : ∀ e, Executes (Demo.bead 1 e) (Demo.bead 2 e) := fun e => ⟨rfl, by simp [Demo.bead], by norm_num [Demo.bead]⟩
  have n1 := fun e => Demo.bead_norm (x := 0) (x' := 1) (e := 0) (e' := e) (by norm_num)
  have n2 := fun e => Demo.bead_norm (x := 1) (x' := 2) (e := e) (e' := e) (by norm_num)
  obtain ⟨bs, t, h, ht⟩ := exists_endTime_sensible .mka (hs 0) (hf 0) ⟨[], _, _, _, rfl, x1 0⟩
  obtain ⟨bs', t', h', ht'⟩ := exists_endTime_sensible .mka (hs 10) (hf 10) ⟨[], _, _, _, rfl, x1 10⟩
  refine ⟨bs, bs', t, t', h, ht, h', ht', ?_⟩
  have lo : t ≤ 0.3 := by
    have hT : Timetable (junctionVel .mka) 0 (tasks none none (Demo.bead 0 0 :: Demo.beads 0)) (0.15 + (0.15 + 0)) := by
      simp only [Demo.beads]
      rw [tasks_first, tasks_moving _ _ (x1 0), tasks_moving _ _ (x2 0), tasks]
      simp only [Option.getD_none, Option.getD_some, Demo.add_back]
      have d : Drive 100 10 1 0 10 0.15 :=
        Phases.drive (ta := 0.1) (tc := 0.05) (td := 0) (vp := 10) (by norm_num)
          ⟨by norm_num, by norm_num, by norm_num, by norm_num, by norm_num, by norm_num, by norm_num, by norm_num⟩
          (by norm_num) (by norm_num) (by norm_num)
      have d' : Drive 100 10 1 10 0 0.15 :=
        Phases.drive (ta := 0) (tc := 0.05) (td := 0.1) (vp := 10) (by norm_num)
          ⟨by norm_num, by norm_num, by norm_num, by norm_num, by norm_num, by norm_num, by norm_num, by norm_num⟩
          (by norm_num) (by norm_num) (by norm_num)
      refine .travel (v' := 10) rfl (by simp only [n1]; norm_num) (by simp only [n1]; exact d) ?_
        (.travel (v' := 0) rfl (by simp only [n2]; norm_num) (by simp only [n2]; exact d') ?_ (.done _))
      · simp only
        rw [Demo.beads_speed le_rfl]
        norm_num [Spec.mka, cap]
      · exact (c17_junction_speed .mka _ _ _ (by norm_num [Demo.bead]) (by norm_num [Demo.bead])).1
    have := c118_fastest (hs 0) h hT ht
    norm_num at this ⊢
    linarith
  have hi : 0.36 ≤ t' + slack (Demo.bead 0 0 :: Demo.beads 10) := by
    obtain ⟨m, hm, _, h2⟩ := c121_print_time (hs 10) h' ht'
    refine le_trans ?_ (h2 (by simp))
    have hT : Timetable _ _ _ _ := hm.1
    simp only [Demo.beads] at hT
    rw [tasks_first, tasks_moving _ _ (x1 10), tasks_moving _ _ (x2 10), tasks] at hT
    simp only [Option.getD_none, Option.getD_some, Demo.add_back] at hT
    have slowly : ∀ {v v' T : ℝ}, Drive 100 10 1 v v' T → v + v' ≤ 2 → 0.18 ≤ T := by
      intro v v' T hd hvv
      have T0 : 0 ≤ T := hd.1
      have := hd.bound (m := T / 2) (n := T / 2) (by linarith) le_rfl (by linarith)
      by_contra hlt
      push Not at hlt
      nlinarith
    cases hT with
    | pause hp => cases hp
    | filament _ h0 =>
      simp only [n1] at h0
      norm_num at h0
    | @travel _ _ _ _ v' a T _ _ hd hlim htl =>
      simp only [n1] at hd
      simp only at hlim
      rw [Demo.beads_speed (by norm_num)] at hlim
      norm_num [Spec.mka, cap] at hlim
      have q1 := slowly hd (by linarith)
      cases htl with
      | pause hp => cases hp
      | filament _ h0 =>
        simp only [n2] at h0
        norm_num at h0
      | @travel _ _ _ _ v'' b T _ _ hd' hlim' htl =>
        simp only [n2] at hd'
        cases htl
        have : v'' ≤ 0 := by
          simp only at hlim'
          exact hlim'.trans (c62_stop (by simp) _ (by norm_num [Demo.bead]) (Or.inl (by simp))).le
        have q2 := slowly hd' (by linarith)
        norm_num at q1 q2 ⊢
        linarith
  have sl : slack (Demo.bead 0 0 :: Demo.beads 10) ≤ 0.001 := by
    norm_num [slack, Demo.beads, Demo.bead]
  norm_num at lo hi sl ⊢
  linarith

/-! ## Examples -/

/-- `c131_nozzle`: a corner, with any amount of filament. -/
example (e f : ℝ) : Reflowing ⟨⟨0, 0, 0, 0⟩, 0, 1, 1, none, none⟩ ⟨⟨0, 0, 0, 0⟩, 0, 1, 1, none, none⟩
    [⟨⟨10, 0, 0, 0⟩, 50, 100, 1, none, none⟩, ⟨⟨10, 10, 0, 0⟩, 50, 100, 1, none, none⟩]
    [⟨⟨10, 0, 0, e⟩, 50, 100, 1, none, none⟩, ⟨⟨10, 10, 0, f⟩, 50, 100, 1, none, none⟩] := by
  refine .travel ⟨⟨rfl, rfl, rfl⟩, rfl, rfl, rfl, rfl⟩ ?_ (.travel ⟨⟨rfl, rfl, rfl⟩, rfl, rfl, rfl, rfl⟩ ?_ .nil) <;>
    · rw [Vec4.norm3, sqrt_real]
      norm_num [Vec4.sub]

/-- The move of `Demo.whole`, extruding. -/
def Demo.wholeE : List Line := [⟨some .G1, [⟨1, 'X', ['0']⟩, ⟨1, 'E', ['1', '0']⟩, ⟨1, 'F', ['1', '0']⟩], 0, none, []⟩]

theorem Demo.wholeE_lines : ∀ l ∈ Demo.wholeE, l.Plain Demo.num := by
  intro l hl
  simp only [Demo.wholeE, List.mem_cons, List.not_mem_nil, or_false] at hl
  subst hl
  exact ⟨by simp, by simp, by simp, by simp [plainLetters], by simp, by simp [Demo.num, numChars], by simp, by simp⟩

theorem Demo.wholeE_file : FileOf Demo.wholeE "G1 X0 E10 F10\n".toList := by
  refine ⟨"G1 X0 E10 F10\n".toList, ["G1 X0 E10 F10\n".toList], ?_, ?_, ?_⟩
  · repeat' first | exact .nil | refine .other (by decide) ?_
  · exact .line (l := "G1 X0 E10 F10".toList) (by decide) .none
  · exact .cons (Or.inr rfl) .nil

theorem Demo.wholeE_doings : (Demo.printerAt 20 2 35 200 10).doings Demo.num Demo.wholeE = [⟨⟨0, 2, 3, 10⟩, 1 / 6, 200, 10, none⟩] := by
  simp [Printer.doings, Demo.wholeE, Line.wait, Line.value, Demo.num, Printer.exec, Demo.printerAt, Printer.point,
    letter, Printer.abs]
  norm_num

/-- `c131_file`: the move without and with filament. -/
example : ∃ bs bs', simulateFile Demo.num (Demo.setupAt 20 2 35 200 10 "klipper") "G1 X0 F10\n".toList = .ok bs ∧
    simulateFile Demo.num (Demo.setupAt 20 2 35 200 10 "klipper") "G1 X0 E10 F10\n".toList = .ok bs' ∧
    ∀ t, EndTime (Spec.path bs) t ↔ EndTime (Spec.path bs') t := by
  have hf : ∀ x y v a j, firmwareOf (Demo.setupAt x y v a j "klipper") = .klipper := fun _ _ _ _ _ => rfl
  obtain ⟨bs, t, _, _, h, ht, _⟩ := c69_simulated_as_written Demo.num_floatLike (Demo.at_accepted 20 2 35 200 10 "klipper")
    (Demo.at_printer ..) Demo.whole_lines Demo.whole_workable Demo.whole_file
  obtain ⟨bs', h1, _, h2⟩ := c131_file Demo.num_floatLike (Demo.at_accepted 20 2 35 200 10 "klipper")
    (Demo.at_accepted 20 2 35 200 10 "klipper") (Demo.at_printer ..) (Demo.at_printer ..) rfl Demo.whole_lines
    Demo.wholeE_lines ⟨by norm_num [Demo.printerAt], by simp [Demo.whole, Line.value, Demo.num], by simp [Demo.whole],
      by simp [Demo.whole]⟩ Demo.whole_file Demo.wholeE_file (by rw [hf]; simp) (.refl _) (by
        rw [Demo.whole_doings, Demo.wholeE_doings]
        refine .travel ⟨rfl, rfl, rfl⟩ ?_ rfl rfl rfl rfl .nil
        have hsub : Vec4.sub (⟨0, 2, 3, 4⟩ : Vec4 ℝ) (Demo.printerAt 20 2 35 200 10).point = ⟨-20, 0, 0, 0⟩ := by
          ext <;> norm_num [Vec4.sub, Printer.point, Demo.printerAt]
        simp only [hsub]
        unfold norm3
        rw [sqrt_real]
        norm_num) h
  exact ⟨bs, bs', h, h1, h2⟩

end PyGCD
