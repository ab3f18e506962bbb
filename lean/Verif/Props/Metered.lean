import Verif.Spec.Metered
import Verif.Props.Flow

/-!
# Property C134: a factor for the filament
-/

set_option linter.unusedSectionVars false
set_option linter.unusedSimpArgs false

namespace PyGCD
open Vec4 Spec

/-! ## Vectors -/

namespace Spec.Metered
variable {κ : ℝ} {v v' w w' : Vec4 ℝ}

theorem zero : Metered κ Vec4.zero Vec4.zero := ⟨rfl, rfl, rfl, by simp [Vec4.zero]⟩

theorem sameXYZ (h : Metered κ v v') : SameXYZ v v' := ⟨h.x, h.y, h.z⟩

theorem norm3 (h : Metered κ v v') : v'.norm3 = v.norm3 := h.sameXYZ.norm3

theorem add (h : Metered κ v v') (k : Metered κ w w') : Metered κ (v.add w) (v'.add w') := by
  refine ⟨?_, ?_, ?_, ?_⟩ <;> simp only [Vec4.add, h.x, h.y, h.z, h.e, k.x, k.y, k.z, k.e]
  ring

theorem sub (h : Metered κ v v') (k : Metered κ w w') : Metered κ (v.sub w) (v'.sub w') := by
  refine ⟨?_, ?_, ?_, ?_⟩ <;> simp only [Vec4.sub, h.x, h.y, h.z, h.e, k.x, k.y, k.z, k.e]
  ring

theorem mul (h : Metered κ v v') (a : ℝ) : Metered κ (v.mul a) (v'.mul a) := by
  refine ⟨?_, ?_, ?_, ?_⟩ <;> simp only [Vec4.mul, h.x, h.y, h.z, h.e]
  ring

theorem div (h : Metered κ v v') (a : ℝ) : Metered κ (v.div a) (v'.div a) := by
  refine ⟨?_, ?_, ?_, ?_⟩ <;> simp only [Vec4.div, h.x, h.y, h.z, h.e]
  ring

end Spec.Metered

namespace Metering

variable {κ : ℝ} {fw : Firmware} {bs bs' : List (Block ℝ)}

/-! ## Moves

The steps are those of `Verif/Props/Flow.lean`, with the filament in addition. -/

theorem keep_akin {u p v w u' p' v' w' : Vec4 ℝ} (hu : u.norm3 ≠ 0) (h : (Metered κ) u u') (hp : (Metered κ) p p') (hv : (Metered κ) v v')
    (hw : (Metered κ) w w') (t t1 k : ℝ) : List.Forall₂ (MeteredMotion κ) (keepSeg ⟨t, t1, p, v, p.add (u.mul k), w⟩)
      (keepSeg ⟨t, t1, p', v', p'.add (u'.mul k), w'⟩) := by
  rw [keep_travel hu, keep_travel (by rw [h.norm3]; exact hu)]
  split_ifs
  · exact .nil
  · exact .cons ⟨rfl, rfl, hp, hv, hp.add (h.mul k), hw⟩ .nil

variable {s s' : Segment ℝ} {u u' : Vec4 ℝ}

theorem trapezoid_akin (h : (MeteredMotion κ) s s') (hu : u.norm3 ≠ 0) (k : (Metered κ) u u') (a vT v w d : ℝ) :
    Akin (List.Forall₂ (MeteredMotion κ)) (trapezoid s u a vT v w d false) (trapezoid s' u' a vT v w d false) := by
  unfold trapezoid
  simp only [h.tEnd, (k.mul vT).norm3, Bool.false_eq_true, if_false]
  refine Akin.bind make_akin ?_
  rintro _ _ ⟨rfl, rfl⟩
  refine Akin.bind make_akin ?_
  rintro _ _ ⟨rfl, rfl⟩
  refine Akin.bind make_akin ?_
  rintro _ _ ⟨rfl, rfl⟩
  refine .ok (Forall₂.append (Forall₂.append ?_ ?_) ?_)
  · exact keep_akin hu k h.posEnd (k.mul _) (k.mul _) ..
  · exact keep_akin hu k (h.posEnd.add (k.mul _)) (k.mul _) (k.mul _) ..
  · exact keep_akin hu k ((h.posEnd.add (k.mul _)).add (k.mul _)) (k.mul _) (k.mul _) ..

theorem triang_akin (h : (MeteredMotion κ) s s') (hu : u.norm3 ≠ 0) (k : (Metered κ) u u') (a vP v w : ℝ) :
    Akin (List.Forall₂ (MeteredMotion κ)) (triang s u a vP v w) (triang s' u' a vP v w) := by
  unfold triang
  simp only [h.tEnd]
  refine Akin.bind make_akin ?_
  rintro _ _ ⟨rfl, rfl⟩
  refine Akin.bind make_akin ?_
  rintro _ _ ⟨rfl, rfl⟩
  refine .ok (Forall₂.append ?_ ?_)
  · exact keep_akin hu k h.posEnd (k.mul _) (k.mul _) ..
  · exact keep_akin hu k (h.posEnd.add (k.mul _)) (k.mul _) (k.mul _) ..

theorem singlUp_akin (h : (MeteredMotion κ) s s') (hu : u.norm3 ≠ 0) (k : (Metered κ) u u') (a v w : ℝ) :
    Akin (List.Forall₂ (MeteredMotion κ)) (singlUp s u a v w) (singlUp s' u' a v w) := by
  unfold singlUp
  simp only [h.tEnd]
  refine Akin.bind make_akin ?_
  rintro _ _ ⟨rfl, rfl⟩
  exact .ok (keep_akin hu k h.posEnd (k.mul _) (k.mul _) ..)

theorem singlDwn_akin (h : (MeteredMotion κ) s s') (hu : u.norm3 ≠ 0) (k : (Metered κ) u u') (a v w : ℝ) :
    Akin (List.Forall₂ (MeteredMotion κ)) (singlDwn s u a v w) (singlDwn s' u' a v w) := by
  unfold singlDwn
  simp only [h.tEnd]
  refine Akin.bind make_akin ?_
  rintro _ _ ⟨rfl, rfl⟩
  exact .ok (keep_akin hu k h.posEnd (k.mul _) (k.mul _) ..)

theorem planMove_akin (h : (MeteredMotion κ) s s') (hu : u.norm3 ≠ 0) (k : (Metered κ) u u') {B B' : PState ℝ} (hB : (MeteredState κ) B B') (d v : ℝ) :
    Akin (fun r r' => List.Forall₂ (MeteredMotion κ) r.1 r'.1 ∧ r'.2 = r.2) (planMove s u B d false v) (planMove s' u' B' d false v) := by
  unfold planMove
  simp only [h.velEnd.norm3, hB.speed, hB.acc]
  refine Akin.rescue ?_
  exact .ite ((trapezoid_akin h hu k ..).map fun _ _ h => ⟨h, rfl⟩) (.ite ((triang_akin h hu k ..).map fun _ _ h => ⟨h, rfl⟩)
    (.ite ((singlUp_akin h hu k ..).map fun _ _ h => ⟨h, rfl⟩) (.ite ((singlDwn_akin h hu k ..).map fun _ _ h => ⟨h, rfl⟩) .error)))

/-! ## Blocks -/

/-- The blocks make the nozzle do the same. -/
structure FlowBlock (κ : ℝ) (b b' : Block ℝ) : Prop where
  state : (MeteredState κ) b.stateB b'.stateB
  direction : b.direction = none ∨ ∃ A A' u u', b.stateA = some A ∧ b'.stateA = some A' ∧ b.direction = some u ∧
    b'.direction = some u' ∧ (Metered κ) A.position A'.position ∧ (Metered κ) u u' ∧ u.norm3 ≠ 0 ∧
    b.stateB.position.tDistance A.position ≠ 0
  type : b'.blocktype = b.blocktype
  segments : List.Forall₂ (MeteredMotion κ) b.segments b'.segments
  ext : 0 < κ → b'.isExtruding = b.isExtruding
  before : Option.Rel (Metered κ) (b.stateA.map PState.position) (b'.stateA.map PState.position)

theorem getLast_akin : ∀ {l l' : List (Segment ℝ)}, List.Forall₂ (MeteredMotion κ) l l' → ∀ x x', l.getLast? = some x → l'.getLast? = some x' →
    (MeteredMotion κ) x x'
  | _, _, .nil, _, _, e, _ => by cases e
  | _, _, .cons h .nil, _, _, e, e' => by
    cases e
    cases e'
    exact h
  | _, _, .cons _ (.cons h t), x, x', e, e' => by
    rw [List.getLast?_cons_cons] at e e'
    exact getLast_akin (.cons h t) x x' e e'

variable {b b' : Block ℝ}

theorem FlowBlock.last (h : (FlowBlock κ) b b') : Akin (MeteredMotion κ) b.lastSeg b'.lastSeg := by
  refine ⟨fun x x' e e' => ?_⟩
  unfold Block.lastSeg at e e'
  refine getLast_akin h.segments x x' ?_ ?_
  · cases hx : b.segments.getLast? with
    | none => rw [hx] at e; cases e
    | some s => rw [hx] at e; cases e; rfl
  · cases hx : b'.segments.getLast? with
    | none => rw [hx] at e'; cases e'
    | some s => rw [hx] at e'; cases e'; rfl

theorem FlowBlock.first (h : (FlowBlock κ) b b') : Akin (MeteredMotion κ) b.firstSeg b'.firstSeg := by
  unfold Block.firstSeg
  have := h.segments
  revert this
  generalize b.segments = l
  generalize b'.segments = l'
  intro hl
  cases hl with
  | nil => exact .error
  | cons h _ => exact .ok h

theorem FlowBlock.timeshift (h : (FlowBlock κ) b b') (d : ℝ) : (FlowBlock κ) (b.timeshift d) (b'.timeshift d) := by
  obtain ⟨h1, h2, h3, h4, h5, h6⟩ := h
  refine ⟨h1, h2, h3, ?_, h5, h6⟩
  unfold Block.timeshift
  simp only [List.forall₂_map_left_iff, List.forall₂_map_right_iff]
  refine h4.imp ?_
  rintro s s' ⟨a1, a2, a3, a4, a5, a6⟩
  exact ⟨by simp [Segment.shift, a1], by simp [Segment.shift, a2], a3, a4, a5, a6⟩

/-- The blocks before, if any. -/
inductive FlowBefore (κ : ℝ) : Option (Block ℝ) → Option (Block ℝ) → Prop
  | none : (FlowBefore κ) .none .none
  | some {c c' : Block ℝ} : (FlowBlock κ) c c' → (FlowBefore κ) (.some c) (.some c')

theorem flow_head {rp rp' : List (Block ℝ)} (h : List.Forall₂ (FlowBlock κ) rp rp') : (FlowBefore κ) rp.head? rp'.head? := by
  cases h with
  | nil => exact .none
  | cons h _ => exact .some h

theorem moveMaker_akin {v : ℝ} {pb pb' : Option (Block ℝ)} (h : (FlowBlock κ) b b') (hb : (FlowBefore κ) pb pb') :
    Akin (FlowBlock κ) (moveMaker b pb v) (moveMaker b' pb' v) := by
  obtain ⟨A, B, u, ext, jd, segs, ty⟩ := b
  obtain ⟨A', B', u', ext', jd', segs', ty'⟩ := b'
  obtain ⟨h1, h2, h3, h4, h5, h6⟩ := h
  simp only at h1 h2 h3 h4 h5 h6
  rcases h2 with rfl | ⟨A, A', u, u', rfl, rfl, rfl, rfl, hA, hu, hn, hd⟩
  · unfold moveMaker
    cases A <;> exact .error
  · unfold moveMaker
    simp only
    have hd' : B'.position.tDistance A'.position = B.position.tDistance A.position := (h1.place.sub hA).norm3
    have e1 : moveDistance A B = (B.position.tDistance A.position, false) := by
      unfold moveDistance
      simp only [if_neg hd]
    have e2 : moveDistance A' B' = (B.position.tDistance A.position, false) := by
      unfold moveDistance
      simp only [hd', if_neg hd]
    rw [e1, e2]
    have rest : ∀ s s' : Segment ℝ, (MeteredMotion κ) s s' → Akin (FlowBlock κ)
        (do
          let r ← planMove s u B (B.position.tDistance A.position) false v
          .ok ⟨some A, B, some u, ext, jd, r.1, some r.2⟩)
        (do
          let r ← planMove s' u' B' (B.position.tDistance A.position) false v
          .ok ⟨some A', B', some u', ext', jd', r.1, some r.2⟩) := by
      intro s s' hs
      refine Akin.bind (planMove_akin hs hn hu h1 ..) ?_
      rintro r r' ⟨k1, k2⟩
      exact .ok ⟨h1, Or.inr ⟨A, A', u, u', rfl, rfl, rfl, rfl, hA, hu, hn, hd⟩, by simp [k2], k1, h5, h6⟩
    cases hb with
    | none => exact rest _ _ ⟨rfl, rfl, hA, .zero, hA, .zero⟩
    | some hb => exact Akin.bind hb.last rest

theorem dwell_akin (p : ℝ) {pb pb' : Option (Block ℝ)} (hb : (FlowBefore κ) pb pb') :
    Akin (MeteredMotion κ) (dwellSegment pb p) (dwellSegment pb' p) := by
  unfold dwellSegment
  cases hb with
  | none => exact .error
  | some hb =>
    refine Akin.bind hb.last ?_
    intro s s' hs
    rw [hs.tEnd]
    refine ⟨fun a a' e e' => ?_⟩
    obtain ⟨rfl, rfl⟩ := make_akin.out a a' e e'
    exact ⟨rfl, rfl, hs.posEnd, .zero, hs.posEnd, .zero⟩

/-! ## Junctions -/

theorem connect_akin {A A' B B' : PState ℝ} (hA : (Metered κ) A.position A'.position) (hB : (MeteredState κ) B B') (h : FlowStep A A' B B') :
    (Metered κ) (connectState A B) (connectState A' B') ∧
      (connectState A B = Vec4.zero ∧ connectState A' B' = Vec4.zero ∨ (connectState A B).norm3 ≠ 0 ∧
        B.position.tDistance A.position ≠ 0) := by
  rcases h with h | ⟨h, h'⟩
  · have e : (B'.position.sub A'.position).norm3 = (B.position.sub A.position).norm3 := (hB.place.sub hA).norm3
    have hpos : 0 < |(B.position.sub A.position).norm3| := abs_pos.2 h
    have e1 : connectState A B = ((B.position.sub A.position).div (B.position.sub A.position).norm3).mul B.speed := by
      unfold connectState
      simp only [pyAbs_real, if_pos hpos]
    have e2 : connectState A' B' = ((B'.position.sub A'.position).div (B.position.sub A.position).norm3).mul B.speed := by
      unfold connectState
      simp only [pyAbs_real, e, if_pos hpos, hB.speed]
    refine ⟨?_, ?_⟩
    · rw [e1, e2]
      exact ((hB.place.sub hA).div _).mul _
    · by_cases hs : B.speed = 0
      · left
        rw [e1, e2, hs]
        constructor <;> ext <;> simp [Vec4.mul, Vec4.zero]
      · right
        refine ⟨?_, h⟩
        rw [e1]
        intro h0
        apply h
        rw [norm3_eq_zero] at h0 ⊢
        obtain ⟨a, b, c⟩ := h0
        simp only [Vec4.mul, Vec4.div, mul_eq_zero, div_eq_zero_iff, hs, h, or_false] at a b c
        exact ⟨a, b, c⟩
  · rw [connectState_self h, connectState_self h']
    exact ⟨.zero, Or.inl ⟨rfl, rfl⟩⟩

theorem next_akin {B B' : PState ℝ} (hB : (MeteredState κ) B B') : ∀ {C C' : PState ℝ} {l l' : List (PState ℝ)}, (MeteredRun κ) C C' l l' →
    C.position = B.position → C'.position = B'.position →
    (MeteredState κ) (nextTarget B l) (nextTarget B' l') ∧ FlowStep B B' (nextTarget B l) (nextTarget B' l')
  | _, _, _, _, .nil, _, _ => ⟨hB, Or.inr ⟨rfl, rfl⟩⟩
  | C, C', _, _, .travel (B := D) (B' := D') (l := l) (l' := l') hD h ht, e, e' => by
    have h0 : (D.position.sub B.position).norm3 ≠ 0 := by rw [← e]; exact h
    have pos : ∀ {a b : Vec4 ℝ}, (b.sub a).norm3 ≠ 0 → 0 < a.tDistance4 b := by
      intro a b hx
      unfold tDistance4
      refine lt_of_le_of_ne (norm4_nonneg _) fun h0 => hx ?_
      have := norm4_eq_zero.1 h0.symm
      rw [norm3_eq_zero]
      have a1 := congrArg Vec4.x this
      have a2 := congrArg Vec4.y this
      have a3 := congrArg Vec4.z this
      simp only [Vec4.sub, Vec4.zero] at a1 a2 a3 ⊢
      exact ⟨by linarith, by linarith, by linarith⟩
    have h1 : 0 < B.position.tDistance4 D.position := pos h0
    have h2 : 0 < B'.position.tDistance4 D'.position := pos (by rw [(hD.place.sub hB.place).norm3]; exact h0)
    rw [nextTarget, nextTarget, if_pos (Or.inr h1), if_pos (Or.inr h2)]
    exact ⟨hD, Or.inl h0⟩
  | C, C', _, _, .stay (B := D) (B' := D') (l := l) (l' := l') hD h h' ht, e, e' => by
    have zero : ∀ {a b : Vec4 ℝ}, b = a → ¬ 0 < a.tDistance4 b := by
      intro a b hx
      subst hx
      unfold tDistance4
      rw [Vec4.sub_self, norm4_zero]
      simp
    have h1 := zero (h.trans e)
    have h2 := zero (h'.trans e')
    have ih := next_akin hB ht (h.trans e) (h'.trans e')
    rw [nextTarget, nextTarget]
    cases ht with
    | nil =>
      rw [if_pos (by simp), if_pos (by simp)]
      exact ⟨hD, Or.inr ⟨h.trans e, h'.trans e'⟩⟩
    | travel _ _ _ =>
      rw [if_neg (by simp [h1]), if_neg (by simp [h2])]
      exact ih
    | stay _ _ _ _ =>
      rw [if_neg (by simp [h1]), if_neg (by simp [h2])]
      exact ih

/-- The states before, if any. -/
inductive FlowFrom (κ : ℝ) : Option (PState ℝ) → Option (PState ℝ) → PState ℝ → PState ℝ → Prop
  | none {B B'} : (FlowFrom κ) .none .none B B'
  | some {A A' B B'} : (Metered κ) A.position A'.position → FlowStep A A' B B' → (FlowFrom κ) (.some A) (.some A') B B'

theorem FlowFrom.before {A A' : Option (PState ℝ)} {B B' : PState ℝ} (h : FlowFrom κ A A' B B') :
    Option.Rel (Metered κ) (A.map PState.position) (A'.map PState.position) := by
  cases h with
  | none => exact .none
  | some h _ => exact .some h

theorem extrudes_akin (hκ : 0 < κ) {a a' b b' : Vec4 ℝ} (ha : Metered κ a a') (hb : Metered κ b b') :
    a'.isExtrudingTo b' = a.isExtrudingTo b := by
  unfold isExtrudingTo
  simp only [if_true, ha.e, hb.e, ← mul_sub, mul_pos_iff_of_pos_left hκ]

theorem target_akin {A A' : Option (PState ℝ)} {B B' : PState ℝ} (hA : (FlowFrom κ) A A' B B') (hB : (MeteredState κ) B B') :
    (Metered κ) (targetVel A B) (targetVel A' B') ∧ (targetVel A B = Vec4.zero ∧ targetVel A' B' = Vec4.zero ∨
      (targetVel A B).norm3 ≠ 0 ∧ ∃ C C', A = some C ∧ A' = some C' ∧ (Metered κ) C.position C'.position ∧
        B.position.tDistance C.position ≠ 0) := by
  cases hA with
  | none => exact ⟨.zero, Or.inl ⟨rfl, rfl⟩⟩
  | some h1 h2 =>
    obtain ⟨k1, k2⟩ := connect_akin h1 hB h2
    refine ⟨k1, k2.imp id ?_⟩
    rintro ⟨a, b⟩
    exact ⟨a, _, _, rfl, rfl, h1, b⟩

theorem junction_akin (hm : fw ≠ .mka) {A A' : Option (PState ℝ)} {B B' : PState ℝ} {l l' : List (PState ℝ)}
    (hA : (FlowFrom κ) A A' B B') (hB : (MeteredState κ) B B') (h : (MeteredRun κ) B B' l l') :
    junctionVel fw A' B' l' = junctionVel fw A B l := by
  have h0 := (target_akin hA hB).1
  obtain ⟨hn, hs⟩ := next_akin hB h rfl rfl
  have h1 : (Metered κ) (velNext B l) (velNext B' l') := (connect_akin hB.place hn hs).1
  have h2 : ((nextTarget B' l').position.sub B'.position).norm3 = ((nextTarget B l).position.sub B.position).norm3 :=
    (hn.place.sub hB.place).norm3
  obtain ⟨b1, b2, b3, b4, _⟩ := hB
  cases fw with
  | mka => exact absurd rfl hm
  | default => rfl
  | marlinJd => simp only [junctionVel, calcJD, h0.norm3, h1.norm3, h0.x, h0.y, h0.z, h1.x, h1.y, h1.z, b2, b3, b4]
  | klipper =>
    have key : ∀ {v v' w w' : Vec4 ℝ} (d : ℝ), (Metered κ) v v' → (Metered κ) w w' → calcKlipper v' w' d B' = calcKlipper v w d B := by
      rintro ⟨x, y, z, e⟩ ⟨x', y', z', e'⟩ ⟨a, b, c, i⟩ ⟨a', b', c', i'⟩ d ⟨q1, q2, q3, _⟩ ⟨r1, r2, r3, _⟩
      simp only at q1 q2 q3 r1 r2 r3
      subst q1 q2 q3 r1 r2 r3
      unfold calcKlipper
      rw [b2, b3, b4]
      rfl
    simp only [junctionVel, h2]
    exact key _ h0 h1
  | marlinJerk =>
    have e1 := (h0.sub h1).norm3
    have e2 := fun a => (h0.div a).norm3
    simp only [junctionVel, calcJerk, e1, e2, h0.norm3, b4]

/-! ## Generation -/

theorem mkBlock_akin (hm : fw ≠ .mka) {A A' : Option (PState ℝ)} {B B' : PState ℝ} {l l' : List (PState ℝ)}
    {pb pb' : Option (Block ℝ)} (hA : (FlowFrom κ) A A' B B') (hB : (MeteredState κ) B B') (h : (MeteredRun κ) B B' l l') (hb : (FlowBefore κ) pb pb') :
    Akin (FlowBlock κ) (mkBlock fw A B l pb) (mkBlock fw A' B' l' pb') := by
  have hj := junction_akin hm hA hB h
  obtain ⟨h0, h1⟩ := target_akin hA hB
  unfold mkBlock
  simp only [hj, hB.pause]
  rcases h1 with ⟨e, e'⟩ | ⟨hn, C, C', rfl, rfl, hC, hd⟩
  · simp only [e, e', notZero_zero, Bool.false_eq_true, if_false]
    refine Akin.bind (R := (FlowBlock κ)) (.ok ⟨hB, Or.inl normDir_zero, rfl, .nil, fun _ => rfl, hA.before⟩) ?_
    intro b b' hx
    cases hp : B.pause with
    | none => exact .ok hx
    | some p =>
      refine Akin.bind (dwell_akin p hb) ?_
      intro s s' hs
      exact .ok ⟨hx.state, hx.direction, hx.type, .cons hs .nil, hx.ext, hx.before⟩
  · have hn' : (targetVel (some C') B').norm3 ≠ 0 := by rw [h0.norm3]; exact hn
    rw [if_pos (notZero_travel hn), if_pos (notZero_travel hn'), normDir_travel hn, normDir_travel hn', h0.norm3]
    refine Akin.bind (moveMaker_akin ⟨hB, Or.inr ⟨C, C', _, _, rfl, rfl, rfl, rfl, hC, h0.div _, ?_, hd⟩, rfl, .nil, fun _ => rfl, hA.before⟩ hb) ?_
    · intro hz
      rw [norm3_eq_zero] at hz
      obtain ⟨a, b, c⟩ := hz
      simp only [Vec4.div, div_eq_zero_iff, hn, or_false] at a b c
      exact hn (norm3_eq_zero.2 ⟨a, b, c⟩)
    · intro b b' hx
      refine Akin.bind (R := (FlowBlock κ)) (.ok ⟨hx.state, hx.direction, hx.type, hx.segments, fun hκ => extrudes_akin hκ hC hB.place, hx.before⟩) ?_
      intro b b' hx
      cases hp : B.pause with
      | none => exact .ok hx
      | some p =>
        refine Akin.bind (dwell_akin p hb) ?_
        intro s s' hs
        exact .ok ⟨hx.state, hx.direction, hx.type, .cons hs .nil, hx.ext, hx.before⟩

theorem genBlocks_step (hm : fw ≠ .mka) {l l' : List (PState ℝ)} {A A' : Option (PState ℝ)} {B B' : PState ℝ}
    {pb pb' : Option (Block ℝ)} (hA : (FlowFrom κ) A A' B B') (hB : (MeteredState κ) B B') (h : (MeteredRun κ) B B' l l') (hb : (FlowBefore κ) pb pb')
    (ih : ∀ {pb pb' : Option (Block ℝ)}, (FlowBefore κ) pb pb' →
      Akin (List.Forall₂ (FlowBlock κ)) (genBlocks fw (some B) pb l) (genBlocks fw (some B') pb' l')) :
    Akin (List.Forall₂ (FlowBlock κ)) (genBlocks fw A pb (B :: l)) (genBlocks fw A' pb' (B' :: l')) := by
  rw [genBlocks, genBlocks]
  refine Akin.bind (mkBlock_akin hm hA hB h hb) ?_
  intro b b' hx
  have he : b'.segments.isEmpty = b.segments.isEmpty := by
    have := hx.segments
    revert this
    generalize b.segments = x
    generalize b'.segments = y
    intro hxy
    cases hxy <;> rfl
  rw [he]
  refine .ite (ih hb) ?_
  refine Akin.bind (ih (.some hx)) ?_
  intro cs cs' hcs
  exact .ok (.cons hx hcs)

theorem genBlocks_akin (hm : fw ≠ .mka) {l l' : List (PState ℝ)} {A A' : PState ℝ} (h : (MeteredRun κ) A A' l l') :
    (Metered κ) A.position A'.position → ∀ {pb pb' : Option (Block ℝ)}, (FlowBefore κ) pb pb' →
    Akin (List.Forall₂ (FlowBlock κ)) (genBlocks fw (some A) pb l) (genBlocks fw (some A') pb' l') := by
  induction h with
  | nil => exact fun _ _ _ _ => .ok .nil
  | travel h1 h2 h3 ih => exact fun hA _ _ hb => genBlocks_step hm (.some hA (Or.inl h2)) h1 h3 hb (ih h1.place)
  | stay h1 h2 h2' h3 ih => exact fun hA _ _ hb => genBlocks_step hm (.some hA (Or.inr ⟨h2, h2'⟩)) h1 h3 hb (ih h1.place)

/-! ## Correction -/

/-- Related results of a correction. -/
def FlowCorrected (κ : ℝ) (r r' : List (Block ℝ) × Block ℝ × Option (Block ℝ)) : Prop :=
  List.Forall₂ (FlowBlock κ) r.1 r'.1 ∧ (FlowBlock κ) r.2.1 r'.2.1 ∧ (FlowBefore κ) r.2.2 r'.2.2

theorem selfCorrection_akin : ∀ {rp rp' : List (Block ℝ)} {b b' : Block ℝ} {nx nx' : Option (Block ℝ)},
    List.Forall₂ (FlowBlock κ) rp rp' → (FlowBlock κ) b b' → (FlowBefore κ) nx nx' →
    Akin (FlowCorrected κ) (selfCorrection rp b nx) (selfCorrection rp' b' nx') := by
  have step : ∀ {rp rp' : List (Block ℝ)} {b b' c c' : Block ℝ}, List.Forall₂ (FlowBlock κ) rp rp' → (FlowBlock κ) b b' → (FlowBlock κ) c c' →
      (∀ {p r p' r' x x'}, rp = p :: r → rp' = p' :: r' → List.Forall₂ (FlowBlock κ) r r' → (FlowBlock κ) p p' → (FlowBlock κ) x x' →
        Akin (FlowCorrected κ) (selfCorrection r p (some x)) (selfCorrection r' p' (some x'))) →
      Akin (FlowCorrected κ) (selfCorrection rp b (some c)) (selfCorrection rp' b' (some c')) := by
    intro rp rp' b b' c c' hrp hb hc ih
    rw [selfCorrection.eq_def, selfCorrection.eq_def rp']
    simp only
    refine Akin.bind hb.last ?_
    intro s s' hs
    refine Akin.bind hc.first ?_
    intro f f' hf
    simp only [hs.velEnd.norm3, hf.velBegin.norm3]
    have fin : ∀ {R R' : List (Block ℝ)} {x x' : Block ℝ}, List.Forall₂ (FlowBlock κ) R R' → (FlowBlock κ) x x' → Akin (FlowCorrected κ)
        (do
          let last ← x.lastSeg
          if last.posEnd.eq f.posBegin = true then .ok (R, x, some (c.timeshift (last.tEnd - f.tBegin)))
          else if 1e-12 < (last.posEnd.sub f.posBegin).norm3 then .error .nameError
          else .ok (R, x, some (c.timeshift (last.tEnd - f.tBegin))))
        (do
          let last ← x'.lastSeg
          if last.posEnd.eq f'.posBegin = true then .ok (R', x', some (c'.timeshift (last.tEnd - f'.tBegin)))
          else if 1e-12 < (last.posEnd.sub f'.posBegin).norm3 then .error .nameError
          else .ok (R', x', some (c'.timeshift (last.tEnd - f'.tBegin)))) := by
      intro R R' x x' hR hx
      refine Akin.bind hx.last ?_
      intro e e' he
      rw [he.tEnd, hf.tBegin]
      have ok : Akin (FlowCorrected κ) (.ok (R, x, some (c.timeshift (e.tEnd - f.tBegin))))
          (.ok (R', x', some (c'.timeshift (e.tEnd - f.tBegin)))) := .ok ⟨hR, hx, .some (hc.timeshift _)⟩
      split_ifs
      all_goals first | exact ok | exact .error | exact .error'
    refine .ite ?_ (fin hrp hb)
    refine Akin.bind (moveMaker_akin hb (flow_head hrp)) ?_
    intro x x' hx
    rw [hx.type]
    refine .ite ?_ (fin hrp hx)
    cases hrp with
    | nil => exact .error
    | cons hp hrp =>
      refine Akin.bind (ih rfl rfl hrp hp hx) ?_
      rintro ⟨r1, r2, r3⟩ ⟨r1', r2', r3'⟩ ⟨g1, g2, g3⟩
      simp only at g1 g2 g3
      cases g3 with
      | none => exact fin (.cons g2 g1) hx
      | some hy => exact fin (.cons g2 g1) hy
  intro rp
  induction rp with
  | nil =>
    intro rp' b b' nx nx' hrp hb hnx
    cases hnx with
    | none =>
      rw [selfCorrection, selfCorrection]
      exact .ok ⟨hrp, hb, .none⟩
    | some hc => exact step hrp hb hc (by intro p r p' r' x x' e; cases e)
  | cons p rp ih =>
    intro rp' b b' nx nx' hrp hb hnx
    cases hnx with
    | none =>
      rw [selfCorrection, selfCorrection]
      exact .ok ⟨hrp, hb, .none⟩
    | some hc =>
      refine step hrp hb hc ?_
      intro q r q' r' x x' e e' h1 h2 h3
      cases e
      exact ih h1 h2 (.some h3)

theorem correctFrom_akin {tl tl' : List (Block ℝ)} (htl : List.Forall₂ (FlowBlock κ) tl tl') :
    ∀ {rp rp' : List (Block ℝ)} {b b' : Block ℝ}, List.Forall₂ (FlowBlock κ) rp rp' → (FlowBlock κ) b b' →
    Akin (List.Forall₂ (FlowBlock κ)) (correctFrom rp b tl) (correctFrom rp' b' tl') := by
  induction htl with
  | nil =>
    intro rp rp' b b' hrp hb
    rw [correctFrom, correctFrom]
    refine Akin.bind (selfCorrection_akin hrp hb .none) ?_
    rintro r r' ⟨g1, g2, _⟩
    exact .ok (Forall₂.append (List.rel_reverse g1) (.cons g2 .nil))
  | cons hc _ ih =>
    intro rp rp' b b' hrp hb
    rw [correctFrom, correctFrom]
    refine Akin.bind (selfCorrection_akin hrp hb (.some hc)) ?_
    rintro ⟨r1, r2, r3⟩ ⟨r1', r2', r3'⟩ ⟨g1, g2, g3⟩
    simp only at g1 g2 g3
    cases g3 with
    | none => exact ih (.cons g2 g1) hc
    | some hy => exact ih (.cons g2 g1) hy

theorem plan_akin (hm : fw ≠ .mka) {A A' : PState ℝ} {l l' : List (PState ℝ)} (hA : (MeteredState κ) A A') (h : (MeteredRun κ) A A' l l') :
    Akin (List.Forall₂ (FlowBlock κ)) (plan fw (A :: l)) (plan fw (A' :: l')) := by
  unfold plan
  refine Akin.bind (R := List.Forall₂ (FlowBlock κ)) ?_ ?_
  · exact genBlocks_step hm .none hA h .none (genBlocks_akin hm h hA.place)
  · intro cs cs' hcs
    cases hcs with
    | nil => exact .ok .nil
    | cons h1 h2 => exact correctFrom_akin h2 .nil h1

theorem flow_path : ∀ {bs bs' : List (Block ℝ)}, List.Forall₂ (FlowBlock κ) bs bs' →
    List.Forall₂ (MeteredMotion κ) (Spec.path bs) (Spec.path bs')
  | _, _, .nil => .nil
  | _, _, .cons h t => Forall₂.append h.segments (flow_path t)

/-! ## Questions -/

variable {P P' : List (Segment ℝ)}

theorem getVelocity_nozzle {s s' : Segment ℝ} (h : (MeteredMotion κ) s s') (t : ℝ) :
    (∃ v v', s.getVelocity t = .ok v ∧ s'.getVelocity t = .ok v' ∧ (Metered κ) v v') ∨
      s.getVelocity t = .error .valueError ∧ s'.getVelocity t = .error .valueError := by
  unfold Segment.getVelocity
  rw [h.tBegin, h.tEnd]
  split
  · exact Or.inr ⟨rfl, rfl⟩
  · refine Or.inl ⟨_, _, rfl, rfl, h.velBegin.add (Metered.mul ?_ _)⟩
    split
    · exact (h.velEnd.sub h.velBegin).div _
    · exact .zero

theorem getPosition_nozzle {s s' : Segment ℝ} (h : (MeteredMotion κ) s s') (t : ℝ) :
    (∃ v v', s.getPosition t = .ok v ∧ s'.getPosition t = .ok v' ∧ (Metered κ) v v') ∨
      s.getPosition t = .error .valueError ∧ s'.getPosition t = .error .valueError := by
  unfold Segment.getPosition
  rw [h.tBegin, h.tEnd]
  split
  · exact Or.inr ⟨rfl, rfl⟩
  · rcases getVelocity_nozzle h t with ⟨v, v', e, e', hv⟩ | ⟨e, e'⟩
    · rw [e, e']
      exact Or.inl ⟨_, _, rfl, rfl, h.posBegin.add (((h.velBegin.add hv).mul _).div _)⟩
    · rw [e, e']
      exact Or.inr ⟨rfl, rfl⟩

/-- What a search finds. -/
def FoundAlike (κ : ℝ) (r r' : Option (Segment ℝ × Nat)) : Prop := Option.Rel (fun x x' => (MeteredMotion κ) x.1 x'.1 ∧ x'.2 = x.2) r r'

theorem searchFresh_nozzle {t : ℝ} (h : List.Forall₂ (MeteredMotion κ) P P') : ∀ i, (FoundAlike κ) (searchFresh t i P) (searchFresh t i P') := by
  induction h with
  | nil => exact fun _ => .none
  | cons h _ ih =>
    intro i
    simp only [searchFresh, h.tBegin, h.tEnd]
    split
    · exact .some ⟨h, rfl⟩
    · exact ih _

theorem searchWarm_nozzle {t : ℝ} (h : List.Forall₂ (MeteredMotion κ) P P') : ∀ i, (FoundAlike κ) (searchWarm t i P) (searchWarm t i P') := by
  induction h with
  | nil => exact fun _ => .none
  | cons h _ ih =>
    intro i
    simp only [searchWarm, h.tBegin, h.tEnd]
    split
    · exact .some ⟨h, rfl⟩
    · exact ih _

theorem nozzle_get (h : List.Forall₂ (MeteredMotion κ) P P') : ∀ i : Nat, Option.Rel (MeteredMotion κ) P[i]? P'[i]? := by
  induction h with
  | nil => exact fun _ => .none
  | cons h _ ih =>
    intro i
    cases i with
    | zero => exact .some h
    | succ i => exact ih i

theorem useFresh_nozzle (h : List.Forall₂ (MeteredMotion κ) P P') (t : ℝ) (last : Option Nat) : useFresh P' t last = useFresh P t last := by
  unfold useFresh
  cases last with
  | none => rfl
  | some i =>
    simp only
    have hi := nozzle_get h i
    generalize P[i]? = x at hi ⊢
    generalize P'[i]? = x' at hi ⊢
    cases hi with
    | none => rfl
    | some h => simp only [h.tBegin]

theorem findSegment_nozzle (h : List.Forall₂ (MeteredMotion κ) P P') (t : ℝ) (last : Option Nat) :
    (∃ r r', findSegment P t last = .ok r ∧ findSegment P' t last = .ok r' ∧ (FoundAlike κ) r r') ∨
      ∃ e, findSegment P t last = .error e ∧ findSegment P' t last = .error e := by
  unfold findSegment
  rw [useFresh_nozzle h]
  have hl : Option.Rel (MeteredMotion κ) P.getLast? P'.getLast? := by
    rw [List.getLast?_eq_getElem?, List.getLast?_eq_getElem?, ← h.length_eq]
    exact nozzle_get h _
  generalize P.getLast? = x at hl ⊢
  generalize P'.getLast? = x' at hl ⊢
  cases hl with
  | none => exact Or.inr ⟨_, rfl, rfl⟩
  | some hl =>
    simp only [hl.tEnd]
    split
    · exact Or.inl ⟨_, _, rfl, rfl, .none⟩
    · split
      · have := searchFresh_nozzle (t := t) h 0
        unfold FoundAlike at this
        generalize searchFresh t 0 P = y at this ⊢
        generalize searchFresh t 0 P' = y' at this ⊢
        cases this with
        | none => exact Or.inr ⟨_, rfl, rfl⟩
        | some k => exact Or.inl ⟨_, _, rfl, rfl, .some k⟩
      · have := searchWarm_nozzle (t := t) (List.forall₂_drop (last.getD 0) h) (last.getD 0)
        unfold FoundAlike at this
        generalize searchWarm t (last.getD 0) (P.drop (last.getD 0)) = y at this ⊢
        generalize searchWarm t (last.getD 0) (P'.drop (last.getD 0)) = y' at this ⊢
        cases this with
        | none => exact Or.inr ⟨_, rfl, rfl⟩
        | some k => exact Or.inl ⟨_, _, rfl, rfl, .some k⟩

end Metering

/-! ## Without the filament -/

theorem Spec.MeteredState.reflowed {κ : ℝ} {s s' : PState ℝ} (h : MeteredState κ s s') : Reflowed s s' :=
  ⟨h.place.sameXYZ, h.speed, h.acc, h.jerk, h.pause⟩

theorem Spec.MeteredRun.reflowing {κ : ℝ} {A A' : PState ℝ} {l l' : List (PState ℝ)} (h : MeteredRun κ A A' l l') :
    Reflowing A A' l l' := by
  induction h with
  | nil => exact .nil
  | travel h1 h2 _ ih => exact .travel h1.reflowed h2 ih
  | stay h1 h2 h3 _ ih => exact .stay h1.reflowed h2 h3 ih

section
variable {κ : ℝ} {fw : Firmware} {bs bs' : List (Block ℝ)} {P P' : List (Segment ℝ)}

/-! ## The property -/

/-- **C134.** Multiply the filament of every state by `κ`. With every firmware but `MKA`, if both programs are planned, the nozzle
does exactly the same at the same times, and the filament moves `κ` times as far and as fast. -/
theorem c134_motion (hm : fw ≠ .mka) {A A' : PState ℝ} {l l' : List (PState ℝ)} (hA : MeteredState κ A A')
    (h : MeteredRun κ A A' l l') (hb : plan fw (A :: l) = .ok bs) (hb' : plan fw (A' :: l') = .ok bs') :
    List.Forall₂ (MeteredMotion κ) (Spec.path bs) (Spec.path bs') :=
  Metering.flow_path ((Metering.plan_akin hm hA h).out _ _ hb hb')

/-- **C134.** With sensible settings one of the programs can be planned if and only if the other one can. -/
theorem c134_plannable {A A' : PState ℝ} {l l' : List (PState ℝ)} (hsens : Sensible (A :: l)) (hA : MeteredState κ A A')
    (h : MeteredRun κ A A' l l') : (∃ bs, plan fw (A :: l) = .ok bs) ↔ ∃ bs, plan fw (A' :: l') = .ok bs :=
  c131_plannable hsens hA.reflowed h.reflowing

theorem Spec.MeteredAnswer.error {e : PyErr} : MeteredAnswer κ (.error e) (.error e) :=
  ⟨fun _ => Iff.rfl, fun _ _ _ _ h => by cases h⟩

/-- **C134, questions.** Whenever, in whatever unit and after whatever earlier questions one asks for the values at a time, the
answers of both prints agree in X, Y and Z and differ by the factor in the filament, or both questions fail in the same way. -/
theorem c134_values (h : List.Forall₂ (MeteredMotion κ) P P') (own : String) (u : Option String) (t : ℝ) (last : Option Nat) :
    MeteredAnswer κ (getValues P own u t last).1 (getValues P' own u t last).1 ∧
      (getValues P' own u t last).2 = (getValues P own u t last).2 := by
  unfold getValues
  rcases Metering.findSegment_nozzle h t last with ⟨r, r', e, e', hr⟩ | ⟨e, h1, h2⟩
  · rw [e, e']
    unfold Metering.FoundAlike at hr
    cases hr with
    | none => exact ⟨.error, rfl⟩
    | @some x x' hr =>
      obtain ⟨s, i⟩ := x
      obtain ⟨s', i'⟩ := x'
      obtain ⟨hs, hi⟩ := hr
      simp only at hs hi
      subst hi
      refine ⟨?_, rfl⟩
      rcases Metering.getVelocity_nozzle hs t with ⟨v, v', e1, e2, hv⟩ | ⟨e1, e2⟩
      · rcases Metering.getPosition_nozzle hs t with ⟨p, p', e3, e4, hp⟩ | ⟨e3, e4⟩
        · simp only [e1, e2, e3, e4]
          cases (simScaling (u.getD own) : Except PyErr ℝ) with
          | error e => exact .error
          | ok f =>
            refine ⟨fun _ => ⟨(fun k => nomatch k), (fun k => nomatch k)⟩, fun _ _ _ _ k k' => ?_⟩
            cases k
            cases k'
            exact ⟨hv.mul _, hp.mul _⟩
        · simp only [e1, e2, e3, e4]
          exact .error
      · simp only [e1, e2]
        exact .error
  · rw [h1, h2]
    exact ⟨.error, rfl⟩

/-- **C134, width.** The lines of the second print are `κ` times as wide, whenever one asks, for any layer height and any diameter
of the filament, or both questions fail in the same way. -/
theorem c134_width (h : List.Forall₂ (MeteredMotion κ) P P') (own : String) (t height dia : ℝ) (last : Option Nat) :
    (getWidth P' own t height dia last).1 = (getWidth P own t height dia last).1.map (κ * ·) := by
  obtain ⟨⟨h1, h2⟩, -⟩ := c134_values h own none t last
  unfold getWidth
  simp only
  generalize (getValues P own none t last).1 = r at h1 h2 ⊢
  generalize (getValues P' own none t last).1 = r' at h1 h2 ⊢
  cases r with
  | error e =>
    rw [(h1 e).1 rfl]
    rfl
  | ok a =>
    cases r' with
    | error e =>
      have := (h1 e).2 rfl
      cases this
    | ok a' =>
      obtain ⟨v, p⟩ := a
      obtain ⟨v', p'⟩ := a'
      obtain ⟨hv, -⟩ := h2 _ _ _ _ rfl rfl
      simp only [Except.map, hv.norm3, hv.e]
      split_ifs
      · congr 1
        ring
      · simp

/-! ## Event series -/

theorem abaqusRows_metered (hκ : 0 < κ) (tol f : ℝ) : ∀ {vs vs' : List (ℝ × Vec4 ℝ)},
    List.Forall₂ (fun v v' => v'.1 = v.1 ∧ Metered κ v.2 v'.2) vs vs' → abaqusRows (κ * tol) f vs' = abaqusRows tol f vs
  | _, _, .nil => rfl
  | _, _, .cons (a := ⟨t, p⟩) (b := ⟨t', p'⟩) h .nil => by
    obtain ⟨h1, h2⟩ := h
    simp only at h1 h2
    rw [abaqusRows, abaqusRows, h1, h2.x, h2.y, h2.z]
  | _, _, .cons (a := ⟨t, p⟩) (b := ⟨t', p'⟩) h (.cons (a := ⟨s, q⟩) (b := ⟨s', q'⟩) k r) => by
    have ih := abaqusRows_metered hκ tol f (.cons k r)
    obtain ⟨h1, h2⟩ := h
    obtain ⟨k1, k2⟩ := k
    simp only at h1 h2 k1 k2
    have e : κ * tol < q'.e - p'.e ↔ tol < q.e - p.e := by
      rw [k2.e, h2.e, ← mul_sub]
      exact mul_lt_mul_iff_right₀ hκ
    rw [abaqusRows, abaqusRows, ih, h1, h2.x, h2.y, h2.z]
    simp only [e]

/-- **C134, event series.** With a positive factor, and the tolerance multiplied by it as well, the event series for ABAQUS are
exactly the same, in any unit. -/
theorem c134_events (hκ : 0 < κ) (h : List.Forall₂ (MeteredMotion κ) (Spec.path bs) (Spec.path bs')) (own : String)
    (u : Option String) (tol : ℝ) : abaqusEvents bs' own u (κ * tol) = abaqusEvents bs own u tol := by
  have h : List.Forall₂ (MeteredMotion κ) (unpack bs) (unpack bs') := h
  have hv : List.Forall₂ (fun v v' => v'.1 = v.1 ∧ Metered κ v.2 v'.2) (abaqusVertices (unpack bs)) (abaqusVertices (unpack bs')) := by
    generalize unpack bs = P at h ⊢
    generalize unpack bs' = P' at h ⊢
    cases h with
    | nil => exact .nil
    | cons h t =>
      unfold abaqusVertices
      refine .cons ⟨rfl, h.posBegin⟩ ?_
      rw [List.forall₂_map_left_iff, List.forall₂_map_right_iff]
      exact (List.Forall₂.cons h t).imp fun _ _ k => ⟨k.tEnd, k.posEnd⟩
  have he : (unpack bs').isEmpty = (unpack bs).isEmpty := by
    clear hv
    generalize unpack bs = P at h ⊢
    generalize unpack bs' = P' at h ⊢
    cases h with
    | nil => rfl
    | cons _ _ => rfl
  unfold abaqusEvents
  rw [he]
  simp only [abaqusRows_metered hκ tol _ hv]

/-! ## Extents -/

theorem metered_max {l l' : List (Segment ℝ)} (h : List.Forall₂ (MeteredMotion κ) l l') : ∀ {m m' : Vec4 ℝ}, SameXYZ m m' →
    SameXYZ (l.foldl (fun m s => maxAbs4 (maxAbs4 m s.velBegin) s.velEnd) m)
      (l'.foldl (fun m s => maxAbs4 (maxAbs4 m s.velBegin) s.velEnd) m') := by
  induction h with
  | nil => exact fun h => h
  | cons h _ ih =>
    intro m m' hm
    simp only [List.foldl_cons]
    apply ih
    obtain ⟨m1, m2, m3⟩ := hm
    obtain ⟨_, _, _, ⟨a1, a2, a3, _⟩, _, ⟨b1, b2, b3, _⟩⟩ := h
    refine ⟨?_, ?_, ?_⟩ <;> simp only [maxAbs4, m1, m2, m3, a1, a2, a3, b1, b2, b3]

theorem metered_extruding (hκ : 0 < κ) {cs cs' : List (Block ℝ)} (h : List.Forall₂ (Metering.FlowBlock κ) cs cs') :
    List.Forall₂ (Metering.FlowBlock κ) (cs.filter (·.isExtruding)) (cs'.filter (·.isExtruding)) := by
  induction h with
  | nil => exact .nil
  | @cons b b' l l' h _ ih =>
    rw [List.filter_cons, List.filter_cons, h.ext hκ]
    split_ifs
    · exact .cons h ih
    · exact ih

theorem metered_points (hκ : 0 < κ) {cs cs' : List (Block ℝ)} (h : List.Forall₂ (Metering.FlowBlock κ) cs cs') :
    List.Forall₂ (Metered κ) (extrudingPoints cs) (extrudingPoints cs') := by
  unfold extrudingPoints
  have hf := metered_extruding hκ h
  generalize cs.filter (·.isExtruding) = x at hf ⊢
  generalize cs'.filter (·.isExtruding) = x' at hf ⊢
  refine List.rel_append ?_ ?_
  · induction hf with
    | nil => exact .nil
    | @cons b b' l l' h _ ih =>
      have hb := h.before
      rw [List.filterMap_cons, List.filterMap_cons]
      generalize b.stateA.map PState.position = a at hb ⊢
      generalize b'.stateA.map PState.position = a' at hb ⊢
      cases hb with
      | none => exact ih
      | some hb => exact .cons hb ih
  · rw [List.forall₂_map_left_iff, List.forall₂_map_right_iff]
    exact hf.imp fun _ _ h => h.state.place

theorem metered_coords {l l' : List (Vec4 ℝ)} (h : List.Forall₂ (Metered κ) l l') :
    l'.map Vec4.x = l.map Vec4.x ∧ l'.map Vec4.y = l.map Vec4.y ∧ l'.map Vec4.z = l.map Vec4.z := by
  induction h with
  | nil => exact ⟨rfl, rfl, rfl⟩
  | cons h _ ih => simp [h.x, h.y, h.z, ih]

/-- **C134, extents.** With a positive factor the extents of both prints are the same, and so are the highest speeds while
extruding, in any unit. -/
theorem c134_extents (hκ : 0 < κ) (hm : fw ≠ .mka) {A A' : PState ℝ} {l l' : List (PState ℝ)} (hA : MeteredState κ A A')
    (h : MeteredRun κ A A' l l') (hb : plan fw (A :: l) = .ok bs) (hb' : plan fw (A' :: l') = .ok bs') (own : String)
    (u : Option String) : extrusionExtent bs' own u = extrusionExtent bs own u ∧
      extrusionMaxVel bs' own u = extrusionMaxVel bs own u := by
  have hB := (Metering.plan_akin hm hA h).out _ _ hb hb'
  constructor
  · have hp := metered_points hκ hB
    unfold extrusionExtent
    generalize extrudingPoints bs = x at hp ⊢
    generalize extrudingPoints bs' = x' at hp ⊢
    cases hp with
    | nil => rfl
    | cons h1 h2 =>
      obtain ⟨e1, e2, e3⟩ := metered_coords h2
      simp only [vecFold, e1, e2, e3, h1.x, h1.y, h1.z]
  · have hf := metered_extruding hκ hB
    have : (bs'.filter (·.isExtruding)).map (fun b => b.maxVel.norm3) = (bs.filter (·.isExtruding)).map fun b => b.maxVel.norm3 := by
      generalize bs.filter (·.isExtruding) = x at hf ⊢
      generalize bs'.filter (·.isExtruding) = x' at hf ⊢
      induction hf with
      | nil => rfl
      | cons h _ ih => rw [List.map_cons, List.map_cons, ih, Block.maxVel, Block.maxVel, (metered_max h.segments (.refl _)).norm3]
    unfold extrusionMaxVel
    rw [this]

/-! ## Files -/

variable {pf : List Char → Option ℝ} {d d' : Dict (SVal ℝ)} {q q' : Printer} {ls ls' : List Line} {content content' : List Char}

theorem metered_run {l l' : List Doing} (h : List.Forall₂ (MeteredDoing κ) l l') : ∀ {p : Vec4 ℝ}, NeverAlone p l →
    ∀ {A A' : PState ℝ}, A.position = p → Metered κ A.position A'.position → MeteredRun κ A A' (l.map Doing.state) (l'.map Doing.state) := by
  induction h with
  | nil => exact fun _ _ _ _ _ => .nil
  | @cons x x' l l' h _ ih =>
    intro p hp A A' e hA
    subst e
    have hs : MeteredState κ x.state x'.state := ⟨h.place, h.feed, h.acc, h.jerk, h.wait, rfl⟩
    cases hp with
    | travel h1 h2 => exact .travel hs h1 (ih h2 rfl h.place)
    | stay h1 h2 =>
      refine .stay hs h1 ?_ (ih h2 rfl h.place)
      have hx : Metered κ x.place x'.place := h.place
      rw [h1] at hx
      ext
      · exact hx.x.trans hA.x.symm
      · exact hx.y.trans hA.y.symm
      · exact hx.z.trans hA.z.symm
      · exact hx.e.trans hA.e.symm

/-- **C134, files.** If the second file makes its printer do the same as the first one with `κ` times the filament, and the first one
never moves the filament alone, the second one is simulated as well, the nozzle does exactly the same at the same times, and the
filament moves `κ` times as far and as fast; with every firmware but `MKA`. -/
theorem c134_file (hpf : FloatLike pf) (hd : SetupAccepted d) (hd' : SetupAccepted d') (hq : PrinterOf d q)
    (hq' : PrinterOf d' q') (hfw : firmwareOf d' = firmwareOf d) (hp : ∀ l ∈ ls, l.Plain pf) (hp' : ∀ l ∈ ls', l.Plain pf)
    (hw : Decent pf q ls) (hc : FileOf ls content) (hc' : FileOf ls' content') (hm : firmwareOf d ≠ .mka)
    (h0 : Metered κ q.point q'.point) (hR : List.Forall₂ (MeteredDoing κ) (q.doings pf ls) (q'.doings pf ls'))
    (hn : NeverAlone q.point (q.doings pf ls)) (h : simulateFile pf d content = .ok bs) :
    ∃ bs', simulateFile pf d' content' = .ok bs' ∧ List.Forall₂ (MeteredMotion κ) (Spec.path bs) (Spec.path bs') := by
  obtain ⟨T, hT⟩ := simulated_end h hpf hd hq hp hw hc
  obtain ⟨cs, k1, k2⟩ := program_planned hpf hd hq hp hc h
  have hs := program_sensible hw q.point
  have hA : MeteredState κ (⟨q.point, 0, 1, 1, none, none⟩ : PState ℝ) ⟨q'.point, 0, 1, 1, none, none⟩ :=
    ⟨h0, rfl, rfl, rfl, rfl, rfl⟩
  have hl := metered_run hR hn (A := ⟨q.point, 0, 1, 1, none, none⟩) (A' := ⟨q'.point, 0, 1, 1, none, none⟩) rfl h0
  obtain ⟨cs', g1⟩ := (c134_plannable (fw := firmwareOf d) hs hA hl).1 ⟨cs, k1⟩
  have g3 := (c131_nozzle hm hA.reflowed hl.reflowing k1 g1).2
  have g4 := simulate_of_endTime (reflowed_sensible (.cons hA.reflowed hl.reflowing.pairs) hs) g1
    ((g3 T).1 (by rw [k2]; exact hT))
  rw [← hfw] at g4
  obtain ⟨bs', e1, e2⟩ := planned_simulated hpf hd' hq' hp' hc' g4
  refine ⟨bs', e1, ?_⟩
  rw [e2, ← k2]
  exact c134_motion hm hA hl k1 g1

end

/-! ## Examples -/

/-- `c134_motion`: an extruded corner, with any factor. -/
example (κ : ℝ) : MeteredRun κ ⟨⟨0, 0, 0, 0⟩, 0, 1, 1, none, none⟩ ⟨⟨0, 0, 0, 0⟩, 0, 1, 1, none, none⟩
    [⟨⟨10, 0, 0, 1⟩, 50, 100, 1, none, none⟩, ⟨⟨10, 10, 0, 2⟩, 50, 100, 1, none, none⟩]
    [⟨⟨10, 0, 0, κ⟩, 50, 100, 1, none, none⟩, ⟨⟨10, 10, 0, 2 * κ⟩, 50, 100, 1, none, none⟩] := by
  refine .travel ⟨⟨rfl, rfl, rfl, by simp⟩, rfl, rfl, rfl, rfl, rfl⟩ ?_
    (.travel ⟨⟨rfl, rfl, rfl, by simp [mul_comm]⟩, rfl, rfl, rfl, rfl, rfl⟩ ?_ .nil) <;>
    · rw [Vec4.norm3, sqrt_real]
      norm_num [Vec4.sub]

/-- `c134_width`: a line of constant speed with 0.1 mm of filament per millimetre, of height 0.2 mm and filament of 2 mm, is π/2 mm
wide, and twice as wide with twice the filament. -/
example : (getWidth [(⟨0, 1, ⟨0, 0, 0, 0⟩, ⟨10, 0, 0, 1⟩, ⟨10, 0, 0, 1⟩, ⟨10, 0, 0, 1⟩⟩ : Segment ℝ)] "SImm" 0 0.2 2 none).1 =
      .ok (Real.pi / 2) ∧
    (getWidth [(⟨0, 1, ⟨0, 0, 0, 0⟩, ⟨10, 0, 0, 2⟩, ⟨10, 0, 0, 2⟩, ⟨10, 0, 0, 2⟩⟩ : Segment ℝ)] "SImm" 0 0.2 2 none).1 =
      .ok Real.pi := by
  have h1 : (getWidth [(⟨0, 1, ⟨0, 0, 0, 0⟩, ⟨10, 0, 0, 1⟩, ⟨10, 0, 0, 1⟩, ⟨10, 0, 0, 1⟩⟩ : Segment ℝ)] "SImm" 0 0.2 2 none).1 =
      .ok (Real.pi / 2) := by
    have hn : Vec4.norm3 (⟨10, 0, 0, 1⟩ : Vec4 ℝ) = 10 := by
      rw [Vec4.norm3, sqrt_real, show ((10 : ℝ) * 10 + 0 * 0 + 0 * 0) = 10 ^ 2 by norm_num, Real.sqrt_sq (by norm_num)]
    have hv : (getValues [(⟨0, 1, ⟨0, 0, 0, 0⟩, ⟨10, 0, 0, 1⟩, ⟨10, 0, 0, 1⟩, ⟨10, 0, 0, 1⟩⟩ : Segment ℝ)] "SImm" none 0 none).1 =
        .ok (⟨10, 0, 0, 1⟩, ⟨0, 0, 0, 0⟩) := by
      have h10 : ¬ (1 : ℝ) < 0 := by norm_num
      simp [h10, getValues, findSegment, useFresh, searchFresh, Segment.getVelocity, Segment.getPosition, simScaling, Vec4.add,
        Vec4.sub, Vec4.mul, Vec4.div, bind, Except.bind]
    simp only [getWidth, hv, Except.map, hn]
    rw [if_pos (by norm_num)]
    congr 1
    show 1 * (Real.pi * (2 * 2) / 4) / (0.2 * 10) = Real.pi / 2
    ring
  refine ⟨h1, ?_⟩
  have hm : List.Forall₂ (MeteredMotion 2)
      [(⟨0, 1, ⟨0, 0, 0, 0⟩, ⟨10, 0, 0, 1⟩, ⟨10, 0, 0, 1⟩, ⟨10, 0, 0, 1⟩⟩ : Segment ℝ)]
      [⟨0, 1, ⟨0, 0, 0, 0⟩, ⟨10, 0, 0, 2⟩, ⟨10, 0, 0, 2⟩, ⟨10, 0, 0, 2⟩⟩] :=
    .cons ⟨rfl, rfl, ⟨rfl, rfl, rfl, by norm_num⟩, ⟨rfl, rfl, rfl, by norm_num⟩, ⟨rfl, rfl, rfl, by norm_num⟩,
      ⟨rfl, rfl, rfl, by norm_num⟩⟩ .nil
  rw [c134_width hm, h1]
  simp only [Except.map]
  congr 1
  ring

/-- A setup whose filament is at `e` in the beginning. -/
noncomputable def Demo.setupE (e : ℝ) : Dict (SVal ℝ) :=
  [("p_vel", .num 35), ("p_acc", .num 200), ("jerk", .num 10), ("vX", .num 180), ("vY", .num 180),
    ("vZ", .num 30), ("vE", .num 33), ("X", .num 20), ("Y", .num 2), ("Z", .num 3), ("E", .num e),
    ("printer_name", .text "p"), ("firmware", .text "klipper")]

/-- The printer that it describes. -/
noncomputable def Demo.printerE (e : ℝ) : Printer :=
  ⟨fun | .X => 20 | .Y => 2 | .Z => 3 | .E => e, fun _ => 0, true, true, 35, 200, 10⟩

theorem Demo.e_accepted (e : ℝ) : SetupAccepted (Demo.setupE e) := by
  refine ⟨?_, ?_⟩
  · simp [Demo.setupE]
  · intro k hk
    rw [← mem_keys_iff] at hk
    exact Or.inl hk

theorem Demo.e_printer (e : ℝ) : PrinterOf (Demo.setupE e) (Demo.printerE e) :=
  ⟨rfl, rfl, rfl, rfl, fun _ => rfl, ⟨rfl, rfl⟩, rfl, rfl, rfl, by
    intro k hk
    simp only [List.mem_cons, List.not_mem_nil, or_false] at hk
    rcases hk with rfl | rfl | rfl | rfl <;> exact ⟨_, rfl⟩⟩

/-- A move that takes the filament back to 0. -/
def Demo.back0 : List Line := [⟨some .G1, [⟨1, 'X', ['0']⟩, ⟨1, 'E', ['0']⟩, ⟨1, 'F', ['1', '0']⟩], 0, none, []⟩]

theorem Demo.back0_lines : ∀ l ∈ Demo.back0, l.Plain Demo.num := by
  intro l hl
  simp only [Demo.back0, List.mem_cons, List.not_mem_nil, or_false] at hl
  subst hl
  exact ⟨by simp, by simp, by simp, by simp [plainLetters], by simp, by simp [Demo.num, numChars], by simp, by simp⟩

theorem Demo.back0_file : FileOf Demo.back0 "G1 X0 E0 F10\n".toList := by
  refine ⟨"G1 X0 E0 F10\n".toList, ["G1 X0 E0 F10\n".toList], ?_, ?_, ?_⟩
  · repeat' first | exact .nil | refine .other (by decide) ?_
  · exact .line (l := "G1 X0 E0 F10".toList) (by decide) .none
  · exact .cons (Or.inr rfl) .nil

theorem Demo.back0_doings (e : ℝ) : (Demo.printerE e).doings Demo.num Demo.back0 = [⟨⟨0, 2, 3, 0⟩, 1 / 6, 200, 10, none⟩] := by
  simp [Printer.doings, Demo.back0, Line.wait, Line.value, Demo.num, Printer.exec, Demo.printerE, Printer.point,
    letter, Printer.abs]
  norm_num

theorem Demo.back0_workable (e : ℝ) : Workable Demo.num (Demo.printerE e) Demo.back0 where
  settings := by norm_num [Demo.printerE]
  feed := by simp [Demo.back0, Line.value, Demo.num]
  acc := by simp [Demo.back0]
  jerk := by simp [Demo.back0]
  wait := by simp [Demo.back0, Line.wait]
  warm := by
    intro pre l post he hl
    have : l ∈ Demo.back0 := by rw [he]; simp
    simp only [Demo.back0, List.mem_cons, List.not_mem_nil, or_false] at this
    subst this
    simp [Line.wait] at hl
  moves := by
    refine ⟨_, List.mem_cons_self, fun h => ?_⟩
    have := congrArg Vec4.x h
    simp [Printer.exec, Printer.point, Line.value, Demo.num, Demo.printerE, letter, Printer.abs] at this

/-- `c134_file`: taking back `e` or `κ e` of filament. -/
example (κ e : ℝ) : ∃ bs bs', simulateFile Demo.num (Demo.setupE e) "G1 X0 E0 F10\n".toList = .ok bs ∧
    simulateFile Demo.num (Demo.setupE (κ * e)) "G1 X0 E0 F10\n".toList = .ok bs' ∧
    List.Forall₂ (MeteredMotion κ) (Spec.path bs) (Spec.path bs') := by
  have hf : ∀ e, firmwareOf (Demo.setupE e) = .klipper := fun _ => rfl
  obtain ⟨bs, t, _, _, h, -⟩ := c69_simulated_as_written Demo.num_floatLike (Demo.e_accepted e) (Demo.e_printer e)
    Demo.back0_lines (Demo.back0_workable e) Demo.back0_file
  obtain ⟨bs', h1, h2⟩ := c134_file (κ := κ) Demo.num_floatLike (Demo.e_accepted e) (Demo.e_accepted (κ * e)) (Demo.e_printer _)
    (Demo.e_printer _) rfl Demo.back0_lines Demo.back0_lines ⟨by norm_num [Demo.printerE],
      by simp [Demo.back0, Line.value, Demo.num], by simp [Demo.back0], by simp [Demo.back0]⟩ Demo.back0_file Demo.back0_file
    (by rw [hf]; simp) ⟨rfl, rfl, rfl, rfl⟩
    (by
      rw [Demo.back0_doings, Demo.back0_doings]
      exact .cons ⟨⟨rfl, rfl, rfl, by simp⟩, rfl, rfl, rfl, rfl⟩ .nil)
    (by
      rw [Demo.back0_doings]
      refine .travel (fun h0 => ?_) .nil
      rw [norm3_eq_zero] at h0
      have := h0.1
      norm_num [Vec4.sub, Printer.point, Demo.printerE] at this) h
  exact ⟨bs, bs', h, h1, h2⟩

end PyGCD
