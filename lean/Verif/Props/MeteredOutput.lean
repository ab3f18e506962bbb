import Verif.Props.Metered

/-!
# Property C134: submodel times and drawn lines with a factor for the filament
-/

namespace PyGCD
open Vec4 Spec

variable {κ : ℝ} {fw : Firmware} {bs bs' : List (Block ℝ)}

/-! ## Submodels -/

theorem metered_axis {p p' : Vec4 ℝ} (h : Metered κ p p') (i : Fin 3) : axisOf i p' = axisOf i p := by
  fin_cases i
  · exact h.x
  · exact h.y
  · exact h.z

theorem metered_isect {p p' q q' : Vec4 ℝ} (hp : Metered κ p p') (hq : Metered κ q q') (pl : Fin 3 × Bool) (t : ℝ) :
    isectLinePlane p' q' pl t = isectLinePlane p q pl t := by
  simp only [isectLinePlane, metered_axis hp, hp.x, hp.y, hp.z, hq.x, hq.y, hq.z]

theorem metered_intersect {p p' q q' : Vec4 ℝ} (hp : Metered κ p p') (hq : Metered κ q q') (c : Box ℝ) :
    intersectPossible c p' q' = intersectPossible c p q := by
  have e : ∀ {p p' : Vec4 ℝ}, Metered κ p p' → pointEval c p' = pointEval c p := by
    intro p p' h
    funext i
    simp only [pointEval, metered_axis h]
  have key : ∀ (is : List (Fin 3)) acc, intersectLoop c p' q' acc is = intersectLoop c p q acc is := by
    intro is
    induction is with
    | nil => exact fun _ => rfl
    | cons i is ih =>
      intro acc
      rw [intersectLoop, intersectLoop, e hp, e hq, ih, ih]
  exact key _ _

theorem metered_inverse (dist : ℝ) {l l' : List (Segment ℝ)} (h : List.Forall₂ (MeteredMotion κ) l l') :
    ∀ cum, inverseTimeLoop dist cum l' = inverseTimeLoop dist cum l := by
  induction h with
  | nil => exact fun _ => rfl
  | @cons s s' l l' h _ ih =>
    intro cum
    have hl : s'.len = s.len := (h.posEnd.sub h.posBegin).norm3
    have hi : ∀ a b x, s'.interpolateTimeToSpace a b x = s.interpolateTimeToSpace a b x := by
      intro a b x
      simp only [Segment.interpolateTimeToSpace, (h.velEnd.sub h.velBegin).norm3, h.velBegin.norm3, h.tBegin, h.tEnd]
    rw [inverseTimeLoop, inverseTimeLoop]
    simp only [hl, hi, h.tBegin, h.tEnd, ih]

theorem metered_crossings (c : Box ℝ) {b b' : Block ℝ} (h : Metering.FlowBlock κ b b') {A A' : PState ℝ}
    (hA : Metered κ A.position A'.position) : ∀ pls, blockCrossings c b' A' pls = blockCrossings c b A pls
  | [] => rfl
  | pl :: pls => by
    have ht : ∀ x, b'.inverseTimeAtPos x = b.inverseTimeAtPos x := fun x => metered_inverse x h.segments 0
    rw [blockCrossings, blockCrossings, metered_isect hA h.state.place, metered_crossings c h hA pls]
    simp only [ht]

theorem metered_timetable (c : Box ℝ) (h : List.Forall₂ (Metering.FlowBlock κ) bs bs') : timetable c bs' = timetable c bs := by
  induction h with
  | nil => rfl
  | @cons b b' l l' h _ ih =>
    have hb := h.before
    rw [timetable, timetable, ih]
    cases hA : b.stateA with
    | none =>
      cases hA' : b'.stateA with
      | none => rfl
      | some A' =>
        rw [hA, hA'] at hb
        cases hb
    | some A =>
      cases hA' : b'.stateA with
      | none =>
        rw [hA, hA'] at hb
        cases hb
      | some A' =>
        rw [hA, hA'] at hb
        have hp : Metered κ A.position A'.position := by
          cases hb with
          | some h => exact h
        simp only [metered_intersect hp h.state.place, metered_crossings c h hp]

theorem metered_end (h : List.Forall₂ (Metering.FlowBlock κ) bs bs') : endTime bs' = endTime bs := by
  have hl : Option.Rel (Metering.FlowBlock κ) bs.getLast? bs'.getLast? := by
    induction h with
    | nil => exact .none
    | cons h t ih =>
      cases t with
      | nil => exact .some h
      | cons k t =>
        rw [List.getLast?_cons_cons, List.getLast?_cons_cons]
        exact ih
  unfold endTime
  generalize bs.getLast? = x at hl ⊢
  generalize bs'.getLast? = x' at hl ⊢
  cases hl with
  | none => rfl
  | @some b b' hb =>
    have hs : Option.Rel (MeteredMotion κ) b.segments.getLast? b'.segments.getLast? := by
      have := hb.segments
      generalize b.segments = l at this ⊢
      generalize b'.segments = l' at this ⊢
      induction this with
      | nil => exact .none
      | cons h t ih =>
        cases t with
        | nil => exact .some h
        | cons k t =>
          rw [List.getLast?_cons_cons, List.getLast?_cons_cons]
          exact ih
    simp only [Block.lastSeg]
    generalize b.segments.getLast? = y at hs ⊢
    generalize b'.segments.getLast? = y' at hs ⊢
    cases hs with
    | none => rfl
    | some k => simp only [Except.map, k.tEnd]

/-- **C134, submodels.** The times at which the nozzle enters and leaves any box, and the time of the whole process, do not depend
on the factor. -/
theorem c134_submodel (hm : fw ≠ .mka) {A A' : PState ℝ} {l l' : List (PState ℝ)} (hA : MeteredState κ A A')
    (h : MeteredRun κ A A' l l') (hb : plan fw (A :: l) = .ok bs) (hb' : plan fw (A' :: l') = .ok bs') (c : Box ℝ) :
    submodelTimes c bs' = submodelTimes c bs := by
  have hB := (Metering.plan_akin hm hA h).out _ _ hb hb'
  unfold submodelTimes
  rw [metered_timetable c hB, metered_end hB]

/-! ## Layers -/

theorem metered_travel {b b' : Block ℝ} (h : Metering.FlowBlock κ b b') : b'.travel = b.travel := by
  have hb := h.before
  unfold Block.travel
  cases hA : b.stateA with
  | none =>
    cases hA' : b'.stateA with
    | none => rfl
    | some A' =>
      rw [hA, hA'] at hb
      cases hb
  | some A =>
    cases hA' : b'.stateA with
    | none =>
      rw [hA, hA'] at hb
      cases hb
    | some A' =>
      rw [hA, hA'] at hb
      have hp : Metered κ A.position A'.position := by
        cases hb with
        | some h => exact h
      simp only [tDistance, (hp.sub h.state.place).norm3]

theorem metered_first {b b' : Block ℝ} (h : Metering.FlowBlock κ b b') :
    (∃ s s', b.firstSeg = .ok s ∧ b'.firstSeg = .ok s' ∧ MeteredMotion κ s s') ∨ ∃ e, b.firstSeg = .error e ∧ b'.firstSeg = .error e := by
  have := h.segments
  unfold Block.firstSeg
  generalize b.segments = l at this ⊢
  generalize b'.segments = l' at this ⊢
  cases this with
  | nil => exact Or.inr ⟨_, rfl, rfl⟩
  | cons h _ => exact Or.inl ⟨_, _, rfl, rfl, h⟩

theorem metered_last {b b' : Block ℝ} (h : Metering.FlowBlock κ b b') :
    (∃ s s', b.lastSeg = .ok s ∧ b'.lastSeg = .ok s' ∧ MeteredMotion κ s s') ∨ ∃ e, b.lastSeg = .error e ∧ b'.lastSeg = .error e := by
  have := List.rel_reverse h.segments
  unfold Block.lastSeg
  rw [List.getLast?_eq_head?_reverse, List.getLast?_eq_head?_reverse]
  generalize b.segments.reverse = l at this ⊢
  generalize b'.segments.reverse = l' at this ⊢
  cases this with
  | nil => exact Or.inr ⟨_, rfl, rfl⟩
  | cons h _ => exact Or.inl ⟨_, _, rfl, rfl, h⟩

theorem metered_layers (h : List.Forall₂ (Metering.FlowBlock κ) bs bs') :
    ∀ cur (t d : ℝ), layerLoop cur t d bs' = layerLoop cur t d bs := by
  induction h with
  | nil => exact fun _ _ _ => rfl
  | @cons b b' l l' h t ih =>
    intro cur x d
    have he : l'.isEmpty = l.isEmpty := by cases t <;> rfl
    rw [layerLoop, layerLoop, metered_travel h, h.state.layer, he]
    cases b.stateB.layer with
    | none => rfl
    | some n =>
      simp only [ih]
      rcases metered_first h with ⟨s, s', e, e', hs⟩ | ⟨e, e1, e2⟩ <;>
        rcases metered_last h with ⟨r, r', f, f', hr⟩ | ⟨f, f1, f2⟩
      · simp only [e, e', f, f', bind, Except.bind, hs.tBegin, hr.tEnd]
      · simp only [e, e', f1, f2, bind, Except.bind, hs.tBegin]
      · simp only [e1, e2, f, f', bind, Except.bind, hr.tEnd]
      · simp only [e1, e2, f1, f2, bind, Except.bind]

/-- **C134, layers.** The layer metrics do not depend on the factor. -/
theorem c134_layers (hm : fw ≠ .mka) {A A' : PState ℝ} {l l' : List (PState ℝ)} (hA : MeteredState κ A A')
    (h : MeteredRun κ A A' l l') (hb : plan fw (A :: l) = .ok bs) (hb' : plan fw (A' :: l') = .ok bs') (cue : Bool) :
    saveLayerMetrics cue bs' = saveLayerMetrics cue bs := by
  have hB := (Metering.plan_akin hm hA h).out _ _ hb hb'
  unfold saveLayerMetrics
  rw [metered_layers hB]

/-! ## Drawn lines -/

theorem metered_poly (hκ : 0 < κ) (only : Bool) {P P' : List (Segment ℝ)} (h : List.Forall₂ (MeteredMotion κ) P P') :
    ∀ {cur cur' : List (Vertex ℝ)}, List.Forall₂ (MeteredVertex κ) cur cur' →
      List.Forall₂ (List.Forall₂ (MeteredVertex κ)) (polyLoop only cur P) (polyLoop only cur' P') := by
  have emp : ∀ {α β : Type} {R : α → β → Prop} {l : List α} {l' : List β}, List.Forall₂ R l l' → l'.isEmpty = l.isEmpty := by
    intro α β R l l' hl
    cases hl <;> rfl
  induction h with
  | nil => exact fun _ => .nil
  | @cons s s' P P' h t ih =>
    intro cur cur' hc
    have he : s'.isExtruding = s.isExtruding := by
      simp only [Segment.isExtruding, h.posBegin.e, h.posEnd.e, mul_lt_mul_iff_right₀ hκ]
    have hx : List.Forall₂ (MeteredVertex κ)
        (if (!only || s.isExtruding) = true then
          (if cur.isEmpty = true then [(s.posBegin, s.velBegin.norm3)] else cur) ++ [(s.posEnd, s.velEnd.norm3)] else cur)
        (if (!only || s.isExtruding) = true then
          (if cur.isEmpty = true then [(s'.posBegin, s'.velBegin.norm3)] else cur') ++ [(s'.posEnd, s'.velEnd.norm3)] else cur') := by
      split_ifs
      · exact .cons ⟨h.posBegin, h.velBegin.norm3⟩ (.cons ⟨h.posEnd, h.velEnd.norm3⟩ .nil)
      · exact List.rel_append hc (.cons ⟨h.posEnd, h.velEnd.norm3⟩ .nil)
      · exact hc
    rw [polyLoop, polyLoop]
    simp only [he, emp hc, emp t]
    generalize (if (!only || s.isExtruding) = true then
      (if cur.isEmpty = true then [(s.posBegin, s.velBegin.norm3)] else cur) ++ [(s.posEnd, s.velEnd.norm3)] else cur) = y at hx ⊢
    generalize (if (!only || s.isExtruding) = true then
      (if cur.isEmpty = true then [(s'.posBegin, s'.velBegin.norm3)] else cur') ++ [(s'.posEnd, s'.velEnd.norm3)] else cur') = y' at hx ⊢
    rw [emp hx]
    split_ifs
    · exact .cons hx (ih .nil)
    · exact ih hx

/-- **C134, drawn lines.** With a positive factor the same lines are drawn by `plot_3d`, with the same speeds, whether travel is
drawn or not. -/
theorem c134_lines (hκ : 0 < κ) (h : List.Forall₂ (MeteredMotion κ) (Spec.path bs) (Spec.path bs')) (only : Bool) :
    List.Forall₂ (List.Forall₂ (MeteredVertex κ)) (plot3dLines bs only) (plot3dLines bs' only) :=
  metered_poly hκ only h .nil

/-! ## Examples -/

/-- An extruded corner with `e` and `2 e` of filament. -/
noncomputable def Demo.bend (e : ℝ) : List (PState ℝ) :=
  [⟨⟨10, 0, 0, e⟩, 50, 100, 1, none, none⟩, ⟨⟨10, 10, 0, 2 * e⟩, 50, 100, 1, none, none⟩]

theorem Demo.bend_metered (κ e : ℝ) : MeteredRun κ (⟨⟨0, 0, 0, 0⟩, 0, 1, 1, none, none⟩ : PState ℝ)
    ⟨⟨0, 0, 0, 0⟩, 0, 1, 1, none, none⟩ (Demo.bend e) (Demo.bend (κ * e)) := by
  refine .travel ⟨⟨rfl, rfl, rfl, rfl⟩, rfl, rfl, rfl, rfl, rfl⟩ ?_
    (.travel ⟨⟨rfl, rfl, rfl, by ring⟩, rfl, rfl, rfl, rfl, rfl⟩ ?_ .nil) <;>
    · rw [Vec4.norm3, sqrt_real]
      norm_num [Vec4.sub]

theorem Demo.bend_planned (e : ℝ) : ∃ bs, plan .klipper ((⟨⟨0, 0, 0, 0⟩, 0, 1, 1, none, none⟩ : PState ℝ) :: Demo.bend e) = .ok bs := by
  refine (c86_plannable .klipper ⟨?_, ?_, ?_⟩).2 ?_
  any_goals
    intro s hs
    simp only [Demo.bend, List.mem_cons, List.not_mem_nil, or_false] at hs
    rcases hs with rfl | rfl | rfl <;> norm_num
  intro pre s post he p hp
  have hm : s ∈ (⟨⟨0, 0, 0, 0⟩, 0, 1, 1, none, none⟩ : PState ℝ) :: Demo.bend e := by rw [he]; simp
  simp only [Demo.bend, List.mem_cons, List.not_mem_nil, or_false] at hm
  rcases hm with rfl | rfl | rfl <;> cases hp

/-- `c134_submodel`, `c134_lines`, `c134_extents`, `c134_events`: the corner, with 1 mm and with `κ` mm of filament per side. -/
example {κ : ℝ} (hκ : 0 < κ) (c : Box ℝ) (only : Bool) : ∃ bs bs',
    plan .klipper ((⟨⟨0, 0, 0, 0⟩, 0, 1, 1, none, none⟩ : PState ℝ) :: Demo.bend 1) = .ok bs ∧
    plan .klipper ((⟨⟨0, 0, 0, 0⟩, 0, 1, 1, none, none⟩ : PState ℝ) :: Demo.bend (κ * 1)) = .ok bs' ∧
    submodelTimes c bs' = submodelTimes c bs ∧ extrusionExtent bs' "SImm" none = extrusionExtent bs "SImm" none ∧
    abaqusEvents bs' "SImm" none (κ * 0.1) = abaqusEvents bs "SImm" none 0.1 ∧
    List.Forall₂ (List.Forall₂ (MeteredVertex κ)) (plot3dLines bs only) (plot3dLines bs' only) := by
  obtain ⟨bs, h⟩ := Demo.bend_planned 1
  obtain ⟨bs', h'⟩ := Demo.bend_planned (κ * 1)
  have hA : MeteredState κ (⟨⟨0, 0, 0, 0⟩, 0, 1, 1, none, none⟩ : PState ℝ) ⟨⟨0, 0, 0, 0⟩, 0, 1, 1, none, none⟩ :=
    ⟨⟨rfl, rfl, rfl, by simp⟩, rfl, rfl, rfl, rfl, rfl⟩
  have hp := c134_motion (by simp) hA (Demo.bend_metered κ 1) h h'
  exact ⟨bs, bs', h, h', c134_submodel (by simp) hA (Demo.bend_metered κ 1) h h' c,
    (c134_extents hκ (by simp) hA (Demo.bend_metered κ 1) h h' _ _).1, c134_events hκ hp _ _ _, c134_lines hκ hp only⟩

end PyGCD
