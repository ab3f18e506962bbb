import Verif.Props.Crossings
import Verif.Props.UnusualCuts
import Verif.Props.UnusualMotion
import Mathlib.Topology.Order.IntermediateValue

/-!
# Property C122: submodel times of unusual programs

`write_submodel_times` intersects the box with the lines between the positions of the program. After a move that is not
carried out (C87), the machine is elsewhere.
-/

set_option linter.unusedSectionVars false
set_option linter.unusedSimpArgs false

namespace PyGCD
open Vec4 Spec

variable {fw : Firmware} {states : List (PState ℝ)} {bs : List (Block ℝ)}

/-! ## The outcome in general -/

theorem blockCrossings_gen {b : Block ℝ} {A : PState ℝ} {Bad : ℝ → Prop} (c : Box ℝ)
    (htime : ∀ f e, Crossing c.orig c.side A.position b.stateB.position f e →
      (Bad f ∧ b.inverseTimeAtPos ((b.stateB.position.sub A.position).mul f).norm3 = .error .valueError) ∨
      (¬ Bad f ∧ ∃ t, b.inverseTimeAtPos ((b.stateB.position.sub A.position).mul f).norm3 = .ok t)) :
    ∀ pls : List (Fin 3 × Bool),
    (∃ pl ∈ pls, ∃ q f e, isectLinePlane A.position b.stateB.position pl (c.planeAt pl) =
        some (q, ((b.stateB.position.sub A.position).mul f).norm3, e) ∧ pointInside c q = true ∧ 0 ≤ f ∧ Bad f) ∧
      blockCrossings c b A pls = .error .valueError ∨
    (¬ ∃ pl ∈ pls, ∃ q f e, isectLinePlane A.position b.stateB.position pl (c.planeAt pl) =
        some (q, ((b.stateB.position.sub A.position).mul f).norm3, e) ∧ pointInside c q = true ∧ 0 ≤ f ∧ Bad f) ∧
      ∃ l, blockCrossings c b A pls = .ok l := by
  intro pls
  induction pls with
  | nil => exact Or.inr ⟨by simp, [], rfl⟩
  | cons pl pls ih =>
    have skip : (∀ q f e, isectLinePlane A.position b.stateB.position pl (c.planeAt pl) =
        some (q, ((b.stateB.position.sub A.position).mul f).norm3, e) → pointInside c q = true → 0 ≤ f → ¬ Bad f) →
        ∀ {r : Except PyErr (List (ℝ × Bool))}, ((∃ l, blockCrossings c b A pls = .ok l) → ∃ l, r = .ok l) →
        (blockCrossings c b A pls = .error .valueError → r = .error .valueError) →
        (∃ pl' ∈ pl :: pls, ∃ q f e, isectLinePlane A.position b.stateB.position pl' (c.planeAt pl') =
          some (q, ((b.stateB.position.sub A.position).mul f).norm3, e) ∧ pointInside c q = true ∧ 0 ≤ f ∧ Bad f) ∧
          r = .error .valueError ∨
        (¬ ∃ pl' ∈ pl :: pls, ∃ q f e, isectLinePlane A.position b.stateB.position pl' (c.planeAt pl') =
          some (q, ((b.stateB.position.sub A.position).mul f).norm3, e) ∧ pointInside c q = true ∧ 0 ≤ f ∧ Bad f) ∧
          ∃ l, r = .ok l := by
      intro hno r h1 h2
      rcases ih with ⟨⟨pl', i1, i2⟩, i3⟩ | ⟨i1, i3⟩
      · exact Or.inl ⟨⟨pl', by simp [i1], i2⟩, h2 i3⟩
      · refine Or.inr ⟨?_, h1 i3⟩
        rintro ⟨pl', j1, q, f, e, j2, j3, j4, j5⟩
        rcases List.mem_cons.1 j1 with rfl | j1
        · exact hno q f e j2 j3 j4 j5
        · exact i1 ⟨pl', j1, q, f, e, j2, j3, j4, j5⟩
    unfold blockCrossings
    cases hi : isectLinePlane A.position b.stateB.position pl (c.planeAt pl) with
    | none =>
      refine skip ?_ id id
      intro q f e h
      rw [hi] at h
      cases h
    | some r =>
      obtain ⟨q, d, e⟩ := r
      by_cases hp : pointInside c q = true
      swap
      · simp only [hp, Bool.false_eq_true, if_false]
        refine skip ?_ id id
        intro q' f e' h h'
        rw [hi, Option.some.injEq, Prod.mk.injEq] at h
        rw [← h.1] at h'
        exact absurd h' hp
      obtain ⟨f, hc, hd⟩ := crossing_of_isect hi hp
      have hL := crossing_length hc
      rcases htime f e hc with ⟨k1, k2⟩ | ⟨k1, t, k2⟩
      · left
        rw [← hd] at k2
        refine ⟨⟨pl, by simp, q, f, e, by rw [hi, hd], hp, hc.1, k1⟩, ?_⟩
        simp only [hp, if_true, k2, bind, Except.bind]
      · rw [← hd] at k2
        simp only [hp, if_true, k2, bind, Except.bind]
        refine skip ?_ ?_ ?_
        · intro q' f' e' j1 _ j2 j3
          rw [hi, Option.some.injEq, Prod.mk.injEq, Prod.mk.injEq, hd, norm3_mul, norm3_mul, abs_of_nonneg hc.1,
            abs_of_nonneg j2] at j1
          have : f = f' := mul_left_cancel₀ hL.ne' j1.2.1
          subst this
          exact k1 j3
        · rintro ⟨l, hl⟩
          exact ⟨(t, e) :: l, by rw [hl]⟩
        · intro hl
          rw [hl]

theorem timetable_gen {Bad : Block ℝ → ℝ → Prop} (c : Box ℝ) : ∀ bs : List (Block ℝ),
    (∀ b ∈ bs, ∃ A, b.stateA = some A ∧ ∀ f e, b.Meets c f e →
      (Bad b f ∧ b.inverseTimeAtPos ((b.stateB.position.sub A.position).mul f).norm3 = .error .valueError) ∨
      (¬ Bad b f ∧ ∃ t, b.inverseTimeAtPos ((b.stateB.position.sub A.position).mul f).norm3 = .ok t)) →
    (∃ b ∈ bs, ∃ f e, b.Meets c f e ∧ Bad b f) ∧ timetable c bs = .error .valueError ∨
    (¬ ∃ b ∈ bs, ∃ f e, b.Meets c f e ∧ Bad b f) ∧ ∃ l, timetable c bs = .ok l := by
  intro bs
  induction bs with
  | nil => exact fun _ => Or.inr ⟨by simp, [], rfl⟩
  | cons b bs ih =>
    intro hall
    obtain ⟨A, hA, htime⟩ := hall b (by simp)
    have here : (∃ f e, b.Meets c f e ∧ Bad b f) ∧
        (if intersectPossible c A.position b.stateB.position = true then blockCrossings c b A planes
          else Except.ok []) = .error .valueError ∨
      (¬ ∃ f e, b.Meets c f e ∧ Bad b f) ∧
        ∃ l, (if intersectPossible c A.position b.stateB.position = true then blockCrossings c b A planes
          else Except.ok []) = .ok l := by
      by_cases hp : intersectPossible c A.position b.stateB.position = true
      · rw [if_pos hp]
        have hni := intersectPossible_not_inside c _ _ hp
        rcases blockCrossings_gen (Bad := Bad b) c (fun f e hc => htime f e ⟨A, hA, hni, hc⟩) planes with
          ⟨⟨pl, k1, q, f, e, k2, k3, k4, k5⟩, k6⟩ | ⟨k1, k2⟩
        · left
          refine ⟨⟨f, e, ⟨A, hA, hni, ?_⟩, k5⟩, k6⟩
          obtain ⟨f', g1, g2⟩ := crossing_of_isect k2 k3
          have hL := crossing_length g1
          rw [norm3_mul, norm3_mul, abs_of_nonneg g1.1, abs_of_nonneg k4] at g2
          rwa [mul_left_cancel₀ hL.ne' g2]
        · right
          refine ⟨?_, k2⟩
          rintro ⟨f, e, ⟨A', hA', hni', hc⟩, hs⟩
          rw [hA, Option.some.injEq] at hA'
          subst hA'
          obtain ⟨pl, m1, q, m2, m3⟩ := isect_of_crossing hc
          exact k1 ⟨pl, m1, q, f, e, m2, m3, hc.1, hs⟩
      · rw [if_neg hp]
        right
        refine ⟨?_, [], rfl⟩
        rintro ⟨f, e, ⟨A', hA', hni', hc⟩, hs⟩
        rw [hA, Option.some.injEq] at hA'
        subst hA'
        exact hp ((intersectPossible_iff c _ _ hc.1 hc.2.1 hc.2.2.1).2 hni')
    have hun : timetable c (b :: bs) = ((if intersectPossible c A.position b.stateB.position = true then
          blockCrossings c b A planes else Except.ok []) >>= fun here => timetable c bs >>= fun rest =>
          Except.ok (here ++ rest)) := by
      conv_lhs => unfold timetable
      rw [hA]
      simp only
      split <;> rfl
    rw [hun]
    rcases here with ⟨k1, k2⟩ | ⟨k1, l, k2⟩
    · left
      exact ⟨⟨b, by simp, k1⟩, by rw [k2]; rfl⟩
    · rw [k2]
      simp only [bind, Except.bind]
      rcases ih fun x hx => hall x (by simp [hx]) with ⟨⟨b', i1, i2⟩, i3⟩ | ⟨i1, l', i3⟩
      · left
        exact ⟨⟨b', by simp [i1], i2⟩, by rw [i3]⟩
      · right
        refine ⟨?_, l ++ l', by rw [i3]⟩
        rintro ⟨b', j1, j2⟩
        rcases List.mem_cons.1 j1 with rfl | j1
        · exact k1 j2
        · exact i1 ⟨b', j1, j2⟩

/-! ## Unusual programs -/

/-- Where a move of the program meets the box, a time is found unless the line also pauses or the move starts there from
rest. -/
theorem meets_time (hsens : Sensible states) (h : plan fw states = .ok bs) {b : Block ℝ} (hb : b ∈ bs) {c : Box ℝ}
    (hst : b.stateB.pause ≠ none → ∀ e, ¬ b.Meets c 0 e) : ∃ A, b.stateA = some A ∧ ∀ f e, b.Meets c f e →
      ((b.stateB.pause ≠ none ∨ f = 0 ∧ ∃ s ∈ b.segments.head?, s.velBegin.norm3 = 0) ∧
        b.inverseTimeAtPos ((b.stateB.position.sub A.position).mul f).norm3 = .error .valueError) ∨
      (¬ (b.stateB.pause ≠ none ∨ f = 0 ∧ ∃ s ∈ b.segments.head?, s.velBegin.norm3 = 0) ∧
        ∃ t, b.inverseTimeAtPos ((b.stateB.position.sub A.position).mul f).norm3 = .ok t) := by
  obtain ⟨b', e1, _, hg, x, hx, hcar, e3, e4⟩ := block_anchored hsens h hb
  refine ⟨x.A, hcar.stateA, ?_⟩
  intro f e hm
  have hm' := hm
  obtain ⟨A, hA, hni, hc⟩ := hm
  rw [hcar.stateA, Option.some.injEq] at hA
  subst hA
  have hL := crossing_length hc
  have hn : ((b.stateB.position.sub x.A.position).mul f).norm3 = (b.stateB.position.sub x.A.position).norm3 * f := by
    rw [norm3_mul, abs_of_nonneg hc.1]
  by_cases hp : b.stateB.pause = none
  · have hd : x.dst.sub x.src = b.stateB.position.sub x.A.position := by
      rw [← tasks_fst] at hx
      obtain ⟨y, hy, rfl⟩ := List.mem_map.1 hx
      rw [hcar.stateB] at hp ⊢
      exact tasks_shift states none none y hy hp
    have inv : ∀ d, b.inverseTimeAtPos d = b'.inverseTimeAtPos d := by
      intro d
      unfold Block.inverseTimeAtPos
      rw [e1]
    have hL' : (b'.stateB.position.sub { x.A with position := x.src }.position).norm3 =
        (b.stateB.position.sub x.A.position).norm3 := by
      rw [e4, ← hd]
    rcases lt_or_eq_of_le hc.1 with hf | hf
    · right
      refine ⟨fun h => h.elim (absurd hp) fun h => hf.ne' h.1, ?_⟩
      obtain ⟨t, s, r, _⟩ := hg.inverse_law e3 hL'
        (d := ((b.stateB.position.sub x.A.position).mul f).norm3)
        (by rw [hn]; positivity) (by rw [hn]; nlinarith [hc.2.1])
      exact ⟨t, by rw [inv]; exact r⟩
    · subst hf
      obtain ⟨s, rest, k1, k2, k3, k4⟩ := hg.inverse_start e3 (by rw [hL']; exact hL)
      rw [Vec4.mul_zero, norm3_zero, inv, k4, e1, k1]
      simp only [List.head?_cons, Option.mem_def, Option.some.injEq, exists_eq_left', true_and, hp, ne_eq,
        not_true_eq_false, false_or]
      by_cases hv : 0 < s.velBegin.norm3
      · right
        rw [if_pos hv]
        exact ⟨hv.ne', _, rfl⟩
      · left
        rw [if_neg hv]
        exact ⟨le_antisymm (not_lt.1 hv) (norm3_nonneg _), rfl⟩
  · left
    refine ⟨Or.inl hp, ?_⟩
    have hf : 0 < f := lt_of_le_of_ne hc.1 fun h => hst hp e (h ▸ hm')
    obtain ⟨p, hp⟩ := Option.ne_none_iff_exists'.1 hp
    obtain ⟨t, ht⟩ := hcar.pause p (by rw [← hcar.stateB, hp]; rfl)
    unfold Block.inverseTimeAtPos inverseTimeLoop
    rw [ht]
    have hlen : Segment.len (⟨t, t + p, x.src, Vec4.zero, x.src, Vec4.zero⟩ : Segment ℝ) = 0 := by
      unfold Segment.len
      simp only [Vec4.sub_self, norm3_zero]
    simp only [hlen, _root_.add_zero]
    rw [if_neg (by rw [hn]; have := mul_pos hL hf; linarith)]
    rfl

/-- **C122, the outcome.** `write_submodel_times` fails with a `ValueError` if the line of the program to a pause that also
asks for a move, or the start from rest of a move, meets the surface of the box; otherwise with an `IndexError` if no move
of the program meets it; and otherwise it returns. (If the move that a pause asks for starts on the surface, the code
computes `0 / 0`; this case is left out.) -/
theorem c122_outcome (hsens : Sensible states) (h : plan fw states = .ok bs) (c : Box ℝ)
    (hst : ∀ b ∈ bs, b.stateB.pause ≠ none → ∀ e, ¬ b.Meets c 0 e) :
    ((∃ b ∈ bs, ∃ f e, b.Meets c f e ∧ (b.stateB.pause ≠ none ∨ f = 0 ∧ ∃ s ∈ b.segments.head?, s.velBegin.norm3 = 0)) →
      submodelTimes c bs = .error .valueError) ∧
    ((¬ ∃ b ∈ bs, ∃ f e, b.Meets c f e ∧
        (b.stateB.pause ≠ none ∨ f = 0 ∧ ∃ s ∈ b.segments.head?, s.velBegin.norm3 = 0)) →
      ((¬ ∃ b ∈ bs, ∃ f e, b.Meets c f e) → submodelTimes c bs = .error .indexError) ∧
      ((∃ b ∈ bs, ∃ f e, b.Meets c f e) → ∃ r, submodelTimes c bs = .ok r)) := by
  rcases timetable_gen (Bad := fun b f => b.stateB.pause ≠ none ∨ f = 0 ∧ ∃ s ∈ b.segments.head?, s.velBegin.norm3 = 0)
    c bs (fun b hb => meets_time hsens h hb (hst b hb)) with ⟨k1, k2⟩ | ⟨k1, l, k2⟩
  · refine ⟨fun _ => ?_, fun h => absurd k1 h⟩
    unfold submodelTimes
    rw [k2]
    rfl
  · refine ⟨fun h => absurd h k1, fun _ => ⟨fun hno => ?_, ?_⟩⟩
    · have hl : l = [] := by
        cases l with
        | nil => rfl
        | cons x l =>
          exfalso
          obtain ⟨b, hb, A, hA, hni, f, hc, _⟩ := (timetable_mem c bs _ k2 x.1 x.2).1 (by simp)
          exact hno ⟨b, hb, f, x.2, A, hA, hni, hc⟩
      unfold submodelTimes
      rw [k2, hl]
      rfl
    · rintro ⟨b, hb, f, e, hm⟩
      obtain ⟨A, hA, ht⟩ := meets_time hsens h hb (hst b hb)
      have hmem : ∃ x, x ∈ l := by
        rcases ht f e hm with ⟨k3, k4⟩ | ⟨_, t, k5⟩
        · exact absurd ⟨b, hb, f, e, hm, k3⟩ k1
        · obtain ⟨A', hA', hni, hc⟩ := hm
          rw [hA, Option.some.injEq] at hA'
          subst hA'
          exact ⟨(t, e), (timetable_mem c bs _ k2 t e).2 ⟨b, hb, A, hA, hni, f, hc, k5⟩⟩
      obtain ⟨x, hx⟩ := hmem
      have hne : l.isEmpty = false := by
        rw [List.isEmpty_eq_false_iff]
        exact List.ne_nil_of_mem hx
      obtain ⟨b', hb'⟩ : ∃ b', bs.getLast? = some b' := by
        cases hc : bs.getLast? with
        | none => rw [List.getLast?_eq_none_iff] at hc; rw [hc] at hb; cases hb
        | some b' => exact ⟨b', rfl⟩
      obtain ⟨b'', e1, _, hg, _⟩ := block_anchored hsens h (List.mem_of_getLast? hb')
      obtain ⟨_, _, q', _, _, e3, _⟩ := hg.facts
      rw [← e1] at e3
      have hT : endTime bs = .ok q'.tEnd := by
        unfold endTime
        rw [hb']
        simp [lastSeg_ok e3, Except.map]
      unfold submodelTimes
      simp only [k2, bind, Except.bind, hne, Bool.false_eq_true, if_false, hT]
      exact ⟨_, rfl⟩

/-- **C122, the exact law of the times.** Every entry (exit) time belongs to a move that is carried out, and to the first
(last) point in the box of the line of the *program*. At this time the nozzle is as far along the line of the *motion*,
which may be elsewhere; if this is in a segment that decelerates, it falls short of it as in C80. -/
theorem c122_law (hsens : Sensible states) (h : plan fw states = .ok bs) {c : Box ℝ} {r : SubmodelTimes ℝ}
    (hst : ∀ b ∈ bs, b.stateB.pause ≠ none → ∀ e, ¬ b.Meets c 0 e)
    (hr : submodelTimes c bs = .ok r) {e : Bool} {t : ℝ} (ht : t ∈ (if e then r.timeIn else r.timeOut)) :
    ∃ x ∈ executed none none states, x.B.pause = none ∧
      ¬ (InBox c.orig c.side x.A.position ∧ InBox c.orig c.side x.B.position) ∧
      ∃ f, (if e then FirstIn c.orig c.side x.A.position x.B.position f
        else LastIn c.orig c.side x.A.position x.B.position f) ∧
      Surface c.orig c.side (x.A.position.add ((x.B.position.sub x.A.position).mul f)) ∧
      x.dst.sub x.src = x.B.position.sub x.A.position ∧
      ∃ s ∈ Spec.path bs, Covers s t ∧
        (s.posBegin.sub x.src).norm3 ≤ (x.dst.sub x.src).norm3 * f ∧
        (x.dst.sub x.src).norm3 * f ≤ (s.posEnd.sub x.src).norm3 ∧
        s.getPosition t = .ok (x.src.add ((x.dst.sub x.src).mul
          (if s.velBegin.norm3 ≤ s.velEnd.norm3 then f
            else f - x.B.pAcc * (t - s.tBegin) ^ 2 / (x.dst.sub x.src).norm3))) := by
  obtain ⟨b, hb, A, hA, hni, f, hc, hi⟩ := ((c43_crossings c bs r hr).1 e t).1 ht
  obtain ⟨b', e1, _, hg, x, hx, hcar, e3, e4⟩ := block_anchored hsens h hb
  rw [hcar.stateA, Option.some.injEq] at hA
  subst hA
  have hpath : ∀ s ∈ b'.segments, s ∈ Spec.path bs := by
    intro s hs
    rw [← e1] at hs
    exact List.mem_flatMap.2 ⟨b, hb, hs⟩
  have hp : b.stateB.pause = none := by
    by_contra hp
    obtain ⟨A', hA', k⟩ := meets_time hsens h hb (hst b hb)
    rw [hcar.stateA, Option.some.injEq] at hA'
    subst hA'
    rcases k f e ⟨_, hcar.stateA, hni, hc⟩ with ⟨_, k⟩ | ⟨k, _⟩
    · rw [hi] at k
      cases k
    · exact k (Or.inl hp)
  rw [hcar.stateB] at hni hc hi hp
  have hd : x.dst.sub x.src = x.B.position.sub x.A.position := by
    rw [← tasks_fst] at hx
    obtain ⟨y, hy, rfl⟩ := List.mem_map.1 hx
    exact tasks_shift states none none y hy hp
  refine ⟨x, hx, hp, hni, f, ?_, crossing_surface hc, hd, ?_⟩
  · cases e
    · exact crossing_last hc
    · exact crossing_first hc
  have hL := crossing_length hc
  rw [← hd] at hL hi
  have inv : ∀ d, b.inverseTimeAtPos d = b'.inverseTimeAtPos d := by
    intro d
    unfold Block.inverseTimeAtPos
    rw [e1]
  rw [inv] at hi
  have hL' : (b'.stateB.position.sub { x.A with position := x.src }.position).norm3 = (x.dst.sub x.src).norm3 := by
    rw [e4]
  set N := (x.dst.sub x.src).norm3 with hN
  rcases lt_or_eq_of_le hc.1 with hf | hf
  · have hn : ((x.dst.sub x.src).mul f).norm3 = N * f := by
      rw [norm3_mul, abs_of_pos hf]
    rw [hn] at hi
    obtain ⟨t', s, r1, r2, r3, r4, r5, r6, _⟩ := hg.inverse_law e3 hL' (d := N * f) (by positivity)
      (by nlinarith [hc.2.1])
    rw [r1, Except.ok.injEq] at hi
    subst hi
    refine ⟨s, hpath s r2, r3, r4.le, r5, ?_⟩
    rw [r6, e4]
    simp only
    congr 3
    split
    · field_simp
    · field_simp
  · subst hf
    obtain ⟨s, rest, k1, k2, k3, k4⟩ := hg.inverse_start e3 (by rw [hL']; exact hL)
    rw [Vec4.mul_zero, norm3_zero, k4] at hi
    split at hi
    swap
    · cases hi
    rw [Except.ok.injEq] at hi
    subst hi
    have hpb : s.posBegin = x.src := by
      obtain ⟨A', s', _, j1, j2, _, _, j4, _⟩ := hg.facts
      rw [e3, Option.some.injEq] at j1
      rw [k1, List.head?_cons, Option.some.injEq] at j2
      rw [j2, j4, ← j1]
    refine ⟨s, hpath s (by simp [k1]), k2, ?_, ?_, ?_⟩
    · rw [hpb, Vec4.sub_self, norm3_zero, MulZeroClass.mul_zero]
    · rw [MulZeroClass.mul_zero]
      exact norm3_nonneg _
    · rw [k3]
      simp only [sub_self, ne_eq, OfNat.ofNat_ne_zero, not_false_eq_true, zero_pow, MulZeroClass.mul_zero, zero_div,
        ite_self, Vec4.mul_zero, Vec4.add_zero]

/-! ## Does the nozzle get there? -/

/-- The nozzle gets to every point of the line of a move. -/
theorem Good.visits {b : Block ℝ} (hg : Good b) {A : PState ℝ} (hA : b.stateA = some A)
    (hL : 0 < (b.stateB.position.sub A.position).norm3) {f : ℝ} (h0 : 0 ≤ f) (h1 : f ≤ 1) :
    ∃ s ∈ b.segments, ∃ t, Covers s t ∧
      s.getPosition t = .ok (A.position.add ((b.stateB.position.sub A.position).mul f)) := by
  rcases lt_or_eq_of_le h0 with hf | hf
  swap
  · subst hf
    obtain ⟨s, rest, k1, k2, k3, _⟩ := hg.inverse_start hA hL
    exact ⟨s, by simp [k1], _, k2, by rw [k3, Vec4.mul_zero, Vec4.add_zero]⟩
  obtain ⟨u, s0, s1, hm, hn, hd⟩ := hg.travelling hA hL
  set N := (b.stateB.position.sub A.position).norm3 with hN
  obtain ⟨_, s, _, hs, _, q1, q2, _⟩ := hg.inverse_law hA (L := N) (d := N * f) rfl (by positivity)
    (by nlinarith)
  obtain ⟨L, _, _, hmem⟩ := hm.hramp.mem
  obtain ⟨w, w₁, l, l₁, g⟩ := hmem s hs
  have hdist : ∀ y, 0 ≤ y → ((A.position.add (u.mul y)).sub A.position).norm3 = y := by
    intro y hy
    have : (A.position.add (u.mul y)).sub A.position = u.mul y := by ext <;> simp [Vec4.sub, Vec4.add]
    rw [this, norm3_mul, hn, one_mul, abs_of_nonneg hy]
  have hl₁ : 0 ≤ l₁ := by
    rw [g.hlen]
    have := mul_pos (half_pos g.hpos) (sub_pos.2 g.ht)
    linarith [g.hl]
  rw [g.hpb, hdist _ g.hl] at q1
  rw [g.hpe, hdist _ hl₁] at q2
  have hcont : Continuous fun t => l + (w + SegOn.speed s w w₁ t) / 2 * (t - s.tBegin) := by
    unfold SegOn.speed
    fun_prop
  have e0 : (fun t => l + (w + SegOn.speed s w w₁ t) / 2 * (t - s.tBegin)) s.tBegin = l := by
    simp
  have e1 : (fun t => l + (w + SegOn.speed s w w₁ t) / 2 * (t - s.tBegin)) s.tEnd = l₁ := by
    have hne : s.tEnd - s.tBegin ≠ 0 := (sub_pos.2 g.ht).ne'
    simp only [SegOn.speed]
    rw [div_mul_cancel₀ _ hne, g.hlen]
    ring
  obtain ⟨t, ht, hx⟩ := intermediate_value_Icc g.ht.le hcont.continuousOn
    (show N * f ∈ Set.Icc _ _ from ⟨e0.le.trans q1.le, q2.trans e1.ge⟩)
  refine ⟨s, hs, t, ht, ?_⟩
  rw [g.getPosition ht]
  simp only at hx
  rw [hx, hd]
  congr 2
  ext <;> simp only [Vec4.mul] <;> ring

/-- What is wanted: if entry or exit times of the box are listed, the nozzle does get into the box. -/
def C122Full : Prop :=
  ∀ (fw : Firmware) (states : List (PState ℝ)) (bs : List (Block ℝ)) (c : Box ℝ) (r : SubmodelTimes ℝ),
    Sensible states → plan fw states = .ok bs → (∀ b ∈ bs, b.stateB.pause ≠ none → ∀ e, ¬ b.Meets c 0 e) →
    submodelTimes c bs = .ok r → r.timeIn ≠ [] ∨ r.timeOut ≠ [] →
    ∃ s ∈ Spec.path bs, ∃ t p, Covers s t ∧ s.getPosition t = .ok p ∧ InBox c.orig c.side p

/-- **C122, partial.** If every move starts where the program says, the nozzle gets to the surface of the box wherever a time
is listed, in the segment in which the time lies. Missing: programs in which a move is lost, for which it is false
(`c122_refuted`). -/
theorem c122_reached_partial (hsens : Sensible states) (h : plan fw states = .ok bs) {c : Box ℝ} {r : SubmodelTimes ℝ}
    (hst : ∀ b ∈ bs, b.stateB.pause ≠ none → ∀ e, ¬ b.Meets c 0 e)
    (hsrc : ∀ x ∈ executed none none states, x.src = x.A.position)
    (hr : submodelTimes c bs = .ok r) {e : Bool} {t : ℝ} (ht : t ∈ (if e then r.timeIn else r.timeOut)) :
    ∃ b ∈ bs, (∃ s ∈ b.segments, Covers s t) ∧
      ∃ s ∈ b.segments, ∃ t' p, Covers s t' ∧ s.getPosition t' = .ok p ∧ Surface c.orig c.side p := by
  obtain ⟨b, hb, A, hA, hni, f, hc, hi⟩ := ((c43_crossings c bs r hr).1 e t).1 ht
  obtain ⟨b', e1, _, hg, x, hx, hcar, e3, e4⟩ := block_anchored hsens h hb
  rw [hcar.stateA, Option.some.injEq] at hA
  subst hA
  have hp : b.stateB.pause = none := by
    by_contra hp
    obtain ⟨A', hA', k⟩ := meets_time hsens h hb (hst b hb)
    rw [hcar.stateA, Option.some.injEq] at hA'
    subst hA'
    rcases k f e ⟨_, hcar.stateA, hni, hc⟩ with ⟨_, k⟩ | ⟨k, _⟩
    · rw [hi] at k
      cases k
    · exact k (Or.inl hp)
  rw [hcar.stateB] at hni hc hi hp
  have hd : x.dst.sub x.src = x.B.position.sub x.A.position := by
    have hx' := hx
    rw [← tasks_fst] at hx'
    obtain ⟨y, hy, rfl⟩ := List.mem_map.1 hx'
    exact tasks_shift states none none y hy hp
  have hL := crossing_length hc
  rw [← hd] at hL hi
  have hL' : 0 < (b'.stateB.position.sub { x.A with position := x.src }.position).norm3 := by
    rw [e4]
    exact hL
  have inv : b.inverseTimeAtPos = b'.inverseTimeAtPos := by
    funext d
    unfold Block.inverseTimeAtPos
    rw [e1]
  refine ⟨b, hb, ?_, ?_⟩
  · rw [inv] at hi
    rcases lt_or_eq_of_le hc.1 with hf | hf
    · obtain ⟨t', s, r1, r2, r3, _⟩ := hg.inverse_law e3 (d := (x.dst.sub x.src).norm3 * f) rfl (by positivity)
        (by rw [e4]; simp only; nlinarith [hc.2.1])
      rw [norm3_mul, abs_of_pos hf, r1, Except.ok.injEq] at hi
      rw [← hi, e1]
      exact ⟨s, r2, r3⟩
    · subst hf
      obtain ⟨s, rest, k1, k2, k3, k4⟩ := hg.inverse_start e3 hL'
      rw [Vec4.mul_zero, norm3_zero, k4] at hi
      split at hi
      · rw [Except.ok.injEq] at hi
        rw [← hi, e1]
        exact ⟨s, by simp [k1], k2⟩
      · cases hi
  · obtain ⟨s, hs, t', hcov, hpos⟩ := hg.visits e3 hL' hc.1 hc.2.1
    rw [← e1] at hs
    refine ⟨s, hs, t', _, hcov, hpos, ?_⟩
    rw [e4]
    simp only
    rw [hd, hsrc x hx]
    exact crossing_surface hc

namespace Demo

/-- The blocks of `lossy`. -/
theorem lossy_blocks {bs : List (Block ℝ)} (h : plan fw lossy = .ok bs) : ∃ b₁ b₂ b₃, bs = [b₁, b₂, b₃] ∧
    CarriesOut b₁ ⟨s0, s1, ⟨0, 0, 0, 0⟩, ⟨10, 0, 0, 1⟩⟩ ∧
    CarriesOut b₂ ⟨zeroFeed, afterZero, ⟨10, 0, 0, 1⟩, ⟨20, 0, 0, 1⟩⟩ ∧
    CarriesOut b₃ ⟨afterZero, moveAndPause, ⟨20, 0, 0, 1⟩, ⟨20, 0, 0, 1⟩⟩ := by
  have hc := c87_carried_out lossy_sensible h
  rw [lossy_executed] at hc
  cases hc with
  | cons h1 hc =>
  cases hc with
  | cons h2 hc =>
  cases hc with
  | cons h3 hc =>
  cases hc
  exact ⟨_, _, _, rfl, h1, h2, h3⟩

/-- A box at `x` on the line of `lossy`, 2 mm wide. -/
noncomputable def boxAt (x : ℝ) : Box ℝ := ⟨⟨x, 0, 0, 0⟩, ⟨2, 2, 2, 0⟩⟩

/-- What the blocks of `lossy` meet: the box around 25 is met by the last move, as the program has it, and the box around
15 is not met. -/
theorem lossy_meets {bs : List (Block ℝ)} (h : plan fw lossy = .ok bs) : (∀ b ∈ bs, ∀ f e, ¬ b.Meets (boxAt 15) f e) ∧
    (∀ b ∈ bs, ∀ f e, b.Meets (boxAt 25) f e → b.stateB.pause = none ∧ f ≠ 0) ∧
    ∃ b ∈ bs, b.Meets (boxAt 25) 0.4 true := by
  obtain ⟨b₁, b₂, b₃, rfl, c1, c2, c3⟩ := lossy_blocks h
  refine ⟨?_, ?_, ?_⟩
  · intro b hb f e hm
    simp only [List.mem_cons, List.not_mem_nil, or_false] at hb
    obtain ⟨A, hA, _, f0, f1, hin, _⟩ := hm
    rcases hb with rfl | rfl | rfl
    · rw [c1.stateA, Option.some.injEq] at hA
      subst hA
      rw [c1.stateB] at hin
      simp only [InBox, boxAt, s0, s1, Vec4.add, Vec4.sub, Vec4.mul] at hin
      linarith [hin.1.1]
    · rw [c2.stateA, Option.some.injEq] at hA
      subst hA
      rw [c2.stateB] at hin
      simp only [InBox, boxAt, zeroFeed, afterZero, Vec4.add, Vec4.sub, Vec4.mul] at hin
      linarith [hin.1.2]
    · rw [c3.stateA, Option.some.injEq] at hA
      subst hA
      rw [c3.stateB] at hin
      simp only [InBox, boxAt, afterZero, moveAndPause, Vec4.add, Vec4.sub, Vec4.mul] at hin
      linarith [hin.1.2]
  · intro b hb f e hm
    simp only [List.mem_cons, List.not_mem_nil, or_false] at hb
    obtain ⟨A, hA, _, f0, f1, hin, _⟩ := hm
    rcases hb with rfl | rfl | rfl
    · rw [c1.stateA, Option.some.injEq] at hA
      subst hA
      rw [c1.stateB] at hin
      simp only [InBox, boxAt, s0, s1, Vec4.add, Vec4.sub, Vec4.mul] at hin
      linarith [hin.1.1]
    · rw [c2.stateA, Option.some.injEq] at hA
      subst hA
      refine ⟨by rw [c2.stateB]; rfl, ?_⟩
      rintro rfl
      rw [c2.stateB] at hin
      simp only [InBox, boxAt, zeroFeed, afterZero, Vec4.add, Vec4.sub, Vec4.mul] at hin
      linarith [hin.1.1]
    · rw [c3.stateA, Option.some.injEq] at hA
      subst hA
      rw [c3.stateB] at hin
      simp only [InBox, boxAt, afterZero, moveAndPause, Vec4.add, Vec4.sub, Vec4.mul] at hin
      linarith [hin.1.2]
  · refine ⟨b₂, by simp, zeroFeed, c2.stateA, ?_, ?_⟩
    · rintro ⟨h1, _⟩
      simp only [InBox, boxAt, zeroFeed] at h1
      linarith [h1.1.1]
    · rw [c2.stateB]
      refine ⟨by norm_num, by norm_num, ?_, Or.inl ⟨?_, Or.inr ⟨?_, ?_⟩⟩⟩
      · simp only [InBox, boxAt, zeroFeed, afterZero, Vec4.add, Vec4.sub, Vec4.mul]
        norm_num
      · simp only [zeroFeed, afterZero]
        norm_num
      · simp only [boxAt, zeroFeed, afterZero]
        norm_num
      · simp only [zeroFeed, afterZero]
        norm_num

/-- The nozzle does not get beyond 20. -/
theorem lossy_where {bs : List (Block ℝ)} (h : plan fw lossy = .ok bs) {s : Segment ℝ} (hs : s ∈ Spec.path bs) {t : ℝ}
    {p : Vec4 ℝ} (hp : s.getPosition t = .ok p) : p.x ≤ 20 := by
  obtain ⟨b₁, b₂, b₃, rfl, c1, c2, c3⟩ := lossy_blocks h
  obtain ⟨b, hb, hs'⟩ := List.mem_flatMap.1 hs
  simp only [List.mem_cons, List.not_mem_nil, or_false] at hb
  rcases hb with rfl | rfl | rfl
  · obtain ⟨g, g0, g1, rfl⟩ := (CarriesOut.straight c1 hs' hp).2 rfl
    simp only [Vec4.add, Vec4.sub, Vec4.mul]
    linarith
  · obtain ⟨g, g0, g1, rfl⟩ := (CarriesOut.straight c2 hs' hp).2 rfl
    simp only [Vec4.add, Vec4.sub, Vec4.mul]
    linarith
  · rw [(CarriesOut.straight c3 hs' hp).1 (by simp [moveAndPause])]

end Demo

/-- `write_submodel_times` returns an entry time for the box around 25. -/
theorem Demo.lossy_listed {bs : List (Block ℝ)} (h : plan fw Demo.lossy = .ok bs) :
    (∀ b ∈ bs, b.stateB.pause ≠ none → ∀ e, ¬ b.Meets (Demo.boxAt 25) 0 e) ∧
      ∃ r, submodelTimes (Demo.boxAt 25) bs = .ok r ∧ r.timeIn ≠ [] := by
  obtain ⟨_, m2, b, hb, hm⟩ := Demo.lossy_meets h
  have hst : ∀ b ∈ bs, b.stateB.pause ≠ none → ∀ e, ¬ b.Meets (Demo.boxAt 25) 0 e :=
    fun b hb hp e hm => hp (m2 b hb 0 e hm).1
  refine ⟨hst, ?_⟩
  have hno : ¬ (b.stateB.pause ≠ none ∨ (0.4 : ℝ) = 0 ∧ ∃ s ∈ b.segments.head?, s.velBegin.norm3 = 0) := by
    rw [(m2 b hb _ _ hm).1]
    norm_num
  obtain ⟨r, hr⟩ := ((c122_outcome Demo.lossy_sensible h (Demo.boxAt 25) hst).2 (by
    rintro ⟨b, hb, f, e, hm, hp | ⟨hf, _⟩⟩
    · exact hp (m2 b hb f e hm).1
    · exact (m2 b hb f e hm).2 hf)).2 ⟨b, hb, _, _, hm⟩
  obtain ⟨A, hA, ht⟩ := meets_time Demo.lossy_sensible h hb (hst b hb)
  rcases ht _ _ hm with ⟨k, _⟩ | ⟨_, t, k⟩
  · exact absurd k hno
  · obtain ⟨A', hA', hni, hc⟩ := hm
    rw [hA, Option.some.injEq] at hA'
    subst hA'
    have : t ∈ r.timeIn := by
      have := ((c43_crossings _ _ r hr).1 true t).2 ⟨b, hb, A, hA, hni, _, hc, k⟩
      simpa using this
    exact ⟨r, hr, List.ne_nil_of_mem this⟩

/-- C122 as wanted is false of the code: after a move that is lost, the times are those of a box the nozzle does not get
to. -/
theorem c122_refuted : ¬ C122Full := by
  intro hfull
  obtain ⟨bs, h⟩ := (c86_plannable .default Demo.lossy_sensible).2 Demo.lossy_follow
  obtain ⟨hst, r, hr, hne⟩ := Demo.lossy_listed h
  obtain ⟨s, hs, t, p, _, hp, hin⟩ := hfull _ _ _ _ r Demo.lossy_sensible h hst hr (Or.inl hne)
  have := Demo.lossy_where h hs hp
  simp only [InBox, Demo.boxAt] at hin
  linarith [hin.1.1]

/-- **C122.** Nor does it say of a box that the nozzle passes through that it does: it raises an `IndexError`. -/
theorem c122_missed : ∃ (states : List (PState ℝ)) (bs : List (Block ℝ)) (c : Box ℝ), Sensible states ∧
    plan .default states = .ok bs ∧ submodelTimes c bs = .error .indexError ∧
    ∃ s ∈ Spec.path bs, ∃ t p, Covers s t ∧ s.getPosition t = .ok p ∧ InBox c.orig c.side p := by
  obtain ⟨bs, h⟩ := (c86_plannable .default Demo.lossy_sensible).2 Demo.lossy_follow
  obtain ⟨m1, _⟩ := Demo.lossy_meets h
  refine ⟨Demo.lossy, bs, Demo.boxAt 15, Demo.lossy_sensible, h, ?_, ?_⟩
  · refine ((c122_outcome Demo.lossy_sensible h _ fun b hb _ e => m1 b hb 0 e).2 ?_).1 ?_
    · rintro ⟨b, hb, f, e, hm, _⟩
      exact m1 b hb f e hm
    · rintro ⟨b, hb, f, e, hm⟩
      exact m1 b hb f e hm
  · obtain ⟨b₁, b₂, b₃, rfl, c1, c2, c3⟩ := Demo.lossy_blocks h
    obtain ⟨b', e1, _, hg, x, hx, hcar, e3, e4⟩ := block_anchored Demo.lossy_sensible h (b := b₂) (by simp)
    rw [Demo.lossy_executed] at hx
    have hB := hcar.stateB
    rw [c2.stateB] at hB
    have hxe : x = ⟨Demo.zeroFeed, Demo.afterZero, ⟨10, 0, 0, 1⟩, ⟨20, 0, 0, 1⟩⟩ := by
      simp only [List.mem_cons, List.not_mem_nil, or_false] at hx
      rcases hx with rfl | rfl | rfl
      · have := congrArg (fun s => s.position.x) hB
        norm_num [Demo.afterZero, Demo.s1] at this
      · rfl
      · have := congrArg (fun s => s.position.y) hB
        norm_num [Demo.afterZero, Demo.moveAndPause] at this
    subst hxe
    have hs : √(100 : ℝ) = 10 := by rw [show (100 : ℝ) = 10 ^ 2 by norm_num]; exact Real.sqrt_sq (by norm_num)
    obtain ⟨s, hs, t, hcov, hp⟩ := hg.visits e3 (by
      rw [e4]; norm_num [Vec4.sub, Vec4.norm3, PyMath.sqrt, hs]) (f := 0.5) (by norm_num) (by norm_num)
    rw [← e1] at hs
    refine ⟨s, List.mem_flatMap.2 ⟨b₂, by simp, hs⟩, t, _, hcov, hp, ?_⟩
    rw [e4]
    simp only [InBox, Demo.boxAt, Vec4.add, Vec4.sub, Vec4.mul]
    norm_num

/-- The hypotheses of `c122_law` are met by `lossy` and the box around 25. -/
example : ∃ bs, plan .default Demo.lossy = .ok bs ∧ ∃ r, submodelTimes (Demo.boxAt 25) bs = .ok r ∧
    ∃ t ∈ r.timeIn, ∃ s ∈ Spec.path bs, Covers s t := by
  obtain ⟨bs, h⟩ := (c86_plannable .default Demo.lossy_sensible).2 Demo.lossy_follow
  obtain ⟨hst, r, hr, hne⟩ := Demo.lossy_listed h
  obtain ⟨t, ht⟩ := List.exists_mem_of_ne_nil _ hne
  obtain ⟨_, _, _, _, _, _, _, _, s, hs, hc, _⟩ := c122_law Demo.lossy_sensible h hst hr (e := true) ht
  exact ⟨bs, h, r, hr, t, ht, s, hs, hc⟩

/-- The hypotheses of `c122_reached_partial` are met by a program whose only lost move is its last, and the box around 5. -/
example : ∃ bs, plan .default [Demo.s0, Demo.s1, Demo.zeroFeed] = .ok bs ∧
    (∀ b ∈ bs, b.stateB.pause ≠ none → ∀ e, ¬ b.Meets (Demo.boxAt 5) 0 e) ∧
    (∀ x ∈ executed none none [Demo.s0, Demo.s1, Demo.zeroFeed], x.src = x.A.position) ∧
    ∃ r, submodelTimes (Demo.boxAt 5) bs = .ok r := by
  have hsens : Sensible [Demo.s0, Demo.s1, Demo.zeroFeed] :=
    ⟨fun s hs => Demo.lossy_sensible.1 s (by simp [Demo.lossy] at hs ⊢; tauto),
      fun s hs => Demo.lossy_sensible.2 s (by simp [Demo.lossy] at hs ⊢; tauto),
      fun s hs => Demo.lossy_sensible.3 s (by simp [Demo.lossy] at hs ⊢; tauto)⟩
  have hnp : ∀ s ∈ [Demo.s0, Demo.s1, Demo.zeroFeed], s.pause = none := by
    intro s hs
    simp only [List.mem_cons, List.not_mem_nil, or_false] at hs
    rcases hs with rfl | rfl | rfl <;> rfl
  obtain ⟨bs, h⟩ := (c86_plannable .default hsens).2 fun pre s post he p hp => by
    rw [hnp s (by rw [he]; simp)] at hp
    cases hp
  have hex : executed none none [Demo.s0, Demo.s1, Demo.zeroFeed] =
      [⟨Demo.s0, Demo.s1, ⟨0, 0, 0, 0⟩, ⟨10, 0, 0, 1⟩⟩] := by
    rw [executed_none, executed_run (src := ⟨0, 0, 0, 0⟩) (dst := ⟨10, 0, 0, 1⟩) Demo.runs_s1 rfl
      (by ext <;> simp [Demo.s0, Demo.s1, Vec4.add, Vec4.sub]), executed_skip rfl (by simpa using Demo.stands_zero),
      executed]
  have hc := c87_carried_out hsens h
  rw [hex] at hc
  cases hc with
  | @cons b _ _ _ c1 hc =>
  cases hc
  have hp : ∀ b' ∈ [b], b'.stateB.pause = none := by
    intro b' hb
    rw [List.mem_singleton.1 hb, c1.stateB]
    rfl
  have hst : ∀ b' ∈ [b], b'.stateB.pause ≠ none → ∀ e, ¬ b'.Meets (Demo.boxAt 5) 0 e :=
    fun b' hb hn => absurd (hp b' hb) hn
  refine ⟨[b], h, hst, ?_, ?_⟩
  · rw [hex]
    simp [Demo.s0]
  refine ((c122_outcome hsens h _ hst).2 ?_).2 ⟨b, by simp, 0.4, true, Demo.s0, c1.stateA, ?_, ?_⟩
  · rintro ⟨b', hb, f, e, ⟨A, hA, _, _, _, hin, _⟩, hn | ⟨rfl, _⟩⟩
    · exact hn (hp b' hb)
    · rw [List.mem_singleton.1 hb] at hA hin
      rw [c1.stateA, Option.some.injEq] at hA
      subst hA
      rw [c1.stateB] at hin
      simp only [InBox, Demo.boxAt, Demo.s0, Demo.s1, Vec4.add, Vec4.sub, Vec4.mul] at hin
      linarith [hin.1.1]
  · rintro ⟨h1, _⟩
    simp only [InBox, Demo.boxAt, Demo.s0] at h1
    linarith [h1.1.1]
  · rw [c1.stateB]
    refine ⟨by norm_num, by norm_num, ?_, Or.inl ⟨?_, Or.inr ⟨?_, ?_⟩⟩⟩
    · simp only [InBox, Demo.boxAt, Demo.s0, Demo.s1, Vec4.add, Vec4.sub, Vec4.mul]
      norm_num
    · simp only [Demo.s0, Demo.s1]
      norm_num
    · simp only [Demo.boxAt, Demo.s0, Demo.s1]
      norm_num
    · simp only [Demo.s0, Demo.s1]
      norm_num

end PyGCD
