import Verif.Proofs.QueryLemmas
import Mathlib.Analysis.Calculus.Deriv.Add
import Mathlib.Analysis.Calculus.Deriv.Mul
import Mathlib.Analysis.Calculus.Deriv.Pow

/-!
# Properties C30 to C35: asking the simulation for values

The theorems are about every path that is a `Spec.Timeline`; `plan_timeline` says that the path of every
regular program is one.
-/

set_option linter.unusedSectionVars false
set_option linter.unusedSimpArgs false

namespace PyGCD
open Vec4 Spec

/-! ## First and last positions -/

theorem active_nil {pa : Option (PState ℝ)} {states : List (PState ℝ)} (h : active pa states = []) :
    ∀ A ∈ pa, ∀ x ∈ states, x.position = A.position := by
  induction states generalizing pa with
  | nil => simp
  | cons s rest ih =>
    by_cases hact : s.pause ≠ none ∨ ∃ A, pa = some A ∧ s.position ≠ A.position
    · rw [active_cons_take rest hact] at h
      cases h
    · push Not at hact
      rw [active_cons_skip rest (fun A hA => hact.2 A hA) hact.1] at h
      intro A hA x hx
      rcases List.mem_cons.1 hx with rfl | hx
      · exact hact.2 A hA
      · rw [ih h s rfl x hx, hact.2 A hA]

/-- The last state that moves or pauses is at the position of the last state. -/
theorem active_last {pa : Option (PState ℝ)} {states : List (PState ℝ)}
    {x : Option (PState ℝ) × PState ℝ} (h : (active pa states).getLast? = some x) :
    ∀ s ∈ states.getLast?, x.2.position = s.position := by
  induction states generalizing pa with
  | nil => simp
  | cons s rest ih =>
    have hrec : (active (some s) rest).getLast? = some x → ∀ q ∈ (s :: rest).getLast?, x.2.position = q.position := by
      intro h' q hq
      cases rest with
      | nil => cases h'
      | cons y rest =>
        rw [List.getLast?_cons_cons] at hq
        exact ih h' q hq
    by_cases hact : s.pause ≠ none ∨ ∃ A, pa = some A ∧ s.position ≠ A.position
    · rw [active_cons_take rest hact] at h
      cases ha : active (some s) rest with
      | nil =>
        rw [ha, List.getLast?_singleton, Option.some.injEq] at h
        subst h
        intro q hq
        cases rest with
        | nil =>
          simp only [List.getLast?_singleton, Option.mem_def, Option.some.injEq] at hq
          rw [hq]
        | cons y rest =>
          rw [List.getLast?_cons_cons] at hq
          exact (active_nil ha s rfl q (List.mem_of_getLast? hq)).symm
      | cons y ys =>
        rw [ha, List.getLast?_cons_cons, ← ha] at h
        exact hrec h
    · push Not at hact
      rw [active_cons_skip rest (fun A hA => hact.2 A hA) hact.1] at h
      exact hrec h

/-- The first state that moves or pauses starts from the position of the first state. -/
theorem active_first {pa : Option (PState ℝ)} {states : List (PState ℝ)} {A B : PState ℝ}
    (h : (active pa states).head? = some (some A, B)) :
    (∀ P ∈ pa, A.position = P.position) ∧ (pa = none → ∀ s ∈ states.head?, A.position = s.position) := by
  induction states generalizing pa with
  | nil => cases h
  | cons s rest ih =>
    by_cases hact : s.pause ≠ none ∨ ∃ A, pa = some A ∧ s.position ≠ A.position
    · rw [active_cons_take rest hact] at h
      simp only [List.head?_cons, Option.some.injEq, Prod.mk.injEq] at h
      rw [h.1]
      refine ⟨fun P hP => ?_, by simp⟩
      cases hP
      rfl
    · push Not at hact
      rw [active_cons_skip rest (fun A hA => hact.2 A hA) hact.1] at h
      have h1 := (ih h).1 s rfl
      refine ⟨fun P hP => by rw [h1, hact.2 P hP], fun _ q hq => ?_⟩
      simp only [List.head?_cons, Option.mem_def, Option.some.injEq] at hq
      rw [h1, hq]

variable {fw : Firmware} {states : List (PState ℝ)} {bs : List (Block ℝ)}

/-- The path of a non-empty block list: its end time is what `endTime` reads, and it leads from the first
state's position to the last state's. -/
theorem unpack_ends (hreg : Regular states) (h : plan fw states = .ok bs) (hne : bs ≠ []) :
    ∃ s s', (unpack bs).head? = some s ∧ (unpack bs).getLast? = some s' ∧
      endTime bs = .ok s'.tEnd ∧ (∀ q ∈ states.head?, s.posBegin = q.position) ∧
      ∀ q ∈ states.getLast?, s'.posEnd = q.position := by
  obtain ⟨hg, _, _, hact, _⟩ := plan_ok hreg h
  obtain ⟨b, tl, hbs⟩ := List.exists_cons_of_ne_nil hne
  obtain ⟨l, hl⟩ : ∃ l, bs.getLast? = some l := by
    cases hc : bs.getLast? with
    | none => exact absurd (List.getLast?_eq_none_iff.1 hc) hne
    | some l => exact ⟨l, rfl⟩
  have hlm := List.mem_of_getLast? hl
  obtain ⟨A, q, q', f1, f2, f3, f4, f5, _⟩ := (hg b (by rw [hbs]; simp)).facts
  obtain ⟨A', r, r', g1, g2, g3, g4, g5, g6, g7, g8, _⟩ := (hg l hlm).facts
  refine ⟨q, r', ?_, ?_, ?_, ?_, ?_⟩
  · unfold unpack
    rw [hbs, List.flatMap_cons, List.head?_append, f2, Option.some_or]
  · obtain ⟨init, hinit⟩ := List.getLast?_eq_some_iff.1 hl
    unfold unpack
    rw [hinit, List.flatMap_append, List.getLast?_append]
    simp [List.flatMap_cons, g3]
  · unfold endTime
    rw [hl]
    simp [lastSeg_ok g3, Except.map]
  · intro x hx
    have h1 : (active none states).head? = some (some A, b.stateB) := by
      rw [← hact, hbs, List.map_cons, List.head?_cons, f1]
    rw [f5]
    exact (active_first h1).2 rfl x hx
  · intro x hx
    have h1 : (active none states).getLast? = some (l.stateA, l.stateB) := by
      rw [← hact, List.getLast?_map, hl, Option.map_some]
    rw [g8]
    exact active_last h1 x hx

/-! ## C30 -/

theorem Spec.InUnit.scaling {u : String} {f : ℝ} (h : InUnit u f) : simScaling u = .ok f := by
  rcases h with ⟨rfl, rfl⟩ | ⟨rfl, rfl⟩ | ⟨rfl, rfl⟩ <;> (simp [simScaling]; try norm_num)

theorem endTime_path {bs : List (Block ℝ)} {T : ℝ} (h : endTime bs = .ok T) : EndTime (Spec.path bs) T := by
  unfold endTime at h
  cases hl : bs.getLast? with
  | none => rw [hl] at h; cases h
  | some b =>
    rw [hl] at h
    obtain ⟨l, rfl⟩ := List.getLast?_eq_some_iff.1 hl
    simp only [Block.lastSeg] at h
    cases hs : b.segments.getLast? with
    | none => rw [hs] at h; cases h
    | some s =>
      rw [hs] at h
      refine ⟨s, ?_, by simpa [Except.map] using h⟩
      rw [Spec.path, List.flatMap_append, List.flatMap_singleton, List.getLast?_append, hs]
      rfl

theorem endTime_iff (hreg : Regular states) (h : plan fw states = .ok bs) {T : ℝ} :
    endTime bs = .ok T ↔ EndTime (Spec.path bs) T := by
  by_cases hne : bs = []
  · subst hne
    simp [endTime, EndTime, Spec.path]
  · obtain ⟨s, s', _, h2, h3, _⟩ := unpack_ends hreg h hne
    rw [h3, Except.ok.injEq]
    constructor
    · exact fun e => ⟨s', h2, e⟩
    · rintro ⟨x, hx, e⟩
      rw [path_eq, h2, Option.some.injEq] at hx
      rw [hx, e]

theorem getValues_ok {path : List (Segment ℝ)} {own : String} {u : Option String} {t f : ℝ}
    {last : Option Nat} {s : Segment ℝ} {i : Nat} (hf : simScaling (u.getD own) = .ok f)
    (h : findSegment path t last = .ok (some (s, i))) :
    ∃ v p, s.getVelocity t = .ok v ∧ s.getPosition t = .ok p ∧
      getValues path own u t last = (.ok (v.mul f, p.mul f), some i) := by
  obtain ⟨_, hc⟩ := findSegment_sound h
  obtain ⟨v, hv⟩ := getVelocity_total hc
  obtain ⟨p, hp⟩ := getPosition_total hc
  refine ⟨v, p, hv, hp, ?_⟩
  unfold getValues
  rw [h]
  simp only [hv, hp, hf, bind, Except.bind]

/-- A value of `get_values` is read from a segment that contains the time. -/
theorem getValues_inv {path : List (Segment ℝ)} {own : String} {u : Option String} {t : ℝ}
    {last : Option Nat} {v p : Vec4 ℝ} (h : (getValues path own u t last).1 = .ok (v, p)) :
    ∃ s i f w q, findSegment path t last = .ok (some (s, i)) ∧ simScaling (u.getD own) = .ok f ∧
      s.getVelocity t = .ok w ∧ s.getPosition t = .ok q ∧ v = w.mul f ∧ p = q.mul f ∧
      (getValues path own u t last).2 = some i := by
  unfold getValues at h ⊢
  split at h
  · cases h
  · cases h
  · rename_i s i hs
    obtain ⟨_, hc⟩ := findSegment_sound hs
    obtain ⟨w, hw⟩ := getVelocity_total hc
    obtain ⟨q, hq⟩ := getPosition_total hc
    simp only [hw, hq, bind, Except.bind] at h
    cases hf : (simScaling (u.getD own) : Except PyErr ℝ) with
    | error e => rw [hf] at h; cases h
    | ok f =>
      rw [hf] at h
      simp only [Except.ok.injEq, Prod.mk.injEq] at h
      exact ⟨s, i, f, w, q, hs, rfl, hw, hq, h.1.symm, h.2.symm, rfl⟩

/-- Queries to a timeline. -/
theorem Spec.Timeline.answers (htl : Timeline (unpack bs)) {T : ℝ}
    (hT : EndTime (Spec.path bs) T) {own : String} {u : Option String} {f : ℝ}
    (hf : InUnit (u.getD own) f) (start : Option Nat) (history : List (ℝ × Option String)) (t : ℝ) :
    let last := queryHistory (unpack bs) own history start
    (0 ≤ t → t < T → ∃ s ∈ Spec.path bs, ∃ v p, Covers s t ∧ s.getVelocity t = .ok v ∧
      s.getPosition t = .ok p ∧ (getValues (unpack bs) own u t last).1 = .ok (v.mul f, p.mul f)) ∧
    (T < t → (getValues (unpack bs) own u t last).1 = .error .attributeError) ∧
    (t < 0 → (getValues (unpack bs) own u t last).1 = .error .typeError) := by
  replace hf := hf.scaling
  intro last
  simp only [path_eq] at *
  obtain ⟨s', h2, h3⟩ := hT
  have hsp := findSegment_spec htl (T := T) ⟨s', h2, h3⟩ t last
  refine ⟨fun h0 h1 => ?_, fun h0 => ?_, fun h0 => ?_⟩
  · obtain ⟨s, i, hs⟩ := hsp.2.2.1 h0 h1
    obtain ⟨hm, hc⟩ := findSegment_sound hs
    obtain ⟨v, p, hv, hp, hg⟩ := getValues_ok hf hs
    exact ⟨s, List.mem_of_getElem? hm, v, p, hc, hv, hp, by rw [hg]⟩
  · unfold getValues
    rw [hsp.1 h0]
  · unfold getValues
    rw [hsp.2.1 h0]

/-- **C30.** Whatever was asked before, `get_values` answers at every time from the start to before the end,
with what a segment containing that time reports; behind the end and before the start it raises. The index
`start` remembered before the history is arbitrary, as it may stem from before a `refresh`. -/
theorem c30_answers (hreg : Regular states) (h : plan fw states = .ok bs) {T : ℝ}
    (hT : EndTime (Spec.path bs) T) {own : String} {u : Option String} {f : ℝ}
    (hf : InUnit (u.getD own) f) (start : Option Nat) (history : List (ℝ × Option String)) (t : ℝ) :
    let last := queryHistory (unpack bs) own history start
    (0 ≤ t → t < T → ∃ s ∈ Spec.path bs, ∃ v p, Covers s t ∧ s.getVelocity t = .ok v ∧
      s.getPosition t = .ok p ∧ (getValues (unpack bs) own u t last).1 = .ok (v.mul f, p.mul f)) ∧
    (T < t → (getValues (unpack bs) own u t last).1 = .error .attributeError) ∧
    (t < 0 → (getValues (unpack bs) own u t last).1 = .error .typeError) :=
  (plan_timeline hreg h).answers hT hf start history t

/-! ## C31 -/

/-- Queries to a timeline after different histories. -/
theorem Spec.Timeline.history (htl : Timeline (unpack bs)) {own : String}
    {u : Option String} (start start' : Option Nat) (history history' : List (ℝ × Option String)) (t : ℝ)
    {v p v' p' : Vec4 ℝ}
    (h1 : (getValues (unpack bs) own u t (queryHistory (unpack bs) own history start)).1 = .ok (v, p))
    (h2 : (getValues (unpack bs) own u t (queryHistory (unpack bs) own history' start')).1 = .ok (v', p')) :
    p = p' ∧ ((∀ s ∈ Spec.path bs, s.tEnd ≠ t) → v = v') := by
  simp only [path_eq] at *
  have hpart := htl.part
  obtain ⟨s, i, f, w, q, a1, a2, a3, a4, a5, a6, _⟩ := getValues_inv h1
  obtain ⟨s', i', f', w', q', b1, b2, b3, b4, b5, b6, _⟩ := getValues_inv h2
  rw [a2, Except.ok.injEq] at b2
  subst b2
  obtain ⟨c1, c2⟩ := findSegment_sound a1
  obtain ⟨d1, d2⟩ := findSegment_sound b1
  have m1 := List.mem_of_getElem? c1
  have m2 := List.mem_of_getElem? d1
  constructor
  · have := hpart.position_unique s m1 s' m2 c2 d2
    rw [a4, b4, Except.ok.injEq] at this
    rw [a6, b6, this]
  · intro hb
    have := hpart.cover_unique hb s m1 s' m2 c2 d2
    subst this
    rw [a3, Except.ok.injEq] at b3
    rw [a5, b5, b3]

/-- **C31.** Two sessions with different query histories get the same position for the same time, and the
same velocity unless the time is exactly the end of a segment. -/
theorem c31_history (hreg : Regular states) (h : plan fw states = .ok bs) {own : String}
    {u : Option String} (start start' : Option Nat) (history history' : List (ℝ × Option String)) (t : ℝ)
    {v p v' p' : Vec4 ℝ}
    (h1 : (getValues (unpack bs) own u t (queryHistory (unpack bs) own history start)).1 = .ok (v, p))
    (h2 : (getValues (unpack bs) own u t (queryHistory (unpack bs) own history' start')).1 = .ok (v', p')) :
    p = p' ∧ ((∀ s ∈ Spec.path bs, s.tEnd ≠ t) → v = v') :=
  (plan_timeline hreg h).history start start' history history' t h1 h2

/-! ## C32 -/

/-- C32 as wanted: whatever was asked before, the end time can be queried and gives the final position. -/
def C32Full : Prop :=
  ∀ (fw : Firmware) (states : List (PState ℝ)) (bs : List (Block ℝ)) (T : ℝ), Regular states →
    plan fw states = .ok bs → EndTime (Spec.path bs) T →
    ∀ (history : List (ℝ × Option String)), ∃ v p,
      (getValues (unpack bs) "SImm" none T (queryHistory (unpack bs) "SImm" history none)).1 = .ok (v, p) ∧
      ∀ q ∈ states.getLast?, p = q.position

/-- Asking a timeline for its end time. -/
theorem Spec.Timeline.at_end (htl : Timeline (unpack bs)) {T : ℝ}
    (hT : EndTime (Spec.path bs) T) {own : String} {u : Option String} {f : ℝ}
    (hf : InUnit (u.getD own) f) (last : Option Nat) :
    ((∃ i, last = some i ∧ i < (Spec.path bs).length) →
      ∃ v p, (getValues (unpack bs) own u T last).1 = .ok (v, p) ∧
        ∀ s ∈ (Spec.path bs).getLast?, p = s.posEnd.mul f) ∧
    ((¬ ∃ i, last = some i ∧ i < (Spec.path bs).length) →
      (getValues (unpack bs) own u T last).1 = .error .typeError) := by
  replace hf := hf.scaling
  simp only [path_eq] at *
  obtain ⟨s', h2, h3⟩ := hT
  have hsp := findSegment_spec htl (T := T) ⟨s', h2, h3⟩ T last
  constructor
  · intro hi
    obtain ⟨x, i, hx⟩ := hsp.2.2.2.1 rfl hi
    obtain ⟨hm, hc⟩ := findSegment_sound hx
    obtain ⟨v, p, hv, hp, hg⟩ := getValues_ok hf hx
    refine ⟨_, _, by rw [hg], ?_⟩
    intro q hq
    rw [h2] at hq
    cases hq
    have hm' := List.mem_of_getLast? h2
    have hd' := htl.duration s' hm'
    have hcov : Covers s' T := ⟨by rw [← h3]; exact hd', h3.ge⟩
    have := htl.part.position_unique x (List.mem_of_getElem? hm) s' hm' hc hcov
    rw [hp, ← h3, getPosition_end (htl.kinematic s' hm') hd', Except.ok.injEq] at this
    rw [this]
  · intro hi
    unfold getValues
    rw [hsp.2.2.2.2 rfl hi]

/-- The exact law: the end time can be queried iff some segment index is remembered, and then the answer is
the final position; otherwise it raises. -/
theorem c32_end_law (hreg : Regular states) (h : plan fw states = .ok bs) {T : ℝ}
    (hT : EndTime (Spec.path bs) T) {own : String} {u : Option String} {f : ℝ}
    (hf : InUnit (u.getD own) f) (last : Option Nat) :
    ((∃ i, last = some i ∧ i < (Spec.path bs).length) →
      ∃ v p, (getValues (unpack bs) own u T last).1 = .ok (v, p) ∧
        ∀ q ∈ states.getLast?, p = q.position.mul f) ∧
    ((¬ ∃ i, last = some i ∧ i < (Spec.path bs).length) →
      (getValues (unpack bs) own u T last).1 = .error .typeError) := by
  have hne : bs ≠ [] := by
    rintro rfl
    obtain ⟨s, hs, _⟩ := hT
    cases hs
  obtain ⟨s, s', _, h2, _, _, h4⟩ := unpack_ends hreg h hne
  obtain ⟨q1, q2⟩ := (plan_timeline hreg h).at_end hT hf last
  refine ⟨fun hi => ?_, q2⟩
  obtain ⟨v, p, r1, r2⟩ := q1 hi
  refine ⟨v, p, r1, fun q hq => ?_⟩
  rw [r2 s' h2, h4 q hq]

/-- C32 is false of the code: a fresh simulation cannot be asked for its end time. -/
theorem c32_refuted : ¬ C32Full := by
  intro hfull
  obtain ⟨_, bs, _, _, h, _⟩ := c26_correction_total .marlinJd Demo.regular
  have hne : bs ≠ [] := by
    rintro rfl
    have := c28_blocks Demo.regular h
    rw [Demo.active_prog] at this
    cases this
  obtain ⟨s, s', _, h2, h3, _⟩ := unpack_ends Demo.regular h hne
  replace h3 := (endTime_iff Demo.regular h).1 h3
  obtain ⟨v, p, hv, _⟩ := hfull .marlinJd Demo.prog bs s'.tEnd Demo.regular h h3 []
  have := (c32_end_law Demo.regular h h3 (own := "SImm") (u := none) (f := 1) (by simp [InUnit])
    none).2 (by simp)
  simp only [queryHistory, List.foldl_nil] at hv
  rw [this] at hv
  cases hv

/-- The remembered index is always one of the path. -/
theorem queryHistory_valid {path : List (Segment ℝ)} {own : String} (history : List (ℝ × Option String)) :
    ∀ last : Option Nat, (∀ i, last = some i → i < path.length) →
      ∀ i, queryHistory path own history last = some i → i < path.length := by
  induction history with
  | nil => exact fun last h => h
  | cons q history ih =>
    intro last h
    refine ih _ ?_
    intro i hi
    simp only [getValues] at hi
    split at hi
    · exact h i hi
    · cases hi
    · rename_i s j hs
      simp only [Option.some.injEq] at hi
      subst hi
      exact (List.getElem?_eq_some_iff.1 (findSegment_sound hs).1).1

/-- **C32, directly after a query inside the print.** What is missing is the query without such a predecessor,
for which it is false (`c32_refuted`). -/
theorem c32_after_query_partial (hreg : Regular states) (h : plan fw states = .ok bs) {T : ℝ}
    (hT : EndTime (Spec.path bs) T) {own : String} {u u' : Option String} {f f' : ℝ}
    (hf : InUnit (u.getD own) f) (hf' : InUnit (u'.getD own) f')
    (history : List (ℝ × Option String)) {t : ℝ} (h0 : 0 ≤ t) (h1 : t < T) :
    ∃ v p, (getValues (unpack bs) own u T
        (queryHistory (unpack bs) own (history ++ [(t, u')]) none)).1 = .ok (v, p) ∧
      ∀ q ∈ states.getLast?, p = q.position.mul f := by
  refine (c32_end_law hreg h hT hf _).1 ?_
  replace hT := (endTime_iff hreg h).2 hT
  replace hf' := hf'.scaling
  replace hf := hf.scaling
  simp only [path_eq]
  have hne : bs ≠ [] := by
    rintro rfl
    cases hT
  obtain ⟨s, s', _, h2, h3, _⟩ := unpack_ends hreg h hne
  rw [hT, Except.ok.injEq] at h3
  have hsp := findSegment_spec (plan_timeline hreg h) (T := T) ⟨s', h2, h3.symm⟩ t
    (queryHistory (unpack bs) own history none)
  obtain ⟨x, i, hx⟩ := hsp.2.2.1 h0 h1
  obtain ⟨_, _, _, _, hg⟩ := getValues_ok hf' hx
  refine ⟨i, ?_, (List.getElem?_eq_some_iff.1 (findSegment_sound hx).1).1⟩
  unfold queryHistory at hg ⊢
  rw [List.foldl_append]
  simp only [List.foldl_cons, List.foldl_nil, hg]

/-! ## C33 -/

/-- Position and velocity in a segment of a timeline. -/
theorem Spec.Timeline.derivative (htl : Timeline (unpack bs)) {s : Segment ℝ}
    (hs : s ∈ unpack bs) :
    ∃ pos vel : ℝ → Vec4 ℝ,
      (∀ t, Covers s t → s.getPosition t = .ok (pos t) ∧ s.getVelocity t = .ok (vel t)) ∧
      pos s.tBegin = s.posBegin ∧ pos s.tEnd = s.posEnd ∧
      vel s.tBegin = s.velBegin ∧ (s.tBegin < s.tEnd → vel s.tEnd = s.velEnd) ∧
      ∀ t, HasDerivAt (fun t => (pos t).x) (vel t).x t ∧ HasDerivAt (fun t => (pos t).y) (vel t).y t ∧
        HasDerivAt (fun t => (pos t).z) (vel t).z t ∧ HasDerivAt (fun t => (pos t).e) (vel t).e t := by
  have hd := htl.duration s hs
  have hk := htl.kinematic s hs
  let k : Vec4 ℝ := if 0 < s.tEnd - s.tBegin then (s.velEnd.sub s.velBegin).div (s.tEnd - s.tBegin) else Vec4.zero
  let vel : ℝ → Vec4 ℝ := fun t => s.velBegin.add (k.mul (t - s.tBegin))
  let pos : ℝ → Vec4 ℝ := fun t => s.posBegin.add (((s.velBegin.add (vel t)).mul (t - s.tBegin)).div 2)
  have hval : ∀ t, Covers s t → s.getPosition t = .ok (pos t) ∧ s.getVelocity t = .ok (vel t) := by
    intro t ht
    have hv : s.getVelocity t = .ok (vel t) := by
      unfold Segment.getVelocity
      rw [if_neg (by push Not; exact ht)]
    refine ⟨?_, hv⟩
    unfold Segment.getPosition
    rw [if_neg (by push Not; exact ht), hv]
    rfl
  have hder : ∀ (p v a t : ℝ), HasDerivAt
      (fun t => p + (v + (v + a * (t - s.tBegin))) * (t - s.tBegin) / 2) (v + a * (t - s.tBegin)) t := by
    intro p v a t
    have e : (fun t => p + (v + (v + a * (t - s.tBegin))) * (t - s.tBegin) / 2) =
        fun t => p + (v * (t - s.tBegin) + a / 2 * (t - s.tBegin) ^ 2) := by
      funext t
      ring
    rw [e]
    have h1 : HasDerivAt (fun t : ℝ => t - s.tBegin) 1 t := (hasDerivAt_id t).sub_const _
    have h2 : HasDerivAt (fun t : ℝ => v * (t - s.tBegin)) (v * 1) t := h1.const_mul v
    have h3 : HasDerivAt (fun t : ℝ => a / 2 * (t - s.tBegin) ^ 2)
        (a / 2 * ((2 : ℕ) * (t - s.tBegin) ^ (2 - 1) * 1)) t := (h1.pow 2).const_mul (a / 2)
    have h4 : HasDerivAt (fun t : ℝ => p + (v * (t - s.tBegin) + a / 2 * (t - s.tBegin) ^ 2))
        (v * 1 + a / 2 * ((2 : ℕ) * (t - s.tBegin) ^ (2 - 1) * 1)) t :=
      (hasDerivAt_const_add_iff p).2 (HasDerivAt.add h2 h3)
    have e2 : v * 1 + a / 2 * ((2 : ℕ) * (t - s.tBegin) ^ (2 - 1) * 1) = v + a * (t - s.tBegin) := by
      simp
      ring
    rw [e2] at h4
    exact h4
  refine ⟨pos, vel, hval, ?_, ?_, ?_, ?_, ?_⟩
  · have := (hval s.tBegin ⟨le_refl _, hd⟩).1
    rw [getPosition_begin hd, Except.ok.injEq] at this
    exact this.symm
  · have := (hval s.tEnd ⟨hd, le_refl _⟩).1
    rw [getPosition_end hk hd, Except.ok.injEq] at this
    exact this.symm
  · simp only [vel, sub_self, Vec4.mul_zero, Vec4.add_zero]
  · intro h0
    have hp := sub_pos.2 h0
    simp only [vel, k, if_pos hp]
    have := hp.ne'
    ext <;> simp only [Vec4.add, Vec4.mul, Vec4.div, Vec4.sub] <;> field_simp <;> ring
  · intro t
    exact ⟨hder _ _ _ t, hder _ _ _ t, hder _ _ _ t, hder _ _ _ t⟩

/-- **C33.** In every segment of the path the reported position is a differentiable curve from the begin to
the end position, and its derivative is the reported velocity, in all four coordinates. -/
theorem c33_derivative (hreg : Regular states) (h : plan fw states = .ok bs) {s : Segment ℝ}
    (hs : s ∈ unpack bs) :
    ∃ pos vel : ℝ → Vec4 ℝ,
      (∀ t, Covers s t → s.getPosition t = .ok (pos t) ∧ s.getVelocity t = .ok (vel t)) ∧
      pos s.tBegin = s.posBegin ∧ pos s.tEnd = s.posEnd ∧
      vel s.tBegin = s.velBegin ∧ (s.tBegin < s.tEnd → vel s.tEnd = s.velEnd) ∧
      ∀ t, HasDerivAt (fun t => (pos t).x) (vel t).x t ∧ HasDerivAt (fun t => (pos t).y) (vel t).y t ∧
        HasDerivAt (fun t => (pos t).z) (vel t).z t ∧ HasDerivAt (fun t => (pos t).e) (vel t).e t :=
  (plan_timeline hreg h).derivative hs

/-! ## C34, the queries -/

/-- The factor of a unit system is positive. -/
theorem simScaling_pos {u : String} {f : ℝ} (h : simScaling u = .ok f) : 0 < f := by
  unfold simScaling at h
  split at h
  · cases h; norm_num
  · split at h
    · cases h; norm_num
    · split at h
      · cases h; norm_num
      · cases h

/-- **C34, scaling of queries.** An answer in unit system `u` is the millimetre answer times the factor of
`u`, which depends on the name of the unit system only. -/
theorem c34_scaled_answers {path : List (Segment ℝ)} {own u : String} {f t : ℝ} {last : Option Nat}
    (hf : InUnit u f) :
    (getValues path own (some u) t last).1 =
      ((getValues path own (some "SImm") t last).1).map fun vp => (vp.1.mul f, vp.2.mul f) := by
  replace hf := hf.scaling
  unfold getValues
  cases findSegment path t last with
  | error e => rfl
  | ok r =>
    cases r with
    | none => rfl
    | some si =>
      obtain ⟨s, i⟩ := si
      have h1 : (simScaling "SImm" : Except PyErr ℝ) = .ok 1 := by simp [simScaling]
      simp only [Option.getD_some, hf, h1, bind, Except.bind]
      cases s.getVelocity t with
      | error e => rfl
      | ok v =>
        cases s.getPosition t with
        | error e => rfl
        | ok p => simp only [Except.map, Vec4.mul_one]

/-! ## C35 -/

/-- **C35.** While the travel speed is positive, width times height times speed is the filament cross-section
times the extrusion rate (rate and speed both in millimetres, whatever the simulation's unit system is); at
standstill the width is `0`. -/
theorem c35_width {path : List (Segment ℝ)} {own : String} {t hgt dia : ℝ} {last : Option Nat} {w : ℝ}
    (hh : hgt ≠ 0) (h : (getWidth path own t hgt dia last).1 = .ok w) :
    ∃ v p, (getValues path own (some "SImm") t last).1 = .ok (v, p) ∧
      (0 < v.norm3 → w * hgt * v.norm3 = Real.pi * dia ^ 2 / 4 * v.e) ∧ (v.norm3 = 0 → w = 0) := by
  unfold getWidth at h
  cases hg : (getValues path own none t last).1 with
  | error e =>
    simp only [hg] at h
    cases h
  | ok vp =>
    simp only [hg, Except.map, Except.ok.injEq] at h
    obtain ⟨s, i, f, v, p, a1, a2, a3, a4, a5, a6, _⟩ := getValues_inv (v := vp.1) (p := vp.2) (by rw [hg])
    have hfp := simScaling_pos a2
    have h1 : (simScaling ((some "SImm" : Option String).getD own) : Except PyErr ℝ) = .ok 1 := by
      simp [simScaling]
    obtain ⟨v', p', b1, b2, b3⟩ := getValues_ok h1 a1
    rw [a3, Except.ok.injEq] at b1
    rw [a4, Except.ok.injEq] at b2
    subst b1 b2
    rw [Vec4.mul_one, Vec4.mul_one] at b3
    refine ⟨v, p, by rw [b3], ?_, ?_⟩
    · intro hv
      rw [a5, norm3_mul, abs_of_pos hfp, if_pos (mul_pos hv hfp)] at h
      rw [← h]
      simp only [Vec4.mul, pi_real]
      have := hv.ne'
      field_simp
    · intro hv
      rw [a5, norm3_mul, hv, MulZeroClass.zero_mul, if_neg (lt_irrefl _)] at h
      exact h.symm

/-! ## The end time is positive; the demo program can be queried -/

theorem endTime_pos (hreg : Regular states) (h : plan fw states = .ok bs) {T : ℝ} (hT : endTime bs = .ok T) :
    0 < T := by
  have hne : bs ≠ [] := by
    rintro rfl
    cases hT
  obtain ⟨s, s', h1, h2, h3, _⟩ := unpack_ends hreg h hne
  rw [hT, Except.ok.injEq] at h3
  obtain ⟨b, tl, rfl⟩ := List.exists_cons_of_ne_nil hne
  have htl := plan_timeline hreg h
  have hmem : ∃ x, x ∈ b.segments := by
    obtain ⟨A, x, _, _, hx, _⟩ := c20_targets hreg h (b := b) (by simp)
    exact ⟨x, List.mem_of_head? hx⟩
  obtain ⟨x, hx⟩ := hmem
  have hpos := (c23_timeline hreg h).2.2.2 b (by simp) ((plan_ok hreg h).2.2.1 b rfl).2.2 x hx
  have hxu : x ∈ unpack (b :: tl) := List.mem_flatMap.2 ⟨b, by simp, hx⟩
  have h0 := htl.nonneg x hxu
  cases hu : unpack (b :: tl) with
  | nil => rw [hu] at h1; cases h1
  | cons y ys =>
    have hp := htl.part
    rw [hu] at hp h2 hxu
    have := hp.le_last h2 x hxu
    linarith

/-- At time 0 the simulation is at the position of the first state, whatever was asked before. -/
theorem answer_at_zero (hreg : Regular states) (h : plan fw states = .ok bs) (hne : bs ≠ []) {q : PState ℝ}
    (hq : states.head? = some q) {own : String} {u : Option String} {f : ℝ}
    (hf : InUnit (u.getD own) f) (start : Option Nat) (history : List (ℝ × Option String)) :
    ∃ v, (getValues (unpack bs) own u 0 (queryHistory (unpack bs) own history start)).1 =
      .ok (v, q.position.mul f) := by
  obtain ⟨s, s', h1, h2, h3, h4, _⟩ := unpack_ends hreg h hne
  have htl := plan_timeline hreg h
  have hm := List.mem_of_head? h1
  obtain ⟨x, hx, v, p, hc, hv, hp, hg⟩ := (c30_answers hreg h ((endTime_iff hreg h).1 h3) hf start history 0).1 (le_refl _)
    (endTime_pos hreg h h3)
  have h0 := htl.start s h1
  have := htl.part.position_unique x hx s hm hc ⟨h0.le, by rw [← h0]; exact htl.duration s hm⟩
  rw [hp, ← h0, getPosition_begin (htl.duration s hm), h4 q hq, Except.ok.injEq] at this
  exact ⟨_, by rw [hg, this]⟩

theorem Demo.end_time (fw : Firmware) : ∃ bs T, plan fw Demo.prog = .ok bs ∧
    EndTime (Spec.path bs) T ∧ 0 < T := by
  obtain ⟨_, bs, _, _, h, _⟩ := c26_correction_total fw Demo.regular
  have h28 := c28_blocks Demo.regular h
  rw [Demo.active_prog] at h28
  have hne : bs ≠ [] := by
    rintro rfl
    cases h28
  obtain ⟨s, s', h1, h2, h3, _⟩ := unpack_ends Demo.regular h hne
  exact ⟨bs, s'.tEnd, h, (endTime_iff Demo.regular h).1 h3, endTime_pos Demo.regular h h3⟩

/-- At time 0 the demo program is at the origin, whatever was asked before. -/
example (fw : Firmware) (history : List (ℝ × Option String)) : ∃ bs v, plan fw Demo.prog = .ok bs ∧
    (getValues (unpack bs) "SI" none 0 (queryHistory (unpack bs) "SI" history none)).1 =
      .ok (v, (⟨0, 0, 0, 0⟩ : Vec4 ℝ)) := by
  obtain ⟨bs, T, h, hT, hpos⟩ := Demo.end_time fw
  have hne : bs ≠ [] := by
    rintro rfl
    obtain ⟨_, hc, _⟩ := hT
    cases hc
  obtain ⟨v, hv⟩ := answer_at_zero Demo.regular h hne (q := Demo.s0) rfl (own := "SI") (u := none)
    (f := 1 / 1000) (by simp [InUnit]) none history
  exact ⟨bs, v, h, by rw [hv]; congr 2; simp [Demo.s0, Vec4.mul]⟩

/-- C35 applies to the demo program at every time before its end. -/
example (fw : Firmware) {t : ℝ} : ∃ bs T, plan fw Demo.prog = .ok bs ∧ EndTime (Spec.path bs) T ∧ 0 < T ∧
    (0 ≤ t → t < T → ∃ w, (getWidth (unpack bs) "inch" t 0.2 1.75 none).1 = .ok w) := by
  obtain ⟨bs, T, h, hT, hpos⟩ := Demo.end_time fw
  refine ⟨bs, T, h, hT, hpos, fun h0 h1 => ?_⟩
  obtain ⟨x, hx, v, p, hc, hv, hp, hg⟩ := (c30_answers Demo.regular h hT (own := "inch") (u := none)
    (f := 1 / 25.4) (by simp [InUnit]) none [] t).1 h0 h1
  simp only [queryHistory, List.foldl_nil] at hg
  simp only [getWidth, hg, Except.map]
  exact ⟨_, rfl⟩

end PyGCD
