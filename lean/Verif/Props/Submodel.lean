import Verif.Props.InverseTime
import Verif.Spec.Outputs

/-!
# Properties C43 and C44: submodel crossing times and the 3D plot
-/

set_option linter.unusedSectionVars false
set_option linter.unusedSimpArgs false

namespace PyGCD
open Vec4 Spec

variable {fw : Firmware} {states : List (PState ℝ)} {bs : List (Block ℝ)}

/-! ## C43: geometry -/

theorem inBox_iff (c : Box ℝ) (p : Vec4 ℝ) :
    InBox c.orig c.side p ↔ ∀ i, c.lo i ≤ axisOf i p ∧ axisOf i p ≤ c.hi i := by
  constructor
  · rintro ⟨h1, h2, h3⟩ i
    fin_cases i
    · exact h1
    · exact h2
    · exact h3
  · intro h
    exact ⟨h 0, h 1, h 2⟩

theorem pointInside_iff (c : Box ℝ) (p : Vec4 ℝ) : pointInside c p = true ↔ InBox c.orig c.side p := by
  rw [inBox_iff]
  simp only [pointInside, axes3, List.all_cons, List.all_nil, Bool.and_true, pointEval, Bool.and_eq_true,
    decide_eq_true_eq]
  constructor
  · rintro ⟨h0, h1, h2⟩ i
    fin_cases i
    · exact h0.symm
    · exact h1.symm
    · exact h2.symm
  · intro h
    exact ⟨(h 0).symm, (h 1).symm, (h 2).symm⟩

/-- Coordinate of a point of the line along an axis. -/
theorem axisOf_line (A B : Vec4 ℝ) (c : ℝ) (i : Fin 3) :
    axisOf i (A.add ((B.sub A).mul c)) = axisOf i A + (axisOf i B - axisOf i A) * c := by
  fin_cases i <;> rfl

theorem crossing_iff (c : Box ℝ) (A B : Vec4 ℝ) (f : ℝ) (e : Bool) :
    Crossing c.orig c.side A B f e ↔ 0 ≤ f ∧ f ≤ 1 ∧ InBox c.orig c.side (A.add ((B.sub A).mul f)) ∧
      ∃ i : Fin 3, 1e-6 < |axisOf i B - axisOf i A| ∧
        ((axisOf i A + (axisOf i B - axisOf i A) * f = c.hi i ∧ (e = true ↔ axisOf i B < axisOf i A)) ∨
          (axisOf i A + (axisOf i B - axisOf i A) * f = c.lo i ∧ (e = true ↔ axisOf i A < axisOf i B))) := by
  unfold Crossing OnFace
  constructor
  · rintro ⟨h1, h2, h3, h | h | h⟩
    · exact ⟨h1, h2, h3, 0, h⟩
    · exact ⟨h1, h2, h3, 1, h⟩
    · exact ⟨h1, h2, h3, 2, h⟩
  · rintro ⟨h1, h2, h3, i, h⟩
    refine ⟨h1, h2, h3, ?_⟩
    fin_cases i
    · exact Or.inl h
    · exact Or.inr (Or.inl h)
    · exact Or.inr (Or.inr h)

/-- What `isect_line_plane` finds. -/
theorem isectLinePlane_iff (A B : Vec4 ℝ) (pl : Fin 3 × Bool) (at_ : ℝ) (q : Vec4 ℝ) (d : ℝ) (e : Bool) :
    isectLinePlane A B pl at_ = some (q, d, e) ↔ ∃ f, 0 ≤ f ∧ f ≤ 1 ∧
      1e-6 < |axisOf pl.1 B - axisOf pl.1 A| ∧ axisOf pl.1 A + (axisOf pl.1 B - axisOf pl.1 A) * f = at_ ∧
      (e = true ↔ if pl.2 then axisOf pl.1 B < axisOf pl.1 A else axisOf pl.1 A < axisOf pl.1 B) ∧
      q = ⟨A.x + (B.x - A.x) * f, A.y + (B.y - A.y) * f, A.z + (B.z - A.z) * f, 0⟩ ∧
      d = ((B.sub A).mul f).norm3 := by
  have hu : axisOf pl.1 (⟨B.x - A.x, B.y - A.y, B.z - A.z, 0⟩ : Vec4 ℝ) = axisOf pl.1 B - axisOf pl.1 A := by
    generalize pl.1 = i
    fin_cases i <;> rfl
  have hn : ∀ f : ℝ, ((⟨B.x - A.x, B.y - A.y, B.z - A.z, 0⟩ : Vec4 ℝ).mul f).norm3 =
      ((B.sub A).mul f).norm3 := fun f => rfl
  unfold isectLinePlane
  simp only [hu, pyAbs_real]
  generalize hD : axisOf pl.1 B - axisOf pl.1 A = D at *
  have habs : |(if pl.2 = true then D else -D)| = |D| := by split <;> simp
  rw [habs]
  by_cases h1 : (1e-6 : ℝ) < |D|
  · rw [if_pos h1]
    have hD0 : D ≠ 0 := by
      intro h
      rw [h, abs_zero] at h1
      norm_num at h1
    have hfac : -(if pl.2 = true then axisOf pl.1 A - at_ else -(axisOf pl.1 A - at_)) /
        (if pl.2 = true then D else -D) = (at_ - axisOf pl.1 A) / D := by
      split
      · rw [neg_sub]
      · rw [neg_neg, div_neg, ← neg_div, neg_sub]
    have hsol : ∀ f, axisOf pl.1 A + D * f = at_ ↔ f = (at_ - axisOf pl.1 A) / D := by
      intro f
      rw [eq_div_iff hD0]
      constructor <;> intro h <;> linarith
    have hsgn : ((if pl.2 = true then D else -D) < 0) ↔
        (if pl.2 = true then axisOf pl.1 B < axisOf pl.1 A else axisOf pl.1 A < axisOf pl.1 B) := by
      split <;> rw [← hD] <;> constructor <;> intro h <;> linarith
    simp only [hfac]
    by_cases h2 : 0 ≤ (at_ - axisOf pl.1 A) / D ∧ (at_ - axisOf pl.1 A) / D ≤ 1
    · rw [if_pos h2]
      simp only [Option.some.injEq, Prod.mk.injEq]
      constructor
      · rintro ⟨rfl, rfl, rfl⟩
        refine ⟨_, h2.1, h2.2, h1, (hsol _).2 rfl, ?_, rfl, rfl⟩
        rw [decide_eq_true_iff]
        exact hsgn
      · rintro ⟨f, _, _, _, h3, h4, rfl, rfl⟩
        rw [hsol] at h3
        subst h3
        refine ⟨rfl, rfl, ?_⟩
        rw [← hsgn] at h4
        cases e
        · rw [decide_eq_false_iff_not]
          intro h
          exact absurd (h4.2 h) (by simp)
        · rw [decide_eq_true_iff]
          exact h4.1 rfl
    · rw [if_neg h2]
      simp only [reduceCtorEq, false_iff]
      rintro ⟨f, h3, h4, _, h5, _⟩
      rw [hsol] at h5
      subst h5
      exact h2 ⟨h3, h4⟩
  · rw [if_neg h1]
    simp only [reduceCtorEq, false_iff]
    rintro ⟨f, _, _, h3, _⟩
    exact h1 h3

/-- A line with a point in the box passes the preliminary test unless both its ends are in the box. -/
theorem intersectPossible_iff (c : Box ℝ) (A B : Vec4 ℝ) {f : ℝ} (h0 : 0 ≤ f) (h1 : f ≤ 1)
    (hin : InBox c.orig c.side (A.add ((B.sub A).mul f))) :
    intersectPossible c A B = true ↔ ¬ (InBox c.orig c.side A ∧ InBox c.orig c.side B) := by
  rw [inBox_iff] at hin
  have key : ∀ i, pointEval c A i = pointEval c B i → pointEval c A i = (true, true) := by
    intro i hi
    have h2 := hin i
    rw [axisOf_line] at h2
    simp only [pointEval, Prod.mk.injEq, decide_eq_decide, decide_eq_true_eq] at hi ⊢
    obtain ⟨e1, e2⟩ := hi
    constructor
    · by_contra hc
      have hc' := mt e1.2 hc
      push Not at hc hc'
      nlinarith [mul_nonneg h0 (sub_nonneg.2 hc'.le), mul_nonneg (sub_nonneg.2 h1) (sub_nonneg.2 hc.le)]
    · by_contra hc
      have hc' := mt e2.2 hc
      push Not at hc hc'
      nlinarith [mul_nonneg h0 (sub_nonneg.2 hc'.le), mul_nonneg (sub_nonneg.2 h1) (sub_nonneg.2 hc.le)]
  have hloop : ∀ (is : List (Fin 3)) (acc : Bool), intersectLoop c A B acc is = true ↔
      acc = true ∨ ∃ i ∈ is, pointEval c A i ≠ pointEval c B i := by
    intro is
    induction is with
    | nil => intro acc; simp [intersectLoop]
    | cons i is ih =>
      intro acc
      unfold intersectLoop
      by_cases hne : pointEval c A i ≠ pointEval c B i
      · rw [if_pos hne, ih]
        simp [hne]
      · rw [if_neg hne]
        push Not at hne
        rw [if_pos (key i hne), ih]
        simp [hne]
  unfold intersectPossible
  rw [hloop]
  have heval : ∀ (p : Vec4 ℝ), InBox c.orig c.side p ↔ ∀ i, pointEval c p i = (true, true) := by
    intro p
    rw [inBox_iff]
    simp only [pointEval, Prod.mk.injEq, decide_eq_true_eq]
    exact ⟨fun h i => ⟨(h i).2, (h i).1⟩, fun h i => ⟨(h i).2, (h i).1⟩⟩
  rw [heval, heval]
  constructor
  · rintro (h | ⟨i, _, hi⟩)
    · cases h
    · rintro ⟨hA, hB⟩
      exact hi (by rw [hA, hB])
  · intro h
    right
    by_contra hc
    push Not at hc
    have hall : ∀ i, pointEval c A i = pointEval c B i := by
      intro i
      apply hc
      fin_cases i <;> simp [axes3]
    exact h ⟨fun i => key i (hall i), fun i => by rw [← hall i]; exact key i (hall i)⟩

/-- A line that passes the preliminary test does not have both ends in the box. -/
theorem intersectPossible_not_inside (c : Box ℝ) (A B : Vec4 ℝ) (h : intersectPossible c A B = true) :
    ¬ (InBox c.orig c.side A ∧ InBox c.orig c.side B) := by
  rintro ⟨hA, hB⟩
  have : A.add ((B.sub A).mul 0) = A := by rw [Vec4.mul_zero, Vec4.add_zero]
  exact (intersectPossible_iff c A B (le_refl 0) zero_le_one (by rw [this]; exact hA)).1 h ⟨hA, hB⟩

/-! ## C43: the timetable -/

theorem blockCrossings_mem (c : Box ℝ) (b : Block ℝ) (A : PState ℝ) : ∀ (pls : List (Fin 3 × Bool))
    (l : List (ℝ × Bool)), blockCrossings c b A pls = .ok l → ∀ t e, (t, e) ∈ l ↔
      ∃ pl ∈ pls, ∃ q d, isectLinePlane A.position b.stateB.position pl (c.planeAt pl) = some (q, d, e) ∧
        pointInside c q = true ∧ b.inverseTimeAtPos d = .ok t := by
  intro pls
  induction pls with
  | nil =>
    intro l h t e
    simp only [blockCrossings, Except.ok.injEq] at h
    subst h
    simp
  | cons pl pls ih =>
    intro l h t e
    unfold blockCrossings at h
    cases hi : isectLinePlane A.position b.stateB.position pl (c.planeAt pl) with
    | none =>
      rw [hi] at h
      simp only at h
      rw [ih l h]
      simp [hi]
    | some r =>
      obtain ⟨q, d, e'⟩ := r
      rw [hi] at h
      simp only at h
      split at h
      · rename_i hin
        cases ht : b.inverseTimeAtPos d with
        | error x => rw [ht] at h; cases h
        | ok t' =>
          cases hr : blockCrossings c b A pls with
          | error x => rw [ht, hr] at h; cases h
          | ok rest =>
            rw [ht, hr] at h
            simp only [bind, Except.bind, Except.ok.injEq] at h
            subst h
            simp only [List.mem_cons, Prod.mk.injEq, exists_eq_or_imp, hi, Option.some.injEq, ih rest hr]
            constructor
            · rintro (⟨rfl, rfl⟩ | h)
              · exact Or.inl ⟨q, d, ⟨rfl, rfl, rfl⟩, hin, ht⟩
              · exact Or.inr h
            · rintro (⟨q', d', ⟨rfl, rfl, rfl⟩, _, h⟩ | h)
              · rw [ht, Except.ok.injEq] at h
                exact Or.inl ⟨h.symm, rfl⟩
              · exact Or.inr h
      · rename_i hin
        rw [ih l h]
        simp only [List.mem_cons, exists_eq_or_imp, hi, Option.some.injEq, Prod.mk.injEq]
        constructor
        · exact Or.inr
        · rintro (⟨q', d', ⟨rfl, rfl, rfl⟩, h, _⟩ | h)
          · exact absurd h hin
          · exact h

theorem timetable_mem (c : Box ℝ) : ∀ (bs : List (Block ℝ)) (l : List (ℝ × Bool)), timetable c bs = .ok l →
    ∀ t e, (t, e) ∈ l ↔ ∃ b ∈ bs, ∃ A, b.stateA = some A ∧
      ¬ (InBox c.orig c.side A.position ∧ InBox c.orig c.side b.stateB.position) ∧
      ∃ f, Crossing c.orig c.side A.position b.stateB.position f e ∧
        b.inverseTimeAtPos ((b.stateB.position.sub A.position).mul f).norm3 = .ok t := by
  intro bs
  induction bs with
  | nil =>
    intro l h t e
    simp only [timetable, Except.ok.injEq] at h
    subst h
    simp
  | cons b bs ih =>
    intro l h t e
    unfold timetable at h
    cases hA : b.stateA with
    | none => rw [hA] at h; cases h
    | some A =>
      rw [hA] at h
      replace h : ((if intersectPossible c A.position b.stateB.position = true then
          blockCrossings c b A planes else Except.ok []) >>= fun here => timetable c bs >>= fun rest =>
          Except.ok (here ++ rest)) = Except.ok l := by
        rw [← h]
        simp only
        split <;> rfl
      cases hh : (if intersectPossible c A.position b.stateB.position = true then blockCrossings c b A planes
          else Except.ok []) with
      | error x => rw [hh] at h; cases h
      | ok here =>
        cases hr : timetable c bs with
        | error x => rw [hh, hr] at h; cases h
        | ok rest =>
          rw [hh, hr] at h
          simp only [bind, Except.bind, Except.ok.injEq] at h
          subst h
          simp only [List.mem_append, List.mem_cons, exists_eq_or_imp, ih rest hr, hA, Option.some.injEq,
            exists_eq_left']
          refine or_congr ?_ Iff.rfl
          have hin : ∀ f, pointInside c ⟨A.position.x + (b.stateB.position.x - A.position.x) * f,
              A.position.y + (b.stateB.position.y - A.position.y) * f,
              A.position.z + (b.stateB.position.z - A.position.z) * f, 0⟩ = true ↔
              InBox c.orig c.side (A.position.add ((b.stateB.position.sub A.position).mul f)) :=
            fun f => pointInside_iff c _
          by_cases hp : intersectPossible c A.position b.stateB.position = true
          · rw [if_pos hp] at hh
            rw [blockCrossings_mem c b A planes here hh]
            constructor
            · rintro ⟨pl, _, q, d, h1, h2, h3⟩
              obtain ⟨f, f1, f2, f3, f4, f5, rfl, rfl⟩ := (isectLinePlane_iff _ _ _ _ _ _ _).1 h1
              refine ⟨intersectPossible_not_inside c _ _ hp, f, ?_, h3⟩
              rw [crossing_iff]
              refine ⟨f1, f2, (hin f).1 h2, pl.1, f3, ?_⟩
              unfold Box.planeAt at f4
              cases hpl : pl.2
              · rw [hpl] at f4 f5
                exact Or.inr ⟨by simpa using f4, by simpa using f5⟩
              · rw [hpl] at f4 f5
                exact Or.inl ⟨by simpa using f4, by simpa using f5⟩
            · rintro ⟨_, f, hc, h3⟩
              rw [crossing_iff] at hc
              obtain ⟨f1, f2, f3, i, f4, f5⟩ := hc
              rcases f5 with ⟨f5, f6⟩ | ⟨f5, f6⟩
              · refine ⟨(i, true), by fin_cases i <;> simp [planes], _, _,
                  (isectLinePlane_iff _ _ _ _ _ _ _).2 ⟨f, f1, f2, f4, ?_, ?_, rfl, rfl⟩, (hin f).2 f3, h3⟩
                · simpa [Box.planeAt] using f5
                · simpa using f6
              · refine ⟨(i, false), by fin_cases i <;> simp [planes], _, _,
                  (isectLinePlane_iff _ _ _ _ _ _ _).2 ⟨f, f1, f2, f4, ?_, ?_, rfl, rfl⟩, (hin f).2 f3, h3⟩
                · simpa [Box.planeAt] using f5
                · simpa using f6
          · rw [if_neg hp, Except.ok.injEq] at hh
            subst hh
            simp only [List.not_mem_nil, false_iff]
            rintro ⟨hni, f, hc, _⟩
            obtain ⟨f1, f2, f3, _⟩ := hc
            exact hp ((intersectPossible_iff c _ _ f1 f2 f3).2 hni)

theorem insertByTime_mem (x y : ℝ × Bool) (l : List (ℝ × Bool)) :
    y ∈ insertByTime x l ↔ y = x ∨ y ∈ l := by
  induction l with
  | nil => simp [insertByTime]
  | cons z l ih =>
    unfold insertByTime
    split
    · simp
    · simp only [List.mem_cons, ih]
      tauto

theorem insertByTime_sorted (x : ℝ × Bool) (l : List (ℝ × Bool)) (h : l.Pairwise fun p q => p.1 ≤ q.1) :
    (insertByTime x l).Pairwise fun p q => p.1 ≤ q.1 := by
  induction l with
  | nil => simp [insertByTime]
  | cons z l ih =>
    unfold insertByTime
    rw [List.pairwise_cons] at h
    split
    · rename_i hle
      rw [List.pairwise_cons, List.pairwise_cons]
      refine ⟨?_, h⟩
      intro q hq
      rcases List.mem_cons.1 hq with rfl | hq
      · exact hle
      · exact le_trans hle (h.1 q hq)
    · rename_i hle
      push Not at hle
      rw [List.pairwise_cons]
      refine ⟨?_, ih h.2⟩
      intro q hq
      rcases (insertByTime_mem x q l).1 hq with rfl | hq
      · exact hle.le
      · exact h.1 q hq

theorem sortByTime_mem (l : List (ℝ × Bool)) (y : ℝ × Bool) : y ∈ sortByTime l ↔ y ∈ l := by
  unfold sortByTime
  induction l with
  | nil => simp
  | cons x l ih => rw [List.foldr_cons, insertByTime_mem, ih, List.mem_cons]

theorem sortByTime_sorted (l : List (ℝ × Bool)) : (sortByTime l).Pairwise fun p q => p.1 ≤ q.1 := by
  unfold sortByTime
  induction l with
  | nil => simp
  | cons x l ih => exact insertByTime_sorted x _ ih

/-- **C43.** A time is written as entry (exit) time exactly if it is the time which `inverse_time_at_pos`
gives for a point where the straight line of a block meets a face of the box from outside (inside), for some
block that does not run inside the box altogether; both lists are sorted; the number of filaments is the
number of entries and the process time the end time. -/
theorem c43_crossings (c : Box ℝ) (bs : List (Block ℝ)) (r : SubmodelTimes ℝ)
    (h : submodelTimes c bs = .ok r) :
    (∀ (e : Bool) t, t ∈ (if e then r.timeIn else r.timeOut) ↔ ∃ b ∈ bs, ∃ A, b.stateA = some A ∧
      ¬ (InBox c.orig c.side A.position ∧ InBox c.orig c.side b.stateB.position) ∧
      ∃ f, Crossing c.orig c.side A.position b.stateB.position f e ∧
        b.inverseTimeAtPos ((b.stateB.position.sub A.position).mul f).norm3 = .ok t) ∧
    r.timeIn.Pairwise (· ≤ ·) ∧ r.timeOut.Pairwise (· ≤ ·) ∧ r.nFilaments = r.timeIn.length ∧
    EndTime (Spec.path bs) r.timeProcess := by
  unfold submodelTimes at h
  cases ht : timetable c bs with
  | error x => rw [ht] at h; cases h
  | ok tt =>
    rw [ht] at h
    simp only [bind, Except.bind] at h
    split at h
    · cases h
    · cases he : endTime bs with
      | error x => rw [he] at h; cases h
      | ok T =>
        rw [he] at h
        simp only [Except.ok.injEq] at h
        subst h
        refine ⟨?_, ?_, ?_, rfl, endTime_path he⟩
        · intro e t
          rw [← timetable_mem c bs tt ht t e]
          cases e
          · simp only [Bool.false_eq_true, if_false, List.mem_map, List.mem_filter, sortByTime_mem,
              Bool.not_eq_true']
            constructor
            · rintro ⟨⟨a, b⟩, ⟨h1, h2⟩, rfl⟩
              simp only at h2
              rw [← h2]
              exact h1
            · exact fun h => ⟨(t, false), ⟨h, rfl⟩, rfl⟩
          · simp only [if_true, List.mem_map, List.mem_filter, sortByTime_mem]
            constructor
            · rintro ⟨⟨a, b⟩, ⟨h1, h2⟩, rfl⟩
              simp only at h2
              rw [← h2]
              exact h1
            · exact fun h => ⟨(t, true), ⟨h, rfl⟩, rfl⟩
        · exact List.pairwise_map.2 ((sortByTime_sorted tt).filter _)
        · exact List.pairwise_map.2 ((sortByTime_sorted tt).filter _)

/-- The demo move from (0, 0, 0) to (10, 0, 0) through a box around (5, 0, 0) with side 2: one entry, one
exit. -/
example (fw : Firmware) : ∃ bs r t t', plan fw [Demo.a0, Demo.a1] = .ok bs ∧
    submodelTimes ⟨⟨5, 0, 0, 0⟩, ⟨2, 2, 2, 0⟩⟩ bs = .ok r ∧ r.timeIn = [t] ∧ r.timeOut = [t'] := by
  obtain ⟨_, bs, _, _, h, _⟩ := c26_correction_total fw Demo.regular_a'
  have h28 := c28_blocks Demo.regular_a' h
  rw [Demo.active_a'] at h28
  obtain ⟨b, rfl⟩ : ∃ b, bs = [b] := by
    have := congrArg List.length h28
    simp only [List.length_map, List.length_cons, List.length_nil] at this
    exact List.length_eq_one_iff.1 this
  simp only [List.map_cons, List.map_nil, List.cons.injEq, Prod.mk.injEq, and_true] at h28
  have hL : (b.stateB.position.sub Demo.a0.position).norm3 = 10 := by
    rw [h28.2]
    simp only [Demo.a0, Demo.a1, Vec4.sub, Vec4.norm3, sqrt_real]
    rw [show (10 - 0) * (10 - 0) + (0 - 0) * (0 - 0) + (0 - 0) * (0 - 0) = (10 : ℝ) ^ 2 by norm_num]
    exact Real.sqrt_sq (by norm_num)
  obtain ⟨t6, _, r6, _⟩ := c42_law Demo.regular_a' h (b := b) (by simp) h28.1 hL (d := 6) (by norm_num)
    (by norm_num)
  obtain ⟨t4, _, r4, _⟩ := c42_law Demo.regular_a' h (b := b) (by simp) h28.1 hL (d := 4) (by norm_num)
    (by norm_num)
  have n6 : (⟨(10 - 0) * (6 / 10), (0 - 0) * (6 / 10), (0 - 0) * (6 / 10), 0 * (6 / 10)⟩ : Vec4 ℝ).norm3 = 6 := by
    simp only [Vec4.norm3, sqrt_real]
    rw [show ((10 - 0) * (6 / 10)) * ((10 - 0) * (6 / 10)) + ((0 - 0) * (6 / 10)) * ((0 - 0) * (6 / 10)) +
      ((0 - 0) * (6 / 10)) * ((0 - 0) * (6 / 10)) = (6 : ℝ) ^ 2 by norm_num]
    exact Real.sqrt_sq (by norm_num)
  have n4 : (⟨(10 - 0) * (4 / 10), (0 - 0) * (4 / 10), (0 - 0) * (4 / 10), 0 * (4 / 10)⟩ : Vec4 ℝ).norm3 = 4 := by
    simp only [Vec4.norm3, sqrt_real]
    rw [show ((10 - 0) * (4 / 10)) * ((10 - 0) * (4 / 10)) + ((0 - 0) * (4 / 10)) * ((0 - 0) * (4 / 10)) +
      ((0 - 0) * (4 / 10)) * ((0 - 0) * (4 / 10)) = (4 : ℝ) ^ 2 by norm_num]
    exact Real.sqrt_sq (by norm_num)
  obtain ⟨A, q, q', e1, e2, e3, _⟩ := ((plan_ok Demo.regular_a' h).1 b (by simp)).facts
  have hT : endTime [b] = .ok q'.tEnd := by
    unfold endTime
    simp [lastSeg_ok e3, Except.map]
  have hposs : intersectPossible ⟨⟨5, 0, 0, 0⟩, ⟨2, 2, 2, 0⟩⟩ Demo.a0.position b.stateB.position = true := by
    rw [h28.2]
    simp only [intersectPossible, intersectLoop, axes3, pointEval, Demo.a0, Demo.a1, Box.hi, Box.lo, axisOf]
    norm_num
  have hx6 : isectLinePlane Demo.a0.position b.stateB.position (0, true) (6 : ℝ) =
      some (⟨6, 0, 0, 0⟩, 6, false) := by
    rw [isectLinePlane_iff, h28.2]
    refine ⟨6 / 10, by norm_num, by norm_num, ?_, ?_, ?_, ?_, n6.symm⟩
    · simp only [axisOf, Demo.a0, Demo.a1]
      rw [abs_of_pos] <;> norm_num
    · simp only [axisOf, Demo.a0, Demo.a1]; norm_num
    · simp only [axisOf, Demo.a0, Demo.a1]; norm_num
    · simp only [Demo.a0, Demo.a1]; norm_num
  have hx4 : isectLinePlane Demo.a0.position b.stateB.position (0, false) (4 : ℝ) =
      some (⟨4, 0, 0, 0⟩, 4, true) := by
    rw [isectLinePlane_iff, h28.2]
    refine ⟨4 / 10, by norm_num, by norm_num, ?_, ?_, ?_, ?_, n4.symm⟩
    · simp only [axisOf, Demo.a0, Demo.a1]
      rw [abs_of_pos] <;> norm_num
    · simp only [axisOf, Demo.a0, Demo.a1]; norm_num
    · simp only [axisOf, Demo.a0, Demo.a1]; norm_num
    · simp only [Demo.a0, Demo.a1]; norm_num
  have hno : ∀ (pl : Fin 3 × Bool) v, pl.1 = 1 ∨ pl.1 = 2 →
      isectLinePlane Demo.a0.position b.stateB.position pl v = none := by
    rintro ⟨i, s⟩ v hpl
    cases hi : isectLinePlane Demo.a0.position b.stateB.position (i, s) v with
    | none => rfl
    | some r =>
      obtain ⟨q, d, e⟩ := r
      obtain ⟨f, _, _, h3, _⟩ := (isectLinePlane_iff _ _ _ _ _ _ _).1 hi
      rw [h28.2] at h3
      exfalso
      rcases hpl with rfl | rfl <;> simp [axisOf, Demo.a0, Demo.a1] at h3 <;> norm_num at h3
  have hin6 : pointInside (⟨⟨5, 0, 0, 0⟩, ⟨2, 2, 2, 0⟩⟩ : Box ℝ) ⟨6, 0, 0, 0⟩ = true := by
    rw [pointInside_iff]
    simp only [InBox]
    norm_num
  have hin4 : pointInside (⟨⟨5, 0, 0, 0⟩, ⟨2, 2, 2, 0⟩⟩ : Box ℝ) ⟨4, 0, 0, 0⟩ = true := by
    rw [pointInside_iff]
    simp only [InBox]
    norm_num
  have hp6 : (⟨⟨5, 0, 0, 0⟩, ⟨2, 2, 2, 0⟩⟩ : Box ℝ).planeAt (0, true) = 6 := by
    simp only [Box.planeAt, Box.hi, axisOf]
    norm_num
  have hp4 : (⟨⟨5, 0, 0, 0⟩, ⟨2, 2, 2, 0⟩⟩ : Box ℝ).planeAt (0, false) = 4 := by
    simp only [Box.planeAt, Box.lo, axisOf]
    norm_num
  have hbc : blockCrossings ⟨⟨5, 0, 0, 0⟩, ⟨2, 2, 2, 0⟩⟩ b Demo.a0 planes = .ok [(t6, false), (t4, true)] := by
    simp only [planes, blockCrossings, hp6, hp4, hx6, hx4, hin6, hin4, if_true, r6, r4, hno (1, true) _ (Or.inl rfl),
      hno (1, false) _ (Or.inl rfl), hno (2, true) _ (Or.inr rfl), hno (2, false) _ (Or.inr rfl), bind,
      Except.bind]
  have htt : timetable ⟨⟨5, 0, 0, 0⟩, ⟨2, 2, 2, 0⟩⟩ [b] = .ok [(t6, false), (t4, true)] := by
    simp only [timetable, h28.1, hposs, if_true, hbc, bind, Except.bind, List.append_nil]
  refine ⟨[b], ⟨q'.tEnd, 1, [t4], [t6]⟩, t4, t6, h, ?_, rfl, rfl⟩
  simp only [submodelTimes, htt, hT, bind, Except.bind, List.isEmpty_cons, Bool.false_eq_true, if_false,
    sortByTime, List.foldr_cons, List.foldr_nil, insertByTime]
  split <;> simp

/-! ## C44 -/

theorem Spec.Runs.cons_gap {α : Type} {P : α → Prop} {x : α} {l : List α} {rs : List (List α)}
    (hx : ¬ P x) (h : Runs P l rs) : Runs P (x :: l) rs := by
  cases h with
  | done h => exact .done (by simpa [hx] using h)
  | @run gap r rest rs hgap hne hr hrest h =>
    have := Runs.run (P := P) (gap := x :: gap) (by simpa [hx] using hgap) hne hr hrest h
    simpa using this

theorem polyline_ne_nil {r : List (Segment ℝ)} (h : r ≠ []) : polyline r ≠ [] := by
  cases r with
  | nil => exact absurd rfl h
  | cons s ss => simp [polyline]

theorem polyline_append {r : List (Segment ℝ)} (h : r ≠ []) (s : Segment ℝ) :
    polyline (r ++ [s]) = polyline r ++ [(s.posEnd, s.velEnd.norm3)] := by
  cases r with
  | nil => exact absurd rfl h
  | cons x r => simp [polyline]

theorem polyLoop_spec : ∀ (ss : List (Segment ℝ)),
    (∃ rs, Runs (fun s => s.isExtruding = true) ss rs ∧ polyLoop true [] ss = rs.map polyline) ∧
    ∀ r : List (Segment ℝ), r ≠ [] → ss ≠ [] → ∃ r' rest rs, ss = r' ++ rest ∧
      (∀ s ∈ r', s.isExtruding = true) ∧ (∀ s ∈ rest.head?, ¬ s.isExtruding = true) ∧
      Runs (fun s => s.isExtruding = true) rest rs ∧
      polyLoop true (polyline r) ss = polyline (r ++ r') :: rs.map polyline := by
  intro ss
  induction ss with
  | nil => exact ⟨⟨[], .done (by simp), rfl⟩, fun r _ h => absurd rfl h⟩
  | cons s ss ih =>
    obtain ⟨⟨rs, ih1, ih2⟩, ih3⟩ := ih
    constructor
    · by_cases hs : s.isExtruding = true
      · unfold polyLoop
        have e : ([(s.posBegin, s.velBegin.norm3)] ++ [(s.posEnd, s.velEnd.norm3)] : List (Vertex ℝ)) =
          polyline [s] := rfl
        simp only [hs, Bool.not_true, Bool.false_or, if_true, List.isEmpty_nil, e, Bool.and_false]
        cases ss with
        | nil =>
          refine ⟨[[s]], ?_, by simp [polyLoop, polyline]⟩
          have := Runs.run (P := fun s : Segment ℝ => s.isExtruding = true) (gap := []) (r := [s]) (rest := [])
            (rs := []) (by simp) (by simp) (by simpa using hs) (by simp) (.done (by simp))
          simpa using this
        | cons s2 ss =>
          obtain ⟨r', rest, rs', h1, h2, h3, h4, h5⟩ := ih3 [s] (by simp) (by simp)
          refine ⟨([s] ++ r') :: rs', ?_, ?_⟩
          · rw [h1]
            have := Runs.run (P := fun s : Segment ℝ => s.isExtruding = true) (gap := []) (r := s :: r')
              (rest := rest) (by simp) (by simp) (by simpa [hs] using h2) h3 h4
            simpa using this
          · simp only [List.isEmpty_cons, Bool.and_false, Bool.false_eq_true, if_false]
            rw [h5]
            rfl
      · refine ⟨rs, ih1.cons_gap hs, ?_⟩
        unfold polyLoop
        simp [hs, ih2]
    · intro r hr _
      have hne : (polyline r).isEmpty = false := by
        rw [List.isEmpty_eq_false_iff]
        exact polyline_ne_nil hr
      by_cases hs : s.isExtruding = true
      · unfold polyLoop
        simp only [hs, Bool.not_true, Bool.false_or, if_true, hne, Bool.false_eq_true, if_false,
          ← polyline_append hr s, Bool.and_false]
        have hne' : (polyline (r ++ [s])).isEmpty = false := by
          rw [List.isEmpty_eq_false_iff]
          exact polyline_ne_nil (by simp)
        cases ss with
        | nil =>
          refine ⟨[s], [], [], by simp, by simpa using hs, by simp, .done (by simp), ?_⟩
          simp [hne', polyLoop]
        | cons s2 ss =>
          obtain ⟨r', rest, rs', h1, h2, h3, h4, h5⟩ := ih3 (r ++ [s]) (by simp) (by simp)
          refine ⟨s :: r', rest, rs', by rw [h1]; rfl, by simpa [hs] using h2, h3, h4, ?_⟩
          simp only [List.isEmpty_cons, Bool.and_false, Bool.false_eq_true, if_false]
          rw [h5]
          simp
      · refine ⟨[], s :: ss, rs, rfl, by simp, by simpa using hs, ih1.cons_gap hs, ?_⟩
        unfold polyLoop
        simp [hs, hne, ih2]

theorem polyLoop_all : ∀ (ss r : List (Segment ℝ)), r ≠ [] → ss ≠ [] →
    polyLoop false (polyline r) ss = [polyline (r ++ ss)] := by
  intro ss
  induction ss with
  | nil => intro r _ h; exact absurd rfl h
  | cons s ss ih =>
    intro r hr _
    have hne : (polyline r).isEmpty = false := by
      rw [List.isEmpty_eq_false_iff]
      exact polyline_ne_nil hr
    have hne' : (polyline (r ++ [s])).isEmpty = false := by
      rw [List.isEmpty_eq_false_iff]
      exact polyline_ne_nil (by simp)
    unfold polyLoop
    simp only [Bool.not_false, Bool.true_or, if_true, hne, Bool.false_eq_true, if_false,
      ← polyline_append hr s, Bool.false_and, Bool.false_or]
    cases ss with
    | nil => simp [hne', polyLoop]
    | cons s2 ss =>
      simp only [List.isEmpty_cons, Bool.and_false, Bool.false_eq_true, if_false]
      rw [ih (r ++ [s]) (by simp) (by simp)]
      simp

/-- **C44.** With `extrusion_only` the poly-lines are exactly the maximal runs of consecutive extruding
segments; without it there is a single poly-line through the whole path. -/
theorem c44_polylines (bs : List (Block ℝ)) :
    (∃ rs, Runs (fun s : Segment ℝ => s.posBegin.e < s.posEnd.e) (Spec.path bs) rs ∧
      plot3dLines bs true = rs.map polyline) ∧
    plot3dLines bs false = if Spec.path bs = [] then [] else [polyline (Spec.path bs)] := by
  rw [show Spec.path bs = unpack bs from rfl]
  constructor
  · have := (polyLoop_spec (unpack bs)).1
    simpa [Segment.isExtruding, plot3dLines] using this
  · unfold plot3dLines
    cases hu : unpack bs with
    | nil => simp [polyLoop]
    | cons s ss =>
      unfold polyLoop
      have e : ([(s.posBegin, s.velBegin.norm3)] ++ [(s.posEnd, s.velEnd.norm3)] : List (Vertex ℝ)) =
        polyline [s] := rfl
      simp only [Bool.not_false, Bool.true_or, if_true, List.isEmpty_nil, e, Bool.false_and, Bool.false_or,
        reduceCtorEq, if_false]
      cases ss with
      | nil => simp [polyLoop, polyline]
      | cons s2 ss =>
        simp only [List.isEmpty_cons, Bool.and_false, Bool.false_eq_true, if_false]
        rw [polyLoop_all (s2 :: ss) [s] (by simp) (by simp)]
        simp

/-- The maximal runs of a list are sublists of it. -/
theorem Spec.Runs.infix {α : Type} {P : α → Prop} {l : List α} {rs : List (List α)} (h : Runs P l rs) :
    ∀ r ∈ rs, r <:+: l ∧ r ≠ [] ∧ ∀ x ∈ r, P x := by
  induction h with
  | done h => simp
  | @run gap r rest rs hgap hne hr hrest h ih =>
    intro r' hr'
    rcases List.mem_cons.1 hr' with rfl | hr'
    · exact ⟨⟨gap, rest, rfl⟩, hne, hr⟩
    · obtain ⟨⟨a, b, hab⟩, h2⟩ := ih r' hr'
      exact ⟨⟨gap ++ r ++ a, b, by rw [← hab]; simp⟩, h2⟩

theorem polyline_vertices {r : List (Segment ℝ)} (hch : r.IsChain fun s s' => s'.tBegin = s.tEnd ∧
      s'.posBegin = s.posEnd ∧ |s.velEnd.norm3 - s'.velBegin.norm3| ≤ 1e-12) (hne : r ≠ []) :
    (polyline r).length = r.length + 1 ∧ ∀ i s, r[i]? = some s → ∃ v v', (polyline r)[i]? = some v ∧
      (polyline r)[i + 1]? = some v' ∧ v.1 = s.posBegin ∧ v'.1 = s.posEnd ∧ v'.2 = s.velEnd.norm3 ∧
      |v.2 - s.velBegin.norm3| ≤ (1e-12 : ℝ) := by
  cases r with
  | nil => exact absurd rfl hne
  | cons x r =>
    refine ⟨by simp [polyline], ?_⟩
    intro i s hs
    have hlast : (polyline (x :: r))[i + 1]? = some (s.posEnd, s.velEnd.norm3) := by
      simp only [polyline, List.getElem?_cons_succ, List.getElem?_map, hs, Option.map_some]
    cases i with
    | zero =>
      simp only [List.getElem?_cons_zero, Option.some.injEq] at hs
      subst hs
      exact ⟨_, _, rfl, hlast, rfl, rfl, rfl, by rw [sub_self, abs_zero]; norm_num⟩
    | succ i =>
      obtain ⟨hi, hs'⟩ := List.getElem?_eq_some_iff.1 hs
      have hprev : (x :: r)[i]? = some (x :: r)[i] := List.getElem?_eq_getElem (by omega)
      have hc := List.isChain_iff_getElem.1 hch i (by omega)
      rw [hs'] at hc
      refine ⟨((x :: r)[i].posEnd, (x :: r)[i].velEnd.norm3), _, ?_, hlast, hc.2.1.symm, rfl, rfl, hc.2.2⟩
      simp only [polyline, List.getElem?_cons_succ, List.getElem?_map, hprev, Option.map_some]

/-- **C44, vertices.** In the poly-line of a run of a planned path, vertex `i` is where segment `i` of the run
begins and vertex `i + 1` where it ends; the speeds there are those of the segment (at its begin up to
`1e-12`). There is one vertex more than segments. -/
theorem c44_vertices (hreg : Regular states) (h : plan fw states = .ok bs) {r : List (Segment ℝ)}
    (hr : r <:+: Spec.path bs) (hne : r ≠ []) :
    (polyline r).length = r.length + 1 ∧ ∀ i s, r[i]? = some s → ∃ v v', (polyline r)[i]? = some v ∧
      (polyline r)[i + 1]? = some v' ∧ v.1 = s.posBegin ∧ v'.1 = s.posEnd ∧ v'.2 = s.velEnd.norm3 ∧
      |v.2 - s.velBegin.norm3| ≤ (1e-12 : ℝ) := by
  simp only [path_eq] at *
  obtain ⟨a, b, hab⟩ := hr
  have := unpack_chain hreg h
  rw [← hab] at this
  exact polyline_vertices this.left_of_append.right_of_append hne

/-- The demo program has extruding segments, so there is at least one poly-line. -/
example (fw : Firmware) : ∃ bs, plan fw Demo.prog = .ok bs ∧ plot3dLines bs true ≠ [] := by
  obtain ⟨bs, h, b, hb, he⟩ := Demo.extrudes fw
  refine ⟨bs, h, ?_⟩
  obtain ⟨rs, h1, h2⟩ := (c44_polylines bs).1
  rw [h2]
  intro hnil
  rw [List.map_eq_nil_iff] at hnil
  subst hnil
  rcases (plan_ok Demo.regular h).1 b hb with ⟨A, u, s0, s1, hm⟩ | ⟨A, p, hm⟩
  swap
  · rw [hm.hext] at he
    cases he
  rw [hm.hext, decide_eq_true_iff] at he
  obtain ⟨hu, hdist, hpos, _⟩ := hm.toHdr.unit
  have hue : 0 < u.e := by
    rw [hpos] at he
    simp only [Vec4.add, Vec4.mul] at he
    by_contra hc
    push Not at hc
    nlinarith
  obtain ⟨s, hs⟩ := List.exists_mem_of_ne_nil _ hm.ne_nil
  obtain ⟨L, _, _, hmem⟩ := hm.hramp.mem
  obtain ⟨w, w₁, l, l₁, g⟩ := hmem s hs
  have hext : s.posBegin.e < s.posEnd.e := by
    rw [g.hpb, g.hpe]
    simp only [Vec4.add, Vec4.mul]
    have := g.hlen
    have := mul_pos (half_pos g.hpos) (sub_pos.2 g.ht)
    have : u.e * l < u.e * l₁ := mul_lt_mul_of_pos_left (by linarith) hue
    linarith
  have hmem : s ∈ Spec.path bs := List.mem_flatMap.2 ⟨b, hb, hs⟩
  generalize Spec.path bs = l at h1 hmem
  cases h1 with
  | done h1 => exact h1 s hmem hext

end PyGCD
