import Verif.Props.Extent
import Verif.Spec.Gaps

/-!
# Property C105: finding the segment of a time in a list with gaps

`find_current_segment` on any list of segments in the order of time, with any hint.
-/

set_option linter.unusedSectionVars false
set_option linter.unusedSimpArgs false

namespace PyGCD
open Spec

theorem Spec.InOrder.drop {path : List (Segment ℝ)} (h : InOrder path) (k : ℕ) : InOrder (path.drop k) :=
  ⟨fun s hs => h.duration s (List.mem_of_mem_drop hs), h.order.drop k⟩

theorem Spec.InOrder.tail {x : Segment ℝ} {path : List (Segment ℝ)} (h : InOrder (x :: path)) : InOrder path :=
  ⟨fun s hs => h.duration s (by simp [hs]), h.order.tail⟩

/-- Everything behind the first segment begins at its end or later. -/
theorem Spec.InOrder.after {x : Segment ℝ} {path : List (Segment ℝ)} (h : InOrder (x :: path)) :
    ∀ y ∈ path, x.tEnd ≤ y.tBegin := by
  induction path generalizing x with
  | nil => simp
  | cons n path ih =>
    intro y hy
    have h1 := (List.isChain_cons_cons.1 h.order).1
    rcases List.mem_cons.1 hy with rfl | hy
    · exact h1
    · exact h1.trans ((h.duration n (by simp)).trans (ih h.tail y hy))

theorem Spec.InOrder.first {x : Segment ℝ} {path : List (Segment ℝ)} (h : InOrder (x :: path)) :
    ∀ y ∈ x :: path, x.tBegin ≤ y.tBegin := by
  intro y hy
  rcases List.mem_cons.1 hy with rfl | hy
  · exact le_refl _
  · exact (h.duration x (by simp)).trans (h.after y hy)

theorem bridge_rests {a b : Segment ℝ} (h : a.tEnd ≤ b.tBegin) : ∃ s, bridge a b = .ok s ∧ s.tBegin = a.tEnd ∧
    s.tEnd = b.tBegin ∧ ∀ t', Covers s t' → s.getPosition t' = .ok a.posEnd ∧ s.getVelocity t' = .ok Vec4.zero := by
  refine ⟨⟨a.tEnd, b.tBegin, a.posEnd, Vec4.zero, a.posEnd, Vec4.zero⟩, ?_, rfl, rfl, ?_⟩
  · unfold bridge Segment.make
    rw [if_pos]
    simp only [Segment.selfCheckOk, Bool.and_eq_true, Bool.not_eq_true', decide_eq_false_iff_not, not_lt]
    refine ⟨?_, h⟩
    have : (a.posEnd.sub (a.posEnd.add (((Vec4.zero.add Vec4.zero).mul (b.tBegin - a.tEnd)).div (2 : ℝ)))) = Vec4.zero := by
      ext <;> simp [Vec4.sub, Vec4.add, Vec4.mul, Vec4.div, Vec4.zero]
    rw [this]
    norm_num [Vec4.norm3, Vec4.zero, PyMath.sqrt]
  · rintro t' ⟨h1, h2⟩
    have hv : (⟨a.tEnd, b.tBegin, a.posEnd, Vec4.zero, a.posEnd, Vec4.zero⟩ : Segment ℝ).getVelocity t' = .ok Vec4.zero := by
      unfold Segment.getVelocity
      rw [if_neg (by rintro (h | h) <;> simp only at h h1 h2 <;> linarith)]
      have hz : ∀ x : ℝ, (Vec4.zero : Vec4 ℝ).mul x = Vec4.zero := fun x => by
        ext <;> simp [Vec4.mul, Vec4.zero]
      have hd : ∀ x : ℝ, ((Vec4.zero : Vec4 ℝ).sub Vec4.zero).div x = Vec4.zero := fun x => by
        ext <;> simp [Vec4.sub, Vec4.div, Vec4.zero]
      have ha : (Vec4.zero : Vec4 ℝ).add Vec4.zero = Vec4.zero := by ext <;> simp [Vec4.add, Vec4.zero]
      simp only [hd, ite_self, hz, ha]
    refine ⟨?_, hv⟩
    unfold Segment.getPosition
    rw [if_neg (by rintro (h | h) <;> simp only at h h1 h2 <;> linarith), hv]
    simp only [bind, Except.bind]
    congr 1
    ext <;> simp [Vec4.sub, Vec4.add, Vec4.mul, Vec4.div, Vec4.zero]

/-! ## Without a hint -/

variable {path : List (Segment ℝ)} {t : ℝ}

theorem next_of_drop {i : ℕ} {x : Segment ℝ} {rest : List (Segment ℝ)} (hr : path.drop i = x :: rest) :
    path[i]? = some x ∧ path[i + 1]? = rest.head? ∧ path.drop (i + 1) = rest := by
  have h2 : path.drop (i + 1) = rest := by rw [← List.tail_drop, hr]; rfl
  refine ⟨?_, ?_, h2⟩
  · rw [← head?_drop', hr]; rfl
  · rw [← head?_drop', h2]

theorem keepFresh_early : ∀ (rest : List (Segment ℝ)) (i : ℕ), (∀ s ∈ rest, t < s.tBegin ∧ t < s.tEnd) →
    keepFresh path t i rest = .error .typeError := by
  intro rest
  induction rest with
  | nil => intro i _; rfl
  | cons x rest ih =>
    intro i h
    obtain ⟨h1, h2⟩ := h x (by simp)
    rw [keepFresh, if_neg (fun h => absurd h.1 (not_le.2 h1)), if_neg (not_le.2 h2)]
    exact ih _ fun s hs => h s (by simp [hs])

theorem keepFresh_late : ∀ (rest : List (Segment ℝ)) (i : ℕ), path.drop i = rest → rest ≠ [] →
    (∀ s ∈ rest, s.tBegin ≤ t ∧ s.tEnd ≤ t) → keepFresh path t i rest = .error .indexError := by
  intro rest
  induction rest with
  | nil => intro i _ h; exact absurd rfl h
  | cons x rest ih =>
    intro i hr _ h
    obtain ⟨_, h2⟩ := h x (by simp)
    obtain ⟨_, e2, e3⟩ := next_of_drop hr
    rw [keepFresh, if_neg (fun h => absurd h.2 (not_lt.2 h2)), if_pos h2, e2]
    cases rest with
    | nil => rfl
    | cons n rest =>
      simp only [List.head?_cons]
      rw [if_neg (not_lt.2 (h n (by simp)).1)]
      exact ih _ e3 (by simp) fun s hs => h s (by simp [hs])

theorem keepFresh_answers : ∀ (rest : List (Segment ℝ)) (i : ℕ), path.drop i = rest → InOrder rest →
    (∀ x ∈ rest.head?, x.tBegin ≤ t) → (∃ s ∈ rest, t < s.tEnd) →
    ∃ s j, keepFresh path t i rest = .ok (s, j) ∧ (MovesAt path t s j ∨ RestsAt path t s j) := by
  intro rest
  induction rest with
  | nil => rintro i _ _ _ ⟨s, hs, _⟩; cases hs
  | cons x rest ih =>
    rintro i hr ho hx ⟨s, hs, hts⟩
    have hx := hx x rfl
    obtain ⟨e1, e2, e3⟩ := next_of_drop hr
    by_cases hlt : t < x.tEnd
    · rw [keepFresh, if_pos ⟨hx, hlt⟩]
      exact ⟨x, i, rfl, .inl ⟨e1, hx, hlt.le⟩⟩
    have hge := not_lt.1 hlt
    rw [keepFresh, if_neg (fun h => hlt h.2), if_pos hge, e2]
    cases rest with
    | nil =>
      rw [List.mem_singleton] at hs
      exact absurd (hs ▸ hts) hlt
    | cons n rest =>
      simp only [List.head?_cons]
      by_cases hn : t < n.tBegin
      · obtain ⟨r, r1, r2, r3, r4⟩ := bridge_rests (ho.after n (by simp))
        rw [if_pos hn, r1]
        exact ⟨r, i, rfl, .inr ⟨x, n, e1, by rw [e2]; rfl, hge, hn, r2, r3, r4⟩⟩
      · rw [if_neg hn]
        refine ih _ e3 ho.tail (fun y hy => ?_) ⟨s, ?_, hts⟩
        · cases hy
          exact not_lt.1 hn
        · rcases List.mem_cons.1 hs with rfl | hs
          · exact absurd hts hlt
          · exact hs

/-! ## With a hint -/

theorem searchWarm_some : ∀ {rest : List (Segment ℝ)} {i : ℕ} {s : Segment ℝ} {j : ℕ}, searchWarm t i rest = some (s, j) →
    i ≤ j ∧ rest[j - i]? = some s ∧ Covers s t := by
  intro rest
  induction rest with
  | nil => intro i s j h; cases h
  | cons x rest ih =>
    intro i s j h
    unfold searchWarm at h
    by_cases hc : x.tBegin ≤ t ∧ t ≤ x.tEnd
    · rw [if_pos hc] at h
      cases h
      exact ⟨le_refl _, by simp, hc⟩
    · rw [if_neg hc] at h
      obtain ⟨h1, h2, h3⟩ := ih h
      refine ⟨by omega, ?_, h3⟩
      rw [show j - i = (j - (i + 1)) + 1 by omega, List.getElem?_cons_succ]
      exact h2

theorem searchWarm_none : ∀ {rest : List (Segment ℝ)} {i : ℕ}, searchWarm t i rest = none ↔ ∀ s ∈ rest, ¬ Covers s t := by
  intro rest
  induction rest with
  | nil => intro i; simp [searchWarm]
  | cons x rest ih =>
    intro i
    unfold searchWarm
    by_cases hc : x.tBegin ≤ t ∧ t ≤ x.tEnd
    · rw [if_pos hc]
      simp only [reduceCtorEq, false_iff]
      exact fun h => h x (by simp) hc
    · rw [if_neg hc, ih]
      simp only [List.mem_cons, forall_eq_or_imp]
      exact ⟨fun h => ⟨hc, h⟩, fun h => h.2⟩

theorem keepWarm_behind {last : ℕ} {n : Segment ℝ} (hn : path[last + 1]? = some n) (ht : n.tBegin ≤ t) :
    ∀ (rest : List (Segment ℝ)) (i : ℕ), keepWarm path t last i rest =
      (match searchWarm t i rest with
        | some r => .ok r
        | none => .error .typeError) := by
  intro rest
  induction rest with
  | nil => intro i; rfl
  | cons x rest ih =>
    intro i
    unfold keepWarm searchWarm
    by_cases hc : x.tBegin ≤ t ∧ t ≤ x.tEnd
    · rw [if_pos hc, if_pos hc]
    · rw [if_neg hc, if_neg hc, hn]
      simp only [if_neg (not_lt.2 ht), ite_self]
      exact ih _

/-! ## C105 -/

/-- **C105, in full** (refuted): with `keep_position` every time from the begin of the first segment to the end of the last
one has an answer, with any hint. -/
def C105Full : Prop := ∀ (path : List (Segment ℝ)) (t : ℝ) (last : Option ℕ), InOrder path →
  (∃ a ∈ path, a.tBegin ≤ t) → (∃ b ∈ path, t ≤ b.tEnd) →
  ∃ s i, findKeep path t last = .ok (s, i) ∧ (MovesAt path t s i ∨ RestsAt path t s i)

theorem findKeep_noHint {last : Option ℕ} (h : NoHint path t last) : findKeep path t last = keepFresh path t 0 path := by
  unfold findKeep
  rw [if_pos]
  by_contra hc
  obtain ⟨k, s, h1, h2, h3⟩ := useFresh_false.1 (Bool.not_eq_true _ ▸ hc)
  exact absurd (h k s h1 h2) (not_lt.2 h3)

theorem findKeep_hint {k : ℕ} {s : Segment ℝ} (hk : path[k]? = some s) (hs : s.tBegin ≤ t) :
    findKeep path t (some k) = keepWarm path t k k (path.drop k) := by
  unfold findKeep
  rw [useFresh_false.2 ⟨k, s, rfl, hk, hs⟩]
  rfl

/-- **C105** without a usable hint: the time has an answer from the begin of the first segment to before the end of the last
one. Before that it is a `TypeError` (the result is `None`), behind it an `IndexError`. Missing: the end of the last segment. -/
theorem c105_no_hint_partial {last : Option ℕ} (ho : InOrder path) (h : NoHint path t last) :
    ((∃ a ∈ path, a.tBegin ≤ t) → (∃ b ∈ path, t < b.tEnd) →
      ∃ s i, findKeep path t last = .ok (s, i) ∧ (MovesAt path t s i ∨ RestsAt path t s i)) ∧
    ((∀ a ∈ path, t < a.tBegin) → findKeep path t last = .error .typeError) ∧
    ((∃ a ∈ path, a.tBegin ≤ t) → (∀ b ∈ path, b.tEnd ≤ t) → findKeep path t last = .error .indexError) := by
  rw [findKeep_noHint h]
  refine ⟨fun ⟨a, ha, h1⟩ h2 => keepFresh_answers path 0 rfl ho (fun x hx => ?_) h2,
    fun h1 => keepFresh_early path 0 fun s hs => ⟨h1 s hs, (h1 s hs).trans_le (ho.duration s hs)⟩,
    fun ⟨a, ha, h1⟩ h2 => keepFresh_late path 0 rfl (List.ne_nil_of_mem ha) fun s hs =>
      ⟨(ho.duration s hs).trans (h2 s hs), h2 s hs⟩⟩
  obtain ⟨y, ys, rfl⟩ := List.exists_cons_of_ne_nil (List.ne_nil_of_mem ha)
  cases hx
  exact (ho.first a ha).trans h1

/-- **C105** with a usable hint `k`: a time in a segment from `k` on, or in the gap behind segment `k`, has an answer. A
time in a later gap, or behind the end, has none: it is an `IndexError` if `k` is the last segment and otherwise a `TypeError`.
Missing: the later gaps. -/
theorem c105_hint_partial {k : ℕ} {s : Segment ℝ} (ho : InOrder path) (hk : path[k]? = some s) (hs : s.tBegin ≤ t) :
    ((∃ x ∈ path.drop k, Covers x t) → ∃ x i, findKeep path t (some k) = .ok (x, i) ∧ k ≤ i ∧ MovesAt path t x i) ∧
    (s.tEnd < t → (∀ n, path[k + 1]? = some n → t < n.tBegin) → path[k + 1]? ≠ none →
      ∃ x, findKeep path t (some k) = .ok (x, k) ∧ RestsAt path t x k) ∧
    (s.tEnd < t → path[k + 1]? = none → findKeep path t (some k) = .error .indexError) ∧
    (∀ n, path[k + 1]? = some n → n.tBegin ≤ t → (∀ x ∈ path.drop k, ¬ Covers x t) →
      findKeep path t (some k) = .error .typeError) := by
  rw [findKeep_hint hk hs]
  have hd : path.drop k = s :: path.drop (k + 1) := by
    obtain ⟨hi, he⟩ := List.getElem?_eq_some_iff.1 hk
    rw [List.drop_eq_getElem_cons hi, he]
  have hod := ho.drop k
  have hwarm : ∀ {n}, path[k + 1]? = some n → n.tBegin ≤ t → (∃ x ∈ path.drop k, Covers x t) →
      ∃ x i, keepWarm path t k k (path.drop k) = .ok (x, i) ∧ k ≤ i ∧ MovesAt path t x i := by
    rintro n hn ht ⟨x, hx, hc⟩
    rw [keepWarm_behind hn ht]
    cases hw : searchWarm t k (path.drop k) with
    | none => exact absurd hc (searchWarm_none.1 hw x hx)
    | some r =>
      obtain ⟨y, j⟩ := r
      obtain ⟨w1, w2, w3⟩ := searchWarm_some hw
      refine ⟨y, j, rfl, w1, ?_, w3⟩
      rw [List.getElem?_drop] at w2
      rw [← w2]
      congr 1
      omega
  refine ⟨?_, ?_, ?_, ?_⟩
  · rintro ⟨x, hx, hc⟩
    by_cases hcs : s.tBegin ≤ t ∧ t ≤ s.tEnd
    · rw [hd, keepWarm, if_pos hcs]
      exact ⟨s, k, rfl, le_refl _, hk, hcs⟩
    · cases hn : path[k + 1]? with
      | none =>
        have : path.drop (k + 1) = [] := by rw [List.drop_eq_nil_iff]; exact List.getElem?_eq_none_iff.1 hn
        rw [hd, this, List.mem_singleton] at hx
        exact absurd (hx ▸ hc) hcs
      | some n =>
        refine hwarm hn ?_ ⟨x, hx, hc⟩
        rw [hd] at hx hod
        rcases List.mem_cons.1 hx with rfl | hx
        · exact absurd hc hcs
        obtain ⟨n', ys, hy⟩ := List.exists_cons_of_ne_nil (List.ne_nil_of_mem hx)
        have : n' = n := by
          have := head?_drop' (path := path) (i := k + 1)
          rw [hy, hn] at this
          simpa using this
        subst this
        rw [hy] at hx hod
        exact (hod.tail.first x hx).trans hc.1
  · intro h1 h2 h3
    cases hn : path[k + 1]? with
    | none => exact absurd hn h3
    | some n =>
      have h2 := h2 n hn
      obtain ⟨r, r1, r2, r3, r4⟩ := bridge_rests (h1.le.trans h2.le)
      rw [hd, keepWarm, if_neg (fun h => absurd h.2 (not_le.2 h1)), if_pos h1.le, hn]
      simp only [if_pos h2, r1]
      exact ⟨r, rfl, s, n, hk, hn, h1.le, h2, r2, r3, r4⟩
  · intro h1 h2
    rw [hd, keepWarm, if_neg (fun h => absurd h.2 (not_le.2 h1)), if_pos h1.le, h2]
  · intro n hn ht hx
    rw [keepWarm_behind hn ht, searchWarm_none.2 hx]

/-- **C105** without `keep_position`: exactly the times in a segment have an answer. Without a hint the end of a segment does
not belong to it. A time in a gap is a `TypeError` without a hint and a `ValueError` with one; behind the end there is no
segment. Lists out of order included. -/
theorem c105_plain {last : Option ℕ} {l : Segment ℝ} (hl : path.getLast? = some l) :
    (l.tEnd < t → findSegment path t last = .ok none) ∧
    (t ≤ l.tEnd → NoHint path t last →
      ((∃ s ∈ path, s.tBegin ≤ t ∧ t < s.tEnd) →
        ∃ s i, findSegment path t last = .ok (some (s, i)) ∧ MovesAt path t s i ∧ t < s.tEnd) ∧
      ((∀ s ∈ path, ¬ (s.tBegin ≤ t ∧ t < s.tEnd)) → findSegment path t last = .error .typeError)) ∧
    (∀ k s, last = some k → path[k]? = some s → s.tBegin ≤ t → t ≤ l.tEnd →
      ((∃ x ∈ path.drop k, Covers x t) → ∃ x i, findSegment path t last = .ok (some (x, i)) ∧ k ≤ i ∧ MovesAt path t x i) ∧
      ((∀ x ∈ path.drop k, ¬ Covers x t) → findSegment path t last = .error .valueError)) := by
  unfold findSegment
  rw [hl]
  simp only
  refine ⟨fun h => by rw [if_pos h], fun h hno => ?_, ?_⟩
  · have hf : useFresh path t last = true := by
      by_contra hc
      obtain ⟨k, s, h1, h2, h3⟩ := useFresh_false.1 (Bool.not_eq_true _ ▸ hc)
      exact absurd (hno k s h1 h2) (not_lt.2 h3)
    rw [if_neg (not_lt.2 h), if_pos hf]
    have key : ∀ (rest : List (Segment ℝ)) (i : ℕ),
        (searchFresh t i rest = none ∧ ∀ s ∈ rest, ¬ (s.tBegin ≤ t ∧ t < s.tEnd)) ∨
        ∃ s j, searchFresh t i rest = some (s, j) ∧ i ≤ j ∧ rest[j - i]? = some s ∧ s.tBegin ≤ t ∧ t < s.tEnd := by
      intro rest
      induction rest with
      | nil => intro i; exact .inl ⟨rfl, by simp⟩
      | cons x rest ih =>
        intro i
        unfold searchFresh
        by_cases hc : x.tBegin ≤ t ∧ t < x.tEnd
        · rw [if_pos hc]
          exact .inr ⟨x, i, rfl, le_refl _, by simp, hc⟩
        · rw [if_neg hc]
          rcases ih (i + 1) with ⟨h1, h2⟩ | ⟨s, j, h1, h2, h3, h4⟩
          · exact .inl ⟨h1, fun s hs => by
              rcases List.mem_cons.1 hs with rfl | hs
              · exact hc
              · exact h2 s hs⟩
          · refine .inr ⟨s, j, h1, by omega, ?_, h4⟩
            rw [show j - i = (j - (i + 1)) + 1 by omega, List.getElem?_cons_succ]
            exact h3
    rcases key path 0 with ⟨h1, h2⟩ | ⟨s, j, h1, h2, h3, h4⟩
    · rw [h1]
      exact ⟨fun ⟨s, hs, hc⟩ => absurd hc (h2 s hs), fun _ => rfl⟩
    · rw [h1]
      have hm := List.mem_of_getElem? h3
      exact ⟨fun _ => ⟨s, j, rfl, ⟨by simpa using h3, h4.1, h4.2.le⟩, h4.2⟩, fun h => absurd h4 (h s hm)⟩
  · rintro k s rfl hk hs h
    rw [if_neg (not_lt.2 h), useFresh_false.2 ⟨k, s, rfl, hk, hs⟩]
    simp only [Bool.false_eq_true, if_false, Option.getD_some]
    refine ⟨fun ⟨x, hx, hc⟩ => ?_, fun hx => by rw [searchWarm_none.2 hx]⟩
    cases hw : searchWarm t k (path.drop k) with
    | none => exact absurd hc (searchWarm_none.1 hw x hx)
    | some r =>
      obtain ⟨y, j⟩ := r
      obtain ⟨w1, w2, w3⟩ := searchWarm_some hw
      refine ⟨y, j, rfl, w1, ?_, w3⟩
      rw [List.getElem?_drop] at w2
      rw [← w2]
      congr 1
      omega

/-! ## A list with gaps -/

/-- A segment at rest. -/
def Demo.still (a b : ℝ) : Segment ℝ := ⟨a, b, Vec4.zero, Vec4.zero, Vec4.zero, Vec4.zero⟩

/-- Three seconds of rest in three segments with gaps of a second between them. -/
def Demo.gappy : List (Segment ℝ) := [Demo.still 0 1, Demo.still 2 3, Demo.still 4 5]

theorem Demo.gappy_inOrder : InOrder Demo.gappy := by
  refine ⟨?_, ?_⟩
  · simp [Demo.gappy, Demo.still]; norm_num
  · simp [Demo.gappy, Demo.still]; norm_num

/-- **C105** is false of the code: the search from a hint looks only at the gap behind the hinted segment. -/
theorem c105_refuted : ¬ C105Full := by
  intro hfull
  have h := (c105_hint_partial (t := 3.5) Demo.gappy_inOrder (k := 0) (s := Demo.still 0 1) rfl
    (by norm_num [Demo.still])).2.2.2 (Demo.still 2 3) rfl (by norm_num [Demo.still]) (by
      simp only [Demo.gappy, List.drop_zero, List.mem_cons, List.not_mem_nil, or_false, forall_eq_or_imp, forall_eq, Covers,
        Demo.still]
      norm_num)
  obtain ⟨s, i, hi, _⟩ := hfull Demo.gappy 3.5 (some 0) Demo.gappy_inOrder
    ⟨Demo.still 0 1, by simp [Demo.gappy], by norm_num [Demo.still]⟩ ⟨Demo.still 4 5, by simp [Demo.gappy], by norm_num [Demo.still]⟩
  rw [h] at hi
  cases hi

/-- The gap is found without a hint, or with a hint to the segment before it. -/
example : (∃ s i, findKeep Demo.gappy 3.5 none = .ok (s, i) ∧ (MovesAt Demo.gappy 3.5 s i ∨ RestsAt Demo.gappy 3.5 s i)) ∧
    ∃ s, findKeep Demo.gappy 3.5 (some 1) = .ok (s, 1) ∧ RestsAt Demo.gappy 3.5 s 1 := by
  refine ⟨(c105_no_hint_partial Demo.gappy_inOrder (fun k s h => by cases h)).1
    ⟨Demo.still 0 1, by simp [Demo.gappy], by norm_num [Demo.still]⟩ ⟨Demo.still 4 5, by simp [Demo.gappy], by norm_num [Demo.still]⟩,
    (c105_hint_partial Demo.gappy_inOrder (k := 1) (s := Demo.still 2 3) rfl (by norm_num [Demo.still])).2.1
      (by norm_num [Demo.still]) (fun n hn => ?_) (by simp [Demo.gappy])⟩
  have : n = Demo.still 4 5 := by simpa [Demo.gappy] using hn.symm
  rw [this]
  norm_num [Demo.still]

end PyGCD
