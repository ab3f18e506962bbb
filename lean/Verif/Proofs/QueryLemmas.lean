import Verif.Props.Plan
import Verif.Spec.Timeline

/-!
# Searching segments
-/

set_option linter.unusedSectionVars false
set_option linter.unusedSimpArgs false

namespace PyGCD
open Vec4 Spec

/-! ## Planned paths are timelines -/

theorem SegOn.kinematic {u p : Vec4 ℝ} {a vT L w w₁ l l₁ : ℝ} {s : Segment ℝ}
    (g : SegOn u a vT p L s w w₁ l l₁) : Kinematic s := by
  unfold Kinematic
  rw [g.hpe, g.hpb, g.hvb, g.hve, g.hlen]
  ext <;> simp only [Vec4.add, Vec4.mul, Vec4.div] <;> ring

theorem SoundRun.isTimeline {bs : List (Block ℝ)} (h : SoundRun bs) : Timeline (unpack bs) where
  start := h.timeline.1
  time := h.timeline.2.1
  place := h.unpack_chain.imp fun _ _ h => h.2.1
  duration := h.timeline.2.2.1
  kinematic s hs := by
    obtain ⟨b, hb, hs⟩ := List.mem_flatMap.1 hs
    rcases h.good b hb with ⟨A, u, s0, s1, hm⟩ | ⟨A, q, hm⟩
    · obtain ⟨L, _, _, hL⟩ := hm.hramp.mem
      obtain ⟨w, w₁, l, l₁, g⟩ := hL s hs
      exact g.kinematic
    · obtain ⟨t0, ht0⟩ := hm.hseg
      rw [ht0, List.mem_singleton] at hs
      subst hs
      unfold Kinematic
      ext <;> simp [Vec4.add, Vec4.mul, Vec4.div, Vec4.zero]

theorem plan_timeline {fw : Firmware} {states : List (PState ℝ)} {bs : List (Block ℝ)}
    (hreg : Regular states) (h : plan fw states = .ok bs) : Timeline (unpack bs) := (plan_sound hreg h).isTimeline

/-! ## Parts of a timeline -/

/-- A timeline without the requirement on its start. -/
structure Part (path : List (Segment ℝ)) : Prop where
  time : path.IsChain fun s s' => s'.tBegin = s.tEnd
  place : path.IsChain fun s s' => s'.posBegin = s.posEnd
  duration : ∀ s ∈ path, s.tBegin ≤ s.tEnd
  kinematic : ∀ s ∈ path, Kinematic s

theorem Spec.Timeline.part {path : List (Segment ℝ)} (h : Timeline path) : Part path :=
  ⟨h.time, h.place, h.duration, h.kinematic⟩

theorem Part.tail {s : Segment ℝ} {path : List (Segment ℝ)} (h : Part (s :: path)) : Part path :=
  ⟨h.time.tail, h.place.tail, fun x hx => h.duration x (by simp [hx]),
    fun x hx => h.kinematic x (by simp [hx])⟩

theorem Part.drop {path : List (Segment ℝ)} (h : Part path) (i : Nat) : Part (path.drop i) := by
  induction i generalizing path with
  | zero => exact h
  | succ i ih =>
    cases path with
    | nil => simpa using h
    | cons s path => exact ih h.tail

/-- Later segments begin later. -/
theorem Part.le {s : Segment ℝ} {path : List (Segment ℝ)} (h : Part (s :: path)) :
    ∀ x ∈ path, s.tEnd ≤ x.tBegin := by
  induction path generalizing s with
  | nil => simp
  | cons y path ih =>
    have h1 := (List.isChain_cons_cons.1 h.time).1
    intro x hx
    rcases List.mem_cons.1 hx with rfl | hx
    · exact h1.ge
    · have h2 := ih h.tail x hx
      have h3 := h.duration y (by simp)
      linarith

theorem Part.le_last {s l : Segment ℝ} {path : List (Segment ℝ)} (h : Part (s :: path))
    (hl : (s :: path).getLast? = some l) : ∀ x ∈ s :: path, x.tEnd ≤ l.tEnd := by
  induction path generalizing s with
  | nil =>
    simp only [List.getLast?_singleton, Option.some.injEq] at hl
    subst hl
    simp
  | cons y path ih =>
    rw [List.getLast?_cons_cons] at hl
    intro x hx
    rcases List.mem_cons.1 hx with rfl | hx
    · have h1 := (List.isChain_cons_cons.1 h.time).1
      have h2 := ih h.tail hl y (by simp)
      have h3 := h.duration y (by simp)
      linarith
    · exact ih h.tail hl x hx

theorem Spec.Timeline.nonneg {path : List (Segment ℝ)} (h : Timeline path) : ∀ s ∈ path, 0 ≤ s.tBegin := by
  cases path with
  | nil => simp
  | cons x path =>
    have h0 := h.start x (by simp)
    intro s hs
    rcases List.mem_cons.1 hs with rfl | hs
    · exact h0.ge
    · have h1 := h.part.le s hs
      have h2 := h.duration x (by simp)
      linarith

/-! ## Positions -/

theorem getPosition_end {s : Segment ℝ} (hk : Kinematic s) (hd : s.tBegin ≤ s.tEnd) :
    s.getPosition s.tEnd = .ok s.posEnd := by
  obtain ⟨p, hp⟩ := getPosition_total (s := s) ⟨hd, le_refl _⟩
  rw [hp]
  congr 1
  unfold Segment.getPosition Segment.getVelocity at hp
  have hr : ¬ (s.tEnd < s.tBegin ∨ s.tEnd < s.tEnd) := by
    push Not
    exact ⟨hd, le_refl _⟩
  simp only [if_neg hr, bind, Except.bind, Except.ok.injEq] at hp
  rw [← hp, hk]
  rcases hd.eq_or_lt with h0 | h0
  · rw [h0, sub_self]
    ext <;> simp [Vec4.add, Vec4.mul, Vec4.div]
  · rw [if_pos (sub_pos.2 h0)]
    have := (sub_pos.2 h0).ne'
    ext <;> simp only [Vec4.add, Vec4.mul, Vec4.div, Vec4.sub] <;> field_simp <;> ring

theorem getPosition_begin {s : Segment ℝ} (hd : s.tBegin ≤ s.tEnd) :
    s.getPosition s.tBegin = .ok s.posBegin := by
  obtain ⟨p, hp⟩ := getPosition_total (s := s) ⟨le_refl _, hd⟩
  rw [hp]
  congr 1
  unfold Segment.getPosition Segment.getVelocity at hp
  have hr : ¬ (s.tBegin < s.tBegin ∨ s.tEnd < s.tBegin) := by
    push Not
    exact ⟨le_refl _, hd⟩
  simp only [if_neg hr, bind, Except.bind, Except.ok.injEq] at hp
  rw [← hp]
  ext <;> simp [Vec4.add, Vec4.mul, Vec4.div]

/-- If an earlier and a later segment both contain `t`, it is where the earlier one ends, and both report
its end position. -/
theorem Part.meet {s : Segment ℝ} {path : List (Segment ℝ)} (h : Part (s :: path)) {t : ℝ}
    (hs : Covers s t) : ∀ x ∈ path, Covers x t → t = s.tEnd ∧ x.getPosition t = .ok s.posEnd := by
  induction path generalizing s with
  | nil => simp
  | cons y path ih =>
    intro x hx hxt
    have hle := h.le x hx
    have ht : t = s.tEnd := le_antisymm hs.2 (le_trans hle hxt.1)
    refine ⟨ht, ?_⟩
    have h1 := (List.isChain_cons_cons.1 h.time).1
    have h2 := (List.isChain_cons_cons.1 h.place).1
    have hy := h.duration y (by simp)
    rcases List.mem_cons.1 hx with rfl | hx
    · rw [ht, ← h1, getPosition_begin hy, h2]
    · have hyc : Covers y t := ⟨by rw [h1, ht], by rw [ht, ← h1]; exact hy⟩
      obtain ⟨h3, h4⟩ := ih h.tail hyc x hx hxt
      have h5 := h.kinematic y (by simp)
      have h6 : y.posEnd = y.posBegin := by
        have h7 : y.tEnd - y.tBegin = 0 := by rw [h1, ← h3, ht, sub_self]
        rw [h5, h7]
        ext <;> simp [Vec4.add, Vec4.mul, Vec4.div]
      rw [h4, h6, h2]

/-- All segments of a timeline that contain a time report the same position. -/
theorem Part.position_unique {path : List (Segment ℝ)} (h : Part path) {t : ℝ} :
    ∀ x ∈ path, ∀ y ∈ path, Covers x t → Covers y t → x.getPosition t = y.getPosition t := by
  induction path with
  | nil => simp
  | cons s path ih =>
    have key : ∀ x ∈ path, Covers s t → Covers x t → x.getPosition t = s.getPosition t := by
      intro x hx hs hxt
      obtain ⟨h1, h2⟩ := h.meet hs x hx hxt
      rw [h2, h1, getPosition_end (h.kinematic s (by simp)) (h.duration s (by simp))]
    intro x hx y hy hxt hyt
    rcases List.mem_cons.1 hx with hx' | hx' <;> rcases List.mem_cons.1 hy with hy' | hy'
    · rw [hx', hy']
    · subst hx'
      exact (key y hy' hxt hyt).symm
    · subst hy'
      exact key x hx' hyt hxt
    · exact ih h.tail x hx' y hy' hxt hyt

/-- If `t` is not an end time of a segment, only one segment contains it. -/
theorem Part.cover_unique {path : List (Segment ℝ)} (h : Part path) {t : ℝ}
    (ht : ∀ s ∈ path, s.tEnd ≠ t) :
    ∀ x ∈ path, ∀ y ∈ path, Covers x t → Covers y t → x = y := by
  induction path with
  | nil => simp
  | cons s path ih =>
    have key : ∀ x ∈ path, Covers s t → Covers x t → x = s := by
      intro x hx hs hxt
      exact absurd (h.meet hs x hx hxt).1.symm (ht s (by simp))
    intro x hx y hy hxt hyt
    rcases List.mem_cons.1 hx with hx' | hx' <;> rcases List.mem_cons.1 hy with hy' | hy'
    · rw [hx', hy']
    · subst hx'
      exact (key y hy' hxt hyt).symm
    · subst hy'
      exact key x hx' hyt hxt
    · exact ih h.tail (fun s hs => ht s (by simp [hs])) x hx' y hy' hxt hyt

/-! ## The two searches -/

theorem searchFresh_sound {t : ℝ} : ∀ {path : List (Segment ℝ)} {i : Nat} {r : Segment ℝ × Nat},
    searchFresh t i path = some r → i ≤ r.2 ∧ path[r.2 - i]? = some r.1 ∧ r.1.tBegin ≤ t ∧ t < r.1.tEnd := by
  intro path
  induction path with
  | nil => intro i r h; cases h
  | cons s path ih =>
    intro i r h
    unfold searchFresh at h
    split at h
    · rename_i hc
      cases h
      exact ⟨le_refl _, by simp, hc⟩
    · obtain ⟨h1, h2, h3⟩ := ih h
      refine ⟨by omega, ?_, h3⟩
      rw [show r.2 - i = (r.2 - (i + 1)) + 1 by omega, List.getElem?_cons_succ]
      exact h2

theorem searchWarm_sound {t : ℝ} : ∀ {path : List (Segment ℝ)} {i : Nat} {r : Segment ℝ × Nat},
    searchWarm t i path = some r → i ≤ r.2 ∧ path[r.2 - i]? = some r.1 ∧ Covers r.1 t := by
  intro path
  induction path with
  | nil => intro i r h; cases h
  | cons s path ih =>
    intro i r h
    unfold searchWarm at h
    split at h
    · rename_i hc
      cases h
      exact ⟨le_refl _, by simp, hc⟩
    · obtain ⟨h1, h2, h3⟩ := ih h
      refine ⟨by omega, ?_, h3⟩
      rw [show r.2 - i = (r.2 - (i + 1)) + 1 by omega, List.getElem?_cons_succ]
      exact h2

theorem searchFresh_complete {t : ℝ} : ∀ {path : List (Segment ℝ)}, Part path → ∀ {s l : Segment ℝ},
    path.head? = some s → path.getLast? = some l → s.tBegin ≤ t → t < l.tEnd → ∀ i,
    ∃ r, searchFresh t i path = some r := by
  intro path
  induction path with
  | nil => intro _ s l h; cases h
  | cons x path ih =>
    intro h s l hs hl h1 h2 i
    cases hs
    unfold searchFresh
    by_cases hc : x.tBegin ≤ t ∧ t < x.tEnd
    · rw [if_pos hc]
      exact ⟨_, rfl⟩
    · rw [if_neg hc]
      cases path with
      | nil =>
        simp only [List.getLast?_singleton, Option.some.injEq] at hl
        subst hl
        exact absurd ⟨h1, h2⟩ hc
      | cons y path =>
        rw [List.getLast?_cons_cons] at hl
        have h3 := (List.isChain_cons_cons.1 h.time).1
        refine ih h.tail rfl hl ?_ h2 (i + 1)
        rw [h3]
        by_contra hn
        push Not at hn
        exact hc ⟨h1, hn⟩

theorem searchWarm_complete {t : ℝ} : ∀ {path : List (Segment ℝ)}, Part path → ∀ {s l : Segment ℝ},
    path.head? = some s → path.getLast? = some l → s.tBegin ≤ t → t ≤ l.tEnd → ∀ i,
    ∃ r, searchWarm t i path = some r := by
  intro path
  induction path with
  | nil => intro _ s l h; cases h
  | cons x path ih =>
    intro h s l hs hl h1 h2 i
    cases hs
    unfold searchWarm
    by_cases hc : x.tBegin ≤ t ∧ t ≤ x.tEnd
    · rw [if_pos hc]
      exact ⟨_, rfl⟩
    · rw [if_neg hc]
      cases path with
      | nil =>
        simp only [List.getLast?_singleton, Option.some.injEq] at hl
        subst hl
        exact absurd ⟨h1, h2⟩ hc
      | cons y path =>
        rw [List.getLast?_cons_cons] at hl
        have h3 := (List.isChain_cons_cons.1 h.time).1
        refine ih h.tail rfl hl ?_ h2 (i + 1)
        rw [h3]
        by_contra hn
        push Not at hn
        exact hc ⟨h1, hn.le⟩

/-- Is the remembered index usable for a time? -/
theorem useFresh_false {path : List (Segment ℝ)} {t : ℝ} {last : Option Nat} :
    useFresh path t last = false ↔ ∃ i s, last = some i ∧ path[i]? = some s ∧ s.tBegin ≤ t := by
  unfold useFresh
  cases last with
  | none => simp
  | some i =>
    cases hs : path[i]? with
    | none => simp [hs]
    | some s => simp [hs, not_lt]

theorem head?_drop' (path : List (Segment ℝ)) (i : Nat) : (path.drop i).head? = path[i]? := by
  rw [List.head?_drop]

theorem getLast?_drop' {path : List (Segment ℝ)} {i : Nat} {s : Segment ℝ} (h : path[i]? = some s) :
    (path.drop i).getLast? = path.getLast? := by
  have : i < path.length := by
    rw [List.getElem?_eq_some_iff] at h
    exact h.1
  rw [List.getLast?_drop, if_neg (by omega)]

/-- Whatever a search returns is a segment of the path that contains the time. -/
theorem findSegment_sound {path : List (Segment ℝ)} {t : ℝ} {last : Option Nat} {s : Segment ℝ} {i : Nat}
    (h : findSegment path t last = .ok (some (s, i))) : path[i]? = some s ∧ Covers s t := by
  unfold findSegment at h
  split at h
  · cases h
  · split at h
    · cases h
    · split at h
      · split at h
        · rename_i r hr
          simp only [Except.ok.injEq, Option.some.injEq] at h
          subst h
          obtain ⟨_, h2, h3, h4⟩ := searchFresh_sound hr
          exact ⟨by simpa using h2, h3, h4.le⟩
        · cases h
      · split at h
        · rename_i r hr
          simp only [Except.ok.injEq, Option.some.injEq] at h
          subst h
          obtain ⟨h1, h2, h3⟩ := searchWarm_sound hr
          rw [List.getElem?_drop] at h2
          refine ⟨?_, h3⟩
          rw [← h2]
          congr 1
          omega
        · cases h

/-- A search in a timeline: exactly when it finds something. -/
theorem findSegment_spec {path : List (Segment ℝ)} (h : Timeline path) {T : ℝ} (hT : EndTime path T)
    (t : ℝ) (last : Option Nat) :
    (T < t → findSegment path t last = .ok none) ∧
    (t < 0 → findSegment path t last = .error .typeError) ∧
    (0 ≤ t → t < T → ∃ s i, findSegment path t last = .ok (some (s, i))) ∧
    (t = T → (∃ i, last = some i ∧ i < path.length) →
      ∃ s i, findSegment path t last = .ok (some (s, i))) ∧
    (t = T → (¬ ∃ i, last = some i ∧ i < path.length) → findSegment path t last = .error .typeError) := by
  obtain ⟨l, hl, rfl⟩ := hT
  obtain ⟨x, hx⟩ : ∃ x, path.head? = some x := by
    cases path with
    | nil => cases hl
    | cons x path => exact ⟨x, rfl⟩
  have hx0 := h.start x hx
  have hl0 : 0 ≤ l.tEnd := by
    have hm := List.mem_of_getLast? hl
    have h1 := h.nonneg l hm
    have h2 := h.duration l hm
    linarith
  have hwarm : t ≤ l.tEnd → useFresh path t last = false →
      ∃ s i, findSegment path t last = .ok (some (s, i)) := by
    intro h1 h2
    obtain ⟨i, s, rfl, hs, hst⟩ := useFresh_false.1 h2
    obtain ⟨r, hr⟩ := searchWarm_complete (h.part.drop i) (by rw [head?_drop', hs])
      (by rw [getLast?_drop' hs, hl]) hst h1 i
    refine ⟨r.1, r.2, ?_⟩
    unfold findSegment
    rw [hl]
    simp only [if_neg (not_lt.2 h1), h2, Bool.false_eq_true, if_false, Option.getD_some, hr]
  refine ⟨?_, ?_, ?_, ?_, ?_⟩
  · intro ht
    unfold findSegment
    rw [hl]
    simp only [if_pos ht]
  · intro ht
    have hf : useFresh path t last = true := by
      by_contra hc
      simp only [Bool.not_eq_true] at hc
      obtain ⟨i, s, _, hs, hst⟩ := useFresh_false.1 hc
      have := h.nonneg s (List.mem_of_getElem? hs)
      linarith
    have hn : searchFresh t 0 path = none := by
      cases hr : searchFresh t 0 path with
      | none => rfl
      | some r =>
        obtain ⟨_, h2, h3, _⟩ := searchFresh_sound hr
        have := h.nonneg r.1 (List.mem_of_getElem? h2)
        linarith
    unfold findSegment
    rw [hl]
    simp only [if_neg (not_lt.2 (by linarith : t ≤ l.tEnd)), hf, if_true, hn]
  · intro h1 h2
    cases hf : useFresh path t last with
    | false => exact hwarm h2.le hf
    | true =>
      obtain ⟨r, hr⟩ := searchFresh_complete h.part hx hl (by rw [hx0]; exact h1) h2 0
      refine ⟨r.1, r.2, ?_⟩
      unfold findSegment
      rw [hl]
      simp only [if_neg (not_lt.2 h2.le), hf, if_true, hr]
  · rintro rfl ⟨i, rfl, hi⟩
    apply hwarm (le_refl _)
    refine useFresh_false.2 ⟨i, path[i], rfl, List.getElem?_eq_getElem hi, ?_⟩
    cases path with
    | nil => cases hx
    | cons y path =>
      have := h.part.le_last hl _ (List.getElem_mem hi)
      have := h.duration _ (List.getElem_mem hi)
      linarith
  · rintro rfl hno
    have hf : useFresh path l.tEnd last = true := by
      by_contra hc
      simp only [Bool.not_eq_true] at hc
      obtain ⟨i, s, hi, hs, _⟩ := useFresh_false.1 hc
      exact hno ⟨i, hi, (List.getElem?_eq_some_iff.1 hs).1⟩
    have hn : searchFresh l.tEnd 0 path = none := by
      cases hr : searchFresh l.tEnd 0 path with
      | none => rfl
      | some r =>
        obtain ⟨_, h2, _, h4⟩ := searchFresh_sound hr
        cases path with
        | nil => cases hx
        | cons y path =>
          have := h.part.le_last hl _ (List.mem_of_getElem? h2)
          linarith
    unfold findSegment
    rw [hl]
    simp only [lt_irrefl, if_false, hf, if_true, hn]

end PyGCD
