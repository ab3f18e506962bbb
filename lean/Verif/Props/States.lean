import Verif.Proofs.TravelerSteps
import Mathlib.Algebra.Field.Basic
import Mathlib.Algebra.BigOperators.Group.List.Basic
import Mathlib.Tactic.Ring
import Mathlib.Tactic.NormNum
import Mathlib.Data.Rat.Defs
import Mathlib.Algebra.Order.Ring.Rat

set_option linter.unusedSectionVars false

/-!
# Properties of the states generated from a file: C01, C07 – C16
-/

namespace PyGCD
open Spec

section General
variable {K : Type} [Add K] [Div K] [OfNat K 60] [OfNat K 1000] [OfNat K 0]

/-! ## C01 -/

theorem mapM_except_length {α β ε : Type} {f : α → Except ε β} {l : List α} {r : List β}
    (h : l.mapM f = .ok r) : r.length = l.length := by
  induction l generalizing r with
  | nil => cases h; rfl
  | cons a l ih =>
    rw [List.mapM_cons] at h
    simp only [bind, Except.bind, pure, Except.pure] at h
    split at h
    · cases h
    · split at h
      · cases h
      · rename_i hr
        cases h
        simp [ih hr]

/-- C01. One state per line, linked in file order: a run on a file gives the initial state (no line
number, no predecessor), then one state per line; state `i` has line number `i`, predecessor `i - 1`
and successor `i + 1` (none for the last). -/
theorem c01_states_linked {pf : List Char → Option K} {m : Machine K} {content : List Char}
    {ss : List (GState K)} (h : generateStates pf m content = .ok ss) :
    ss.length = (fileLines content).length + 1 ∧
    ∀ i s, ss[i]? = some s →
      s.lineNumber = (if i = 0 then none else some i) ∧
      s.prev = (if i = 0 then none else some (i - 1)) ∧
      s.next = (if i + 1 = ss.length then none else some (i + 1)) := by
  simp only [generateStates, bind, Except.bind, readLines] at h
  split at h
  · cases h
  rename_i ds hds
  have hlen := mapM_except_length hds
  obtain ⟨hl, h0, hi⟩ := dictListTraveler_trace h
  refine ⟨by rw [hl, hlen], ?_⟩
  intro i s hs
  cases i with
  | zero =>
    rw [h0] at hs
    cases hs
    cases ds <;> simp [initState, hl]
  | succ i =>
    have hlt : i < ds.length := by
      have := (List.getElem?_eq_some_iff.1 hs).1
      omega
    obtain ⟨_, _, _, _, _, _, _, _, h5⟩ := hi i hlt
    rw [h5] at hs
    cases hs
    simp only [stateOf, hl]
    refine ⟨by simp, by simp, ?_⟩
    by_cases he : i + 1 = ds.length <;> simp [he]

theorem universalNewlines_spec (cs : List Char) : Newlines cs (universalNewlines cs) := by
  fun_induction universalNewlines cs with
  | case1 => exact .nil
  | case2 cs ih => exact .crlf ih
  | case3 cs hn ih =>
    refine .cr ?_ ih
    intro h
    obtain ⟨t, rfl⟩ := List.head?_eq_some_iff.1 h
    exact hn t rfl
  | case4 c cs h1 h2 ih => exact .other h2 ih

theorem splitLinesAux_spec (cur cs : List Char) (hc : '\n' ∉ cur) :
    Lines (cur.reverse ++ cs) (splitLinesAux cur cs) := by
  induction cs generalizing cur with
  | nil =>
    unfold splitLinesAux
    split
    · rename_i h
      rw [List.isEmpty_iff.1 h]
      exact .none
    · rename_i h
      rw [List.append_nil]
      exact .open (by simpa using h) (by simpa using hc)
  | cons c cs ih =>
    by_cases h : c = '\n'
    · subst h
      have := ih [] (by simp)
      simp only [splitLinesAux, List.reverse_cons]
      exact .line (by simpa using hc) this
    · rw [splitLinesAux.eq_3 cur c cs h]
      have := ih (c :: cur) (by simp [hc, Ne.symm h])
      simpa using this

/-- C01, the lines of a file are those of its text after newline normalisation: put together they give the
text, every line but the last ends with a newline, and newlines are nowhere else. -/
theorem c01_lines (content : List Char) :
    ∃ text, Newlines content text ∧ Lines text (fileLines content) :=
  ⟨_, universalNewlines_spec content, splitLinesAux_spec [] _ (by simp)⟩

/-! ## Numeric machines along a run -/

/-- The machine before line `i` of a successful run has numeric coordinates whose sum with the offsets
is the position of state `i`. -/
theorem run_numeric {m : Machine K} {ds : List (LineDict K)} {ss : List (GState K)}
    (h : dictListTraveler m ds = .ok ss) (i : Nat) (hi : i < ds.length) {vmi : VM K}
    (hv : vmRun (initVM m) (ds.take i) = .ok vmi) (a : Axis) :
    ∃ x o s, vmi.pos a = .num x ∧ vmi.off a = .num o ∧ ss[i]? = some s ∧
      comp s.position a = x + o := by
  obtain ⟨hl, h0, hall⟩ := dictListTraveler_trace h
  cases i with
  | zero =>
    simp only [List.take_zero, vmRun, Except.ok.injEq] at hv
    subst hv
    refine ⟨m.pos a, 0, _, rfl, rfl, h0, ?_⟩
    cases a <;> rfl
  | succ i =>
    obtain ⟨v1, v2, p, pause, h1, h2, h3, h4, h5⟩ := hall i (by omega)
    have := vmRun_take_succ (by omega) h1 h2
    rw [hv] at this
    cases this
    obtain ⟨x, o, hx, ho, hc⟩ := vmPosition_ok h4 a
    exact ⟨x, o, _, hx, ho, h5, hc⟩

/-- The mode of an axis while line `i` is executed. -/
theorem run_mode {m : Machine K} {ds : List (LineDict K)} {i : Nat} (hi : i < ds.length)
    {vmi : VM K} (hv : vmRun (initVM m) (ds.take i) = .ok vmi) (a : Axis) :
    (stepModes vmi ds[i]).mode a = absolute m (ds.take (i + 1)) a := by
  obtain ⟨h1, h2, _⟩ := vmRun_latest hv
  rw [stepModes_mode, List.take_add_one, List.getElem?_eq_getElem hi]
  cases a <;> simp only [absolute, Option.toList_some, latest_append, latest_cons, h1, h2] <;> rfl

/-! ## C07 -/

/-- C07. In every run there are offsets (one per axis and line, zero at first, changed only by a `G92`
naming the axis), such that for every line and axis: if the axis is in absolute mode and the line has a
move word for it, the new position is the word's value plus the offset; if the line has neither a move
word nor a `G92` word for the axis, the position is that of the state before. The mode of `E` is that of
`M82`/`M83`, the one of the others that of `G90`/`G91` (`Spec.absolute`). -/
theorem c07_absolute_moves {m : Machine K} {ds : List (LineDict K)} {ss : List (GState K)}
    (h : dictListTraveler m ds = .ok ss) :
    ∃ off : Nat → Axis → K, (∀ a, off 0 a = 0) ∧
      ∀ i (hi : i < ds.length) (a : Axis), ∃ s s', ss[i]? = some s ∧ ss[i + 1]? = some s' ∧
        (arg ds[i] .G92 (letter a) = none → off (i + 1) a = off i a) ∧
        (∀ w, absolute m (ds.take (i + 1)) a = true → moveWord ds[i] a = some w →
          arg ds[i] .G92 (letter a) = none →
          ∃ x, w = .num x ∧ comp s'.position a = x + off i a) ∧
        (moveWord ds[i] a = none → arg ds[i] .G92 (letter a) = none →
          comp s'.position a = comp s.position a) := by
  obtain ⟨hl, h0, hall⟩ := dictListTraveler_trace h
  refine ⟨fun i a => match vmRun (initVM m) (ds.take i) with
    | .ok vm => (match vm.off a with | .num o => o | .str _ => 0)
    | .error _ => 0, fun a => rfl, ?_⟩
  intro i hi a
  obtain ⟨v1, v2, p, pause, h1, h2, h3, h4, h5⟩ := hall i hi
  obtain ⟨x, o, s, hx, ho, hs, hc⟩ := run_numeric h i hi h1 a
  have hnext := vmRun_take_succ hi h1 h2
  obtain ⟨hmv, _⟩ := vmStep_spec h2
  obtain ⟨q0, q1, e0, e1, e2⟩ := hmv a
  rw [run_mode hi h1 a] at e0 e1
  obtain ⟨x', o', hx', ho', hc'⟩ := vmPosition_ok h4 a
  refine ⟨s, _, hs, h5, ?_, ?_, ?_⟩
  · intro h92
    rw [h92] at e2
    simp only [setPosAxis, Except.ok.injEq, Prod.mk.injEq] at e2
    simp only [hnext, h1, ← e2.2]
  · intro w habs hw h92
    rw [h92] at e2
    simp only [setPosAxis, Except.ok.injEq, Prod.mk.injEq] at e2
    rw [habs] at e0 e1
    have : v2.pos a = w := by
      rw [← e2.1]
      unfold moveWord at hw
      cases hg1 : arg ds[i] .G1 (letter a) with
      | some v =>
        rw [hg1] at e1 hw
        simp only [moveAxis, if_true, Except.ok.injEq] at e1
        simp only [Option.some_or, Option.some.injEq] at hw
        rw [← e1, hw]
      | none =>
        rw [hg1] at e1 hw
        simp only [moveAxis, Except.ok.injEq] at e1
        simp only [Option.none_or] at hw
        rw [hw] at e0
        simp only [moveAxis, if_true, Except.ok.injEq] at e0
        rw [← e1, ← e0]
    refine ⟨x', by rw [← this, hx'], ?_⟩
    simp only [h1, ho]
    have : o' = o := by
      have := e2.2
      rw [ho, ho'] at this
      cases this
      rfl
    rw [← this]
    exact hc'
  · intro hw h92
    rw [h92] at e2
    simp only [setPosAxis, Except.ok.injEq, Prod.mk.injEq] at e2
    simp only [moveWord, Option.or_eq_none_iff] at hw
    rw [hw.1] at e1
    rw [hw.2] at e0
    simp only [moveAxis, Except.ok.injEq] at e0 e1
    have hx1 : x' = x := by
      have : v2.pos a = v1.pos a := by rw [← e2.1, ← e1, ← e0]
      rw [hx, hx'] at this
      cases this
      rfl
    have ho1 : o' = o := by
      have := e2.2
      rw [ho, ho'] at this
      cases this
      rfl
    rw [hx1, ho1] at hc'
    rw [hc]
    exact hc'

end General

/-! ## C08 -/

section FieldK
variable {K : Type} [Field K]

/-- One relative line. -/
theorem rel_step {m : Machine K} {ds : List (LineDict K)} {ss : List (GState K)}
    (h : dictListTraveler m ds = .ok ss) (i : Nat) (hi : i < ds.length) (a : Axis)
    (hrel : absolute m (ds.take (i + 1)) a = false) (h92 : arg ds[i] .G92 (letter a) = none) :
    ∃ s s', ss[i]? = some s ∧ ss[i + 1]? = some s' ∧
      comp s'.position a = comp s.position a + relWord a ds[i] := by
  obtain ⟨hl, h0, hall⟩ := dictListTraveler_trace h
  obtain ⟨v1, v2, p, pause, h1, h2, h3, h4, h5⟩ := hall i hi
  obtain ⟨x, o, s, hx, ho, hs, hc⟩ := run_numeric h i hi h1 a
  obtain ⟨hmv, _⟩ := vmStep_spec h2
  obtain ⟨q0, q1, e0, e1, e2⟩ := hmv a
  rw [run_mode hi h1 a, hrel] at e0 e1
  obtain ⟨x', o', hx', ho', hc'⟩ := vmPosition_ok h4 a
  refine ⟨s, _, hs, h5, ?_⟩
  rw [h92] at e2
  simp only [setPosAxis, Except.ok.injEq, Prod.mk.injEq] at e2
  have key : ∀ (w : Option (Val K)) (y : K) (q : Val K),
      moveAxis false w (.num y) = .ok q → q = .num (y + num0 w) := by
    intro w y q hq
    cases w with
    | none => cases hq; simp [num0]
    | some v =>
      cases v with
      | num v => cases hq; simp [num0]
      | str v => cases hq
  rw [hx] at e0
  have hq0 := key _ _ _ e0
  rw [hq0] at e1
  have hq1 := key _ _ _ e1
  have hx1 : x' = x + num0 (arg ds[i] .G0 (letter a)) + num0 (arg ds[i] .G1 (letter a)) := by
    have := e2.1
    rw [hq1, hx'] at this
    cases this
    rfl
  have ho1 : o' = o := by
    have := e2.2
    rw [ho, ho'] at this
    cases this
    rfl
  rw [hc]
  have : comp (stateOf m.layerCue (i + 1) (layerRun m.layerCue 0 (ds.take (i + 1)))
      (decide (i + 1 = ds.length)) v2 p pause ds[i]).position a = x' + o' := hc'
  rw [this, hx1, ho1, relWord]
  ring

/-- C08. Over any run of lines in which an axis stays in relative mode and is not renamed by `G92`, the
axis advances by exactly the sum of its words. -/
theorem c08_relative_accumulates {m : Machine K} {ds : List (LineDict K)} {ss : List (GState K)}
    (h : dictListTraveler m ds = .ok ss) (a : Axis) (i k : Nat) (hik : i + k ≤ ds.length)
    (hrel : ∀ j, i ≤ j → j < i + k → absolute m (ds.take (j + 1)) a = false)
    (h92 : ∀ d ∈ (ds.drop i).take k, arg d .G92 (letter a) = none) :
    ∃ s s', ss[i]? = some s ∧ ss[i + k]? = some s' ∧
      comp s'.position a = comp s.position a + (((ds.drop i).take k).map (relWord a)).sum := by
  induction k with
  | zero =>
    have hl := (dictListTraveler_trace h).1
    have : i < ss.length := by omega
    exact ⟨ss[i], ss[i], List.getElem?_eq_getElem this, List.getElem?_eq_getElem this, by simp⟩
  | succ k ih =>
    have hsplit : (ds.drop i).take (k + 1) = (ds.drop i).take k ++ [ds[i + k]] := by
      rw [List.take_add_one, List.getElem?_drop, List.getElem?_eq_getElem (by omega)]
      rfl
    rw [hsplit] at h92 ⊢
    obtain ⟨s, s1, hs, hs1, he⟩ := ih (by omega) (fun j h1 h2 => hrel j h1 (by omega))
      (fun d hd => h92 d (List.mem_append_left _ hd))
    obtain ⟨t, t', ht, ht', hte⟩ := rel_step h (i + k) (by omega) a (hrel (i + k) (by omega) (by omega))
      (h92 _ (by simp))
    rw [hs1] at ht
    cases ht
    refine ⟨s, t', hs, ht', ?_⟩
    rw [hte, he]
    simp [add_assoc]

end FieldK

/-! ## The exact position law -/

section Law
variable {K : Type} [Field K]

theorem setPosAxis_num {w : Option (Val K)} {q : Val K} {o : K} {q' o' : Val K}
    (h : setPosAxis w q (.num o) = .ok (q', o')) :
    (w = none ∧ q' = q ∧ o' = .num o) ∨
      ∃ v x, w = some (.num v) ∧ q = .num x ∧ q' = .num v ∧ o' = .num (x + v + o) := by
  cases w with
  | none =>
    simp only [setPosAxis, Except.ok.injEq, Prod.mk.injEq] at h
    exact Or.inl ⟨rfl, h.1.symm, h.2.symm⟩
  | some w =>
    cases w with
    | str t =>
      cases q <;> simp only [setPosAxis, Val.add, bind, Except.bind] at h <;> cases h
    | num v =>
      cases q with
      | str t => simp only [setPosAxis, Val.add, bind, Except.bind] at h; cases h
      | num x =>
        simp only [setPosAxis, Val.add, bind, Except.bind, Except.ok.injEq, Prod.mk.injEq] at h
        exact Or.inr ⟨v, x, rfl, rfl, h.1.symm, h.2.symm⟩

theorem moveAxis_rel {w : Option (Val K)} {y : K} {q : Val K}
    (hq : moveAxis false w (.num y) = .ok q) : q = .num (y + num0 w) := by
  cases w with
  | none => cases hq; simp [num0]
  | some v =>
    cases v with
    | num v => cases hq; simp [num0]
    | str v => cases hq

/-- Everything about one axis in one line of a run: the new position, and the new displacement. -/
theorem axis_step {m : Machine K} {ds : List (LineDict K)} {ss : List (GState K)}
    (h : dictListTraveler m ds = .ok ss) (i : Nat) (hi : i < ds.length) (a : Axis) :
    ∃ v1 v2 o s s', vmRun (initVM m) (ds.take i) = .ok v1 ∧ vmRun (initVM m) (ds.take (i + 1)) = .ok v2 ∧
      v1.off a = .num o ∧ ss[i]? = some s ∧ ss[i + 1]? = some s' ∧
      comp s'.position a = moved (absolute m (ds.take (i + 1)) a) o (comp s.position a) a ds[i] +
        2 * num0 (arg ds[i] .G92 (letter a)) ∧
      ((arg ds[i] .G92 (letter a) = none ∧ v2.off a = .num o) ∨
        ∃ v, arg ds[i] .G92 (letter a) = some (.num v) ∧ v2.off a = .num (comp s'.position a - v)) := by
  obtain ⟨hl, h0, hall⟩ := dictListTraveler_trace h
  obtain ⟨v1, v2, p, pause, h1, h2, h3, h4, h5⟩ := hall i hi
  obtain ⟨x, o, s, hx, ho, hs, hc⟩ := run_numeric h i hi h1 a
  obtain ⟨q0, q1, e0, e1, e2⟩ := (vmStep_spec h2).1 a
  rw [run_mode hi h1 a] at e0 e1
  obtain ⟨x', o', hx', ho', hc'⟩ := vmPosition_ok h4 a
  have hc' : comp (stateOf m.layerCue (i + 1) (layerRun m.layerCue 0 (ds.take (i + 1)))
      (decide (i + 1 = ds.length)) v2 p pause ds[i]).position a = x' + o' := hc'
  rw [ho, hx', ho'] at e2
  refine ⟨v1, v2, o, s, _, h1, vmRun_take_succ hi h1 h2, ho, hs, h5, ?_⟩
  -- the position after the move words
  have hmove : ∀ y, q1 = .num y →
      y + o = moved (absolute m (ds.take (i + 1)) a) o (comp s.position a) a ds[i] := by
    intro y hy
    unfold moved
    cases habs : absolute m (ds.take (i + 1)) a with
    | false =>
      rw [habs, hx] at e0
      rw [habs, moveAxis_rel e0] at e1
      have := moveAxis_rel e1
      rw [hy, Val.num.injEq] at this
      rw [if_neg (by simp), hc, this, relWord]
      ring
    | true =>
      rw [habs] at e0 e1
      rw [if_pos rfl]
      unfold moveWord
      cases hg1 : arg ds[i] .G1 (letter a) with
      | some v =>
        rw [hg1] at e1
        simp only [moveAxis, if_true, Except.ok.injEq] at e1
        rw [e1, hy]
        rfl
      | none =>
        rw [hg1] at e1
        simp only [moveAxis, Except.ok.injEq] at e1
        cases hg0 : arg ds[i] .G0 (letter a) with
        | some v =>
          rw [hg0] at e0
          simp only [moveAxis, if_true, Except.ok.injEq] at e0
          rw [e0, e1, hy]
          rfl
        | none =>
          rw [hg0] at e0
          simp only [moveAxis, Except.ok.injEq] at e0
          rw [← e1, ← e0, hx, Val.num.injEq] at hy
          rw [← hy]
          exact hc.symm
  rcases setPosAxis_num e2 with ⟨w0, w1, w2⟩ | ⟨v, y, w0, w1, w2, w3⟩
  · rw [Val.num.injEq] at w2
    constructor
    · rw [← hmove x' w1.symm, hc', w0, w2]
      simp [num0]
    · exact Or.inl ⟨w0, by rw [ho', w2]⟩
  · rw [Val.num.injEq] at w2 w3
    constructor
    · rw [← hmove y w1, hc', w0, w2, w3]
      simp only [num0]
      ring
    · refine Or.inr ⟨v, w0, ?_⟩
      rw [ho', hc', w2, add_sub_cancel_left]

/-- The offset of the machine is the displacement that can be read off the states. -/
theorem run_offset {m : Machine K} {ds : List (LineDict K)} {ss : List (GState K)}
    (h : dictListTraveler m ds = .ok ss) (a : Axis) (i : Nat) (hi : i ≤ ds.length) {v1 : VM K}
    (hv : vmRun (initVM m) (ds.take i) = .ok v1) : v1.off a = .num (offset ds ss a i) := by
  induction i generalizing v1 with
  | zero =>
    simp only [List.take_zero, vmRun, Except.ok.injEq] at hv
    subst hv
    rfl
  | succ i ih =>
    have hi' : i < ds.length := by omega
    obtain ⟨u1, u2, o, s, s', g1, g2, g3, g4, g5, g6, g7⟩ := axis_step h i hi' a
    rw [g2, Except.ok.injEq] at hv
    subst hv
    have hd : ds[i]? = some ds[i] := List.getElem?_eq_getElem hi'
    rcases g7 with ⟨w, e⟩ | ⟨v, w, e⟩
    · rw [e]
      have := ih (by omega) g1
      rw [g3] at this
      simp only [offset, hd, Option.bind_some, w]
      exact this
    · rw [e]
      simp only [offset, hd, Option.bind_some, w, g5]

/-- C07, the exact law of positions, for every line whatever it contains: the move words put the axis at
their value plus the displacement (absolute mode), or further by their sum (relative mode), or leave it; on
top of that a `G92` word `v` moves the axis by `2 * v`. -/
theorem c07_position_law {m : Machine K} {ds : List (LineDict K)} {ss : List (GState K)}
    (h : dictListTraveler m ds = .ok ss) :
    (∃ s, ss[0]? = some s ∧ ∀ a, comp s.position a = m.pos a) ∧
    ∀ i (hi : i < ds.length) (a : Axis), ∃ s s', ss[i]? = some s ∧ ss[i + 1]? = some s' ∧
      comp s'.position a =
        moved (absolute m (ds.take (i + 1)) a) (offset ds ss a i) (comp s.position a) a ds[i] +
          2 * num0 (arg ds[i] .G92 (letter a)) := by
  refine ⟨⟨_, (dictListTraveler_trace h).2.1, ?_⟩, ?_⟩
  · intro a
    cases a <;> simp [initState, comp]
  · intro i hi a
    obtain ⟨v1, v2, o, s, s', g1, g2, g3, g4, g5, g6, g7⟩ := axis_step h i hi a
    have := run_offset h a i (by omega) g1
    rw [g3, Val.num.injEq] at this
    rw [this] at g6
    exact ⟨s, s', g4, g5, g6⟩

/-- C09. Absolute positioning forgets history: two runs (on any machines and any histories) that execute
the same line `d` with the axis in absolute mode, a move word for it, and the same `G92` displacement in
force, put the axis at the same place. -/
theorem c09_absolute_forgets {m₁ m₂ : Machine K} {ds₁ ds₂ : List (LineDict K)} {d : LineDict K}
    {ss₁ ss₂ : List (GState K)} {a : Axis} {w : K}
    (h₁ : dictListTraveler m₁ (ds₁ ++ [d]) = .ok ss₁)
    (h₂ : dictListTraveler m₂ (ds₂ ++ [d]) = .ok ss₂)
    (a₁ : absolute m₁ (ds₁ ++ [d]) a = true) (a₂ : absolute m₂ (ds₂ ++ [d]) a = true)
    (hw : moveWord d a = some (.num w))
    (hoff : offset ds₁ ss₁ a ds₁.length = offset ds₂ ss₂ a ds₂.length) :
    ∃ s₁ s₂, ss₁.getLast? = some s₁ ∧ ss₂.getLast? = some s₂ ∧
      comp s₁.position a = comp s₂.position a := by
  have hcut : ∀ (ds : List (LineDict K)) (ss : List (GState K)) (n : Nat), n ≤ ds.length →
      offset (ds ++ [d]) ss a n = offset ds ss a n := by
    intro ds ss n hn
    induction n with
    | zero => rfl
    | succ n ih =>
      simp only [offset, List.getElem?_append_left (show n < ds.length by omega), ih (by omega)]
  have one : ∀ (m : Machine K) (ds : List (LineDict K)) (ss : List (GState K)),
      dictListTraveler m (ds ++ [d]) = .ok ss → absolute m (ds ++ [d]) a = true →
      ∃ s, ss.getLast? = some s ∧
        comp s.position a = w + offset ds ss a ds.length + 2 * num0 (arg d .G92 (letter a)) := by
    intro m ds ss h habs
    obtain ⟨_, hall⟩ := c07_position_law h
    obtain ⟨s, s', g1, g2, g3⟩ := hall ds.length (by simp) a
    have htake : List.take (ds.length + 1) (ds ++ [d]) = ds ++ [d] := by
      rw [List.take_of_length_le (by simp)]
    have hd : (ds ++ [d])[ds.length]'(by simp) = d := by simp
    rw [htake, hd, habs, hcut ds ss _ (le_refl _)] at g3
    refine ⟨s', ?_, ?_⟩
    · rw [List.getLast?_eq_getElem?, (dictListTraveler_trace h).1]
      simpa using g2
    · rw [g3, moved, if_pos rfl, hw]
  obtain ⟨s₁, p₁, q₁⟩ := one m₁ ds₁ ss₁ h₁ a₁
  obtain ⟨s₂, p₂, q₂⟩ := one m₂ ds₂ ss₂ h₂ a₂
  exact ⟨s₁, s₂, p₁, p₂, by rw [q₁, q₂, hoff]⟩

/-- C09 for histories without `G92` on the axis. -/
theorem c09_absolute_forgets_no_g92 {m₁ m₂ : Machine K} {ds₁ ds₂ : List (LineDict K)}
    {d : LineDict K} {ss₁ ss₂ : List (GState K)} {a : Axis} {w : K}
    (h₁ : dictListTraveler m₁ (ds₁ ++ [d]) = .ok ss₁)
    (h₂ : dictListTraveler m₂ (ds₂ ++ [d]) = .ok ss₂)
    (a₁ : absolute m₁ (ds₁ ++ [d]) a = true) (a₂ : absolute m₂ (ds₂ ++ [d]) a = true)
    (hw : moveWord d a = some (.num w))
    (n₁ : ∀ e ∈ ds₁, arg e .G92 (letter a) = none)
    (n₂ : ∀ e ∈ ds₂, arg e .G92 (letter a) = none) :
    ∃ s₁ s₂, ss₁.getLast? = some s₁ ∧ ss₂.getLast? = some s₂ ∧
      comp s₁.position a = comp s₂.position a := by
  have zero : ∀ (ds : List (LineDict K)) (ss : List (GState K)) (n : Nat),
      (∀ e ∈ ds, arg e .G92 (letter a) = none) → offset ds ss a n = 0 := by
    intro ds ss n hn
    induction n with
    | zero => rfl
    | succ n ih =>
      unfold offset
      split
      · rename_i v s hv _
        cases hd : ds[n]? with
        | none => rw [hd] at hv; cases hv
        | some e =>
          rw [hd, Option.bind_some, hn e (List.mem_of_getElem? hd)] at hv
          cases hv
      · exact ih
  exact c09_absolute_forgets h₁ h₂ a₁ a₂ hw (by rw [zero _ _ _ n₁, zero _ _ _ n₂])

end Law

/-! ## C10 -/

section FieldK2
variable {K : Type} [Field K]

/-- What `G92` really does: an axis named by `G92` with value `v` (and by no move word on that line) is
displaced by `2 * v`. -/
theorem c10_g92_displaces {m : Machine K} {ds : List (LineDict K)} {ss : List (GState K)}
    (h : dictListTraveler m ds = .ok ss) (i : Nat) (hi : i < ds.length) (a : Axis) {w : Val K}
    (hw : arg ds[i] .G92 (letter a) = some w) (hmv : moveWord ds[i] a = none) :
    ∃ s s' v, ss[i]? = some s ∧ ss[i + 1]? = some s' ∧ w = .num v ∧
      comp s'.position a = comp s.position a + 2 * v := by
  obtain ⟨hl, h0, hall⟩ := dictListTraveler_trace h
  obtain ⟨v1, v2, p, pause, h1, h2, h3, h4, h5⟩ := hall i hi
  obtain ⟨x, o, s, hx, ho, hs, hc⟩ := run_numeric h i hi h1 a
  obtain ⟨q0, q1, e0, e1, e2⟩ := (vmStep_spec h2).1 a
  simp only [moveWord, Option.or_eq_none_iff] at hmv
  rw [hmv.1] at e1
  rw [hmv.2] at e0
  simp only [moveAxis, Except.ok.injEq] at e0 e1
  rw [hw, ← e1, ← e0, hx, ho] at e2
  cases w with
  | str t =>
    simp only [setPosAxis, Val.add, bind, Except.bind] at e2
    cases e2
  | num v =>
    simp only [setPosAxis, Val.add, bind, Except.bind, Except.ok.injEq, Prod.mk.injEq] at e2
    obtain ⟨x', o', hx', ho', hc'⟩ := vmPosition_ok h4 a
    refine ⟨s, _, v, hs, h5, rfl, ?_⟩
    have hx1 : x' = v := by
      have := e2.1
      rw [hx'] at this
      cases this
      rfl
    have ho1 : o' = x + v + o := by
      have := e2.2
      rw [ho'] at this
      cases this
      rfl
    have : comp (stateOf m.layerCue (i + 1) (layerRun m.layerCue 0 (ds.take (i + 1)))
      (decide (i + 1 = ds.length)) v2 p pause ds[i]).position a = x' + o' := hc'
    rw [this, hx1, ho1, hc]
    ring

/-- C10 as wanted: a line that has `G92` words for an axis but no move word for it leaves the axis
where it is. -/
def C10Full (K : Type) [Field K] : Prop :=
  ∀ (m : Machine K) (ds : List (LineDict K)) (ss : List (GState K)),
    dictListTraveler m ds = .ok ss → ∀ i (hi : i < ds.length) (a : Axis),
    arg ds[i] .G92 (letter a) ≠ none → moveWord ds[i] a = none →
    ∀ s s', ss[i]? = some s → ss[i + 1]? = some s' → comp s'.position a = comp s.position a

/-- C10, the part that holds: `G92` with value 0 does not move the axis. Missing: every other value,
see `c10_refuted` and `c10_g92_displaces`. -/
theorem c10_g92_zero_partial {m : Machine K} {ds : List (LineDict K)} {ss : List (GState K)}
    (h : dictListTraveler m ds = .ok ss) (i : Nat) (hi : i < ds.length) (a : Axis)
    (hw : arg ds[i] .G92 (letter a) = some (.num 0)) (hmv : moveWord ds[i] a = none) :
    ∃ s s', ss[i]? = some s ∧ ss[i + 1]? = some s' ∧
      comp s'.position a = comp s.position a := by
  obtain ⟨s, s', v, h1, h2, h3, h4⟩ := c10_g92_displaces h i hi a hw hmv
  cases h3
  exact ⟨s, s', h1, h2, by rw [h4]; ring⟩

/-- A machine for examples: everything zero, absolute modes, no layer cue. -/
def zeroMachine (K : Type) [Field K] : Machine K :=
  { pos := fun _ => 0, pVel := 1, pAcc := 1, jerk := 0, vAx := fun _ => 1, absPos := true,
    absExt := true, units := .SImm, layerCue := none }

/-- C10 is false for the code: `G92 X1` on a fresh machine moves it from 0 to 2. -/
theorem c10_refuted : ¬ C10Full ℚ := by
  intro h
  have hrun : ∃ ss, dictListTraveler (zeroMachine ℚ) [[(.G92, .args [('X', .num 1)])]] = .ok ss ∧
      ∃ s s', ss[0]? = some s ∧ ss[1]? = some s' ∧ comp s.position .X = 0 ∧
        comp s'.position .X = 2 := by
    refine ⟨_, rfl, _, _, rfl, rfl, ?_, ?_⟩
    · show (0 : ℚ) + 0 = 0
      norm_num
    · show (1 : ℚ) + (0 + 1 + 0) = 2
      norm_num
  obtain ⟨ss, hr, s, s', h1, h2, h3, h4⟩ := hrun
  have := h _ _ _ hr 0 (by simp) .X (by simp [arg, entry, letter]) rfl s s' h1 h2
  rw [h3, h4] at this
  norm_num at this

end FieldK2

end PyGCD
