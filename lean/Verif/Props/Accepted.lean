import Verif.Props.States2

set_option linter.unusedSectionVars false

/-!
# C52: exactly which parsed files give states
-/

namespace PyGCD
open Spec

section General
variable {K : Type} [Add K] [Div K] [OfNat K 60] [OfNat K 1000] [OfNat K 0]

/-- All coordinates and offsets are numbers. -/
def NumVM (vm : VM K) : Prop := ∀ a, ∃ x o, vm.pos a = .num x ∧ vm.off a = .num o

theorem numeric_cases {w : Option (Val K)} (h : Numeric w) : w = none ∨ ∃ v, w = some (.num v) := by
  cases w with
  | none => exact Or.inl rfl
  | some v =>
    cases v with
    | num v => exact Or.inr ⟨v, rfl⟩
    | str t => exact absurd rfl (h t)

theorem stepMove_ok {d : LineDict K} {c : Cmd} {vm : VM K}
    (h : ∀ a, ∃ q, moveAxis (vm.mode a) (arg d c (letter a)) (vm.pos a) = .ok q)
    (hf : Numeric (arg d c 'F')) : ∃ vm', stepMove d c vm = .ok vm' := by
  obtain ⟨qx, hx⟩ := h .X
  obtain ⟨qy, hy⟩ := h .Y
  obtain ⟨qz, hz⟩ := h .Z
  obtain ⟨qe, he⟩ := h .E
  simp only [VM.mode, letter] at hx hy hz he
  simp only [stepMove, word_eq_arg, bind, Except.bind, hx, hy, hz, he]
  rcases numeric_cases hf with h | ⟨v, h⟩ <;> rw [h] <;> exact ⟨_, rfl⟩

theorem stepSetPos_ok {d : LineDict K} {vm : VM K} (h : NumVM vm)
    (hw : ∀ a, Numeric (arg d .G92 (letter a))) : ∃ vm', stepSetPos d vm = .ok vm' ∧ NumVM vm' := by
  have one : ∀ a, ∃ q o, setPosAxis (arg d .G92 (letter a)) (vm.pos a) (vm.off a) =
      .ok (.num q, .num o) := by
    intro a
    obtain ⟨x, o, h1, h2⟩ := h a
    rw [h1, h2]
    rcases numeric_cases (hw a) with h | ⟨v, h⟩ <;> rw [h]
    · exact ⟨_, _, rfl⟩
    · exact ⟨_, _, rfl⟩
  obtain ⟨qx, ox, hx⟩ := one .X
  obtain ⟨qy, oy, hy⟩ := one .Y
  obtain ⟨qz, oz, hz⟩ := one .Z
  obtain ⟨qe, oe, he⟩ := one .E
  simp only [letter] at hx hy hz he
  simp only [stepSetPos, word_eq_arg, bind, Except.bind, hx, hy, hz, he]
  refine ⟨_, rfl, ?_⟩
  intro a
  cases a <;> exact ⟨_, _, rfl, rfl⟩

/-- A numeric line runs on a numeric machine. -/
theorem line_runs {vm : VM K} {d : LineDict K} (hvm : NumVM vm)
    (hd : LineNumeric (stepModes vm d).mode d) :
    ∃ vm' pause p, vmStep vm d = .ok vm' ∧ NumVM vm' ∧ pauseOf d = .ok pause ∧
      vmPosition vm' = .ok p := by
  obtain ⟨m1, m2, m3, m4, m5, m6, m7, m8, m9⟩ := stepModes_spec vm d
  have rel : ∀ (w : Option (Val K)) (x : K), Numeric w → ∃ y, moveAxis false w (.num x) = .ok (.num y) := by
    intro w x hw
    rcases numeric_cases hw with h | ⟨v, h⟩ <;> rw [h] <;> exact ⟨_, rfl⟩
  have abs : ∀ (w : Option (Val K)) (q : Val K), ∃ q', moveAxis true w q = .ok q' := by
    intro w q
    cases w <;> exact ⟨_, rfl⟩
  obtain ⟨v1, h1⟩ : ∃ v1, stepMove d .G0 (stepModes vm d) = .ok v1 := by
    refine stepMove_ok ?_ hd.feed.1
    intro a
    obtain ⟨x, o, hx, _⟩ := hvm a
    rw [m4, hx]
    cases hm : (stepModes vm d).mode a with
    | true => exact abs _ _
    | false =>
      obtain ⟨y, hy⟩ := rel _ x (hd.relative a hm).1
      exact ⟨_, hy⟩
  obtain ⟨a1, a2, a3, a4, a5, _⟩ := stepMove_spec h1
  have hmode : ∀ a, v1.mode a = (stepModes vm d).mode a := by
    intro a
    cases a <;> simp [VM.mode, a4, a5]
  have hrel1 : ∀ a, (stepModes vm d).mode a = false → ∃ y, v1.pos a = .num y := by
    intro a hm
    obtain ⟨x, o, hx, _⟩ := hvm a
    have := a1 a
    rw [m4, hx, hm] at this
    obtain ⟨y, hy⟩ := rel _ x (hd.relative a hm).1
    rw [hy, Except.ok.injEq] at this
    exact ⟨y, this.symm⟩
  obtain ⟨v2, h2⟩ : ∃ v2, stepMove d .G1 v1 = .ok v2 := by
    refine stepMove_ok ?_ hd.feed.2
    intro a
    rw [hmode]
    cases hm : (stepModes vm d).mode a with
    | true => exact abs _ _
    | false =>
      obtain ⟨y, hy⟩ := hrel1 a hm
      obtain ⟨z, hz⟩ := rel _ y (hd.relative a hm).2
      rw [hy]
      exact ⟨_, hz⟩
  obtain ⟨b1, b2, b3, _⟩ := stepMove_spec h2
  have hnum2 : NumVM v2 := by
    intro a
    obtain ⟨x, o, hx, ho⟩ := hvm a
    have hoff : v2.off a = .num o := by rw [b3, a3, m5, ho]
    have e0 := a1 a
    have e1 := b1 a
    rw [hmode] at e1
    rw [m4, hx] at e0
    cases hm : (stepModes vm d).mode a with
    | false =>
      obtain ⟨y, hy⟩ := hrel1 a hm
      obtain ⟨z, hz⟩ := rel _ y (hd.relative a hm).2
      rw [hm, hy, hz, Except.ok.injEq] at e1
      exact ⟨z, o, e1.symm, hoff⟩
    | true =>
      rw [hm] at e0 e1
      have hw := hd.absolute a hm
      unfold moveWord at hw
      cases hg1 : arg d .G1 (letter a) with
      | some v =>
        rw [hg1, Option.some_or] at hw
        rw [hg1] at e1
        simp only [moveAxis, if_true, Except.ok.injEq] at e1
        rcases numeric_cases hw with h | ⟨v', h⟩
        · cases h
        · rw [Option.some.injEq] at h
          exact ⟨v', o, by rw [← e1, h], hoff⟩
      | none =>
        rw [hg1, Option.none_or] at hw
        rw [hg1] at e1
        simp only [moveAxis, Except.ok.injEq] at e1
        rcases numeric_cases hw with h | ⟨v', h⟩
        · rw [h] at e0
          simp only [moveAxis, Except.ok.injEq] at e0
          exact ⟨x, o, by rw [← e1, ← e0], hoff⟩
        · rw [h] at e0
          simp only [moveAxis, if_true, Except.ok.injEq] at e0
          exact ⟨v', o, by rw [← e1, ← e0], hoff⟩
  obtain ⟨v3, h3, hnum3⟩ := stepSetPos_ok hnum2 hd.setpos
  have hstep : vmStep vm d = .ok (stepSettings d v3) := by
    simp only [vmStep, bind, Except.bind, h1, h2, h3]
  have hp : ∃ pause, pauseOf d = .ok pause := by
    simp only [pauseOf, word_eq_arg, bind, Except.bind]
    rcases numeric_cases hd.pause with h | ⟨v, h⟩ <;> rw [h] <;>
      cases arg d .G4 'S' <;> exact ⟨_, rfl⟩
  obtain ⟨pause, hp⟩ := hp
  have hnum : NumVM (stepSettings d v3) := hnum3
  have hpos : ∃ p, vmPosition (stepSettings d v3) = .ok p := by
    have one : ∀ a, ∃ r, coord (stepSettings d v3) a = .ok r := by
      intro a
      obtain ⟨x, o, hx, ho⟩ := hnum a
      exact ⟨x + o, by simp only [coord, hx, ho]⟩
    obtain ⟨x, hx⟩ := one .X
    obtain ⟨y, hy⟩ := one .Y
    obtain ⟨z, hz⟩ := one .Z
    obtain ⟨e, he⟩ := one .E
    exact ⟨⟨x, y, z, e⟩, by simp only [vmPosition, bind, Except.bind, hx, hy, hz, he]⟩
  obtain ⟨p, hpos⟩ := hpos
  exact ⟨_, pause, p, hstep, hnum, hp, hpos⟩

/-- A line that runs and ends at numeric coordinates is numeric. -/
theorem line_numeric {vm vm' : VM K} {d : LineDict K} {pause : Option (Val K)} {p : Vec4 K}
    (hvm : NumVM vm) (h1 : vmStep vm d = .ok vm') (h2 : pauseOf d = .ok pause)
    (h3 : vmPosition vm' = .ok p) : LineNumeric (stepModes vm d).mode d := by
  obtain ⟨hmv, ⟨f0, hf0, hf1⟩, _⟩ := vmStep_spec h1
  have hset : ∀ a q o, setPosAxis (arg d .G92 (letter a)) q (.num o) = .ok (vm'.pos a, vm'.off a) →
      Numeric (arg d .G92 (letter a)) ∧ ∃ x, q = .num x := by
    intro a q o h
    obtain ⟨x', o', hx', ho', _⟩ := vmPosition_ok h3 a
    cases hw : arg d .G92 (letter a) with
    | none =>
      rw [hw] at h
      simp only [setPosAxis, Except.ok.injEq, Prod.mk.injEq] at h
      exact ⟨fun t ht => (by cases ht), x', by rw [h.1, hx']⟩
    | some w =>
      rw [hw] at h
      cases w with
      | str t => cases q <;> simp only [setPosAxis, Val.add, bind, Except.bind] at h <;> cases h
      | num v =>
        cases q with
        | str t => simp only [setPosAxis, Val.add, bind, Except.bind] at h; cases h
        | num x => exact ⟨fun t ht => (by cases ht), x, rfl⟩
  refine ⟨?_, ?_, ?_, ?_, ?_⟩
  · intro a hm t ht
    obtain ⟨q0, q1, e0, e1, e2⟩ := hmv a
    obtain ⟨x, o, hx, ho⟩ := hvm a
    rw [hm] at e0 e1
    rw [ho] at e2
    obtain ⟨_, y, hy⟩ := hset a q1 o e2
    unfold moveWord at ht
    cases hg1 : arg d .G1 (letter a) with
    | some v =>
      rw [hg1, Option.some_or, Option.some.injEq] at ht
      rw [hg1, ht, hy] at e1
      simp only [moveAxis, if_true, Except.ok.injEq] at e1
      cases e1
    | none =>
      rw [hg1, Option.none_or] at ht
      rw [hg1, hy] at e1
      rw [ht] at e0
      simp only [moveAxis, if_true, Except.ok.injEq] at e0 e1
      rw [e1] at e0
      cases e0
  · intro a hm
    obtain ⟨q0, q1, e0, e1, e2⟩ := hmv a
    obtain ⟨x, o, hx, ho⟩ := hvm a
    rw [hm] at e0 e1
    rw [hx] at e0
    have hn : Numeric (arg d .G0 (letter a)) := by
      intro t ht
      rw [ht] at e0
      cases e0
    refine ⟨hn, ?_⟩
    intro t ht
    rw [ht] at e1
    rcases numeric_cases hn with h | ⟨v, h⟩
    · rw [h] at e0
      cases e0
      cases e1
    · rw [h] at e0
      cases e0
      cases e1
  · intro a
    obtain ⟨q0, q1, e0, e1, e2⟩ := hmv a
    obtain ⟨x, o, hx, ho⟩ := hvm a
    rw [ho] at e2
    exact (hset a q1 o e2).1
  · constructor
    · intro t ht
      rw [ht] at hf0
      cases hf0
    · intro t ht
      rw [ht] at hf1
      cases hf1
  · intro t ht
    simp only [pauseOf, word_eq_arg, bind, Except.bind] at h2
    rw [ht] at h2
    cases h2

theorem moveAxis_error {b : Bool} {w : Option (Val K)} {q : Val K} {e : PyErr}
    (h : moveAxis b w q = .error e) : e = .typeError := by
  cases w with
  | none => cases h
  | some w =>
    cases b with
    | true => cases h
    | false =>
      cases q <;> cases w <;> cases h
      all_goals rfl

theorem setPosAxis_error {w : Option (Val K)} {q o : Val K} {e : PyErr}
    (h : setPosAxis w q o = .error e) : e = .typeError := by
  cases w with
  | none => cases h
  | some w =>
    cases q <;> cases w <;> cases o <;>
      simp only [setPosAxis, Val.add, bind, Except.bind] at h <;> cases h <;> rfl

theorem divNum_error {v : Val K} {c : K} {e : PyErr} (h : v.divNum c = .error e) : e = .typeError := by
  cases v <;> cases h <;> rfl

theorem stepMove_error {d : LineDict K} {c : Cmd} {vm : VM K} {e : PyErr}
    (h : stepMove d c vm = .error e) : e = .typeError := by
  simp only [stepMove, bind, Except.bind] at h
  split at h
  · rename_i h'; cases h; exact moveAxis_error h'
  split at h
  · rename_i h'; cases h; exact moveAxis_error h'
  split at h
  · rename_i h'; cases h; exact moveAxis_error h'
  split at h
  · rename_i h'; cases h; exact moveAxis_error h'
  cases hF : word d c 'F' with
  | none => rw [hF] at h; cases h
  | some v =>
    rw [hF] at h
    cases hv : v.divNum 60 with
    | error e' => simp only [hv] at h; cases h; exact divNum_error hv
    | ok f => simp only [hv] at h; cases h

theorem stepSetPos_error {d : LineDict K} {vm : VM K} {e : PyErr}
    (h : stepSetPos d vm = .error e) : e = .typeError := by
  simp only [stepSetPos, bind, Except.bind] at h
  split at h
  · rename_i h'; cases h; exact setPosAxis_error h'
  split at h
  · rename_i h'; cases h; exact setPosAxis_error h'
  split at h
  · rename_i h'; cases h; exact setPosAxis_error h'
  split at h
  · rename_i h'; cases h; exact setPosAxis_error h'
  · cases h

theorem vmStep_error {d : LineDict K} {vm : VM K} {e : PyErr} (h : vmStep vm d = .error e) :
    e = .typeError := by
  simp only [vmStep, bind, Except.bind] at h
  split at h
  · rename_i h'; cases h; exact stepMove_error h'
  split at h
  · rename_i h'; cases h; exact stepMove_error h'
  split at h
  · rename_i h'; cases h; exact stepSetPos_error h'
  · cases h

theorem pauseOf_error {d : LineDict K} {e : PyErr} (h : pauseOf d = .error e) : e = .typeError := by
  simp only [pauseOf, bind, Except.bind] at h
  cases hP : word d .G4 'P' with
  | none => rw [hP] at h; cases hS : word d .G4 'S' <;> rw [hS] at h <;> cases h
  | some v =>
    rw [hP] at h
    cases v with
    | str t => cases h; rfl
    | num v => cases hS : word d .G4 'S' <;> rw [hS] at h <;> cases h

theorem coord_error {vm : VM K} {a : Axis} {e : PyErr} (h : coord vm a = .error e) : e = .typeError := by
  unfold coord at h
  split at h <;> cases h
  rfl

theorem vmPosition_error {vm : VM K} {e : PyErr} (h : vmPosition vm = .error e) : e = .typeError := by
  simp only [vmPosition, bind, Except.bind] at h
  split at h
  · rename_i h'; cases h; exact coord_error h'
  split at h
  · rename_i h'; cases h; exact coord_error h'
  split at h
  · rename_i h'; cases h; exact coord_error h'
  split at h
  · rename_i h'; cases h; exact coord_error h'
  · cases h

theorem travelLoop_error {cue : Option (List Char)} {n c : Nat} {vm : VM K} {ds : List (LineDict K)}
    {e : PyErr} (h : travelLoop cue n c vm ds = .error e) : e = .typeError := by
  induction ds generalizing n c vm with
  | nil => cases h
  | cons d ds ih =>
    simp only [travelLoop, bind, Except.bind] at h
    split at h
    · rename_i h'; cases h; exact vmStep_error h'
    split at h
    · rename_i h'; cases h; exact pauseOf_error h'
    split at h
    · rename_i h'; cases h; exact vmPosition_error h'
    split at h
    · rename_i h'; cases h; exact ih h'
    · cases h

/-- The loop runs through exactly if every line is numeric under the modes in force. -/
theorem travelLoop_runs {m : Machine K} {pre ds : List (LineDict K)} {cue : Option (List Char)}
    {n c : Nat} {vm : VM K} (hv : vmRun (initVM m) pre = .ok vm) (hvm : NumVM vm) :
    (∃ ss, travelLoop cue n c vm ds = .ok ss) ↔
      ∀ i (hi : i < ds.length), LineNumeric (absolute m (pre ++ ds.take (i + 1))) ds[i] := by
  induction ds generalizing pre n c vm with
  | nil => exact ⟨fun _ i hi => absurd hi (by simp), fun _ => ⟨[], rfl⟩⟩
  | cons d ds ih =>
    have hmode : (stepModes vm d).mode = absolute m (pre ++ [d]) := by
      funext a
      have hi : pre.length < (pre ++ d :: ds).length := by simp
      have := run_mode (m := m) hi (vmi := vm) (by simpa using hv) a
      rw [List.take_length_add_append] at this
      simpa using this
    constructor
    · rintro ⟨ss, h⟩ i hi
      obtain ⟨vm', pause, p, rest, g1, g2, g3, g4, _⟩ := travelLoop_cons_ok h
      have hn : NumVM vm' := by
        intro a
        obtain ⟨x, o, hx, ho, _⟩ := vmPosition_ok g3 a
        exact ⟨x, o, hx, ho⟩
      cases i with
      | zero =>
        have := line_numeric hvm g1 g2 g3
        rw [hmode] at this
        simpa using this
      | succ i =>
        have hv' : vmRun (initVM m) (pre ++ [d]) = .ok vm' := by
          rw [vmRun_append, hv]
          simp [Except.bind, vmRun, g1]
        have := (ih hv' hn).1 ⟨rest, g4⟩ i (by simpa using hi)
        simpa using this
    · intro h
      have h0 := h 0 (by simp)
      have h0' : LineNumeric (stepModes vm d).mode d := by
        rw [hmode]
        simpa using h0
      obtain ⟨vm', pause, p, g1, hn, g2, g3⟩ := line_runs hvm h0'
      have hv' : vmRun (initVM m) (pre ++ [d]) = .ok vm' := by
        rw [vmRun_append, hv]
        simp [Except.bind, vmRun, g1]
      obtain ⟨rest, hr⟩ := (ih (n := n + 1) (c := layerStep cue c d) hv' hn).2 (by
        intro i hi
        have := h (i + 1) (by simpa using hi)
        simpa using this)
      rw [travelLoop_cons_of g1 g2 g3, hr]
      exact ⟨_, rfl⟩

/-- **C52.** A list of parsed lines gives states exactly if, line by line under the modes in force, all words
that the machine computes with are numbers; otherwise the traveler raises a `TypeError`. -/
theorem c52_accepted (m : Machine K) (ds : List (LineDict K)) :
    ((∃ ss, dictListTraveler m ds = .ok ss) ↔
      ∀ i (hi : i < ds.length), LineNumeric (absolute m (ds.take (i + 1))) ds[i]) ∧
    ∀ e, dictListTraveler m ds = .error e → e = .typeError := by
  have hinit : NumVM (initVM m) := fun a => ⟨_, _, rfl, rfl⟩
  have := travelLoop_runs (m := m) (pre := []) (ds := ds) (cue := m.layerCue) (n := 1) (c := 0)
    (vm := initVM m) rfl hinit
  simp only [List.nil_append] at this
  constructor
  · rw [← this]
    constructor
    · rintro ⟨ss, h⟩
      obtain ⟨p, rest, _, h2, _⟩ := dictListTraveler_ok h
      exact ⟨rest, h2⟩
    · rintro ⟨rest, h⟩
      simp only [dictListTraveler, bind, Except.bind, vmPosition_initVM, h]
      exact ⟨_, rfl⟩
  · intro e h
    simp only [dictListTraveler, bind, Except.bind, vmPosition_initVM] at h
    split at h
    · rename_i h'; cases h; exact travelLoop_error h'
    · cases h

end General

/-! ## Concrete cases -/

/-- `G1 Xab` in relative mode raises; in absolute mode `G0 Xab G1 X5` runs. -/
example : dictListTraveler (zeroMachine ℚ) [[(.G91, .val (.str []))], [(.G1, .args [('X', .str ['a', 'b'])])]]
      = .error .typeError ∧
    ∃ ss, dictListTraveler (zeroMachine ℚ)
      [[(.G0, .args [('X', .str ['a', 'b'])]), (.G1, .args [('X', .num 5)])]] = .ok ss :=
  ⟨rfl, _, rfl⟩

/-- The hypothesis of C52 on `G1 X5`. -/
example : LineNumeric (absolute (zeroMachine ℚ) [[(.G1, .args [('X', .num 5)])]])
    [(.G1, .args [('X', .num (5 : ℚ))])] := by
  have := (c52_accepted (zeroMachine ℚ) [[(.G1, .args [('X', .num 5)])]]).1.1 ⟨_, rfl⟩ 0 (by simp)
  simpa using this

end PyGCD
