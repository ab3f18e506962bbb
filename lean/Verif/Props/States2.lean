import Verif.Props.States

set_option linter.unusedSectionVars false

/-!
# Properties of the states generated from a file: C11 – C16
-/

namespace PyGCD
open Spec

section General
variable {K : Type} [Add K] [Div K] [OfNat K 60] [OfNat K 1000] [OfNat K 0]

/-! ## C11 -/

theorem vmRun_feed {vm vm' : VM K} {ds : List (LineDict K)} (h : vmRun vm ds = .ok vm') :
    vm'.pVel = latest feed ds vm.pVel := by
  induction ds generalizing vm with
  | nil => cases h; rfl
  | cons d ds ih =>
    simp only [vmRun] at h
    cases hs : vmStep vm d with
    | error e => rw [hs] at h; cases h
    | ok v1 =>
      rw [hs] at h
      rw [ih h, latest_cons]
      congr 1
      obtain ⟨_, ⟨f0, h0, h1⟩, _⟩ := vmStep_spec hs
      unfold feed
      cases hg1 : arg d .G1 'F' with
      | some v =>
        rw [hg1] at h1
        cases v with
        | num v =>
          simp only [Val.divNum, Except.ok.injEq] at h1
          rw [← h1]
          rfl
        | str v => cases h1
      | none =>
        rw [hg1] at h1
        cases hg0 : arg d .G0 'F' with
        | some v =>
          rw [hg0] at h0
          cases v with
          | num v => cases h0; exact h1
          | str v => cases h0
        | none =>
          rw [hg0] at h0
          rw [h1, h0]
          rfl

/-- C11. The settings of every state are the latest ones given by the lines up to and including its own,
else those of the machine: feedrate (`F/60`), acceleration (`M204 P`), jerk (`M205 X`), axis limits
(`M203`) and, for the states of lines, the unit flag. (The initial state always says `SImm`.) -/
theorem c11_settings_modal {m : Machine K} {ds : List (LineDict K)} {ss : List (GState K)}
    (h : dictListTraveler m ds = .ok ss) {i : Nat} {s : GState K} (hs : ss[i]? = some s) :
    s.settings.speed = latest feed (ds.take i) m.pVel ∧
    s.settings.pAcc = latest (fun d => arg d .M204 'P') (ds.take i) (.num m.pAcc) ∧
    s.settings.jerk = latest (fun d => arg d .M205 'X') (ds.take i) (.num m.jerk) ∧
    (∀ a, s.settings.vAx a =
      latest (fun d => arg d .M203 (letter a)) (ds.take i) (.num (m.vAx a))) ∧
    s.settings.units = if i = 0 then .SImm else latest unitsOf (ds.take i) m.units := by
  obtain ⟨hl, h0, hall⟩ := dictListTraveler_trace h
  cases i with
  | zero =>
    rw [h0] at hs
    cases hs
    refine ⟨rfl, rfl, rfl, fun a => rfl, rfl⟩
  | succ i =>
    have hlt : i < ds.length := by
      have := (List.getElem?_eq_some_iff.1 hs).1
      omega
    obtain ⟨v1, v2, p, pause, h1, h2, h3, h4, h5⟩ := hall i hlt
    rw [h5] at hs
    cases hs
    have hr := vmRun_take_succ hlt h1 h2
    obtain ⟨_, _, l3, l4, l5, l6⟩ := vmRun_latest hr
    exact ⟨vmRun_feed hr, l4, l5, l6, l3⟩

/-! ## C12 -/

theorem dropWhile_split (p : Char → Bool) (t : List Char) :
    ∃ l, t = l ++ t.dropWhile p ∧ (∀ x ∈ l, p x = true) ∧
      ∀ x ∈ (t.dropWhile p).head?, p x = false := by
  induction t with
  | nil => exact ⟨[], rfl, by simp, by simp⟩
  | cons c t ih =>
    by_cases hc : p c = true
    · obtain ⟨l, h1, h2, h3⟩ := ih
      rw [List.dropWhile_cons_of_pos hc]
      refine ⟨c :: l, by rw [List.cons_append, ← h1], ?_, h3⟩
      intro x hx
      rcases List.mem_cons.1 hx with rfl | hx
      · exact hc
      · exact h2 x hx
    · rw [List.dropWhile_cons_of_neg hc]
      exact ⟨[], rfl, by simp, by simpa using hc⟩

theorem dropWhile_append_all {p : Char → Bool} {l r : List Char} (h : ∀ x ∈ l, p x = true) :
    (l ++ r).dropWhile p = r.dropWhile p := by
  induction l with
  | nil => rfl
  | cons a l ih =>
    rw [List.cons_append, List.dropWhile_cons_of_pos (h a (by simp))]
    exact ih fun x hx => h x (by simp [hx])

theorem dropWhile_of_head {p : Char → Bool} {t : List Char} (h : ∀ x ∈ t.head?, p x = false) :
    t.dropWhile p = t := by
  cases t with
  | nil => rfl
  | cons a t =>
    rw [List.dropWhile_cons_of_neg]
    simpa using h a (by simp)

theorem blank_iff (c : Char) : Spec.Blank c ↔ pyIsSpace c = true := by
  simp only [Spec.Blank, pyIsSpace, List.mem_cons, List.not_mem_nil, or_false, Bool.or_eq_true, Bool.and_eq_true,
    decide_eq_true_eq, beq_iff_eq]
  omega

/-- `str.strip()` meets its specification. -/
theorem pyStrip_iff (t c : List Char) : pyStrip t = c ↔ StripsTo t c := by
  simp only [StripsTo, blank_iff, Bool.not_eq_true]
  constructor
  · rintro rfl
    obtain ⟨l, h1, h2, h3⟩ := dropWhile_split pyIsSpace t
    obtain ⟨r, g1, g2, g3⟩ := dropWhile_split pyIsSpace (t.dropWhile pyIsSpace).reverse
    have hmid : t.dropWhile pyIsSpace = pyStrip t ++ r.reverse := by
      rw [pyStrip, ← List.reverse_append, ← g1, List.reverse_reverse]
    refine ⟨l, r.reverse, ?_, h2, by simpa using g2, ?_, ?_⟩
    · rw [List.append_assoc, ← hmid, ← h1]
    · intro x hx
      apply h3
      rw [hmid]
      cases hp : pyStrip t with
      | nil => rw [hp] at hx; simp at hx
      | cons a b => rw [hp] at hx; simpa using hx
    · intro x hx
      apply g3
      rw [pyStrip, List.getLast?_reverse] at hx
      exact hx
  · rintro ⟨l, r, rfl, hl, hr, hh, ht⟩
    rw [pyStrip, List.append_assoc, dropWhile_append_all hl]
    cases c with
    | nil =>
      have : (([] : List Char) ++ r).dropWhile pyIsSpace = [] := by
        rw [← List.append_nil ([] ++ r), dropWhile_append_all (by simpa using hr)]
        rfl
      rw [this]
      rfl
    | cons a c =>
      rw [dropWhile_of_head (t := (a :: c) ++ r) (by simpa using hh), List.reverse_append,
        dropWhile_append_all (by simpa using hr), dropWhile_of_head, List.reverse_reverse]
      rw [List.head?_reverse]
      exact ht

/-- The comment of a line, stripped, is the cue. -/
def IsCue (cue : List Char) (d : LineDict K) : Prop :=
  ∃ t, commentText d = some t ∧ StripsTo t cue

theorem commentOf_iff (d : LineDict K) (cue : List Char) :
    commentOf d = some cue ↔ IsCue cue d := by
  simp only [commentOf, IsCue, commentText, lookup_eq_entry]
  generalize entry d .comment = e
  split
  · simp [pyStrip_iff]
  · simp

theorem layerRun_count (cue : List Char) (c : Nat) (ds : List (LineDict K)) :
    layerRun (some cue) c ds = c + ds.countP fun d => decide (commentOf d = some cue) := by
  induction ds generalizing c with
  | nil => rfl
  | cons d ds ih =>
    rw [layerRun, ih, List.countP_cons]
    simp only [layerStep, Option.isSome_some, true_and]
    by_cases h : commentOf d = some cue <;> (simp [h]; try omega)

open Classical in
/-- C12. With a layer cue, the layer of the state of line `i` is the number of lines up to and including
it whose comment, stripped, is the cue. Without a cue no state has a layer (nor has the initial
state). -/
theorem c12_layer_counts {m : Machine K} {ds : List (LineDict K)} {ss : List (GState K)}
    (h : dictListTraveler m ds = .ok ss) {i : Nat} {s : GState K} (hs : ss[i]? = some s) :
    s.layer = if i = 0 then none else
      m.layerCue.map fun cue => (ds.take i).countP fun d => decide (IsCue cue d) := by
  obtain ⟨hl, h0, hall⟩ := dictListTraveler_trace h
  cases i with
  | zero =>
    rw [h0] at hs
    cases hs
    rfl
  | succ i =>
    have hlt : i < ds.length := by
      have := (List.getElem?_eq_some_iff.1 hs).1
      omega
    obtain ⟨v1, v2, p, pause, h1, h2, h3, h4, h5⟩ := hall i hlt
    rw [h5] at hs
    cases hs
    simp only [stateOf, Nat.add_eq_zero_iff, one_ne_zero, and_false, if_false]
    cases hc : m.layerCue with
    | none => rfl
    | some cue =>
      simp only [Option.isSome_some, if_true, Option.map_some, Option.some.injEq,
        layerRun_count, Nat.zero_add]
      congr 1
      funext d
      exact decide_eq_decide.2 (commentOf_iff d cue)

/-- C12, monotone: layers never decrease along the file. -/
theorem c12_layer_monotone {m : Machine K} {ds : List (LineDict K)} {ss : List (GState K)}
    (h : dictListTraveler m ds = .ok ss) {i j : Nat} {s s' : GState K} {l l' : Nat}
    (hs : ss[i]? = some s) (hs' : ss[j]? = some s') (hij : i ≤ j) (hl : s.layer = some l)
    (hl' : s'.layer = some l') : l ≤ l' := by
  classical
  rw [c12_layer_counts h hs] at hl
  rw [c12_layer_counts h hs'] at hl'
  split at hl
  · cases hl
  split at hl'
  · cases hl'
  cases hc : m.layerCue with
  | none => rw [hc] at hl; cases hl
  | some cue =>
    rw [hc] at hl hl'
    simp only [Option.map_some, Option.some.injEq] at hl hl'
    rw [← hl, ← hl']
    exact List.Sublist.countP_le (List.take_sublist_take_left hij)

/-! ## C13 -/

/-- C13. The pause of the state of line `i` is determined by that line alone: `S` seconds, else `P`
milliseconds, else none. The initial state has none. -/
theorem c13_pause_own_line {m : Machine K} {ds : List (LineDict K)} {ss : List (GState K)}
    (h : dictListTraveler m ds = .ok ss) {i : Nat} {s : GState K} (hs : ss[i]? = some s) :
    s.pause = if i = 0 then none else (ds[i - 1]?).bind pauseSpec := by
  obtain ⟨hl, h0, hall⟩ := dictListTraveler_trace h
  cases i with
  | zero =>
    rw [h0] at hs
    cases hs
    rfl
  | succ i =>
    have hlt : i < ds.length := by
      have := (List.getElem?_eq_some_iff.1 hs).1
      omega
    obtain ⟨v1, v2, p, pause, h1, h2, h3, h4, h5⟩ := hall i hlt
    rw [h5] at hs
    cases hs
    simp only [stateOf, Nat.add_eq_zero_iff, one_ne_zero, and_false, if_false,
      Nat.add_sub_cancel, List.getElem?_eq_getElem hlt, Option.bind_some]
    simp only [pauseOf, word_eq_arg, bind, Except.bind] at h3
    unfold pauseSpec
    cases hS : arg ds[i] .G4 'S' with
    | some v =>
      rw [hS] at h3
      cases hP : arg ds[i] .G4 'P' with
      | none => rw [hP] at h3; cases h3; rfl
      | some w =>
        rw [hP] at h3
        cases w with
        | num w => cases h3; rfl
        | str w => cases h3
    | none =>
      rw [hS] at h3
      cases hP : arg ds[i] .G4 'P' with
      | none => rw [hP] at h3; cases h3; rfl
      | some v =>
        rw [hP] at h3
        cases v with
        | num v => cases h3; rfl
        | str v => cases h3

/-! ## C14 -/

theorem inert_arg {d : LineDict K} (hd : Inert d) {c : Cmd} (hc : c ≠ .comment) (l : Char) :
    arg d c l = none := by
  have : entry d c = none := by
    rw [← Option.not_isSome_iff_eq_none, entry_isSome]
    rintro ⟨v, hv⟩
    exact hc (hd _ hv)
  rw [arg, this]

theorem inert_hasCmd {d : LineDict K} (hd : Inert d) {c : Cmd} (hc : c ≠ .comment) :
    hasCmd d c = false := by
  rw [← Bool.not_eq_true, hasCmd_iff]
  rintro ⟨v, hv⟩
  exact hc (hd _ hv)

theorem inert_vmStep {d : LineDict K} (hd : Inert d) (vm : VM K) : vmStep vm d = .ok vm := by
  have hm : stepModes vm d = vm := by
    simp [stepModes, onCmd, inert_hasCmd hd]
  have hw : ∀ c, c ≠ .comment → ∀ l, word d c l = none := by
    intro c hc l
    rw [word_eq_arg, inert_arg hd hc]
  have hmv : ∀ c, c ≠ .comment → stepMove d c vm = .ok vm := by
    intro c hc
    simp only [stepMove, hw c hc, moveAxis, bind, Except.bind]
    refine congrArg Except.ok ?_
    obtain ⟨_, _, _, _, _, _, _, _, _⟩ := vm
    simp only [VM.mk.injEq, and_true]
    funext a
    cases a <;> rfl
  have hsp : stepSetPos d vm = .ok vm := by
    simp only [stepSetPos, hw .G92 (by decide), setPosAxis, bind, Except.bind]
    refine congrArg Except.ok ?_
    obtain ⟨_, _, _, _, _, _, _, _, _⟩ := vm
    simp only [VM.mk.injEq, and_true]
    constructor <;> (funext a; cases a <;> rfl)
  simp only [vmStep, hm, hmv .G0 (by decide), hmv .G1 (by decide), hsp, bind, Except.bind,
    stepSettings, hw .M204 (by decide), hw .M203 (by decide), hw .M205 (by decide),
    Option.getD_none]

theorem inert_pauseOf {d : LineDict K} (hd : Inert d) : pauseOf d = .ok none := by
  simp only [pauseOf, word_eq_arg, inert_arg hd (show Cmd.G4 ≠ .comment by decide), bind,
    Except.bind]

/-- C14, an inert line: its state has the position of the state before, its settings (from the second
line on, or when the machine starts in millimetres), and no pause. -/
theorem c14_inert_keeps {m : Machine K} {ds : List (LineDict K)} {ss : List (GState K)}
    (h : dictListTraveler m ds = .ok ss) {i : Nat} (hi : i < ds.length) (hd : Inert ds[i]) :
    ∃ s s', ss[i]? = some s ∧ ss[i + 1]? = some s' ∧ s'.position = s.position ∧
      (0 < i ∨ m.units = .SImm → s'.settings = s.settings) ∧ s'.pause = none := by
  obtain ⟨hl, h0, hall⟩ := dictListTraveler_trace h
  obtain ⟨v1, v2, p, pause, h1, h2, h3, h4, h5⟩ := hall i hi
  rw [inert_vmStep hd] at h2
  rw [inert_pauseOf hd] at h3
  cases h2
  cases h3
  cases i with
  | zero =>
    cases h1
    rw [vmPosition_initVM] at h4
    cases h4
    refine ⟨_, _, h0, h5, rfl, ?_, rfl⟩
    rintro (h | h)
    · exact absurd h (by simp)
    · simp only [stateOf, initState, vmSettings, initVM, h]
  | succ i =>
    obtain ⟨w1, w2, q, pause', k1, k2, k3, k4, k5⟩ := hall i (by omega)
    have := vmRun_take_succ (by omega) k1 k2
    rw [h1] at this
    cases this
    rw [h4] at k4
    cases k4
    exact ⟨_, _, k5, h5, rfl, fun _ => rfl, rfl⟩

/-- The states of the lines that are not flagged. -/
def unflagged {α β : Type} (xs : List (Bool × α)) (ss : List β) : List β :=
  ((xs.zip ss).filter fun p => !p.1.1).map Prod.snd

theorem travelLoop_drop_inert (cue : Option (List Char)) (xs : List (Bool × LineDict K))
    (hx : ∀ x ∈ xs, x.1 = true → Inert x.2 ∧ ∀ c, cue = some c → ¬ IsCue c x.2)
    (n n' c : Nat) (vm : VM K) (p : Vec4 K) (hp : vmPosition vm = .ok p) :
    (travelLoop cue n c vm (xs.map Prod.snd)).map (fun ss => (unflagged xs ss).map core) =
    (travelLoop cue n' c vm ((xs.filter fun x => !x.1).map Prod.snd)).map (List.map core) := by
  induction xs generalizing n n' c vm p with
  | nil => rfl
  | cons x xs ih =>
    obtain ⟨b, d⟩ := x
    have hx' : ∀ x ∈ xs, x.1 = true → Inert x.2 ∧ ∀ c, cue = some c → ¬ IsCue c x.2 :=
      fun x h => hx x (by simp [h])
    cases b with
    | true =>
      obtain ⟨hd, hcue⟩ := hx (true, d) (by simp) rfl
      have hls : layerStep cue c d = c := by
        unfold layerStep
        rw [if_neg]
        rintro ⟨h1, h2⟩
        cases hcu : cue with
        | none => rw [hcu] at h1; cases h1
        | some cu => exact hcue cu hcu ((commentOf_iff d cu).1 (by rw [h2, hcu]))
      simp only [List.map_cons]
      rw [travelLoop_cons_of (inert_vmStep hd vm) (inert_pauseOf hd) hp, hls]
      have := ih hx' (n + 1) n' c vm p hp
      simp only [List.filter_cons, Bool.not_true, Bool.false_eq_true, if_false]
      rw [← this]
      cases travelLoop cue (n + 1) c vm (xs.map Prod.snd) with
      | error e => rfl
      | ok ss => simp [Except.map, unflagged]
    | false =>
      simp only [List.map_cons, List.filter_cons, Bool.not_false, if_true]
      simp only [travelLoop, bind, Except.bind]
      cases hv : vmStep vm d with
      | error e => rfl
      | ok vm' =>
        cases hpa : pauseOf d with
        | error e => rfl
        | ok pause =>
          cases hpos : vmPosition vm' with
          | error e => simp only [hpos]; rfl
          | ok p' =>
            have := ih hx' (n + 1) (n' + 1) (layerStep cue c d) vm' p' hpos
            revert this
            simp only [hpos]
            cases travelLoop cue (n + 1) (layerStep cue c d) vm' (xs.map Prod.snd) with
            | error e =>
              cases travelLoop cue (n' + 1) (layerStep cue c d) vm'
                ((xs.filter fun x => !x.1).map Prod.snd) with
              | error e' => intro this; simpa [Except.map] using this
              | ok s' => intro this; cases this
            | ok s =>
              cases travelLoop cue (n' + 1) (layerStep cue c d) vm'
                ((xs.filter fun x => !x.1).map Prod.snd) with
              | error e' => intro this; cases this
              | ok s' =>
                intro this
                simp only [Except.map, Except.ok.injEq] at this
                simp only [Except.map, Except.ok.injEq, unflagged, List.zip_cons_cons,
                  List.filter_cons, Bool.not_false, if_true, List.map_cons, core]
                rw [← this]
                rfl

/-- C14. Removing lines without known commands (at most a comment that is not the layer cue), any number
of them anywhere, changes nothing about the other states but line numbers and links. This includes
failing: with or without them, the run raises the same exception. -/
theorem c14_remove_inert (m : Machine K) (xs : List (Bool × LineDict K))
    (hx : ∀ x ∈ xs, x.1 = true → Inert x.2 ∧ ∀ c, m.layerCue = some c → ¬ IsCue c x.2) :
    (dictListTraveler m (xs.map Prod.snd)).map
      (fun ss => (unflagged ((false, []) :: xs) ss).map core) =
    (dictListTraveler m ((xs.filter fun x => !x.1).map Prod.snd)).map (List.map core) := by
  have := travelLoop_drop_inert m.layerCue xs hx 1 1 0 (initVM m) _ (vmPosition_initVM m)
  revert this
  simp only [dictListTraveler, vmPosition_initVM, bind, Except.bind]
  cases travelLoop m.layerCue 1 0 (initVM m) (xs.map Prod.snd) with
  | error e =>
    cases travelLoop m.layerCue 1 0 (initVM m) ((xs.filter fun x => !x.1).map Prod.snd) with
    | error e' => intro this; simpa [Except.map] using this
    | ok s' => intro this; cases this
  | ok s =>
    cases travelLoop m.layerCue 1 0 (initVM m) ((xs.filter fun x => !x.1).map Prod.snd) with
    | error e' => intro this; cases this
    | ok s' =>
      intro this
      simp only [Except.map, Except.ok.injEq] at this
      simp only [Except.map, Except.ok.injEq, unflagged, List.zip_cons_cons,
        List.filter_cons, Bool.not_false, if_true, List.map_cons, core]
      rw [← this]
      rfl

/-! ## C15 -/

theorem travelLoop_prefix {cue : Option (List Char)} {n c : Nat} {vm : VM K}
    (ds es : List (LineDict K)) :
    (∀ e, travelLoop cue n c vm ds = .error e → travelLoop cue n c vm (ds ++ es) = .error e) ∧
    (∀ ss, travelLoop cue n c vm (ds ++ es) = .ok ss → ∃ ss', travelLoop cue n c vm ds = .ok ss' ∧
      ∀ (i : Nat) (s' : GState K), ss'[i]? = some s' → ∃ s : GState K, ss[i]? = some s ∧
        s' = { s with next := if i + 1 = ds.length then none else s.next }) := by
  induction ds generalizing n c vm with
  | nil =>
    refine ⟨fun e h => by simp [travelLoop] at h, fun ss _ => ⟨[], rfl, fun i s' h => ?_⟩⟩
    simp at h
  | cons d ds ih =>
    constructor
    · intro e h
      simp only [List.cons_append, travelLoop, bind, Except.bind] at h ⊢
      cases hv : vmStep vm d with
      | error e' => rw [hv] at h; exact h
      | ok vm' =>
        rw [hv] at h
        cases hpa : pauseOf d with
        | error e' => rw [hpa] at h; exact h
        | ok pause =>
          rw [hpa] at h
          simp only at h ⊢
          cases hpos : vmPosition vm' with
          | error e' => rw [hpos] at h; exact h
          | ok p =>
            rw [hpos] at h
            simp only at h ⊢
            cases ht : travelLoop cue (n + 1) (layerStep cue c d) vm' ds with
            | error e' =>
              rw [ht] at h
              cases h
              rw [(ih (n := n + 1) (c := layerStep cue c d) (vm := vm')).1 _ ht]
            | ok ss => rw [ht] at h; cases h
    · intro ss h
      rw [List.cons_append] at h
      obtain ⟨vm', pause, p, rest, hv, hp, hpos, hr, rfl⟩ := travelLoop_cons_ok h
      obtain ⟨ss', h1, h2⟩ := (ih (n := n + 1) (c := layerStep cue c d) (vm := vm')).2 _ hr
      rw [travelLoop_cons_of hv hp hpos, h1]
      refine ⟨_, rfl, ?_⟩
      intro i s' hs'
      cases i with
      | zero =>
        simp only [List.getElem?_cons_zero, Option.some.injEq] at hs'
        subst hs'
        refine ⟨_, rfl, ?_⟩
        cases ds <;> simp [stateOf]
      | succ i =>
        rw [List.getElem?_cons_succ] at hs'
        obtain ⟨s, g1, g2⟩ := h2 i s' hs'
        refine ⟨s, by rw [List.getElem?_cons_succ, g1], ?_⟩
        rw [g2]
        simp

/-- C15. Later lines never change earlier states: the states of a prefix of the lines are the first
states of the whole, except that the last one has no successor; and if the prefix raises, so does the
whole, with the same exception. -/
theorem c15_prefix (m : Machine K) (ds es : List (LineDict K)) :
    (∀ e, dictListTraveler m ds = .error e → dictListTraveler m (ds ++ es) = .error e) ∧
    (∀ ss, dictListTraveler m (ds ++ es) = .ok ss → ∃ ss', dictListTraveler m ds = .ok ss' ∧
      ss'.length = ds.length + 1 ∧
      ∀ (i : Nat) (s' : GState K), ss'[i]? = some s' → ∃ s : GState K, ss[i]? = some s ∧
        s' = { s with next := if i = ds.length then none else s.next }) := by
  obtain ⟨h1, h2⟩ := travelLoop_prefix (cue := m.layerCue) (n := 1) (c := 0) (vm := initVM m) ds es
  constructor
  · intro e h
    simp only [dictListTraveler, vmPosition_initVM, bind, Except.bind] at h ⊢
    cases ht : travelLoop m.layerCue 1 0 (initVM m) ds with
    | error e' =>
      rw [ht] at h
      cases h
      rw [h1 _ ht]
    | ok ss => rw [ht] at h; cases h
  · intro ss h
    obtain ⟨p, rest, hp, hr, rfl⟩ := dictListTraveler_ok h
    obtain ⟨ss', g1, g2⟩ := h2 _ hr
    have hrun : dictListTraveler m ds = .ok (initState m p ds.isEmpty :: ss') := by
      simp only [dictListTraveler, hp, bind, Except.bind, g1, initState]
    refine ⟨_, hrun, (dictListTraveler_trace hrun).1, ?_⟩
    intro i s' hs'
    cases i with
    | zero =>
      simp only [List.getElem?_cons_zero, Option.some.injEq] at hs'
      subst hs'
      refine ⟨_, rfl, ?_⟩
      cases ds <;> simp [initState]
    | succ i =>
      rw [List.getElem?_cons_succ] at hs'
      obtain ⟨s, k1, k2⟩ := g2 i s' hs'
      exact ⟨s, by rw [List.getElem?_cons_succ, k1], k2⟩

/-! ## C16 -/

/-- A machine without its unit flag. -/
def eraseUnits (vm : VM K) : VM K := { vm with units := .SImm }

theorem dropUnits_lookup (d : LineDict K) {c : Cmd} (h1 : c ≠ .G20) (h2 : c ≠ .G21) :
    (dropUnits d).lookup c = d.lookup c := by
  induction d with
  | nil => rfl
  | cons p d ih =>
    obtain ⟨k, v⟩ := p
    simp only [dropUnits] at ih ⊢
    by_cases hk : c = k
    · subst hk
      simp [h1, h2, List.lookup]
    · have hb : (c == k) = false := by simpa using hk
      rw [List.filter_cons]
      split
      · simp only [List.lookup, hb]; exact ih
      · simp only [List.lookup, hb]; exact ih

theorem dropUnits_word (d : LineDict K) {c : Cmd} (h1 : c ≠ .G20) (h2 : c ≠ .G21) (l : Char) :
    word (dropUnits d) c l = word d c l := by
  simp only [word, cmdArgs, dropUnits_lookup d h1 h2]

theorem dropUnits_hasCmd (d : LineDict K) {c : Cmd} (h1 : c ≠ .G20) (h2 : c ≠ .G21) :
    hasCmd (dropUnits d) c = hasCmd d c := by
  simp only [hasCmd, dropUnits_lookup d h1 h2]

theorem dropUnits_no (d : LineDict K) {c : Cmd} (h : c = .G20 ∨ c = .G21) :
    hasCmd (dropUnits d) c = false := by
  rw [← Bool.not_eq_true, hasCmd_iff]
  rintro ⟨v, hv⟩
  simp only [dropUnits, List.mem_filter, decide_eq_true_eq] at hv
  rcases h with rfl | rfl
  · exact hv.2.1 rfl
  · exact hv.2.2 rfl

theorem onCmd_dropUnits (vm : VM K) (d : LineDict K) {c : Cmd} (h1 : c ≠ .G20) (h2 : c ≠ .G21)
    {f : VM K → VM K} (hf : f (eraseUnits vm) = eraseUnits (f vm)) :
    onCmd (dropUnits d) c f (eraseUnits vm) = eraseUnits (onCmd d c f vm) := by
  unfold onCmd
  rw [dropUnits_hasCmd d h1 h2]
  split
  · exact hf
  · rfl

theorem stepModes_dropUnits (vm : VM K) (d : LineDict K) :
    stepModes (eraseUnits vm) (dropUnits d) = eraseUnits (stepModes vm d) := by
  simp only [stepModes]
  have g : ∀ (c : Cmd) (h1 : c ≠ .G20) (h2 : c ≠ .G21) (f : VM K → VM K)
      (_ : ∀ v, f (eraseUnits v) = eraseUnits (f v)) (v : VM K),
      onCmd (dropUnits d) c f (eraseUnits v) = eraseUnits (onCmd d c f v) :=
    fun c h1 h2 f hf v => onCmd_dropUnits v d h1 h2 (hf v)
  rw [g .G90 (by decide) (by decide),
    g .G91 (by decide) (by decide),
    g .M82 (by decide) (by decide),
    g .M83 (by decide) (by decide)]
  have h : ∀ c, c = .G20 ∨ c = .G21 → ∀ (u : Units) (v : VM K),
      onCmd (dropUnits d) c (fun vm => { vm with units := u }) (eraseUnits v) =
      eraseUnits (onCmd d c (fun vm => { vm with units := u }) v) := by
    intro c hc u v
    rw [onCmd, dropUnits_no d hc, if_neg (by simp), onCmd]
    split <;> rfl
  · rw [h .G20 (Or.inl rfl) .inch, h .G21 (Or.inr rfl) .SImm]
  all_goals exact fun v => rfl

theorem stepMove_dropUnits (d : LineDict K) (c : Cmd) (h1 : c ≠ .G20) (h2 : c ≠ .G21) (v : VM K) :
    stepMove (dropUnits d) c (eraseUnits v) = (stepMove d c v).map eraseUnits := by
  simp only [stepMove, dropUnits_word d h1 h2, eraseUnits, bind, Except.bind]
  cases moveAxis v.absPos (word d c 'X') (v.pos .X) with
  | error e => rfl
  | ok x =>
    cases moveAxis v.absPos (word d c 'Y') (v.pos .Y) with
    | error e => rfl
    | ok y =>
      cases moveAxis v.absPos (word d c 'Z') (v.pos .Z) with
      | error e => rfl
      | ok z =>
        cases moveAxis v.absExt (word d c 'E') (v.pos .E) with
        | error e => rfl
        | ok e =>
          cases word d c 'F' with
          | none => rfl
          | some w => cases w <;> rfl

theorem stepSetPos_dropUnits (d : LineDict K) (v : VM K) :
    stepSetPos (dropUnits d) (eraseUnits v) = (stepSetPos d v).map eraseUnits := by
  simp only [stepSetPos, dropUnits_word d (show Cmd.G92 ≠ .G20 by decide) (by decide),
    eraseUnits, bind, Except.bind]
  cases setPosAxis (word d .G92 'X') (v.pos .X) (v.off .X) with
  | error e => rfl
  | ok x =>
    cases setPosAxis (word d .G92 'Y') (v.pos .Y) (v.off .Y) with
    | error e => rfl
    | ok y =>
      cases setPosAxis (word d .G92 'Z') (v.pos .Z) (v.off .Z) with
      | error e => rfl
      | ok z => cases setPosAxis (word d .G92 'E') (v.pos .E) (v.off .E) <;> rfl

theorem vmStep_dropUnits (vm : VM K) (d : LineDict K) :
    vmStep (eraseUnits vm) (dropUnits d) = (vmStep vm d).map eraseUnits := by
  simp only [vmStep, stepModes_dropUnits, stepMove_dropUnits d .G0 (by decide) (by decide), bind,
    Except.bind]
  cases stepMove d .G0 (stepModes vm d) with
  | error e => rfl
  | ok v1 =>
    simp only [Except.map, stepMove_dropUnits d .G1 (by decide) (by decide)]
    cases stepMove d .G1 v1 with
    | error e => rfl
    | ok v2 =>
      simp only [Except.map, stepSetPos_dropUnits]
      cases stepSetPos d v2 with
      | error e => rfl
      | ok v3 =>
        simp only [stepSettings, eraseUnits,
          dropUnits_word d (show Cmd.M204 ≠ .G20 by decide) (by decide),
          dropUnits_word d (show Cmd.M203 ≠ .G20 by decide) (by decide),
          dropUnits_word d (show Cmd.M205 ≠ .G20 by decide) (by decide)]

theorem travelLoop_dropUnits (cue : Option (List Char)) (ds : List (LineDict K)) (n c : Nat)
    (vm : VM K) :
    (travelLoop cue n c (eraseUnits vm) (ds.map dropUnits)).map (List.map GState.position) =
    (travelLoop cue n c vm ds).map (List.map GState.position) := by
  induction ds generalizing n c vm with
  | nil => rfl
  | cons d ds ih =>
    have hp : pauseOf (dropUnits d) = pauseOf d := by
      simp only [pauseOf, dropUnits_word d (show Cmd.G4 ≠ .G20 by decide) (by decide)]
    have hc : commentOf (dropUnits d) = commentOf d := by
      simp only [commentOf, dropUnits_lookup d (show Cmd.comment ≠ .G20 by decide) (by decide)]
    have hl : layerStep cue c (dropUnits d) = layerStep cue c d := by
      unfold layerStep
      rw [hc]
    simp only [List.map_cons, travelLoop, bind, Except.bind, vmStep_dropUnits, hp, hl]
    cases vmStep vm d with
    | error e => rfl
    | ok vm' =>
      simp only [Except.map]
      cases pauseOf d with
      | error e => rfl
      | ok pause =>
        simp only
        have hpos : vmPosition (eraseUnits vm') = vmPosition vm' := rfl
        rw [hpos]
        cases vmPosition vm' with
        | error e => rfl
        | ok p =>
          simp only
          have := ih (n + 1) (layerStep cue c d) vm'
          revert this
          cases travelLoop cue (n + 1) (layerStep cue c d) (eraseUnits vm') (ds.map dropUnits) <;>
          cases travelLoop cue (n + 1) (layerStep cue c d) vm' ds <;>
          intro this <;> simp_all [Except.map]

/-- What the code does about units: nothing. Deleting every `G20` and `G21` from every line (and whatever
unit the machine starts in) leaves all positions as they are, and does not change whether or how the run
fails. -/
theorem c16_units_ignored (m : Machine K) (ds : List (LineDict K)) :
    (dictListTraveler { m with units := .SImm } (ds.map dropUnits)).map (List.map GState.position) =
    (dictListTraveler m ds).map (List.map GState.position) := by
  have h0 : initVM { m with units := .SImm } = eraseUnits (initVM m) := rfl
  have hv : vmPosition (eraseUnits (initVM m)) = vmPosition (initVM m) := rfl
  have := travelLoop_dropUnits m.layerCue ds 1 0 (initVM m)
  simp only [dictListTraveler, h0, hv, vmPosition_initVM, bind, Except.bind]
  revert this
  cases travelLoop m.layerCue 1 0 (eraseUnits (initVM m)) (ds.map dropUnits) <;>
  cases travelLoop m.layerCue 1 0 (initVM m) ds <;>
  intro this <;> simp_all [Except.map]

end General

/-- C16 as wanted: after `G20`, an absolute move word (no `G92` around) means inches, so that the
millimetre position is 25.4 times the word. -/
def C16Full (K : Type) [Field K] : Prop :=
  ∀ (m : Machine K) (ds : List (LineDict K)) (ss : List (GState K)),
    dictListTraveler m ds = .ok ss → ∀ i (hi : i < ds.length) (a : Axis) (v : K) (s' : GState K),
    latest unitsOf (ds.take (i + 1)) m.units = .inch → absolute m (ds.take (i + 1)) a = true →
    (∀ d ∈ ds, arg d .G92 (letter a) = none) → moveWord ds[i] a = some (.num v) →
    ss[i + 1]? = some s' → comp s'.position a = 25.4 * v

/-- C16 is false for the code: `G20`, `G1 X1` ends at `X = 1`. -/
theorem c16_refuted : ¬ C16Full ℚ := by
  intro h
  have hrun : ∃ ss, dictListTraveler (zeroMachine ℚ)
      [[(.G20, .val (.str []))], [(.G1, .args [('X', .num 1)])]] = .ok ss ∧
      ∃ s', ss[2]? = some s' ∧ comp s'.position .X = 1 := by
    refine ⟨_, rfl, _, rfl, ?_⟩
    show (1 : ℚ) + 0 = 1
    norm_num
  obtain ⟨ss, hr, s', h1, h2⟩ := hrun
  have := h _ _ _ hr 1 (by simp) .X 1 s' rfl rfl (by simp [arg, entry, letter]) rfl h1
  rw [h2] at this
  norm_num at this

/-- C16, the part that holds: in millimetre mode (the latest unit command is `G21`, or none) the words are
millimetres. Missing: `G20`, see `c16_refuted` and `c16_units_ignored`. -/
theorem c16_millimetres_partial {K : Type} [Field K] {m : Machine K} {ds : List (LineDict K)}
    {ss : List (GState K)} (h : dictListTraveler m ds = .ok ss) {i : Nat} (hi : i < ds.length)
    {a : Axis} {v : K} {s' : GState K} (_hu : latest unitsOf (ds.take (i + 1)) m.units = .SImm)
    (habs : absolute m (ds.take (i + 1)) a = true)
    (h92 : ∀ d ∈ ds, arg d .G92 (letter a) = none) (hw : moveWord ds[i] a = some (.num v))
    (hs' : ss[i + 1]? = some s') : comp s'.position a = v := by
  obtain ⟨off, h0, hall⟩ := c07_absolute_moves h
  have hoff : ∀ j, j ≤ i → off j a = 0 := by
    intro j
    induction j with
    | zero => intro _; exact h0 a
    | succ j ih =>
      intro hj
      obtain ⟨_, _, _, _, h3, _⟩ := hall j (by omega) a
      rw [h3 (h92 _ (List.getElem_mem _)), ih (by omega)]
  obtain ⟨s, t, h1, h2, h3, h4, _⟩ := hall i hi a
  rw [hs'] at h2
  cases h2
  obtain ⟨x, hx, he⟩ := h4 _ habs hw (h92 _ (List.getElem_mem _))
  cases hx
  rw [he, hoff i le_rfl, add_zero]

/-! ## Concrete cases

Each of the theorems of this file and of `Verif/Props/States.lean` applied to a small program, so that
its hypotheses are seen to be satisfiable in a non-trivial way. -/

section Examples

/-- A toy number syntax: decimal digits only. -/
def digitsQ (s : List Char) : Option ℚ :=
  if s ≠ [] ∧ s.all Char.isDigit then
    some (s.foldl (fun n c => 10 * n + ((c.toNat - 48 : ℕ) : ℚ)) 0)
  else none

/-- `G1 X3 F60` / `G91` / `G1 X2 E1` / `G0 X4` / `;LAYER` / `G90` / `G4 P500` / `G92 X0` /
`G1 X5 Y7`. -/
def exLines : List (LineDict ℚ) :=
  [[(.G1, .args [('X', .num 3), ('F', .num 60)])], [(.G91, .val (.str []))],
   [(.G1, .args [('X', .num 2), ('E', .num 1)])], [(.G0, .args [('X', .num 4)])],
   [(.comment, .val (.str ['L', ' ', '\n']))], [(.G90, .val (.str []))],
   [(.G4, .args [('P', .num 500)])], [(.G92, .args [('X', .num 0)])],
   [(.G1, .args [('X', .num 5), ('Y', .num 7)])]]

/-- The example machine with layer cue `L`. -/
def exMachine : Machine ℚ := { zeroMachine ℚ with layerCue := some ['L'] }

theorem exRun : ∃ ss, dictListTraveler exMachine exLines = .ok ss := ⟨_, rfl⟩

/-- C01 on a file of three lines. -/
example : ∃ ss, generateStates digitsQ (zeroMachine ℚ)
    ['G', '1', ' ', 'X', '1', '\n', ';', 'h', '\r', '\n', 'G', '9', '1'] = .ok ss ∧
    ss.length = 4 := ⟨_, rfl, rfl⟩

/-- C07: line 1 sets `X`; line 9 sets `X` and `Y` with the offset left by `G92 X0`. -/
example {ss : List (GState ℚ)} (h : dictListTraveler exMachine exLines = .ok ss) :
    ∃ s', ss[1]? = some s' ∧ comp s'.position .X = 3 := by
  obtain ⟨off, h0, hall⟩ := c07_absolute_moves h
  obtain ⟨s, s', _, h2, _, h4, _⟩ := hall 0 (by decide) .X
  obtain ⟨x, hx, he⟩ := h4 (.num 3) rfl rfl rfl
  cases hx
  exact ⟨s', h2, by rw [he, h0, add_zero]⟩

/-- C08: over lines 2 – 5 (`G91`, two relative moves and a comment) `X` advances by `2 + 4`. -/
example {ss : List (GState ℚ)} (h : dictListTraveler exMachine exLines = .ok ss) :
    ∃ s s', ss[1]? = some s ∧ ss[5]? = some s' ∧
      comp s'.position .X = comp s.position .X + 6 := by
  obtain ⟨s, s', h1, h2, h3⟩ := c08_relative_accumulates h .X 1 4 (by decide)
    (by intro j h1 h2
        have : j = 1 ∨ j = 2 ∨ j = 3 ∨ j = 4 := by omega
        rcases this with rfl | rfl | rfl | rfl <;> rfl)
    (by intro d hd
        simp only [exLines, List.drop_succ_cons, List.drop_zero, List.take_succ_cons,
          List.take_zero, List.mem_cons, List.not_mem_nil, or_false] at hd
        rcases hd with rfl | rfl | rfl | rfl <;> rfl)
  refine ⟨s, s', h1, h2, ?_⟩
  rw [h3]
  congr 1
  show (0 + 0 : ℚ) + ((0 + 2) + ((4 + 0) + ((0 + 0) + 0))) = 6
  norm_num

/-- C09: the same absolute move after two different histories. -/
example : ∃ s₁ s₂ : GState ℚ,
    comp s₁.position .Y = comp s₂.position .Y := by
  obtain ⟨ss₁, h₁⟩ := exRun
  have h₂ : ∃ ss₂, dictListTraveler (zeroMachine ℚ)
      ([[(.G1, .args [('Y', .num 9)])]] ++ [[(.G1, .args [('X', .num 5), ('Y', .num 7)])]]) =
        .ok ss₂ := ⟨_, rfl⟩
  obtain ⟨ss₂, h₂⟩ := h₂
  obtain ⟨s₁, s₂, _, _, h⟩ := c09_absolute_forgets_no_g92 (a := .Y) (w := 7)
    (ds₁ := exLines.take 8) (d := [(.G1, .args [('X', .num 5), ('Y', .num 7)])]) h₁ h₂ rfl rfl rfl
    (by intro e he
        simp only [exLines, List.take_succ_cons, List.take_zero, List.mem_cons, List.not_mem_nil,
          or_false] at he
        rcases he with rfl | rfl | rfl | rfl | rfl | rfl | rfl | rfl <;> rfl)
    (by intro e he
        simp only [List.mem_cons, List.not_mem_nil, or_false] at he
        subst he
        rfl)
  exact ⟨s₁, s₂, h⟩

/-- C10: line 8 is `G92 X0`; it keeps the position. -/
example {ss : List (GState ℚ)} (h : dictListTraveler exMachine exLines = .ok ss) :
    ∃ s s', ss[7]? = some s ∧ ss[8]? = some s' ∧ comp s'.position .X = comp s.position .X :=
  c10_g92_zero_partial h 7 (by decide) .X rfl rfl

/-- C11: from line 1 on the speed is `60/60`; C12: layer 1 from line 5 on; C13: line 7 pauses 0.5 s. -/
example {ss : List (GState ℚ)} (h : dictListTraveler exMachine exLines = .ok ss) {s : GState ℚ}
    (hs : ss[7]? = some s) : s.settings.speed = 1 ∧ s.layer = some 1 ∧
      s.pause = some (.num (1 / 2)) := by
  refine ⟨?_, ?_, ?_⟩
  · rw [(c11_settings_modal h hs).1]
    show (60 / 60 : ℚ) = 1
    norm_num
  · classical
    rw [c12_layer_counts h hs]
    simp only [exMachine, Option.map_some, ← commentOf_iff]
    decide
  · rw [c13_pause_own_line h hs]
    show some (Val.num (500 / 1000 : ℚ)) = _
    norm_num

/-- Four lines, two of them flagged and inert. -/
def exFlagged : List (Bool × LineDict ℚ) :=
  [(false, [(.G1, .args [('X', .num 3)])]), (true, [(.comment, .val (.str ['h', 'i']))]),
    (true, []), (false, [(.G1, .args [('X', .num 4)])])]

/-- C14: a comment that is not the cue and an empty line are removed. -/
example : (dictListTraveler exMachine (exFlagged.map Prod.snd)).map
      (fun ss => (unflagged ((false, []) :: exFlagged) ss).map core) =
    (dictListTraveler exMachine [[(.G1, .args [('X', .num 3)])],
      [(.G1, .args [('X', .num 4)])]]).map (List.map core) :=
  c14_remove_inert exMachine exFlagged (by
    intro x hx hb
    simp only [exFlagged, List.mem_cons, List.not_mem_nil, or_false] at hx
    rcases hx with rfl | rfl | rfl | rfl
    · cases hb
    · exact ⟨by simp [Inert], by rintro c hc; rw [← commentOf_iff]; cases hc; decide⟩
    · exact ⟨by simp [Inert], by rintro c hc; rw [← commentOf_iff]; cases hc; decide⟩
    · cases hb)

/-- C15: the first four lines alone. -/
example : ∃ ss', dictListTraveler exMachine (exLines.take 4) = .ok ss' ∧ ss'.length = 5 := by
  obtain ⟨ss, h⟩ := exRun
  obtain ⟨ss', h1, h2, _⟩ := (c15_prefix exMachine (exLines.take 4) (exLines.drop 4)).2 ss
    (by rw [List.take_append_drop]; exact h)
  exact ⟨ss', h1, h2⟩

end Examples

end PyGCD
