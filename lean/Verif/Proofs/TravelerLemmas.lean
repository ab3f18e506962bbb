import Verif.Model.Traveler

set_option linter.unusedSectionVars false

/-!
# Lemmas about the traveler

The trace lemma: every state is determined by the machine after the lines before it and by its own
line.
-/

namespace PyGCD
variable {K : Type} [Add K] [Div K] [OfNat K 60] [OfNat K 1000]

/-- The machine after a list of lines. -/
def vmRun (vm : VM K) (ds : List (LineDict K)) : Except PyErr (VM K) :=
  match ds with
  | [] => .ok vm
  | d :: ds => (vmStep vm d).bind fun vm' => vmRun vm' ds

theorem vmRun_append (vm : VM K) (ds es : List (LineDict K)) :
    vmRun vm (ds ++ es) = (vmRun vm ds).bind fun vm' => vmRun vm' es := by
  induction ds generalizing vm with
  | nil => rfl
  | cons d ds ih =>
    simp only [List.cons_append, vmRun]
    cases vmStep vm d with
    | error e => rfl
    | ok v => simp only [Except.bind]; exact ih v

/-- The layer counter after a list of lines. -/
def layerRun (cue : Option (List Char)) (c : Nat) : List (LineDict K) → Nat
  | [] => c
  | d :: ds => layerRun cue (layerStep cue c d) ds

/-- The state a line produces. -/
def stateOf (cue : Option (List Char)) (n counter : Nat) (isLast : Bool) (vm' : VM K) (p : Vec4 K)
    (pause : Option (Val K)) (d : LineDict K) : GState K :=
  { position := p
    settings := vmSettings vm'
    lineNumber := some n
    comment := commentOf d
    layer := if cue.isSome then some counter else none
    pause := pause
    prev := some (n - 1)
    next := if isLast then none else some (n + 1) }

theorem travelLoop_cons_ok {cue : Option (List Char)} {n c : Nat} {vm : VM K} {d : LineDict K}
    {ds : List (LineDict K)} {ss : List (GState K)}
    (h : travelLoop cue n c vm (d :: ds) = .ok ss) :
    ∃ vm' pause p rest, vmStep vm d = .ok vm' ∧ pauseOf d = .ok pause ∧ vmPosition vm' = .ok p ∧
      travelLoop cue (n + 1) (layerStep cue c d) vm' ds = .ok rest ∧
      ss = stateOf cue n (layerStep cue c d) ds.isEmpty vm' p pause d :: rest := by
  simp only [travelLoop, bind, Except.bind] at h
  split at h
  · cases h
  · rename_i vm' hv
    split at h
    · cases h
    · rename_i pause hp
      split at h
      · cases h
      · rename_i p hpos
        split at h
        · cases h
        · rename_i rest hr
          refine ⟨vm', pause, p, rest, hv, hp, hpos, hr, ?_⟩
          simp only [Except.ok.injEq] at h
          rw [← h, stateOf]

theorem travelLoop_cons_of {cue : Option (List Char)} {n c : Nat} {vm : VM K} {d : LineDict K}
    {ds : List (LineDict K)} {vm' : VM K} {pause : Option (Val K)} {p : Vec4 K}
    (hv : vmStep vm d = .ok vm') (hp : pauseOf d = .ok pause) (hpos : vmPosition vm' = .ok p) :
    travelLoop cue n c vm (d :: ds) =
      (travelLoop cue (n + 1) (layerStep cue c d) vm' ds).map
        (stateOf cue n (layerStep cue c d) ds.isEmpty vm' p pause d :: ·) := by
  simp only [travelLoop, bind, Except.bind, hv, hp, hpos]
  cases travelLoop cue (n + 1) (layerStep cue c d) vm' ds <;> rfl

/-- The trace lemma. -/
theorem travelLoop_trace {cue : Option (List Char)} {n c : Nat} {vm : VM K}
    {ds : List (LineDict K)} {ss : List (GState K)} (h : travelLoop cue n c vm ds = .ok ss) :
    ss.length = ds.length ∧
    ∀ i (hi : i < ds.length), ∃ vmi vmi' p pause,
      vmRun vm (ds.take i) = .ok vmi ∧ vmStep vmi ds[i] = .ok vmi' ∧ pauseOf ds[i] = .ok pause ∧
      vmPosition vmi' = .ok p ∧
      ss[i]? = some (stateOf cue (n + i) (layerRun cue c (ds.take (i + 1)))
        (decide (i + 1 = ds.length)) vmi' p pause ds[i]) := by
  induction ds generalizing n c vm ss with
  | nil =>
    simp only [travelLoop, Except.ok.injEq] at h
    subst h
    exact ⟨rfl, fun i hi => absurd hi (by simp)⟩
  | cons d ds ih =>
    obtain ⟨vm', pause, p, rest, hv, hp, hpos, hr, rfl⟩ := travelLoop_cons_ok h
    obtain ⟨hl, hall⟩ := ih hr
    refine ⟨by simp [hl], ?_⟩
    intro i hi
    cases i with
    | zero =>
      refine ⟨vm, vm', p, pause, rfl, hv, hp, hpos, ?_⟩
      cases ds <;> simp [layerRun]
    | succ i =>
      have hi' : i < ds.length := by simpa using hi
      obtain ⟨vmi, vmi', p', pause', h1, h2, h3, h4, h5⟩ := hall i hi'
      refine ⟨vmi, vmi', p', pause', ?_, by simpa using h2, by simpa using h3, h4, ?_⟩
      · simp [vmRun, hv, Except.bind, h1]
      · simp only [List.getElem?_cons_succ, h5, List.take_succ_cons, layerRun,
          List.getElem_cons_succ, List.length_cons, Nat.add_right_cancel_iff]
        congr 2
        all_goals omega

/-- `vmRun` over a prefix extended by one line. -/
theorem vmRun_take_succ {vm vmi vmi' : VM K} {ds : List (LineDict K)} {i : Nat} (hi : i < ds.length)
    (h : vmRun vm (ds.take i) = .ok vmi) (h' : vmStep vmi ds[i] = .ok vmi') :
    vmRun vm (ds.take (i + 1)) = .ok vmi' := by
  rw [List.take_add_one, List.getElem?_eq_getElem hi, vmRun_append, h]
  simp [Except.bind, vmRun, h']

section
variable [OfNat K 0]

/-- The initial state (state_generator.py:242-264). -/
def initState (m : Machine K) (p : Vec4 K) (isLast : Bool) : GState K :=
  { position := p, settings := { vmSettings (initVM m) with units := .SImm }, lineNumber := none,
    comment := some initialComment, layer := none, pause := none, prev := none,
    next := if isLast then none else some 1 }

theorem dictListTraveler_ok {m : Machine K} {ds : List (LineDict K)} {ss : List (GState K)}
    (h : dictListTraveler m ds = .ok ss) :
    ∃ p rest, vmPosition (initVM m) = .ok p ∧ travelLoop m.layerCue 1 0 (initVM m) ds = .ok rest ∧
      ss = initState m p ds.isEmpty :: rest := by
  simp only [dictListTraveler, bind, Except.bind] at h
  split at h
  · cases h
  · rename_i p hp
    split at h
    · cases h
    · rename_i rest hr
      refine ⟨p, rest, hp, hr, ?_⟩
      simp only [Except.ok.injEq] at h
      rw [← h, initState]

theorem vmPosition_initVM (m : Machine K) :
    vmPosition (initVM m) = .ok ⟨m.pos .X + 0, m.pos .Y + 0, m.pos .Z + 0, m.pos .E + 0⟩ := rfl

/-- All states of a run: the initial one and the traced ones. -/
theorem dictListTraveler_trace {m : Machine K} {ds : List (LineDict K)} {ss : List (GState K)}
    (h : dictListTraveler m ds = .ok ss) :
    ss.length = ds.length + 1 ∧
    ss[0]? = some (initState m ⟨m.pos .X + 0, m.pos .Y + 0, m.pos .Z + 0, m.pos .E + 0⟩
      ds.isEmpty) ∧
    ∀ i (hi : i < ds.length), ∃ vmi vmi' p pause,
      vmRun (initVM m) (ds.take i) = .ok vmi ∧ vmStep vmi ds[i] = .ok vmi' ∧
      pauseOf ds[i] = .ok pause ∧ vmPosition vmi' = .ok p ∧
      ss[i + 1]? = some (stateOf m.layerCue (i + 1) (layerRun m.layerCue 0 (ds.take (i + 1)))
        (decide (i + 1 = ds.length)) vmi' p pause ds[i]) := by
  obtain ⟨p, rest, hp, hr, rfl⟩ := dictListTraveler_ok h
  obtain ⟨hl, hall⟩ := travelLoop_trace hr
  rw [vmPosition_initVM] at hp
  cases hp
  refine ⟨by simp [hl], rfl, ?_⟩
  intro i hi
  obtain ⟨a, b, c, d, h1, h2, h3, h4, h5⟩ := hall i hi
  refine ⟨a, b, c, d, h1, h2, h3, h4, ?_⟩
  rw [List.getElem?_cons_succ, h5, Nat.add_comm 1 i]

end
end PyGCD
