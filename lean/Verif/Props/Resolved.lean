import Verif.Props.Session

/-!
# Properties C56 and C57: from the setup dictionary to the simulation
-/

set_option linter.unusedSectionVars false
set_option linter.unusedSimpArgs false

namespace PyGCD
open Vec4 Spec

/-! ## C56: firmware names -/

/-- **C56.** The firmware entry alone selects the junction handling: the four known names select theirs, and
everything else the default. -/
theorem c56_firmware_names {pf : List Char → Option ℝ} {d : Dict (SVal ℝ)} {content : List Char}
    {bs : List (Block ℝ)} (h : simulateFile pf d content = .ok bs) :
    ∃ ps, fileStates pf d content = .ok ps ∧ plan (firmwareFor (d.lookup "firmware")) ps = .ok bs := by
  unfold simulateFile at h
  cases hc : checkInitialSetup d with
  | error e => rw [hc] at h; cases h
  | ok u =>
    rw [hc] at h
    cases hf : fileStates pf d content with
    | error e => rw [hf] at h; cases h
    | ok ps =>
      rw [hf] at h
      refine ⟨ps, rfl, ?_⟩
      simp only [bind, Except.bind, simulate] at h
      rw [← firmwareOf_eq]
      cases hp : plan (firmwareOf d) ps with
      | error e => rw [hp] at h; cases h
      | ok bs' =>
        rw [hp] at h
        simp only at h
        cases he : endTime bs' with
        | error e => rw [he] at h; cases h
        | ok t =>
          rw [he] at h
          cases h
          rfl

/-- **C56.** Names are compared exactly: a wrong case or an unknown name gives the default junction handling,
which stops at every junction. -/
theorem c56_other_names {f : String} (h : f ∉ ["marlin_jd", "klipper", "marlin_jerk", "MKA"])
    (A : Option (PState ℝ)) (B : PState ℝ) (rest : List (PState ℝ)) :
    junctionVel (firmwareFor (some (.text f))) A B rest = 0 := by
  simp only [List.mem_cons, List.not_mem_nil, or_false, not_or] at h
  obtain ⟨h1, h2, h3, h4⟩ := h
  rw [firmwareFor, if_neg h1, if_neg h2, if_neg h3, if_neg h4]
  rfl

/-- `Klipper` is no known name, `klipper` is. -/
example : firmwareFor (some (.text "Klipper")) = .default ∧ firmwareFor (some (.text "klipper")) = .klipper := by
  decide +kernel

/-! ## C57: the machine parameters -/

theorem numEntry_some {d : Dict (SVal ℝ)} {k : String} (hk : (d.lookup k).isSome) {dflt v : ℝ}
    (h : numEntry d k dflt = .ok v) : d.lookup k = some (.num v) := by
  unfold numEntry at h
  cases hd : d.lookup k with
  | none =>
    rw [hd] at hk
    cases hk
  | some w =>
    rw [hd] at h
    cases w with
    | num w =>
      cases h
      rfl
    | text s => cases h
    | null => cases h

theorem machineOf_resolve {d : Dict (SVal ℝ)} {m : Machine ℝ} (hc : checkInitialSetup d = .ok ())
    (h : resolveMachine d = .ok m) : MachineOf d m := by
  have hk := ((c46_validation d).1.1 hc).1
  unfold resolveMachine at h
  simp only [bind, Except.bind] at h
  split at h
  · cases h
  rename_i x hx
  split at h
  · cases h
  rename_i y hy
  split at h
  · cases h
  rename_i z hz
  split at h
  · cases h
  rename_i e he
  split at h
  · cases h
  rename_i pv hpv
  split at h
  · cases h
  rename_i pa hpa
  split at h
  · cases h
  rename_i j hj
  split at h
  · cases h
  rename_i vx hvx
  split at h
  · cases h
  rename_i vy hvy
  split at h
  · cases h
  rename_i vz hvz
  split at h
  · cases h
  rename_i ve hve
  have build : ∀ m' : Machine ℝ, m'.pos .X = x → m'.pos .Y = y → m'.pos .Z = z → m'.pos .E = e →
      m'.pVel = pv → m'.pAcc = pa → m'.jerk = j → m'.vAx .X = vx → m'.vAx .Y = vy → m'.vAx .Z = vz →
      m'.vAx .E = ve → (m'.absPos = true ∧ m'.absExt = true ∧ m'.units = .SImm) →
      (∀ c : String, d.lookup "layer_cue" = some (.text c) → m'.layerCue = some c.toList) →
      (d.lookup "layer_cue" = none ↔ m'.layerCue = none) →
      (∀ v, d.lookup "layer_cue" = some v → (∀ c, v ≠ .text c) → ∃ c, m'.layerCue = some ('\n' :: c)) →
      MachineOf d m' := by
    rintro m' rfl rfl rfl rfl rfl rfl rfl rfl rfl rfl rfl ha hcue hno hother
    exact ⟨numEntry_some (hk _ (by simp)) hx, numEntry_some (hk _ (by simp)) hy,
      numEntry_some (hk _ (by simp)) hz, numEntry_some (hk _ (by simp)) he,
      numEntry_some (hk _ (by simp)) hpv, numEntry_some (hk _ (by simp)) hpa,
      numEntry_some (hk _ (by simp)) hj, numEntry_some (hk _ (by simp)) hvx,
      numEntry_some (hk _ (by simp)) hvy, numEntry_some (hk _ (by simp)) hvz,
      numEntry_some (hk _ (by simp)) hve, hcue, hno, hother, ha⟩
  cases h
  refine build _ rfl rfl rfl rfl rfl rfl rfl rfl rfl rfl rfl ⟨rfl, rfl, rfl⟩ ?_ ?_ ?_
  · intro c hc
    simp only [hc]
  · cases hc : d.lookup "layer_cue" with
    | none => simp
    | some v => cases v <;> simp
  · intro v hv hn
    simp only [hv]
    cases v with
    | text c => exact absurd rfl (hn c)
    | num v => exact ⟨[], rfl⟩
    | null => exact ⟨[], rfl⟩

theorem toPState_same {g : GState ℝ} {p : PState ℝ} (h : g.toPState = .ok p) : SameNumbers g p := by
  unfold GState.toPState at h
  simp only [bind, Except.bind] at h
  split at h
  · cases h
  rename_i a ha
  split at h
  · cases h
  rename_i j hj
  have num : ∀ {v : Val ℝ} {w : ℝ}, v.toNum = .ok w → v = .num w := by
    intro v w hv
    cases v with
    | num v =>
      cases hv
      rfl
    | str s => cases hv
  split at h
  · rename_i hp
    cases h
    exact ⟨rfl, rfl, num ha, num hj, hp, rfl⟩
  · rename_i v hp
    cases hv : v.toNum with
    | error e => rw [hv] at h; cases h
    | ok w =>
      rw [hv] at h
      cases h
      exact ⟨rfl, rfl, num ha, num hj, by rw [hp, num hv]; rfl, rfl⟩

theorem forall₂_of_mapM {g : GState ℝ → Except PyErr (PState ℝ)} : ∀ {l : List (GState ℝ)} {ps : List (PState ℝ)},
    l.mapM g = .ok ps → List.Forall₂ (fun x p => g x = .ok p) l ps := by
  intro l
  induction l with
  | nil =>
    intro ps h
    cases h
    exact .nil
  | cons x l ih =>
    intro ps h
    simp only [List.mapM_cons, bind, Except.bind] at h
    split at h
    · cases h
    rename_i p hp
    split at h
    · cases h
    rename_i tl htl
    cases h
    exact .cons hp (ih htl)

/-- **C57.** For a setup that passed the check, the states that are planned are those that the file gives on a
machine with exactly the parameters of the setup dictionary, number by number. -/
theorem c57_machine_resolved {pf : List Char → Option ℝ} {d : Dict (SVal ℝ)} {content : List Char}
    {ps : List (PState ℝ)} (hc : checkInitialSetup d = .ok ()) (h : fileStates pf d content = .ok ps) :
    ∃ m gs, MachineOf d m ∧ generateStates pf m content = .ok gs ∧ List.Forall₂ SameNumbers gs ps := by
  unfold fileStates at h
  cases hm : resolveMachine d with
  | error e => rw [hm] at h; cases h
  | ok m =>
    rw [hm] at h
    simp only [bind, Except.bind] at h
    cases hg : generateStates pf m content with
    | error e => rw [hg] at h; cases h
    | ok gs =>
      rw [hg] at h
      exact ⟨m, gs, machineOf_resolve hc hm, hg, (forall₂_of_mapM h).imp fun _ _ => toPState_same⟩

/-- **C57.** In particular the simulation starts with the position and settings of the setup. -/
theorem c57_first_state {pf : List Char → Option ℝ} {d : Dict (SVal ℝ)} {content : List Char}
    {ps : List (PState ℝ)} (hc : checkInitialSetup d = .ok ()) (h : fileStates pf d content = .ok ps) :
    ∃ s, ps.head? = some s ∧ d.lookup "X" = some (.num s.position.x) ∧
      d.lookup "Y" = some (.num s.position.y) ∧ d.lookup "Z" = some (.num s.position.z) ∧
      d.lookup "E" = some (.num s.position.e) ∧ d.lookup "p_vel" = some (.num s.speed) ∧
      d.lookup "p_acc" = some (.num s.pAcc) ∧ d.lookup "jerk" = some (.num s.jerk) ∧ s.pause = none ∧
      s.layer = none := by
  obtain ⟨m, gs, hm, hg, hF⟩ := c57_machine_resolved hc h
  unfold generateStates at hg
  cases hr : readLines pf (fileLines content) with
  | error x => rw [hr] at hg; cases hg
  | ok ds =>
    rw [hr] at hg
    simp only [bind, Except.bind] at hg
    unfold dictListTraveler at hg
    have hv : vmPosition (initVM m) = .ok ⟨m.pos .X, m.pos .Y, m.pos .Z, m.pos .E⟩ := by
      simp only [vmPosition, coord, initVM, bind, Except.bind, add_zero]
    simp only [hv, bind, Except.bind] at hg
    split at hg
    · cases hg
    cases hg
    cases hF with
    | @cons _ s _ tl h1 h2 =>
      refine ⟨s, rfl, ?_⟩
      have hs := h1.speed
      have ha := h1.pAcc
      have hj := h1.jerk
      have hp := h1.pause
      simp only [vmSettings, initVM, Val.num.injEq] at hs ha hj hp
      rw [h1.position, hs, ← ha, ← hj, h1.layer]
      refine ⟨hm.x, hm.y, hm.z, hm.e, hm.pVel, hm.pAcc, hm.jerk, ?_, rfl⟩
      cases hq : s.pause with
      | none => rfl
      | some q =>
        rw [hq] at hp
        cases hp

/-- The hypotheses of C57 hold for the setup object of `c34_initial_position`; its dictionary starts the
machine 25.4 mm from the origin. -/
example : ∃ s s1 s2 d, Setup.create Demo.presets (some "p") none = .ok s ∧
    s.setInitialPosition (.tuple [1, 0, 0, 0]) (some "inch") = .ok s1 ∧ s1.getDict = .ok (d, s2) ∧
    checkInitialSetup d = .ok () ∧
    fileStates Demo.pf d ['G', '1', ' ', 'X', '1', '0'] = .ok Demo.fileProg ∧
    d.lookup "X" = some (.num (25.4 * 1 + 0)) := by
  obtain ⟨s, hs⟩ : ∃ s, Setup.create Demo.presets (some "p") none = .ok s := ⟨_, rfl⟩
  obtain ⟨s1, h1⟩ : ∃ s1, s.setInitialPosition (.tuple [1, 0, 0, 0]) (some "inch") = .ok s1 := by
    cases hs
    exact ⟨_, rfl⟩
  obtain ⟨d, s2, h2, h3, h4⟩ : ∃ d s2, s1.getDict = .ok (d, s2) ∧ checkInitialSetup d = .ok () ∧
      fileStates Demo.pf d ['G', '1', ' ', 'X', '1', '0'] = .ok Demo.fileProg := by
    cases hs
    cases h1
    exact ⟨_, _, rfl, rfl, rfl⟩
  obtain ⟨q, hq, hx, _⟩ := c57_first_state h3 h4
  cases hq
  exact ⟨s, s1, s2, d, hs, h1, h2, h3, h4, hx⟩

end PyGCD
