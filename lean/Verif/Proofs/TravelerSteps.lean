import Verif.Proofs.TravelerLemmas
import Verif.Spec.Lines

set_option linter.unusedSectionVars false

/-!
# What one line does to the machine
-/

namespace PyGCD
variable {K : Type}

theorem lookup_eq_entry {α β : Type} [DecidableEq α] (d : List (α × β)) (k : α) :
    d.lookup k = Spec.entry d k := by
  induction d with
  | nil => rfl
  | cons p d ih =>
    obtain ⟨a, b⟩ := p
    simp only [List.lookup, Spec.entry, List.find?]
    by_cases h : k = a
    · subst h; simp
    · have h' : ¬ a = k := fun e => h e.symm
      have hb : (k == a) = false := by simpa using h
      simp [h', hb]
      exact ih

theorem word_eq_arg (d : LineDict K) (c : Cmd) (l : Char) : word d c l = Spec.arg d c l := by
  simp only [word, cmdArgs, Spec.arg, lookup_eq_entry]
  cases h : Spec.entry d c with
  | none => rfl
  | some v =>
    cases v with
    | val v => rfl
    | args a => rfl

theorem entry_isSome {α β : Type} [DecidableEq α] (d : List (α × β)) (k : α) :
    (Spec.entry d k).isSome ↔ ∃ v, (k, v) ∈ d := by
  simp only [Spec.entry, Option.isSome_map, List.find?_isSome, decide_eq_true_eq]
  constructor
  · rintro ⟨⟨a, b⟩, h1, h2⟩
    cases h2
    exact ⟨b, h1⟩
  · rintro ⟨v, h⟩
    exact ⟨(k, v), h, rfl⟩

theorem hasCmd_iff (d : LineDict K) (c : Cmd) : hasCmd d c = true ↔ Spec.has d c := by
  rw [hasCmd, lookup_eq_entry, entry_isSome, Spec.has]

theorem letter_eq (a : Axis) : a.letter = Spec.letter a := by cases a <;> rfl

theorem latest_append {α : Type} (f : LineDict K → Option α) (ds es : List (LineDict K)) (x : α) :
    Spec.latest f (ds ++ es) x = Spec.latest f es (Spec.latest f ds x) := by
  simp only [Spec.latest, List.reverse_append, List.findSome?_append]
  cases List.findSome? f es.reverse <;> simp

theorem latest_cons {α : Type} (f : LineDict K → Option α) (d : LineDict K) (ds : List (LineDict K))
    (x : α) : Spec.latest f (d :: ds) x = Spec.latest f ds ((f d).getD x) := by
  rw [show d :: ds = [d] ++ ds from rfl, latest_append]
  congr 1
  simp only [Spec.latest, List.reverse_cons, List.reverse_nil, List.nil_append,
    List.findSome?_cons, List.findSome?_nil]
  cases f d <;> rfl

/-- The mode of an axis in a machine. -/
def VM.mode (vm : VM K) : Axis → Bool
  | .E => vm.absExt
  | _ => vm.absPos

theorem stepModes_spec (vm : VM K) (d : LineDict K) :
    (stepModes vm d).absPos = (Spec.xyzModeOf d).getD vm.absPos ∧
    (stepModes vm d).absExt = (Spec.eModeOf d).getD vm.absExt ∧
    (stepModes vm d).units = (Spec.unitsOf d).getD vm.units ∧
    (stepModes vm d).pos = vm.pos ∧ (stepModes vm d).off = vm.off ∧
    (stepModes vm d).pVel = vm.pVel ∧ (stepModes vm d).pAcc = vm.pAcc ∧
    (stepModes vm d).jerk = vm.jerk ∧ (stepModes vm d).vAx = vm.vAx := by
  have e : ∀ (c : Cmd) {α : Type} (x y : α),
      (if Spec.has d c then x else y) = (if hasCmd d c = true then x else y) := by
    intro c α x y
    by_cases h : hasCmd d c = true
    · rw [if_pos h, if_pos ((hasCmd_iff d c).1 h)]
    · rw [if_neg h, if_neg (fun h' => h ((hasCmd_iff d c).2 h'))]
  have f : ∀ {α : Type} (g : VM K → α) (c : Cmd) (f : VM K → VM K) (v : VM K),
      g (onCmd d c f v) = if hasCmd d c = true then g (f v) else g v := by
    intro α g c f v
    unfold onCmd
    split <;> rfl
  simp only [stepModes, Spec.xyzModeOf, Spec.eModeOf, Spec.unitsOf, e, f VM.absPos, f VM.absExt,
    f VM.units, f VM.pos, f VM.off, f VM.pVel, f VM.pAcc, f VM.jerk, f VM.vAx, ite_self, and_true]
  clear e f
  generalize hasCmd d .G90 = a
  generalize hasCmd d .G91 = b
  generalize hasCmd d .M82 = c
  generalize hasCmd d .M83 = e
  generalize hasCmd d .G20 = f
  generalize hasCmd d .G21 = g
  refine ⟨?_, ?_, ?_⟩
  · cases a <;> cases b <;> rfl
  · cases c <;> cases e <;> rfl
  · cases f <;> cases g <;> rfl

theorem stepModes_mode (vm : VM K) (d : LineDict K) (a : Axis) :
    (stepModes vm d).mode a =
      (match a with | .E => (Spec.eModeOf d).getD vm.absExt
                    | _ => (Spec.xyzModeOf d).getD vm.absPos) := by
  obtain ⟨h1, h2, _⟩ := stepModes_spec vm d
  cases a <;> simp [VM.mode, h1, h2]

variable [Add K]

theorem stepMove_spec [Div K] [OfNat K 60] {d : LineDict K} {c : Cmd} {vm vm' : VM K}
    (h : stepMove d c vm = .ok vm') :
    (∀ a, moveAxis (vm.mode a) (Spec.arg d c (Spec.letter a)) (vm.pos a) = .ok (vm'.pos a)) ∧
    (match Spec.arg d c 'F' with
      | none => vm'.pVel = vm.pVel
      | some v => v.divNum 60 = .ok vm'.pVel) ∧
    vm'.off = vm.off ∧ vm'.absPos = vm.absPos ∧ vm'.absExt = vm.absExt ∧ vm'.units = vm.units ∧
    vm'.pAcc = vm.pAcc ∧ vm'.jerk = vm.jerk ∧ vm'.vAx = vm.vAx := by
  simp only [stepMove, word_eq_arg, bind, Except.bind] at h
  split at h
  · cases h
  rename_i x hx
  split at h
  · cases h
  rename_i y hy
  split at h
  · cases h
  rename_i z hz
  split at h
  · cases h
  rename_i e he
  have hpos : ∀ (f : K), ∀ a, moveAxis (vm.mode a) (Spec.arg d c (Spec.letter a)) (vm.pos a) =
      .ok (({ vm with
        pos := fun | .X => x | .Y => y | .Z => z | .E => e
        pVel := f } : VM K).pos a) := by
    intro f a
    cases a <;> simp only [VM.mode, Spec.letter] <;> assumption
  cases hF : Spec.arg d c 'F' with
  | none =>
    rw [hF] at h
    cases h
    exact ⟨hpos vm.pVel, rfl, rfl, rfl, rfl, rfl, rfl, rfl, rfl⟩
  | some v =>
    rw [hF] at h
    simp only at h
    cases hd : Val.divNum 60 v with
    | error e' => rw [hd] at h; cases h
    | ok f =>
      rw [hd] at h
      cases h
      exact ⟨hpos f, hd, rfl, rfl, rfl, rfl, rfl, rfl, rfl⟩

theorem stepSetPos_spec {d : LineDict K} {vm vm' : VM K}
    (h : stepSetPos d vm = .ok vm') :
    (∀ a, setPosAxis (Spec.arg d .G92 (Spec.letter a)) (vm.pos a) (vm.off a) =
      .ok (vm'.pos a, vm'.off a)) ∧
    vm'.absPos = vm.absPos ∧ vm'.absExt = vm.absExt ∧ vm'.units = vm.units ∧
    vm'.pVel = vm.pVel ∧ vm'.pAcc = vm.pAcc ∧ vm'.jerk = vm.jerk ∧ vm'.vAx = vm.vAx := by
  simp only [stepSetPos, word_eq_arg, bind, Except.bind] at h
  split at h
  · cases h
  rename_i x hx
  split at h
  · cases h
  rename_i y hy
  split at h
  · cases h
  rename_i z hz
  split at h
  · cases h
  rename_i e he
  simp only [Except.ok.injEq] at h
  subst h
  refine ⟨?_, rfl, rfl, rfl, rfl, rfl, rfl, rfl⟩
  intro a
  cases a <;> simp only [Spec.letter] <;> assumption

/-- One line, field by field. -/
theorem vmStep_spec [Div K] [OfNat K 60] {d : LineDict K} {vm vm' : VM K}
    (h : vmStep vm d = .ok vm') :
    (∀ a, ∃ q0 q1, moveAxis ((stepModes vm d).mode a) (Spec.arg d .G0 (Spec.letter a)) (vm.pos a)
        = .ok q0 ∧
      moveAxis ((stepModes vm d).mode a) (Spec.arg d .G1 (Spec.letter a)) q0 = .ok q1 ∧
      setPosAxis (Spec.arg d .G92 (Spec.letter a)) q1 (vm.off a) = .ok (vm'.pos a, vm'.off a)) ∧
    (∃ f0, (match Spec.arg d .G0 'F' with
        | none => f0 = vm.pVel
        | some v => v.divNum 60 = .ok f0) ∧
      (match Spec.arg d .G1 'F' with
        | none => vm'.pVel = f0
        | some v => v.divNum 60 = .ok vm'.pVel)) ∧
    vm'.absPos = (Spec.xyzModeOf d).getD vm.absPos ∧
    vm'.absExt = (Spec.eModeOf d).getD vm.absExt ∧
    vm'.units = (Spec.unitsOf d).getD vm.units ∧
    vm'.pAcc = (Spec.arg d .M204 'P').getD vm.pAcc ∧
    vm'.jerk = (Spec.arg d .M205 'X').getD vm.jerk ∧
    ∀ a, vm'.vAx a = (Spec.arg d .M203 (Spec.letter a)).getD (vm.vAx a) := by
  simp only [vmStep, bind, Except.bind] at h
  split at h
  · cases h
  rename_i v1 h1
  split at h
  · cases h
  rename_i v2 h2
  split at h
  · cases h
  rename_i v3 h3
  simp only [Except.ok.injEq] at h
  subst h
  obtain ⟨m1, m2, m3, m4, m5, m6, m7, m8, m9⟩ := stepModes_spec vm d
  obtain ⟨a1, a2, a3, a4, a5, a6, a7, a8, a9⟩ := stepMove_spec h1
  obtain ⟨b1, b2, b3, b4, b5, b6, b7, b8, b9⟩ := stepMove_spec h2
  obtain ⟨c1, c2, c3, c4, c5, c6, c7, c8⟩ := stepSetPos_spec h3
  refine ⟨?_, ⟨v1.pVel, ?_, ?_⟩, ?_, ?_, ?_, ?_, ?_, ?_⟩
  · intro a
    refine ⟨v1.pos a, v2.pos a, ?_, ?_, ?_⟩
    · rw [← m4]; exact a1 a
    · have := b1 a
      have hm : v1.mode a = (stepModes vm d).mode a := by
        cases a <;> simp [VM.mode, a4, a5]
      rwa [hm] at this
    · have := c1 a
      rw [b3, a3, m5] at this
      exact this
  · revert a2
    cases Spec.arg d .G0 'F' with
    | none => simp only [m6]; exact id
    | some v => exact id
  · revert b2
    simp only [stepSettings, c5]
    cases Spec.arg d .G1 'F' with
    | none => exact id
    | some v => exact id
  · simp only [stepSettings, c2, b4, a4, m1]
  · simp only [stepSettings, c3, b5, a5, m2]
  · simp only [stepSettings, c4, b6, a6, m3]
  · simp only [stepSettings, word_eq_arg, c6, b7, a7, m7]
  · simp only [stepSettings, word_eq_arg, c7, b8, a8, m8]
  · intro a
    simp only [stepSettings, word_eq_arg, letter_eq, c8, b9, a9, m9]

/-- Modes, unit flag and settings after a history are the latest ones. -/
theorem vmRun_latest [Div K] [OfNat K 60] {vm vm' : VM K} {ds : List (LineDict K)}
    (h : vmRun vm ds = .ok vm') :
    vm'.absPos = Spec.latest Spec.xyzModeOf ds vm.absPos ∧
    vm'.absExt = Spec.latest Spec.eModeOf ds vm.absExt ∧
    vm'.units = Spec.latest Spec.unitsOf ds vm.units ∧
    vm'.pAcc = Spec.latest (fun d => Spec.arg d .M204 'P') ds vm.pAcc ∧
    vm'.jerk = Spec.latest (fun d => Spec.arg d .M205 'X') ds vm.jerk ∧
    ∀ a, vm'.vAx a = Spec.latest (fun d => Spec.arg d .M203 (Spec.letter a)) ds (vm.vAx a) := by
  induction ds generalizing vm with
  | nil =>
    simp only [vmRun, Except.ok.injEq] at h
    subst h
    simp [Spec.latest]
  | cons d ds ih =>
    simp only [vmRun] at h
    cases hs : vmStep vm d with
    | error e => rw [hs] at h; cases h
    | ok v1 =>
      rw [hs] at h
      obtain ⟨i1, i2, i3, i4, i5, i6⟩ := ih h
      obtain ⟨_, _, s1, s2, s3, s4, s5, s6⟩ := vmStep_spec hs
      simp only [latest_cons]
      refine ⟨by rw [i1, s1], by rw [i2, s2], by rw [i3, s3], by rw [i4, s4], by rw [i5, s5], ?_⟩
      intro a
      rw [i6 a, s6 a]

theorem vmPosition_ok {vm : VM K} {p : Vec4 K} (h : vmPosition vm = .ok p) (a : Axis) :
    ∃ x o, vm.pos a = .num x ∧ vm.off a = .num o ∧ Spec.comp p a = x + o := by
  simp only [vmPosition, bind, Except.bind] at h
  have key : ∀ b r, coord vm b = .ok r → ∃ x o, vm.pos b = .num x ∧ vm.off b = .num o ∧ r = x + o := by
    intro b r hb
    unfold coord at hb
    split at hb
    · rename_i x o hx ho
      cases hb
      exact ⟨x, o, hx, ho, rfl⟩
    · cases hb
  split at h
  · cases h
  rename_i x hx
  split at h
  · cases h
  rename_i y hy
  split at h
  · cases h
  rename_i z hz
  split at h
  · cases h
  rename_i e he
  cases h
  cases a
  · exact key _ _ hx
  · exact key _ _ hy
  · exact key _ _ hz
  · exact key _ _ he

end PyGCD
