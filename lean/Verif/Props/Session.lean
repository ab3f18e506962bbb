import Verif.Model.Session
import Verif.Spec.Sessions
import Verif.Props.Setup
import Verif.Props.Executed

/-!
# Properties C50 and C51: the life of a simulation object
-/

set_option linter.unusedSectionVars false
set_option linter.unusedSimpArgs false

namespace PyGCD
open Vec4 Spec

/-- One call; what it returns or raises does not matter here. -/
noncomputable def Session.call (s : Session ℝ) : SimOp → Session ℝ
  | .values t u => (s.values t u).2
  | .width t h dia => (s.width t h dia).2
  | .refresh new => (s.refresh new).2
  | .onSetup op => { s with setup := s.setup.call op }

theorem firmwareOf_eq (d : Dict (SVal ℝ)) : firmwareOf d = firmwareFor (d.lookup "firmware") := by
  unfold firmwareOf firmwareFor
  cases d.lookup "firmware" with
  | none => rfl
  | some v =>
    cases v with
    | num _ => rfl
    | null => rfl
    | text f =>
      simp only
      unfold Firmware.ofName
      split <;> simp_all

theorem not_overwritten_firmware (cue : Option String) : ¬ Overwritten cue "firmware" := by
  simp [Overwritten]

theorem wanted_firmware (presets : Dict (Dict (SVal ℝ))) (cue : Option String) (bk : Book) (p : String) :
    bk.wanted presets cue p "firmware" =
      (bk.props p "firmware").or ((presets.lookup p).bind fun d => d.lookup "firmware") := by
  simp [Book.wanted]

theorem agrees_firmware {presets : Dict (Dict (SVal ℝ))} {cue : Option String} {s : Setup ℝ} {bk : Book}
    (h : Agrees presets cue s bk) {p : String} {d : Dict (SVal ℝ)} (hd : s.presets.lookup p = some d) :
    d.lookup "firmware" = bk.wanted presets cue p "firmware" := by
  rw [h.entry p d hd _ (not_overwritten_firmware cue), wanted_firmware]

/-- The object agrees with the book. -/
structure Live (presets : Dict (Dict (SVal ℝ))) (cue : Option String) (s : Session ℝ) (bk : SimBook) : Prop where
  setup : Agrees presets cue s.setup bk.setup
  key : (presets.lookup s.printer).isSome
  fw : (bk.setup.wanted presets cue s.printer "firmware").isSome
  states : s.states = bk.states
  regular : Feasible bk.states
  blocks : plan (firmwareFor bk.firmware) bk.planned = .ok s.blocks

/-- What `refresh` does to an object that agrees with the book. -/
theorem live_refresh {presets : Dict (Dict (SVal ℝ))} {cue : Option String} {s : Session ℝ} {bk : SimBook}
    (h : Live presets cue s bk) (new : Option (List (PState ℝ))) (hn : ∀ l, new = some l → Feasible l) :
    ∃ bs, plan (firmwareFor (bk.setup.wanted presets cue s.printer "firmware")) (new.getD bk.states) = .ok bs ∧
      s.refresh new = (.ok (), { s with states := new.getD bk.states, blocks := bs }) := by
  obtain ⟨d, hd⟩ := Option.isSome_iff_exists.1 ((h.setup.same s.printer).trans h.key)
  have hreg : Feasible (new.getD bk.states) := by
    cases new with
    | none => exact h.regular
    | some l => exact hn l rfl
  obtain ⟨bs, hp⟩ := (c86_plannable (firmwareFor (bk.setup.wanted presets cue s.printer "firmware"))
    hreg.toSensible).2 hreg.follow
  refine ⟨bs, hp, ?_⟩
  have hf := agrees_firmware h.setup hd
  have hsome : (d.lookup "firmware").isSome = true := by rw [hf]; exact h.fw
  have hfw : Session.firmware { s with states := new.getD bk.states } =
      .ok (firmwareFor (bk.setup.wanted presets cue s.printer "firmware")) := by
    unfold Session.firmware
    simp only [hd]
    rw [if_pos hsome, firmwareOf_eq, hf]
  unfold Session.refresh
  simp only [h.states, hfw, hp]

theorem note_wanted_isSome {presets : Dict (Dict (SVal ℝ))} {cue : Option String} {bk : Book} {p : String}
    (h : (bk.wanted presets cue p "firmware").isSome) (op : SetupOp) :
    ((bk.note presets op).wanted presets cue p "firmware").isSome := by
  have key : ∀ bk' : Book, (∀ v, bk.props p "firmware" = some v → (bk'.props p "firmware").isSome) →
      (bk'.wanted presets cue p "firmware").isSome := by
    intro bk' hk
    rw [wanted_firmware] at h ⊢
    cases hb : bk.props p "firmware" with
    | none =>
      rw [hb, Option.none_or] at h
      cases bk'.props p "firmware" with
      | none => rw [Option.none_or]; exact h
      | some w => rfl
    | some v =>
      obtain ⟨w, hw⟩ := Option.isSome_iff_exists.1 (hk v hb)
      rw [hw]
      rfl
  apply key
  intro v hv
  cases op with
  | select n =>
    simp only [Book.note]
    split <;> simp only [hv, Option.isSome_some]
  | setProps props =>
    simp only [Book.note]
    split
    · simp only [hv, Option.isSome_some]
    · simp only
      split
      · cases props.lookup "firmware" <;> simp [hv]
      · simp [hv]
  | setPos a u =>
    simp only [Book.note]
    split
    · simp only [hv, Option.isSome_some]
    · split <;> simp only [hv, Option.isSome_some]
    · simp only [hv, Option.isSome_some]
  | read => simp only [Book.note, hv, Option.isSome_some]

theorem live_call {presets : Dict (Dict (SVal ℝ))} {cue : Option String} {s : Session ℝ} {bk : SimBook}
    (h : Live presets cue s bk) (op : SimOp) (hop : op.WellFormed Feasible) :
    (s.call op).printer = s.printer ∧ Live presets cue (s.call op) (bk.note presets cue s.printer op) := by
  cases op with
  | values t u => exact ⟨rfl, h.setup, h.key, h.fw, h.states, h.regular, h.blocks⟩
  | width t w dia => exact ⟨rfl, h.setup, h.key, h.fw, h.states, h.regular, h.blocks⟩
  | refresh new =>
    have hn : ∀ l, new = some l → Feasible l := by
      rintro l rfl
      exact hop
    obtain ⟨bs, h1, h2⟩ := live_refresh h new hn
    have h3 : s.call (.refresh new) = { s with states := new.getD bk.states, blocks := bs } := by
      show (s.refresh new).2 = _
      rw [h2]
    rw [h3]
    refine ⟨rfl, h.setup, h.key, h.fw, rfl, ?_, h1⟩
    show Feasible (new.getD bk.states)
    cases new with
    | none => exact h.regular
    | some l => exact hn l rfl
  | onSetup op =>
    exact ⟨rfl, agrees_call h.setup op hop, h.key, note_wanted_isSome h.fw op, h.states, h.regular, h.blocks⟩

theorem live_run {presets : Dict (Dict (SVal ℝ))} {cue : Option String} (ops : List SimOp) :
    ∀ {s : Session ℝ} {bk : SimBook}, Live presets cue s bk → (∀ op ∈ ops, op.WellFormed Feasible) →
    (ops.foldl Session.call s).printer = s.printer ∧
    Live presets cue (ops.foldl Session.call s) (ops.foldl (SimBook.note presets cue s.printer) bk) := by
  induction ops with
  | nil => exact fun h _ => ⟨rfl, h⟩
  | cons op ops ih =>
    intro s bk h hw
    obtain ⟨h1, h2⟩ := live_call h op (hw op (by simp))
    obtain ⟨h3, h4⟩ := ih h2 fun o ho => hw o (by simp [ho])
    rw [h1] at h3 h4
    exact ⟨h3, h4⟩

/-- The book of a new simulation object. -/
noncomputable def Spec.SimBook.start (presets : Dict (Dict (SVal ℝ))) (cue : Option String) (bk : Book) (p : String)
    (states : List (PState ℝ)) : SimBook :=
  ⟨bk, states, states, bk.wanted presets cue p "firmware"⟩

/-- What a construction with a setup object leaves behind. -/
theorem live_create {presets shipped : Dict (Dict (SVal ℝ))} {cue : Option String} {s : Setup ℝ} {bk : Book}
    (ha : Agrees presets cue s bk) {pf : List Char → Option ℝ} {content : List Char} {name : Option String}
    {unit : String} {sim : Session ℝ}
    (h : Session.create pf shipped content name (some s) unit = .ok sim) (hsens : Sensible sim.states) :
    bk.selected = some sim.printer ∧ sim.last = none ∧ sim.own = unit ∧
    Live presets cue sim (SimBook.start presets cue bk sim.printer sim.states) := by
  obtain ⟨r, hr, h⟩ : ∃ r, simulationGuards unit name (some s) shipped = .ok r ∧
      (do
        checkInitialSetup r.1
        let ps ← fileStates pf r.1 content
        let bs ← simulate (firmwareOf r.1) ps
        Except.ok (⟨r.2, r.2.printer.getD "", unit, ps, bs, none⟩ : Session ℝ)) = .ok sim := by
    unfold Session.create at h
    cases hg : simulationGuards unit name (some s) shipped with
    | error e => rw [hg] at h; cases h
    | ok r => rw [hg] at h; exact ⟨r, rfl, h⟩
  obtain ⟨p, hp, h1, h2, h3⟩ : ∃ p, bk.selected = some p ∧ Agrees presets cue r.2 bk ∧
      r.2.presets.lookup p = some r.1 ∧ ∀ k, r.1.lookup k = bk.wanted presets cue p k := by
    unfold simulationGuards at hr
    split at hr
    · cases hr
    · cases hsel : bk.selected with
      | none =>
        have := (getDict_spec ha).1 hsel
        cases name with
        | none => simp only [this] at hr; cases hr
        | some n => simp only [this, bind, Except.bind] at hr; cases hr
      | some p =>
        obtain ⟨d, s1, a1, a2, a3, a4⟩ := (getDict_spec ha).2 p hsel
        cases name with
        | none =>
          simp only [a1, Except.ok.injEq] at hr
          subst hr
          exact ⟨p, rfl, a2, a3, a4⟩
        | some n =>
          obtain ⟨d', s2, b1, b2, b3, b4⟩ := (getDict_spec a2).2 p hsel
          simp only [a1, bind, Except.bind] at hr
          split at hr
          · cases hr
          · split at hr
            · simp only [b1, Except.ok.injEq] at hr
              subst hr
              exact ⟨p, rfl, b2, b3, b4⟩
            · cases hr
  cases hc : checkInitialSetup r.1 with
  | error e => rw [hc] at h; cases h
  | ok _ =>
    rw [hc] at h
    simp only [bind, Except.bind] at h
    cases hf : fileStates pf r.1 content with
    | error e => rw [hf] at h; cases h
    | ok ps =>
      rw [hf] at h
      simp only at h
      cases hs : simulate (firmwareOf r.1) ps with
      | error e => rw [hs] at h; cases h
      | ok bs =>
        rw [hs] at h
        simp only [Except.ok.injEq] at h
        subst h
        have hpr : r.2.printer.getD "" = p := by rw [h1.sel, hp]; rfl
        have hpl : plan (firmwareOf r.1) ps = .ok bs := by
          unfold simulate at hs
          cases hpl : plan (firmwareOf r.1) ps with
          | error e => rw [hpl] at hs; cases hs
          | ok bs' =>
            rw [hpl] at hs
            simp only [bind, Except.bind] at hs
            split at hs
            · cases hs
            · exact hs
        rw [hpr] at hsens ⊢
        refine ⟨hp, rfl, rfl, h1, h1.known p hp, ?_, rfl, ⟨hsens, (c86_plannable _ hsens).1 ⟨bs, hpl⟩⟩, ?_⟩
        · show (bk.wanted presets cue p "firmware").isSome
          rw [← h3]
          exact ((c46_validation r.1).1.1 hc).1 _ (by simp)
        · show plan (firmwareFor (bk.wanted presets cue p "firmware")) ps = .ok bs
          rw [← h3, ← firmwareOf_eq]
          exact hpl

/-- The wanted firmware is only changed by naming it. -/
theorem note_wanted_same {presets : Dict (Dict (SVal ℝ))} {cue : Option String} {bk : Book} {p : String}
    (op : SetupOp) (hk : (SimOp.onSetup op).KeepsFirmware) :
    (bk.note presets op).wanted presets cue p "firmware" = bk.wanted presets cue p "firmware" := by
  rw [wanted_firmware, wanted_firmware]
  congr 1
  cases op with
  | select n =>
    simp only [Book.note]
    split <;> rfl
  | setProps props =>
    have : props.lookup "firmware" = none := hk
    simp only [Book.note]
    split
    · rfl
    · simp only [this, Option.none_or, ite_self]
  | setPos a u =>
    simp only [Book.note]
    split
    · rfl
    · split <;> rfl
    · rfl
  | read => rfl

/-- The latest list of states given to `refresh`, or the first one. -/
def Spec.latestStates (first : List (PState ℝ)) (ops : List SimOp) : List (PState ℝ) :=
  (ops.filterMap SimOp.newStates).getLast?.getD first

theorem run_book {presets : Dict (Dict (SVal ℝ))} {cue : Option String} {p : String} (ops : List SimOp) :
    ∀ bk : SimBook, bk.planned = bk.states → bk.firmware = bk.setup.wanted presets cue p "firmware" →
      (∀ op ∈ ops, op.KeepsFirmware) →
      let bk' := ops.foldl (SimBook.note presets cue p) bk
      bk'.states = latestStates bk.states ops ∧ bk'.planned = bk'.states ∧ bk'.firmware = bk.firmware ∧
      bk'.firmware = bk'.setup.wanted presets cue p "firmware" := by
  induction ops with
  | nil => exact fun bk h1 h2 _ => ⟨rfl, h1, rfl, h2⟩
  | cons op ops ih =>
    intro bk h1 h2 hk
    have hk' : ∀ o ∈ ops, o.KeepsFirmware := fun o ho => hk o (by simp [ho])
    simp only [List.foldl_cons]
    cases op with
    | values t u => exact ih bk h1 h2 hk'
    | width t h dia => exact ih bk h1 h2 hk'
    | refresh new =>
      obtain ⟨a1, a2, a3, a4⟩ := ih (bk.note presets cue p (.refresh new)) rfl rfl hk'
      refine ⟨?_, a2, by rw [a3, h2]; rfl, a4⟩
      rw [a1]
      unfold latestStates
      simp only [SimBook.note]
      cases new with
      | none => simp [List.filterMap_cons, SimOp.newStates]
      | some l =>
        simp only [Option.getD_some, List.filterMap_cons, SimOp.newStates]
        cases hl : ops.filterMap SimOp.newStates with
        | nil => simp
        | cons a as => rw [List.getLast?_cons_cons, List.getLast?_eq_some_getLast (List.cons_ne_nil a as)]; rfl
    | onSetup op =>
      have hs := note_wanted_same (presets := presets) (cue := cue) (bk := bk.setup) (p := p) op
        (hk _ (by simp))
      obtain ⟨a1, a2, a3, a4⟩ := ih (bk.note presets cue p (.onSetup op)) h1 (h2.trans hs.symm) hk'
      exact ⟨a1, a2, a3, a4⟩

section
variable {presets shipped : Dict (Dict (SVal ℝ))} {printer cue : Option String} {s : Setup ℝ}
  {pf : List Char → Option ℝ} {content : List Char} {name : Option String} {unit : String} {sim : Session ℝ}

/-- **C50.** After any sequence of queries, width queries, refreshes and calls on the setup object that do
not name the firmware, `refresh()` succeeds and changes nothing at all; in particular it reproduces the same
blocks, and these are the plan of the latest given states (the states of the file if there are none),
whatever else was called. -/
theorem c50_refresh (hc : Setup.create presets printer cue = .ok s) (before : List SetupOp)
    (hb : ∀ op ∈ before, op.WellFormed)
    (h : Session.create pf shipped content name (some (before.foldl Setup.call s)) unit = .ok sim)
    (hsens : Sensible sim.states) (ops : List SimOp) (hw : ∀ op ∈ ops, op.WellFormed Feasible)
    (hk : ∀ op ∈ ops, op.KeepsFirmware) :
    let sim' := ops.foldl Session.call sim
    sim'.refresh none = (.ok (), sim') ∧
    ∃ fw, plan fw sim.states = .ok sim.blocks ∧ plan fw (latestStates sim.states ops) = .ok sim'.blocks := by
  intro sim'
  obtain ⟨_, _, _, hl⟩ := live_create (agrees_run before (agrees_create hc) hb) h hsens
  obtain ⟨hp, hl'⟩ := live_run ops hl hw
  obtain ⟨a1, a2, a3, a4⟩ := run_book (presets := presets) (cue := cue) (p := sim.printer) ops
    (SimBook.start presets cue _ sim.printer sim.states) rfl rfl hk
  obtain ⟨bs, b1, b2⟩ := live_refresh hl' none (by simp)
  constructor
  · rw [b2]
    have e1 := hl'.blocks
    rw [hp, ← a4] at b1
    rw [a2] at e1
    simp only [Option.getD_none] at b1 ⊢
    rw [e1, Except.ok.injEq] at b1
    rw [← hl'.states, ← b1]
  · refine ⟨_, hl.blocks, ?_⟩
    have e1 := hl'.blocks
    rw [a2, a1, a3] at e1
    exact e1

/-- **C51, law.** After any calls on the simulation and on its setup object, `refresh()` plans the latest
states with the firmware entry that the setup object *now* has for the simulation's printer; between
refreshes the setup object has no effect on the blocks. -/
theorem c51_alias_law (hc : Setup.create presets printer cue = .ok s) (before : List SetupOp)
    (hb : ∀ op ∈ before, op.WellFormed)
    (h : Session.create pf shipped content name (some (before.foldl Setup.call s)) unit = .ok sim)
    (hsens : Sensible sim.states) (ops : List SimOp) (hw : ∀ op ∈ ops, op.WellFormed Feasible) :
    let sim' := ops.foldl Session.call sim
    let bk := ops.foldl (SimBook.note presets cue sim.printer)
      (SimBook.start presets cue (before.foldl (Book.note presets) (Book.start printer)) sim.printer sim.states)
    plan (firmwareFor bk.firmware) bk.planned = .ok sim'.blocks ∧
    ∃ bs, plan (firmwareFor (bk.setup.wanted presets cue sim.printer "firmware")) bk.states = .ok bs ∧
      sim'.refresh none = (.ok (), { sim' with blocks := bs }) := by
  intro sim' bk
  obtain ⟨_, _, _, hl⟩ := live_create (agrees_run before (agrees_create hc) hb) h hsens
  obtain ⟨hp, hl'⟩ := live_run ops hl hw
  refine ⟨hl'.blocks, ?_⟩
  obtain ⟨bs, b1, b2⟩ := live_refresh hl' none (by simp)
  rw [hp] at b1
  refine ⟨bs, b1, ?_⟩
  rw [b2]
  have := hl'.states
  simp only [Option.getD_none]
  rw [← this]

/-- **C51, for setup calls that do not name the firmware.** What is missing is the entry `firmware`, for which
it is false (`c51_refuted`). -/
theorem c51_setup_independence_partial (hc : Setup.create presets printer cue = .ok s) (before : List SetupOp)
    (hb : ∀ op ∈ before, op.WellFormed)
    (h : Session.create pf shipped content name (some (before.foldl Setup.call s)) unit = .ok sim)
    (hsens : Sensible sim.states) (after : List SetupOp) (hw : ∀ op ∈ after, op.WellFormed)
    (hk : ∀ op ∈ after, (SimOp.onSetup op).KeepsFirmware) :
    let sim' := { sim with setup := after.foldl Setup.call sim.setup }
    sim'.refresh none = (.ok (), sim') := by
  intro sim'
  have hrun : ∀ (after : List SetupOp) (sim : Session ℝ), (after.map SimOp.onSetup).foldl Session.call sim =
      { sim with setup := after.foldl Setup.call sim.setup } := by
    intro after
    induction after with
    | nil => intro sim; rfl
    | cons op after ih =>
      intro sim
      rw [List.map_cons, List.foldl_cons, ih]
      rfl
  have := (c50_refresh hc before hb h hsens (after.map SimOp.onSetup)
    (by
      intro op hop
      obtain ⟨o, ho, rfl⟩ := List.mem_map.1 hop
      exact hw o ho)
    (by
      intro op hop
      obtain ⟨o, ho, rfl⟩ := List.mem_map.1 hop
      exact hk o ho)).1
  rw [hrun] at this
  exact this

end

/-- C51 as wanted: whatever is done with the setup object after the simulation was made, refreshing the
simulation gives the same blocks. -/
def C51Full : Prop :=
  ∀ (presets : Dict (Dict (SVal ℝ))) (printer cue : Option String) (s : Setup ℝ) (pf : List Char → Option ℝ)
    (content : List Char) (sim : Session ℝ) (before after : List SetupOp),
    Setup.create presets printer cue = .ok s → (∀ op ∈ before, op.WellFormed) →
    Session.create pf [] content none (some (before.foldl Setup.call s)) "SImm" = .ok sim →
    Regular sim.states → (∀ op ∈ after, op.WellFormed) →
    (Session.refresh { sim with setup := after.foldl Setup.call sim.setup } none).2.blocks = sim.blocks

/-- The setup object, its simulation of the file `G1 X10`, with `klipper`. -/
theorem Demo.session : ∃ s sim, Setup.create Demo.presets (some "p") none = .ok s ∧
    Session.create Demo.pf [] ['G', '1', ' ', 'X', '1', '0'] none
      (some ([SetupOp.setPos (.tuple [1, 0, 0, 0]) (some "inch")].foldl Setup.call s)) "SImm" = .ok sim ∧
    sim.states = Demo.fileProg ∧ sim.printer = "p" ∧ plan .klipper Demo.fileProg = .ok sim.blocks := by
  obtain ⟨s, hs⟩ : ∃ s, Setup.create Demo.presets (some "p") none = .ok s := ⟨_, rfl⟩
  obtain ⟨s1, h1⟩ : ∃ s1, s.setInitialPosition (.tuple [1, 0, 0, 0]) (some "inch") = .ok s1 := by
    cases hs
    exact ⟨_, rfl⟩
  obtain ⟨d, s2, h2, h3, h4, h5, h6⟩ : ∃ d s2, s1.getDict = .ok (d, s2) ∧ checkInitialSetup d = .ok () ∧
      fileStates Demo.pf d ['G', '1', ' ', 'X', '1', '0'] = .ok Demo.fileProg ∧ firmwareOf d = .klipper ∧
      s2.printer = some "p" := by
    cases hs
    cases h1
    exact ⟨_, _, rfl, rfl, rfl, rfl, rfl⟩
  obtain ⟨bs, hb, hpl, _⟩ := simulate_ok .klipper Demo.fileRegular Demo.fileActive
  refine ⟨s, ⟨s2, "p", "SImm", Demo.fileProg, bs, none⟩, hs, ?_, rfl, rfl, hpl⟩
  have hcall : [SetupOp.setPos (.tuple [1, 0, 0, 0]) (some "inch")].foldl Setup.call s = s1 := by
    simp only [List.foldl_cons, List.foldl_nil, Setup.call, h1]
  rw [hcall]
  simp [Session.create, simulationGuards, h2, h3, h4, h5, h6, hb, bind, Except.bind]

/-- With `marlin_jerk` the demo file ends at 20 mm/s. -/
theorem Demo.jerk_end : ∃ b s', plan .marlinJerk Demo.fileProg = .ok [b] ∧ b.segments.getLast? = some s' ∧
    s'.velEnd.norm3 ≠ 0 := by
  let A : PState ℝ := ⟨⟨25.4 * 1 + 0, 25.4 * 0 + 0, 25.4 * 0 + 0, 25.4 * 0 + 0⟩, 35, 200, 10, none, none⟩
  let B : PState ℝ := ⟨⟨10 + 0, 25.4 * 0 + 0, 25.4 * 0 + 0, 25.4 * 0 + 0⟩, 35, 200, 10, none, none⟩
  have hne : B.position ≠ A.position := fun h => by
    have := congrArg Vec4.x h
    norm_num [A, B] at this
  have hn3 : (B.position.sub A.position).norm3 ≠ 0 := by
    intro h
    have := (norm3_eq_zero.1 h).1
    norm_num [A, B, Vec4.sub] at this
  have hj : junctionVel .marlinJerk (some A) B [] = 20 := by
    rw [c18_marlin_jerk_end A B (by norm_num [B]) (by norm_num [B]) hn3]
    norm_num [B]
  obtain ⟨b0, k1, k2⟩ := mkBlock_skip .marlinJerk (A := none) (B := A) (rest := [B]) (pb := none)
    (by simp) rfl
  obtain ⟨b, m1, m2, m3, m4, _, _, _, m8, _⟩ := mkBlock_move .marlinJerk (rest := []) (pb := none) hne
    (by norm_num [B]) (by norm_num [B]) (by norm_num [B]) rfl (by simp)
  have hplan : plan .marlinJerk Demo.fileProg = .ok [b] := by
    show plan .marlinJerk [A, B] = .ok [b]
    simp [plan, genBlocks, k1, k2, m1, m2.ne_nil, correctAll, correctFrom, selfCorrection, bind,
      Except.bind]
  have hout := m8 (by rw [hj]; norm_num)
  obtain ⟨_, s, s', _, _, e3, _, _, _, _, _, e9, _⟩ := m2.facts
  exact ⟨b, s', hplan, e3, by rw [e9]; linarith⟩

/-- C51 is false of the code: the dictionary in the simulation is the one in the setup object, and `refresh`
reads the firmware from it. -/
theorem c51_refuted : ¬ C51Full := by
  intro hfull
  obtain ⟨s, sim, h1, h2, h3, h4, h5⟩ := Demo.session
  have hreg : Regular sim.states := by rw [h3]; exact Demo.fileRegular
  have hw : ∀ op ∈ [SetupOp.setPos (.tuple [1, 0, 0, 0]) (some "inch")], op.WellFormed := by
    simp [SetupOp.WellFormed]
  have hw' : ∀ op ∈ [SetupOp.setProps [("firmware", .text "marlin_jerk")]], op.WellFormed := by
    simp [SetupOp.WellFormed]
  have := hfull _ _ _ _ _ _ sim _ [.setProps [("firmware", .text "marlin_jerk")]] h1 hw h2 hreg hw'
  obtain ⟨_, bs, b1, b2⟩ := c51_alias_law h1 _ hw h2 (regular_pausesFollow hreg).1
    [.onSetup (.setProps [("firmware", .text "marlin_jerk")])] (by
      intro op hop
      rw [List.mem_singleton] at hop
      subst hop
      exact hw' (.setProps [("firmware", .text "marlin_jerk")]) (by simp))
  simp only [List.foldl_cons, List.foldl_nil, Session.call] at b2 this
  rw [b2] at this
  simp only at this
  subst this
  have hfw : firmwareFor (Book.wanted Demo.presets none
      ([SimOp.onSetup (.setProps [("firmware", .text "marlin_jerk")])].foldl
        (SimBook.note Demo.presets none sim.printer)
        (SimBook.start Demo.presets none ([SetupOp.setPos (.tuple [1, 0, 0, 0]) (some "inch")].foldl
          (Book.note Demo.presets) (Book.start (some "p"))) sim.printer sim.states)).setup sim.printer "firmware") =
      .marlinJerk := by
    rw [h4]
    simp [SimBook.note, SimBook.start, Book.note, Book.start, Book.wanted, mmPer, firmwareFor, Firmware.ofName,
      List.lookup]
  rw [hfw] at b1
  have hst : ([SimOp.onSetup (.setProps [("firmware", .text "marlin_jerk")])].foldl
        (SimBook.note Demo.presets none sim.printer)
        (SimBook.start Demo.presets none ([SetupOp.setPos (.tuple [1, 0, 0, 0]) (some "inch")].foldl
          (Book.note Demo.presets) (Book.start (some "p"))) sim.printer sim.states)).states = Demo.fileProg := h3
  rw [hst] at b1
  obtain ⟨b, s', c1, c2, c3⟩ := Demo.jerk_end
  rw [c1, Except.ok.injEq] at b1
  rw [← b1] at h5
  exact c3 (c18_last_stop_partial (by decide) Demo.fileRegular h5 b (by simp) s' c2)

/-- The hypotheses of `c50_refresh` hold for the demo session, with a history that queries, changes a property
and the printer's position, and refreshes with other states. -/
example : ∃ sim : Session ℝ, sim.states ≠ [] ∧ sim.blocks ≠ [] ∧
    let sim' := [SimOp.values 0 none, .onSetup (.setProps [("p_vel", .num 1)]), .refresh none,
      .refresh (some Demo.prog), .width 0 1 1].foldl Session.call sim
    sim'.refresh none = (.ok (), sim') ∧ plan .klipper Demo.prog = .ok sim'.blocks := by
  obtain ⟨s, sim, h1, h2, h3, h4, h5⟩ := Demo.session
  have hreg : Regular sim.states := by rw [h3]; exact Demo.fileRegular
  have hb : sim.blocks ≠ [] := by
    intro h
    rw [h] at h5
    exact Demo.fileActive (c28_blocks Demo.fileRegular h5).symm
  have hw : ∀ op ∈ [SetupOp.setPos (.tuple [1, 0, 0, 0]) (some "inch")], op.WellFormed := by
    simp [SetupOp.WellFormed]
  let ops : List SimOp := [SimOp.values 0 none, .onSetup (.setProps [("p_vel", .num 1)]), .refresh none,
      .refresh (some Demo.prog), .width 0 1 1]
  have hops : ∀ op ∈ ops, op.WellFormed Feasible := by
    simp [ops, SimOp.WellFormed, SetupOp.WellFormed, Demo.regular.feasible]
  have hk : ∀ op ∈ ops, op.KeepsFirmware := by
    simp [ops, SimOp.KeepsFirmware, List.lookup]
  obtain ⟨a1, fw, a2, a3⟩ := c50_refresh h1 _ hw h2 (regular_pausesFollow hreg).1 ops hops hk
  obtain ⟨b1, _⟩ := c51_alias_law h1 _ hw h2 (regular_pausesFollow hreg).1 ops hops
  refine ⟨sim, by rw [h3]; simp [Demo.fileProg], hb, a1, ?_⟩
  rw [h4] at b1
  simpa [ops, SimBook.note, SimBook.start, Book.note, Book.start, Book.wanted, mmPer, firmwareFor,
    Firmware.ofName, List.lookup, Demo.presets] using b1

end PyGCD
