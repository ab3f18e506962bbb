import Verif.Spec.Plots
import Verif.Props.Cli
import Verif.Props.Summary
import Verif.Props.Submodel
import Verif.Props.Resolved
import Verif.Props.States2

/-!
# Property C73: the `plot` command
-/

set_option linter.unusedSectionVars false
set_option linter.unusedSimpArgs false

namespace PyGCD
open Vec4 Spec

variable {Path : Type} {pf : List Char → Option ℝ} {env : PlotEnv Path ℝ} {args : PlotArgs Path}
  {answers : List String} {r : CliResolved Path} {setup : Setup ℝ} {sim : Session ℝ}

/-! ## Lemmas -/

theorem file_layers {d : Dict (SVal ℝ)} {content : List Char} {ps : List (PState ℝ)}
    (hc : checkInitialSetup d = .ok ()) (h : fileStates pf d content = .ok ps)
    (hcue : (d.lookup "layer_cue").isSome) {i : Nat} {s : PState ℝ} (hs : ps[i + 1]? = some s) : s.layer ≠ none := by
  obtain ⟨m, gs, hm, hg, hF⟩ := c57_machine_resolved hc h
  have hsome : m.layerCue.isSome := by
    rw [Option.isSome_iff_ne_none] at hcue ⊢
    exact fun hn => hcue (hm.noCue.2 hn)
  obtain ⟨cue, hcue'⟩ := Option.isSome_iff_exists.1 hsome
  unfold generateStates at hg
  simp only [bind, Except.bind] at hg
  split at hg
  · cases hg
  rename_i ds hds
  obtain ⟨g, hg1, hg2⟩ : ∃ g, gs[i + 1]? = some g ∧ SameNumbers g s := by
    have hlen := hF.length_eq
    obtain ⟨hi, rfl⟩ := List.getElem?_eq_some_iff.1 hs
    refine ⟨gs[i + 1]'(by omega), List.getElem?_eq_getElem _, ?_⟩
    exact hF.get (by omega) hi
  have := c12_layer_counts hg hg1
  rw [hg2.layer, this, if_neg (Nat.succ_ne_zero i), hcue']
  simp

theorem segment_pushes : ∀ (l : List (Segment ℝ)) {s s' : Segment ℝ},
    l.IsChain (fun s s' => s'.posBegin = s.posEnd) → l.head? = some s → l.getLast? = some s' →
    s.posBegin.e < s'.posEnd.e → ∃ x ∈ l, x.posBegin.e < x.posEnd.e := by
  intro l
  induction l with
  | nil => intro s s' _ h; cases h
  | cons x l ih =>
    intro s s' hch h h' hlt
    cases h
    by_cases hx : x.posBegin.e < x.posEnd.e
    · exact ⟨x, by simp, hx⟩
    cases l with
    | nil =>
      cases h'
      exact absurd hlt hx
    | cons y l =>
      rw [List.isChain_cons_cons] at hch
      obtain ⟨z, hz, hzlt⟩ := ih hch.2 rfl (by rw [← h']; simp) (by
        rw [hch.1]
        exact lt_of_le_of_lt (not_lt.1 hx) hlt)
      exact ⟨z, by simp [hz], hzlt⟩

theorem lines_ne_nil {fw : Firmware} {states : List (PState ℝ)} {bs : List (Block ℝ)} (hreg : Regular states)
    (h : plan fw states = .ok bs) (hext : ∃ A B, ExtrudingMove states A B) : plot3dLines bs true ≠ [] := by
  obtain ⟨A, B, hAB⟩ := hext
  obtain ⟨b, hb, hbe, hA, rfl⟩ := ((extruding_blocks hreg h).2 A B).1 hAB
  obtain ⟨A', s, s', e1, e2, e3, _, e4, _, _, e5, _⟩ := ((plan_ok hreg h).1 b hb).facts
  rw [hA] at e1
  cases e1
  have hch : b.segments.IsChain fun s s' => s'.posBegin = s.posEnd := by
    have := unpack_chain hreg h
    obtain ⟨l1, l2, rfl⟩ := List.append_of_mem hb
    unfold unpack at this
    rw [List.flatMap_append, List.flatMap_cons] at this
    exact this.right_of_append.left_of_append.imp fun _ _ hx => hx.2.1
  obtain ⟨x, hx, hlt⟩ := segment_pushes _ hch e2 e3 (by rw [e4, e5]; exact hAB.2)
  obtain ⟨rs, hruns, hrs⟩ := (c44_polylines bs).1
  rw [hrs]
  intro hnil
  rw [List.map_eq_nil_iff] at hnil
  subst hnil
  have gapOnly : ∀ {l : List (Segment ℝ)} {rs : List (List (Segment ℝ))},
      Runs (fun s => s.posBegin.e < s.posEnd.e) l rs → rs = [] → ∀ x ∈ l, ¬ x.posBegin.e < x.posEnd.e := by
    intro l rs hr
    cases hr with
    | done hgap => exact fun _ => hgap
    | run => intro h; cases h
  exact gapOnly hruns rfl x (List.mem_flatMap.2 ⟨b, hb, hx⟩) hlt

/-- What a simulation made by the command consists of. -/
theorem plot_session (hs : Setup.create (env.presetsIn r.presets) (some r.printer) args.layerCue = .ok setup)
    (hsim : Session.create pf [] (env.text r.gcode) none (some setup) "SImm" = .ok sim) :
    sim.own = "SImm" ∧ (sim.hasCue = true ↔ CueKnown (env.presetsIn r.presets) r.printer args.layerCue) ∧
    ∃ d fw, checkInitialSetup d = .ok () ∧ fileStates pf d (env.text r.gcode) = .ok sim.states ∧
      (sim.hasCue = true ↔ (d.lookup "layer_cue").isSome) ∧ plan fw sim.states = .ok sim.blocks ∧ sim.blocks ≠ [] := by
  have ha := agrees_create hs
  obtain ⟨d, s1, a1, a2, a3, a4⟩ := (getDict_spec ha).2 r.printer rfl
  unfold Session.create at hsim
  have hg : simulationGuards "SImm" none (some setup) ([] : Dict (Dict (SVal ℝ))) = .ok (d, s1) := by
    simp [simulationGuards, a1]
  rw [hg] at hsim
  simp only [bind, Except.bind] at hsim
  split at hsim
  · cases hsim
  rename_i hc
  split at hsim
  · cases hsim
  rename_i ps hps
  split at hsim
  · cases hsim
  rename_i bs hbs
  cases hsim
  have hpr : s1.printer.getD "" = r.printer := by rw [a2.sel]; rfl
  have hcue : Session.hasCue ⟨s1, s1.printer.getD "", "SImm", ps, bs, none⟩ = (d.lookup "layer_cue").isSome := by
    simp only [Session.hasCue, hpr, a3]
  refine ⟨rfl, ?_, d, firmwareOf d, hc, hps, by rw [hcue], ?_⟩
  · rw [hcue, a4]
    unfold Book.wanted CueKnown
    rw [if_neg (by decide)]
    cases args.layerCue with
    | some c => simp
    | none =>
      simp only [Option.isSome_none, Bool.false_eq_true, and_false, if_false]
      rw [if_neg (by decide)]
      simp only [Spec.Book.start, Option.none_or, ne_eq, not_true_eq_false, false_or]
      cases hp : (env.presetsIn r.presets).lookup r.printer with
      | none => simp
      | some d => simp [Option.isSome_iff_exists]
  · unfold simulate at hbs
    simp only [bind, Except.bind] at hbs
    split at hbs
    · cases hbs
    rename_i bs' hpl
    split at hbs
    · cases hbs
    rename_i t ht
    cases hbs
    refine ⟨hpl, ?_⟩
    rintro rfl
    cases ht

/-! ## C73 -/

/-- **C73, nothing happens before the simulation is finished.** If the input cannot be resolved, the setup cannot
be made, or the simulation fails, the command ends with that error and has written and shown nothing. -/
theorem c73_fails_clean :
    (∀ e, resolveCli env.toCliEnv args.toCliArgs answers = .error e → plotCommand pf env args answers = ([], .stop e)) ∧
    (∀ r, resolveCli env.toCliEnv args.toCliArgs answers = .ok r →
      (∀ e, Setup.create (env.presetsIn r.presets) (some r.printer) args.layerCue = .error e →
        plotCommand pf env args answers = ([], .raised e)) ∧
      ∀ setup, Setup.create (env.presetsIn r.presets) (some r.printer) args.layerCue = .ok setup →
        ∀ e, Session.create pf [] (env.text r.gcode) none (some setup) "SImm" = .error e →
          plotCommand pf env args answers = ([], .raised e)) := by
  refine ⟨fun e h => ?_, fun r h => ⟨fun e h1 => ?_, fun setup h1 e h2 => ?_⟩⟩
  · simp only [plotCommand, h]
  · simp only [plotCommand, h, h1]
  · simp only [plotCommand, h, h1, h2]

/-- **C73, saying no.** Without an output directory and with the answer no, nothing is written: the picture is
shown if there is a display. -/
theorem c73_unsaved (hout : args.outDir = none) {pre post : List String} {a : String}
    (hpre : ∀ b ∈ pre, ¬ Accepted b) (ha : Accepted a) (hno : ¬ MeansYes a) (hans : answers = pre ++ a :: post) :
    ∀ x ∈ (plotCommand pf env args answers).1, touched x = none := by
  subst hans
  intro x hx
  unfold plotCommand at hx
  split at hx
  · cases hx
  rename_i r hr
  have ho := ((c48_resolution _ _ _).1 r).1 hr
  rw [hout, (c48_out_dir env.toCliEnv r.gcode).2.2.1 pre a post hpre ha hno] at ho
  have ho' := ho.2.1
  simp only [Except.ok.injEq] at ho'
  rw [← ho'] at hx
  split at hx
  · cases hx
  split at hx
  · cases hx
  simp only [plot3dEffects, List.nil_append] at hx
  split at hx
  · simp only [List.mem_singleton] at hx
    subst hx
    rfl
  · cases hx

/-- **C73, only shown.** Without an output directory, a finished simulation is shown once if there is a display. -/
theorem c73_shown (hr : resolveCli env.toCliEnv args.toCliArgs answers = .ok r)
    (hs : Setup.create (env.presetsIn r.presets) (some r.printer) args.layerCue = .ok setup)
    (hsim : Session.create pf [] (env.text r.gcode) none (some setup) "SImm" = .ok sim) (hdir : r.outDir = none) :
    plotCommand pf env args answers =
      (if env.display = true then [.window (plot3dLines sim.blocks true)] else [], .done) := by
  simp only [plotCommand, hr, hs, hsim, hdir, plot3dEffects, List.nil_append]

/-- **C73, where files go.** Everything that is written is in the given output directory, or, if the question
was answered with yes, in the one made for the G-code file; the names are those of the G-code file. -/
theorem c73_inside {x : PlotEffect Path ℝ} (hx : x ∈ (plotCommand pf env args answers).1) {p : Path}
    (hp : touched x = some p) :
    ∃ g dir, findGcodeFile env.toCliEnv args.gcode = .ok g ∧
      (args.outDir = some dir ∨ args.outDir = none ∧ dir = env.outDirFor g) ∧
      (p = dir ∨ ∃ n ∈ outputNames (env.stem g), p = env.inDir dir n) := by
  unfold plotCommand at hx
  split at hx
  · cases hx
  rename_i r hr
  obtain ⟨h1, h2, _⟩ := ((c48_resolution _ _ _).1 r).1 hr
  split at hx
  · cases hx
  split at hx
  · cases hx
  rename_i sim hsim
  split at hx
  · simp only [plot3dEffects, List.nil_append] at hx
    split at hx
    · simp only [List.mem_singleton] at hx
      subst hx
      cases hp
    · cases hx
  rename_i dir hdir
  refine ⟨r.gcode, dir, h1, ?_, ?_⟩
  · rw [hdir] at h2
    cases ho : args.outDir with
    | some o =>
      rw [ho] at h2
      simp only [getOutDir, Except.ok.injEq, Option.some.injEq] at h2
      exact Or.inl (by rw [h2])
    | none =>
      rw [ho] at h2
      simp only [getOutDir, bind, Except.bind] at h2
      split at h2
      · cases h2
      · simp only [Except.ok.injEq] at h2
        split at h2
        · cases h2
          exact Or.inr ⟨rfl, rfl⟩
        · cases h2
  · have key : x ∈ (saveOutputs env r.gcode dir sim).1 → p = dir ∨ ∃ n ∈ outputNames (env.stem r.gcode), p = env.inDir dir n := by
      intro hx
      unfold saveOutputs at hx
      have saved : ∀ sm, x ∈ ([.mkdir dir, .summary (env.inDir dir (env.stem r.gcode ++ "_summary.yaml")) r.gcode sm] :
          List (PlotEffect Path ℝ)) → p = dir ∨ ∃ n ∈ outputNames (env.stem r.gcode), p = env.inDir dir n := by
        intro sm hx
        simp only [List.mem_cons, List.not_mem_nil, or_false] at hx
        rcases hx with rfl | rfl <;> cases hp
        · exact Or.inl rfl
        · exact Or.inr ⟨_, by simp [outputNames], rfl⟩
      split at hx
      · simp only [List.mem_singleton] at hx
        subst hx
        cases hp
        exact Or.inl rfl
      rename_i sm hsm
      simp only at hx
      by_cases hl : (sim.hasCue && !env.localeInstalled) = true
      · rw [if_pos hl] at hx
        exact saved _ hx
      rw [if_neg hl] at hx
      split at hx
      · exact saved _ hx
      rename_i rows hrows
      simp only [List.mem_append] at hx
      rcases hx with ((hx | hx) | hx) | hx
      · exact saved _ hx
      · cases rows with
        | none => cases hx
        | some rows =>
          simp only [List.mem_singleton] at hx
          subst hx
          cases hp
          exact Or.inr ⟨_, by simp [outputNames], rfl⟩
      · simp only [plot3dEffects, List.mem_append, List.mem_singleton] at hx
        rcases hx with rfl | hx
        · cases hp
          exact Or.inr ⟨_, by simp [outputNames], rfl⟩
        · split at hx
          · simp only [List.mem_singleton] at hx
            subst hx
            cases hp
            exact Or.inr ⟨_, by simp [outputNames], rfl⟩
          · cases hx
      · simp only [plot3dEffects, List.nil_append] at hx
        split at hx
        · simp only [List.mem_singleton] at hx
          subst hx
          cases hp
        · cases hx
    exact key hx

/-- **C73, the outcome.** If the simulation could be made and its states can be executed, and there is an output
directory, then
* if no move pushes filament, the directory is made and the command ends with a `ValueError`;
* otherwise, if a layer cue is known but the locale `en_US.utf8` is missing, the summary is written and the
  command ends with a `locale.Error`;
* otherwise the summary, the layer metrics (if a layer cue is known), the VTK file and (if there is a display)
  the screenshot are written, each once and with the values that the corresponding functions return, and the
  picture is shown; there is something to see in it. -/
theorem c73_outcome (hr : resolveCli env.toCliEnv args.toCliArgs answers = .ok r)
    (hs : Setup.create (env.presetsIn r.presets) (some r.printer) args.layerCue = .ok setup)
    (hsim : Session.create pf [] (env.text r.gcode) none (some setup) "SImm" = .ok sim)
    (hreg : Regular sim.states) {dir : Path} (hdir : r.outDir = some dir) :
    ((∀ A B, ¬ ExtrudingMove sim.states A B) →
      plotCommand pf env args answers = ([.mkdir dir], .raised .valueError)) ∧
    ((∃ A B, ExtrudingMove sim.states A B) → ∃ sm, saveSummary sim.blocks "SImm" = .ok sm ∧
      EndTime (Spec.path sim.blocks) sm.tEnd ∧
      ((CueKnown (env.presetsIn r.presets) r.printer args.layerCue ∧ env.localeInstalled = false) →
        plotCommand pf env args answers =
          ([.mkdir dir, .summary (env.inDir dir (env.stem r.gcode ++ "_summary.yaml")) r.gcode sm], .localeError)) ∧
      (¬ (CueKnown (env.presetsIn r.presets) r.printer args.layerCue ∧ env.localeInstalled = false) →
        plot3dLines sim.blocks true ≠ [] ∧
        ∃ layers : List (PlotEffect Path ℝ),
          (¬ CueKnown (env.presetsIn r.presets) r.printer args.layerCue → layers = []) ∧
          (CueKnown (env.presetsIn r.presets) r.printer args.layerCue →
            ∃ rows, saveLayerMetrics true sim.blocks = .ok (some rows) ∧
              layers = [.layers (env.inDir dir (env.stem r.gcode ++ "_layer_metrics.csv")) rows]) ∧
          plotCommand pf env args answers =
            ([.mkdir dir, .summary (env.inDir dir (env.stem r.gcode ++ "_summary.yaml")) r.gcode sm] ++ layers ++
              [.vtk (env.inDir dir (env.stem r.gcode ++ ".vtk")) (plot3dLines sim.blocks true)] ++
              (if env.display = true then
                [.screenshot (env.inDir dir (env.stem r.gcode ++ ".png")) (plot3dLines sim.blocks true),
                  .window (plot3dLines sim.blocks true)]
               else []), .done))) := by
  obtain ⟨hown, hcue, d, fw, hc, hfile, hcue', hpl, hne⟩ := plot_session hs hsim
  have hcmd : plotCommand pf env args answers = saveOutputs env r.gcode dir sim := by
    simp only [plotCommand, hr, hs, hsim, hdir]
  have hact : active none sim.states ≠ [] := by
    rw [← c28_blocks hreg hpl]
    simpa using hne
  constructor
  · intro hext
    have := c63_no_summary hreg hpl (own := "SImm") (f := 1) (by simp [InUnit]) hext
    rw [if_neg hact] at this
    rw [hcmd]
    simp only [saveOutputs, hown, this]
  · intro hext
    obtain ⟨sm, h1, h2, _⟩ := c63_summary hreg hpl (own := "SImm") (f := 1) (by simp [InUnit]) hext
    refine ⟨sm, h1, h2, ?_, ?_⟩
    · rintro ⟨k1, k2⟩
      rw [hcmd]
      simp only [saveOutputs, hown, h1, hcue.2 k1, k2, Bool.not_false, Bool.and_self, if_true]
    · intro hno
      refine ⟨lines_ne_nil hreg hpl hext, ?_⟩
      by_cases hk : CueKnown (env.presetsIn r.presets) r.printer args.layerCue
      · have hloc : env.localeInstalled = true := by
          by_contra hx
          exact hno ⟨hk, by simpa using hx⟩
        have hcue1 := hcue.2 hk
        have hlayer : ∀ b ∈ sim.blocks, b.stateB.layer ≠ none := by
          intro b hb
          obtain ⟨A, _, _, e1, _⟩ := ((plan_ok hreg hpl).1 b hb).facts
          have hm : (b.stateA, b.stateB) ∈ active none sim.states := by
            rw [← c28_blocks hreg hpl]
            exact List.mem_map_of_mem hb
          unfold active at hm
          have hm := (List.mem_filter.1 hm).1
          unfold withPrev at hm
          obtain ⟨i, hi⟩ := List.mem_iff_getElem?.1 hm
          obtain ⟨i1, i2⟩ := List.getElem?_zip_eq_some.1 hi
          cases i with
          | zero =>
            simp only [List.getElem?_cons_zero, Option.some.injEq] at i1
            rw [e1] at i1
            cases i1
          | succ i => exact file_layers hc hfile (hcue'.1 hcue1) i2
        obtain ⟨z, hz⟩ := List.getLast?_isSome.2 hne |> Option.isSome_iff_exists.1
        obtain ⟨n, hn⟩ := Option.ne_none_iff_exists'.1 (hlayer z (List.mem_of_getLast? hz))
        obtain ⟨A, q, q', _, e2, e3, _⟩ := ((plan_ok hreg hpl).1 z (List.mem_of_getLast? hz)).facts
        obtain ⟨rows, g1, _⟩ := c41_layer_law hreg hpl hlayer hz hn e2 e3
        refine ⟨_, fun hx => absurd hk hx, fun _ => ⟨rows, g1, rfl⟩, ?_⟩
        rw [hcmd]
        simp only [saveOutputs, hown, h1, hcue1, hloc, Bool.not_true, Bool.and_false, Bool.false_eq_true, if_false, g1,
          plot3dEffects]
        split <;> simp
      · have hcue1 : sim.hasCue = false := by
          rw [← Bool.not_eq_true, hcue]
          exact hk
        refine ⟨[], fun _ => rfl, fun hx => absurd hx hk, ?_⟩
        rw [hcmd]
        simp only [saveOutputs, hown, h1, hcue1, Bool.false_and, Bool.false_eq_true, if_false, saveLayerMetrics,
          plot3dEffects]
        split <;> simp

/-! ### An example -/

/-- The states of the file `G1 X10 E10`, with a layer cue. -/
noncomputable def Demo.plotProg : List (PState ℝ) :=
  [⟨⟨0 + 0, 0 + 0, 0 + 0, 0 + 0⟩, 35, 200, 10, none, none⟩,
    ⟨⟨10 + 0, 0 + 0, 0 + 0, 10 + 0⟩, 35, 200, 10, none, some 0⟩]

theorem Demo.plotRegular : Regular Demo.plotProg := by
  refine regular_of_no_pause fun s hs => ?_
  simp only [Demo.plotProg, List.mem_cons, List.not_mem_nil, or_false] at hs
  rcases hs with rfl | rfl <;> norm_num

/-- A machine with one G-code file, the presets of the other examples, and a display. -/
noncomputable def Demo.plotEnv (loc : Bool) : PlotEnv String ℝ where
  isFile p := p = "a.gcode"
  cwdGcodes := ["a.gcode"]
  defaultPresets := "presets"
  outDirFor _ := "output_a"
  text _ := ['G', '1', ' ', 'X', '1', '0', ' ', 'E', '1', '0']
  presetsIn _ := Demo.presets
  inDir d n := d ++ "/" ++ n
  stem _ := "a"
  display := true
  localeInstalled := loc

/-- `pygcd plot -pn p -lc L`. -/
def Demo.plotArgs : PlotArgs String := { gcode := none, outDir := none, presets := none, printerName := some "p", layerCue := some "L" }

theorem Demo.plotSession : ∃ s sim, Setup.create Demo.presets (some "p") (some "L") = .ok s ∧
    Session.create Demo.pf [] ['G', '1', ' ', 'X', '1', '0', ' ', 'E', '1', '0'] none (some s) "SImm" = .ok sim ∧
    sim.states = Demo.plotProg := by
  obtain ⟨s, hs⟩ : ∃ s, Setup.create Demo.presets (some "p") (some "L") = .ok s := ⟨_, rfl⟩
  obtain ⟨d, s2, h2, h3, h4, h5, h6⟩ : ∃ d s2, s.getDict = .ok (d, s2) ∧ checkInitialSetup d = .ok () ∧
      fileStates Demo.pf d ['G', '1', ' ', 'X', '1', '0', ' ', 'E', '1', '0'] = .ok Demo.plotProg ∧
      firmwareOf d = .klipper ∧ s2.printer = some "p" := by
    cases hs
    exact ⟨_, _, rfl, rfl, rfl, rfl, rfl⟩
  obtain ⟨bs, hb, hpl, _⟩ := simulate_ok .klipper Demo.plotRegular (by
    intro h
    have : (some (⟨⟨0 + 0, 0 + 0, 0 + 0, 0 + 0⟩, 35, 200, 10, none, none⟩ : PState ℝ),
        (⟨⟨10 + 0, 0 + 0, 0 + 0, 10 + 0⟩, 35, 200, 10, none, some 0⟩ : PState ℝ)) ∈
        active none Demo.plotProg := by
      unfold active
      rw [List.mem_filter]
      refine ⟨by simp [withPrev, Demo.plotProg], ?_⟩
      rw [decide_eq_true_iff]
      refine Or.inr ⟨_, rfl, ?_⟩
      intro he
      have := congrArg Vec4.x he
      norm_num at this
    rw [h] at this
    cases this)
  refine ⟨s, ⟨s2, "p", "SImm", Demo.plotProg, bs, none⟩, hs, ?_, rfl⟩
  simp [Session.create, simulationGuards, h2, h3, h4, h5, h6, hb, bind, Except.bind]

/-- The hypotheses of `c73_outcome` hold for a machine with the file `a.gcode`, containing `G1 X10 E10`: after the
answers `maybe` and `Yes`, five files and directories are made and a picture is shown; without the locale, only
two are. -/
example : ∃ (sm : Summary ℝ) (rows : List (LayerRow ℝ)) (lines : List (List (Vertex ℝ))), lines ≠ [] ∧
    plotCommand Demo.pf (Demo.plotEnv true) Demo.plotArgs ["maybe", "Yes"] =
      ([.mkdir "output_a", .summary "output_a/a_summary.yaml" "a.gcode" sm, .layers "output_a/a_layer_metrics.csv" rows,
        .vtk "output_a/a.vtk" lines, .screenshot "output_a/a.png" lines, .window lines], .done) ∧
    plotCommand Demo.pf (Demo.plotEnv false) Demo.plotArgs ["maybe", "Yes"] =
      ([.mkdir "output_a", .summary "output_a/a_summary.yaml" "a.gcode" sm], .localeError) := by
  obtain ⟨s, sim, h1, h2, h3⟩ := Demo.plotSession
  have hr : ∀ loc, resolveCli (Demo.plotEnv loc).toCliEnv Demo.plotArgs.toCliArgs ["maybe", "Yes"] =
      .ok ⟨"a.gcode", some "output_a", "presets", "p"⟩ := by
    intro loc
    refine ((c48_resolution _ _ _).1 _).2 ⟨rfl, ?_, Or.inl ⟨rfl, rfl⟩, by rfl⟩
    exact (c48_out_dir _ _).2.1 ["maybe"] "Yes" [] (by
      simp only [List.mem_singleton, forall_eq, Accepted]
      decide +kernel) (by unfold MeansYes; decide +kernel)
  have hreg : Regular sim.states := h3 ▸ Demo.plotRegular
  have hext : ∃ A B, ExtrudingMove sim.states A B := by
    refine ⟨⟨⟨0 + 0, 0 + 0, 0 + 0, 0 + 0⟩, 35, 200, 10, none, none⟩,
      ⟨⟨10 + 0, 0 + 0, 0 + 0, 10 + 0⟩, 35, 200, 10, none, some 0⟩, ?_, ?_⟩
    · rw [h3]
      simp [withPrev, Demo.plotProg]
    · norm_num
  have hk : CueKnown Demo.presets "p" (some "L") := Or.inl (by simp)
  obtain ⟨sm, k1, _, _, k2⟩ := (c73_outcome (hr true) h1 h2 hreg rfl).2 hext
  obtain ⟨sm', k1', _, k3, _⟩ := (c73_outcome (hr false) h1 h2 hreg rfl).2 hext
  rw [k1] at k1'
  cases k1'
  obtain ⟨j1, layers, _, j2, j3⟩ := k2 (fun h => by cases h.2)
  obtain ⟨rows, _, rfl⟩ := j2 hk
  exact ⟨sm, rows, _, j1, j3, k3 ⟨hk, rfl⟩⟩

end PyGCD
