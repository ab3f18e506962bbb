import Verif.Props.Plot
import Verif.Props.Examples
import Verif.Props.SensibleMotion

/-!
# Properties C44 and C73 for programs with feedrates of zero and lines that move and pause
-/

set_option linter.unusedSectionVars false
set_option linter.unusedSimpArgs false

namespace PyGCD
open Vec4 Spec

variable {Path : Type} {pf : List Char → Option ℝ} {env : PlotEnv Path ℝ} {args : PlotArgs Path}
  {answers : List String} {r : CliResolved Path} {setup : Setup ℝ} {sim : Session ℝ}

/-- **C73, the outcome for all sensible settings.** If the simulation could be made, the settings of its states are
sensible (feedrates may be zero, a line may both move and pause), and there is an output directory, then
* if no step that is carried out extrudes, the directory is made and the command ends with a `ValueError`;
* if a move that is carried out extrudes, but a layer cue is known and the locale `en_US.utf8` is missing, the summary is
  written and the command ends with a `locale.Error`;
* otherwise the summary, the layer metrics (if a layer cue is known), the VTK file and (if there is a display)
  the screenshot are written, each once and with the values that the corresponding functions return, and the
  picture is shown; there is something to see in it. -/
theorem c73_outcome_sensible (hr : resolveCli env.toCliEnv args.toCliArgs answers = .ok r)
    (hs : Setup.create (env.presetsIn r.presets) (some r.printer) args.layerCue = .ok setup)
    (hsim : Session.create pf [] (env.text r.gcode) none (some setup) "SImm" = .ok sim)
    (hsens : Sensible sim.states) {dir : Path} (hdir : r.outDir = some dir) :
    ((∀ x ∈ executed none none sim.states, ¬ x.Extrudes) →
      plotCommand pf env args answers = ([.mkdir dir], .raised .valueError)) ∧
    ((∃ x ∈ executed none none sim.states, x.Extrudes ∧ x.B.pause = none) → ∃ sm, saveSummary sim.blocks "SImm" = .ok sm ∧
      EndTime (Spec.path sim.blocks) sm.tEnd ∧
      ((CueKnown (env.presetsIn r.presets) r.printer args.layerCue ∧ env.localeInstalled = false) →
        plotCommand pf env args answers =
          ([.mkdir dir, .summary (env.inDir dir (env.stem r.gcode ++ "_summary.yaml")) r.gcode sm], .localeError)) ∧
      (¬ (CueKnown (env.presetsIn r.presets) r.printer args.layerCue ∧ env.localeInstalled = false) →
        plot3dLines sim.blocks true ≠ [] ∧
        ∃ layers : List (PlotEffect Path ℝ),
          (¬ CueKnown (env.presetsIn r.presets) r.printer args.layerCue → layers = []) ∧
          (CueKnown (env.presetsIn r.presets) r.printer args.layerCue →
            ∃ rows, saveLayerMetrics true sim.blocks = .ok (some rows) ∧
              layers = [.layers (env.inDir dir (env.stem r.gcode ++ "_layer_metrics.csv")) rows]) ∧
          plotCommand pf env args answers =
            ([.mkdir dir, .summary (env.inDir dir (env.stem r.gcode ++ "_summary.yaml")) r.gcode sm] ++ layers ++
              [.vtk (env.inDir dir (env.stem r.gcode ++ ".vtk")) (plot3dLines sim.blocks true)] ++
              (if env.display = true then
                [.screenshot (env.inDir dir (env.stem r.gcode ++ ".png")) (plot3dLines sim.blocks true),
                  .window (plot3dLines sim.blocks true)]
               else []), .done))) := by
  obtain ⟨hown, hcue, d, fw, hc, hfile, hcue', hpl, hne⟩ := plot_session hs hsim
  have hcmd : plotCommand pf env args answers = saveOutputs env r.gcode dir sim := by
    simp only [plotCommand, hr, hs, hsim, hdir]
  obtain ⟨s1, s2⟩ := c116_summary hsens hpl (own := "SImm") (f := 1) (by simp [InUnit])
  constructor
  · intro hext
    have := s1 hext
    rw [if_neg hne] at this
    rw [hcmd]
    simp only [saveOutputs, hown, this]
  · rintro ⟨x, hx, hext, hp⟩
    obtain ⟨sm, h1, h2, _⟩ := s2 ⟨x, hx, hext⟩
    refine ⟨sm, h1, h2, ?_, ?_⟩
    · rintro ⟨k1, k2⟩
      rw [hcmd]
      simp only [saveOutputs, hown, h1, hcue.2 k1, k2, Bool.not_false, Bool.and_self, if_true]
    · intro hno
      refine ⟨lines_sensible hsens hpl hx hext hp, ?_⟩
      by_cases hk : CueKnown (env.presetsIn r.presets) r.printer args.layerCue
      · have hloc : env.localeInstalled = true := by
          by_contra hx
          exact hno ⟨hk, by simpa using hx⟩
        have hcue1 := hcue.2 hk
        have hlayer : ∀ y ∈ executed none none sim.states, y.B.layer ≠ none := by
          intro y hy
          obtain ⟨i, i1, i2, i3⟩ := executed_states _ _ _ y hy
          cases i with
          | zero => cases i2 rfl
          | succ i => exact file_layers hc hfile (hcue'.1 hcue1) i1
        obtain ⟨z, hz⟩ := Option.isSome_iff_exists.1 (List.getLast?_isSome.2 (List.ne_nil_of_mem hx))
        obtain ⟨n, hn⟩ := Option.ne_none_iff_exists'.1 (hlayer z (List.mem_of_getLast? hz))
        obtain ⟨rows, _, _, _, g1, _⟩ := c116_layers hsens hpl hlayer hz hn
        refine ⟨_, fun hx => absurd hk hx, fun _ => ⟨rows, g1, rfl⟩, ?_⟩
        rw [hcmd]
        simp only [saveOutputs, hown, h1, hcue1, hloc, Bool.not_true, Bool.and_false, Bool.false_eq_true, if_false, g1,
          plot3dEffects]
        split <;> simp
      · have hcue1 : sim.hasCue = false := by
          rw [← Bool.not_eq_true, hcue]
          exact hk
        refine ⟨[], fun _ => rfl, fun hx => absurd hx hk, ?_⟩
        rw [hcmd]
        simp only [saveOutputs, hown, h1, hcue1, Bool.false_and, Bool.false_eq_true, if_false, saveLayerMetrics,
          plot3dEffects]
        split <;> simp

/-! ### An example -/

/-- The text `G1 X10 E10`, `G1 X0 F0`: the second line never moves. -/
def Demo.haltText : List Char :=
  ['G', '1', ' ', 'X', '1', '0', ' ', 'E', '1', '0', '\n', 'G', '1', ' ', 'X', '0', ' ', 'F', '0']

/-- The states of this file, with a layer cue. -/
noncomputable def Demo.haltProg : List (PState ℝ) :=
  [⟨⟨0 + 0, 0 + 0, 0 + 0, 0 + 0⟩, 35, 200, 10, none, none⟩,
    ⟨⟨10 + 0, 0 + 0, 0 + 0, 10 + 0⟩, 35, 200, 10, none, some 0⟩,
    ⟨⟨0 + 0, 0 + 0, 0 + 0, 10 + 0⟩, 0 / 60, 200, 10, none, some 0⟩]

theorem Demo.halt_sensible : Sensible Demo.haltProg := by
  constructor <;> norm_num [Demo.haltProg]

theorem Demo.halt_started : Started Demo.haltProg :=
  ⟨[], _, _, [_], rfl, by norm_num [Executes]⟩

theorem Demo.halt_follow : PausesFollow Demo.haltProg := by
  intro pre s post h p hp
  have : s ∈ Demo.haltProg := by rw [h]; simp
  simp only [Demo.haltProg, List.mem_cons, List.not_mem_nil, or_false] at this
  rcases this with rfl | rfl | rfl <;> cases hp

theorem Demo.haltSession : ∃ s sim, Setup.create Demo.presets (some "p") (some "L") = .ok s ∧
    Session.create Demo.num [] Demo.haltText none (some s) "SImm" = .ok sim ∧ sim.states = Demo.haltProg := by
  obtain ⟨s, hs⟩ : ∃ s, Setup.create Demo.presets (some "p") (some "L") = .ok s := ⟨_, rfl⟩
  obtain ⟨d, s2, h2, h3, h4, h5, h6⟩ : ∃ d s2, s.getDict = .ok (d, s2) ∧ checkInitialSetup d = .ok () ∧
      fileStates Demo.num d Demo.haltText = .ok Demo.haltProg ∧ firmwareOf d = .klipper ∧ s2.printer = some "p" := by
    cases hs
    exact ⟨_, _, rfl, rfl, rfl, rfl, rfl⟩
  obtain ⟨bs, hb⟩ := (c88_program .klipper Demo.halt_sensible).2 ⟨Demo.halt_started, Demo.halt_follow⟩
  refine ⟨s, ⟨s2, "p", "SImm", Demo.haltProg, bs, none⟩, hs, ?_, rfl⟩
  simp [Session.create, simulationGuards, h2, h3, h4, h5, h6, hb, bind, Except.bind]

/-- The hypotheses of `c73_outcome_sensible` hold for this file, which is not regular: `pygcd plot -pn p -lc L` writes
everything. -/
example : ∃ (sm : Summary ℝ) (rows : List (LayerRow ℝ)) (lines : List (List (Vertex ℝ))), lines ≠ [] ∧
    plotCommand Demo.num { Demo.plotEnv true with text := fun _ => Demo.haltText } Demo.plotArgs ["maybe", "Yes"] =
      ([.mkdir "output_a", .summary "output_a/a_summary.yaml" "a.gcode" sm, .layers "output_a/a_layer_metrics.csv" rows,
        .vtk "output_a/a.vtk" lines, .screenshot "output_a/a.png" lines, .window lines], .done) ∧
    ¬ Regular Demo.haltProg := by
  obtain ⟨s, sim, h1, h2, h3⟩ := Demo.haltSession
  have hr : resolveCli (Demo.plotEnv true).toCliEnv Demo.plotArgs.toCliArgs ["maybe", "Yes"] =
      .ok ⟨"a.gcode", some "output_a", "presets", "p"⟩ := by
    refine ((c48_resolution _ _ _).1 _).2 ⟨rfl, ?_, Or.inl ⟨rfl, rfl⟩, by rfl⟩
    exact (c48_out_dir _ _).2.1 ["maybe"] "Yes" [] (by
      simp only [List.mem_singleton, forall_eq, Accepted]
      decide +kernel) (by unfold MeansYes; decide +kernel)
  have hsens : Sensible sim.states := h3 ▸ Demo.halt_sensible
  have hext : ∃ x ∈ executed none none sim.states, x.Extrudes ∧ x.B.pause = none := by
    have he : Executes ⟨⟨0 + 0, 0 + 0, 0 + 0, 0 + 0⟩, 35, 200, 10, none, none⟩
        ⟨⟨10 + 0, 0 + 0, 0 + 0, 10 + 0⟩, 35, 200, 10, none, some 0⟩ := by norm_num [Executes]
    obtain ⟨x, hx, h4, h5⟩ := executed_mem he [] [_] none none
    refine ⟨x, by rw [h3]; exact hx, ?_, by rw [h5]⟩
    rw [Step.Extrudes, h4, h5]
    norm_num
  have hk : CueKnown Demo.presets "p" (some "L") := Or.inl (by simp)
  obtain ⟨sm, k1, _, _, k2⟩ := (c73_outcome_sensible
    (env := { Demo.plotEnv true with text := fun _ => Demo.haltText }) hr h1 h2 hsens rfl).2 hext
  obtain ⟨j1, layers, _, j2, j3⟩ := k2 (fun h => by cases h.2)
  obtain ⟨rows, _, rfl⟩ := j2 hk
  refine ⟨sm, rows, _, j1, j3, fun h => ?_⟩
  have := h.speed _ (List.mem_cons_of_mem _ (List.mem_cons_of_mem _ List.mem_cons_self))
  norm_num at this

/-- **C44, vertices, for all sensible settings.** In the poly-line of a run of a planned path, vertex `i` is where segment
`i` of the run begins and vertex `i + 1` where it ends; the speeds there are those of the segment (at its begin up to
`1e-12`). There is one vertex more than segments. -/
theorem c44_vertices_sensible {fw : Firmware} {states : List (PState ℝ)} {bs : List (Block ℝ)} (hsens : Sensible states)
    (h : plan fw states = .ok bs) {r : List (Segment ℝ)} (hr : r <:+: Spec.path bs) (hne : r ≠ []) :
    (polyline r).length = r.length + 1 ∧ ∀ i s, r[i]? = some s → ∃ v v', (polyline r)[i]? = some v ∧
      (polyline r)[i + 1]? = some v' ∧ v.1 = s.posBegin ∧ v'.1 = s.posEnd ∧ v'.2 = s.velEnd.norm3 ∧
      |v.2 - s.velBegin.norm3| ≤ (1e-12 : ℝ) := by
  obtain ⟨bs', h1, h2, _⟩ := plan_anchored hsens h
  rw [path_anch h1] at hr
  obtain ⟨a, b, hab⟩ := hr
  have := h2.unpack_chain
  rw [← path_eq, ← hab] at this
  exact polyline_vertices this.left_of_append.right_of_append hne

/-- The whole way of a program with a move of feedrate zero and a line that moves and pauses. -/
example (fw : Firmware) : ∃ bs, plan fw Demo.lossy = .ok bs ∧
    (polyline (Spec.path bs)).length = (Spec.path bs).length + 1 := by
  obtain ⟨bs, h⟩ := (c86_plannable fw Demo.lossy_sensible).2 Demo.lossy_follow
  refine ⟨bs, h, (c44_vertices_sensible Demo.lossy_sensible h (List.infix_refl _) ?_).1⟩
  intro h0
  have hc := c87_carried_out Demo.lossy_sensible h
  have hlen := hc.length_eq
  rw [Demo.lossy_executed] at hlen
  cases hb : bs with
  | nil => rw [hb] at hlen; cases hlen
  | cons b bs' =>
    obtain ⟨b', k1, _, k3, _⟩ := block_anchored Demo.lossy_sensible h (b := b) (by rw [hb]; exact List.mem_cons_self)
    have hne := k3.ne_nil
    rw [← k1] at hne
    obtain ⟨s, hs⟩ := List.exists_mem_of_ne_nil _ hne
    have : s ∈ Spec.path bs := by
      rw [path_eq, unpack, List.mem_flatMap]
      exact ⟨b, by rw [hb]; exact List.mem_cons_self, hs⟩
    rw [h0] at this
    cases this

end PyGCD
