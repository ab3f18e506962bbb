import Verif.Spec.Examples
import Verif.Props.Args
import Verif.Props.Shipped
import Verif.Props.IrregularOutputs

/-!
# Property C115: the examples of the package
-/

set_option linter.unusedSectionVars false
set_option linter.unusedSimpArgs false

namespace PyGCD
open Vec4 Spec

variable {Path : Type} {pf : List Char → Option ℝ} {env : ExampleEnv Path ℝ}

/-! ## Lemmas -/

/-- A chain of segments that pushes filament has a segment that does. -/
theorem Spec.Ramp.pushes {u : Vec4 ℝ} {a vT : ℝ} {p p' : Vec4 ℝ} {t t' v v' : ℝ} {l : List (Segment ℝ)}
    (h : Ramp u a vT p t v l p' t' v') (hlt : p.e < p'.e) : ∃ s ∈ l, s.posBegin.e < s.posEnd.e := by
  induction h with
  | nil => exact absurd hlt (lt_irrefl _)
  | @cons t t₁ v v₁ t' v' p p₁ p' ss hv hv₁ ht hacc hpos hp hrest ih =>
    by_cases h1 : p.e < p₁.e
    · exact ⟨_, List.mem_cons_self, h1⟩
    · obtain ⟨s, hs, hlt'⟩ := ih (lt_of_le_of_lt (not_lt.1 h1) hlt)
      exact ⟨s, List.mem_cons_of_mem _ hs, hlt'⟩

/-- A program that pushes filament while it moves shows something. -/
theorem lines_sensible {fw : Firmware} {states : List (PState ℝ)} {bs : List (Block ℝ)} (hsens : Sensible states)
    (h : plan fw states = .ok bs) {x : Step} (hx : x ∈ executed none none states) (hext : x.Extrudes)
    (hp : x.B.pause = none) : plot3dLines bs true ≠ [] := by
  obtain ⟨b, hb, hbx⟩ := (partner (c87_carried_out hsens h)).2.1 x hx
  obtain ⟨u, t, v, t', v', _, _, _, hr, _⟩ := hbx.move hp
  have hlt : x.src.e < x.dst.e := by
    rw [(executed_steps _ _ _ x hx).1 hp]
    have := hext.2
    simp only [Vec4.add, Vec4.sub]
    linarith
  obtain ⟨s, hs, hlt'⟩ := hr.pushes hlt
  obtain ⟨rs, hruns, hrs⟩ := (c44_polylines bs).1
  rw [hrs]
  intro hnil
  rw [List.map_eq_nil_iff] at hnil
  subst hnil
  have gapOnly : ∀ {l : List (Segment ℝ)} {rs : List (List (Segment ℝ))},
      Runs (fun s => s.posBegin.e < s.posEnd.e) l rs → rs = [] → ∀ x ∈ l, ¬ x.posBegin.e < x.posEnd.e := by
    intro l rs hr
    cases hr with
    | done hgap => exact fun _ => hgap
    | run => intro h; cases h
  exact gapOnly hruns rfl s (List.mem_flatMap.2 ⟨b, hb, hs⟩) hlt'

/-- A move that is carried out is something that the machine does. -/
theorem executed_mem {A B : PState ℝ} (h : Executes A B) : ∀ (l r : List (PState ℝ)) (here : Option (Vec4 ℝ))
    (P : Option (PState ℝ)), ∃ x ∈ executed here P (l ++ A :: B :: r), x.A = A ∧ x.B = B := by
  have base : ∀ (r : List (PState ℝ)) (here : Option (Vec4 ℝ)), ∃ x ∈ executed here (some A) (B :: r), x.A = A ∧ x.B = B := by
    intro r here
    rw [executed, if_neg (by rw [h.1]; simp), if_pos h]
    exact ⟨_, List.mem_cons_self, rfl, rfl⟩
  intro l
  induction l with
  | nil =>
    intro r here P
    rw [List.nil_append]
    cases P with
    | none =>
      rw [executed]
      exact base r here
    | some P =>
      rw [executed]
      simp only
      split
      · obtain ⟨x, hx, hx'⟩ := base r here
        exact ⟨x, List.mem_cons_of_mem _ hx, hx'⟩
      · split
        · obtain ⟨x, hx, hx'⟩ := base r (some ((here.getD P.position).add (A.position.sub P.position)))
          exact ⟨x, List.mem_cons_of_mem _ hx, hx'⟩
        · exact base r here
  | cons s l ih =>
    intro r here P
    rw [List.cons_append]
    cases P with
    | none =>
      rw [executed]
      exact ih r here (some s)
    | some P =>
      rw [executed]
      simp only
      split
      · obtain ⟨x, hx, hx'⟩ := ih r here (some s)
        exact ⟨x, List.mem_cons_of_mem _ hx, hx'⟩
      · split
        · obtain ⟨x, hx, hx'⟩ := ih r (some ((here.getD P.position).add (s.position.sub P.position))) (some s)
          exact ⟨x, List.mem_cons_of_mem _ hx, hx'⟩
        · exact ih r here (some s)

/-- A line that pushes filament is something that the machine does. -/
theorem prints_executed {ls : List Line} : ∀ {q : Printer} {w : Option ℝ} {s : PState ℝ} {ss : List (PState ℝ)},
    Shows s (q, w) → List.Forall₂ Shows ss (q.run pf ls) → PushesFilament pf q ls →
    ∃ l A B r, s :: ss = l ++ A :: B :: r ∧ Executes A B ∧ A.position.e < B.position.e := by
  induction ls with
  | nil =>
    rintro q w s ss _ _ ⟨pre, l, post, he, _⟩
    simp at he
  | cons l ls ih =>
    rintro q w s ss hs h ⟨pre, x, post, he, hlt, hf⟩
    rw [Printer.run] at h
    cases h with
    | @cons s' _ ss' _ h1 h2 =>
      cases pre with
      | nil =>
        rw [List.nil_append, List.cons.injEq] at he
        rw [← he.1] at hlt hf
        refine ⟨[], s, s', ss', rfl, ⟨?_, ?_, ?_⟩, ?_⟩
        · rw [h1.pause]
          by_contra hw
          have := exec_wait (q := q) hw
          rw [Printer.after, List.foldl_nil, this] at hlt
          exact lt_irrefl _ hlt
        · rw [h1.position, hs.position]
          intro heq
          have := congrArg Vec4.e heq
          exact hlt.ne' this
        · rw [h1.speed]
          exact hf
        · rw [h1.position, hs.position]
          exact hlt
      | cons y pre =>
        rw [List.cons_append, List.cons.injEq] at he
        rw [← he.1] at hlt hf
        obtain ⟨l', A, B, r, g1, g2⟩ := ih h1 h2 ⟨pre, x, post, he.2, hlt, hf⟩
        exact ⟨s :: l', A, B, r, by rw [g1]; rfl, g2⟩

/-- A text without commands is a plain file in which nothing happens. -/
theorem noCommands_file {content : List Char} (hn : NoCommands content) :
    ∃ ls, FileOf ls content ∧ (∀ l ∈ ls, l.Plain pf) ∧ ∀ l ∈ ls, l.cmd = none ∧ l.comment = none := by
  have newlines : ∀ {c t : List Char}, Newlines c t → NoCommands c → NoCommands t := by
    intro c t h
    induction h with
    | nil => exact fun h => h
    | crlf h ih =>
      intro hn c hc
      rcases List.mem_cons.1 hc with rfl | hc
      · decide
      · exact ih (fun c hc => hn c (by simp [hc])) c hc
    | cr _ h ih =>
      intro hn c hc
      rcases List.mem_cons.1 hc with rfl | hc
      · decide
      · exact ih (fun c hc => hn c (by simp [hc])) c hc
    | other _ h ih =>
      intro hn c hc
      rcases List.mem_cons.1 hc with rfl | hc
      · exact hn _ (by simp)
      · exact ih (fun c hc => hn c (by simp [hc])) c hc
  have silent : ∀ {l : List Char}, NoCommands l → ∀ k i, ¬ OccursAt (name k) l i := by
    intro l hl k i ho
    obtain ⟨c, r, hc, hor⟩ : ∃ c r, name k = c :: r ∧ (c = 'G' ∨ c = 'M' ∨ c = ';') := by
      cases k <;> exact ⟨_, _, rfl, by decide⟩
    have hm : c ∈ l := by
      refine List.mem_of_mem_drop (i := i) (ho.subset ?_)
      rw [hc]
      exact List.mem_cons_self
    obtain ⟨h1, h2, h3⟩ := hl c hm
    rcases hor with rfl | rfl | rfl
    · exact h1 rfl
    · exact h2 rfl
    · exact h3 rfl
  have lines : ∀ {t : List Char} {rows : List (List Char)}, Lines t rows → NoCommands t →
      ∃ ls : List Line, List.Forall₂ (fun l row => row = l.text ∨ row = l.text ++ ['\n']) ls rows ∧
        (∀ l ∈ ls, l.Plain pf) ∧ ∀ l ∈ ls, l.cmd = none ∧ l.comment = none := by
    have one : ∀ {l : List Char}, NoCommands l → Line.Plain pf ⟨none, [], 0, none, l⟩ := by
      intro l hl
      exact ⟨by simp, by simp, fun _ => ⟨rfl, silent hl⟩, by simp, by simp, by simp, by simp, by simp⟩
    intro t rows h
    induction h with
    | none => exact fun _ => ⟨[], .nil, by simp, by simp⟩
    | @«open» l hne h =>
      intro hn
      refine ⟨[⟨none, [], 0, none, l⟩], .cons (Or.inl ?_) .nil, ?_, by simp⟩
      · simp [Line.text, Line.code]
      · simpa using one hn
    | @line l t ls h hr ih =>
      intro hn
      obtain ⟨ls', h1, h2, h3⟩ := ih (fun c hc => hn c (by simp [hc]))
      refine ⟨⟨none, [], 0, none, l⟩ :: ls', .cons (Or.inr ?_) h1, ?_, ?_⟩
      · simp [Line.text, Line.code]
      · intro x hx
        rcases List.mem_cons.1 hx with rfl | hx
        · exact one fun c hc => hn c (by simp [hc])
        · exact h2 x hx
      · intro x hx
        rcases List.mem_cons.1 hx with rfl | hx
        · exact ⟨rfl, rfl⟩
        · exact h3 x hx
  obtain ⟨text, h1, h2⟩ := c01_lines content
  obtain ⟨ls, g1, g2, g3⟩ := lines h2 (newlines h1 hn)
  exact ⟨ls, ⟨text, _, h1, h2, g1⟩, g2, g3⟩

/-- Without a command there is nothing to simulate. -/
theorem noCommands_simulate (hpf : FloatLike pf) {r : Stock} (hr : r ∈ stock) {d : Dict (SVal ℝ)} (hd : StockSetup r d)
    {content : List Char} (hn : NoCommands content) : simulateFile pf d content = .error .indexError := by
  obtain ⟨ls, h1, h2, h3⟩ := noCommands_file (pf := pf) hn
  have hrest : ∀ l ∈ ls, ∀ q : Printer, q.exec pf l = q ∧ l.wait pf = none := by
    intro l hl q
    simp [Printer.exec, Line.wait, (h3 l hl).1]
  refine (c88_errors hpf hd.accepted hd.printer h2 ?_ h1).2 ?_ ?_
  · refine ⟨?_, ?_, ?_, ?_⟩
    · simp only [stock, List.mem_cons, List.not_mem_nil, or_false] at hr
      rcases hr with rfl | rfl | rfl | rfl <;> norm_num [Stock.printer]
    all_goals
      intro l hl hc
      rw [(h3 l hl).1] at hc
      simp at hc
  · intro pre l post he v hv
    rw [(hrest l (by rw [he]; simp) r.printer).2] at hv
    cases hv
  · rintro ⟨pre, l, post, he, hne, _⟩
    exact hne (by rw [(hrest l (by rw [he]; simp) _).1])

/-- The setup of the brace example. -/
theorem brace_guards (hi : Installed env) : ∃ d s,
    simulationGuards "SImm" (some "anisoprint_a4") none (env.presetsIn env.defaultPresets) = .ok (d, s) ∧
      StockSetup aniso d := by
  obtain ⟨d, s, h1, h2, _⟩ := c101_setup (r := aniso) (by simp [stock, aniso]) (unit := "SImm") (by simp [mmPer])
  exact ⟨d, s, by rw [hi.default]; exact h1, h2⟩

/-- The setup of the benchy example. -/
theorem benchy_guards (hi : Installed env) : ∃ s0 s1 d s,
    Setup.create (env.presetsIn (env.exampleData "printer_presets.yaml")) (some "prusa_mini") (some "LAYER_CHANGE") =
      .ok s0 ∧
    s0.setInitialPosition (.dict [("X", 0), ("Y", 0), ("Z", 0), ("E", 0)]) (some "SImm") = .ok s1 ∧
    simulationGuards "SImm" none (some s1) (env.presetsIn env.defaultPresets) = .ok (d, s) ∧
    s.presets.lookup (s.printer.getD "") = some d ∧ StockSetup mini d ∧
    d.lookup "layer_cue" = some (.text "LAYER_CHANGE") := by
  rw [hi.data]
  obtain ⟨pre, h1, h2, h3, h4⟩ := stock_preset (r := mini) (by simp [stock, mini])
  obtain ⟨s0, hs0⟩ : ∃ s0, Setup.create (shippedPresets fun v : ℚ => (v : ℝ)) (some "prusa_mini") (some "LAYER_CHANGE") =
      .ok s0 := by
    simp [Setup.create, Setup.selectPrinter, Setup.getDict, shippedPresets, presetPrusaMini, readPreset, List.lookup, bind,
      Except.bind, dictSet, dictUpdate]
  have hd : SetupOp.WellFormed (.setPos (.dict [("X", 0), ("Y", 0), ("Z", 0), ("E", 0)]) (some "SImm")) :=
    ⟨by simp, by simp⟩
  obtain ⟨s1, hs1⟩ : ∃ s1, s0.setInitialPosition (.dict [("X", 0), ("Y", 0), ("Z", 0), ("E", 0)]) (some "SImm") = .ok s1 := by
    simp [Setup.setInitialPosition, setupScaling, bind, Except.bind, List.lookup]
  have hag := agrees_call (agrees_create hs0) _ hd
  have hcall : s0.call (.setPos (.dict [("X", 0), ("Y", 0), ("Z", 0), ("E", 0)]) (some "SImm")) = s1 := by
    simp only [Setup.call, hs1]
  rw [hcall] at hag
  obtain ⟨d, s, a1, a2, a3, a4⟩ := (getDict_spec hag).2 "prusa_mini" (by simp [Book.note, Book.start, mmPer])
  refine ⟨s0, s1, d, s, hs0, hs1, ?_, ?_, ?_⟩
  · simp [simulationGuards, a1]
  · rw [a2.sel]
    simpa [Book.note, Book.start, mmPer] using a3
  · refine stock_setup (r := mini) ?_ ?_ h1 h2 h3 h4 a4
    · simp [Book.note, Book.start, mmPer, List.lookup]
    · simp [Book.note, Book.start, mmPer, List.lookup]

/-! ## C115 -/

/-- **C115, the command.** `pygcd run_example` with the name of an example does what the example does, and asks
nothing. -/
theorem c115_command {dig : Char → Bool} {path : Word → Path} (answers : List String) :
    mainCommand dig path pf env [w!"run_example", w!"brace"] answers =
      ((braceExample pf env).1, .example (braceExample pf env).2) ∧
    mainCommand dig path pf env [w!"run_example", w!"benchy"] answers =
      ((benchyExample pf env).1, .example (benchyExample pf env).2) := by
  constructor
  · rw [mainCommand, c112_example.2 ⟨Or.inl rfl, Or.inl rfl⟩]
    rfl
  · rw [mainCommand, c112_example.2 ⟨Or.inr rfl, Or.inl rfl⟩]
    rfl

/-- **C115, the brace example saves nothing**, whatever is installed. -/
theorem c115_brace_saves_nothing : ∀ x ∈ (braceExample pf env).1, touched x = none := by
  intro x hx
  unfold braceExample at hx
  split at hx
  · cases hx
  · simp only [plot3dEffects, List.nil_append] at hx
    split at hx
    · rw [List.mem_singleton.1 hx]
      rfl
    · cases hx

/-- **C115, the brace example** simulates its file with the shipped `anisoprint_a4`, in millimetres, and shows the
extrusion once if there is a display. -/
theorem c115_brace (hi : Installed env) : ∃ d, StockSetup aniso d ∧
    (∀ e, simulateFile pf d (env.text (env.exampleData "brace.gcode")) = .error e →
      braceExample pf env = ([], .raised e)) ∧
    ∀ bs, simulateFile pf d (env.text (env.exampleData "brace.gcode")) = .ok bs →
      braceExample pf env = (if env.display = true then [.window (plot3dLines bs true)] else [], .done) := by
  obtain ⟨d, s, h1, h2⟩ := brace_guards hi
  refine ⟨d, h2, ?_, ?_⟩
  · intro e he
    have hs : Session.create pf (env.presetsIn env.defaultPresets) (env.text (env.exampleData "brace.gcode"))
        (some "anisoprint_a4") none "SImm" = .error e := by
      simp only [simulateFile, bind, Except.bind] at he
      simp only [Session.create, h1, bind, Except.bind]
      split at he
      · cases he
        rfl
      · split at he
        · cases he
          rfl
        · rw [he]
    simp only [braceExample, hs]
  · intro bs hb
    obtain ⟨ps, hs⟩ : ∃ ps, Session.create pf (env.presetsIn env.defaultPresets)
        (env.text (env.exampleData "brace.gcode")) (some "anisoprint_a4") none "SImm" =
          .ok ⟨s, s.printer.getD "", "SImm", ps, bs, none⟩ := by
      simp only [simulateFile, bind, Except.bind] at hb
      simp only [Session.create, h1, bind, Except.bind]
      split at hb
      · cases hb
      · split at hb
        · cases hb
        · rename_i ps _
          exact ⟨ps, by rw [hb]⟩
    simp only [braceExample, hs, plot3dEffects, List.nil_append]

/-- **C115, where the benchy example writes**: only into `output_benchy_example` in the working directory, and there only
the five files that it announces; this holds whatever is installed. -/
theorem c115_benchy_inside {x : PlotEffect Path ℝ} (hx : x ∈ (benchyExample pf env).1) {p : Path}
    (hp : touched x = some p) :
    p = env.cwdDir "output_benchy_example" ∨
      ∃ n ∈ benchyNames, p = env.inDir (env.cwdDir "output_benchy_example") n := by
  unfold benchyExample at hx
  split at hx
  · cases hx
  split at hx
  · cases hx
  split at hx
  · cases hx
  rename_i sim hsim
  generalize env.cwdDir "output_benchy_example" = dir at hx ⊢
  unfold benchyOutputs at hx
  have saved : ∀ sm, x ∈ ([.mkdir dir, .summary (env.inDir dir "benchy_summary.yaml") (env.exampleData "benchy.gcode") sm] :
      List (PlotEffect Path ℝ)) → p = dir ∨ ∃ n ∈ benchyNames, p = env.inDir dir n := by
    intro sm hx
    simp only [List.mem_cons, List.not_mem_nil, or_false] at hx
    rcases hx with rfl | rfl <;> cases hp
    · exact Or.inl rfl
    · exact Or.inr ⟨_, by simp [benchyNames], rfl⟩
  have listed : ∀ rows : List (LayerRow ℝ), x ∈ ([.layers (env.inDir dir "benchy_layer_metrics.csv") rows] :
      List (PlotEffect Path ℝ)) → p = dir ∨ ∃ n ∈ benchyNames, p = env.inDir dir n := by
    intro rows hx
    rw [List.mem_singleton] at hx
    subst hx
    cases hp
    exact Or.inr ⟨_, by simp [benchyNames], rfl⟩
  split at hx
  · cases hx
  rename_i sm hsm
  simp only at hx
  by_cases hl : (sim.hasCue && !env.localeInstalled) = true
  · rw [if_pos hl] at hx
    exact saved _ hx
  rw [if_neg hl] at hx
  split at hx
  · exact saved _ hx
  rename_i rows hrows
  split at hx
  · rcases List.mem_append.1 hx with hx | hx
    · exact saved _ hx
    · cases rows with
      | none => cases hx
      | some rows => exact listed rows hx
  simp only [List.mem_append] at hx
  rcases hx with (((hx | hx) | hx) | hx) | hx
  · exact saved _ hx
  · cases rows with
    | none => cases hx
    | some rows => exact listed rows hx
  · rw [List.mem_singleton] at hx
    subst hx
    cases hp
    exact Or.inr ⟨_, by simp [benchyNames], rfl⟩
  · simp only [plot3dEffects, List.mem_append, List.mem_singleton] at hx
    rcases hx with rfl | hx
    · cases hp
      exact Or.inr ⟨_, by simp [benchyNames], rfl⟩
    · split at hx
      · rw [List.mem_singleton] at hx
        subst hx
        cases hp
        exact Or.inr ⟨_, by simp [benchyNames], rfl⟩
      · cases hx
  · simp only [plot3dEffects, List.nil_append] at hx
    split at hx
    · rw [List.mem_singleton] at hx
      subst hx
      cases hp
    · cases hx

/-- **C115, the benchy example** simulates its file with the shipped `prusa_mini` at the origin, in millimetres, with
layers counted at `LAYER_CHANGE`. If that fails, or if nothing is extruded, the example ends with the error and has
written nothing, not even the directory. Otherwise the summary is written; without the locale `en_US.utf8` that is all,
and the example ends with a `locale.Error`. With it, the layer metrics, the event series and the VTK file follow, and
with a display the screenshot and a window. -/
theorem c115_benchy (hi : Installed env) : ∃ d, StockSetup mini d ∧ d.lookup "layer_cue" = some (.text "LAYER_CHANGE") ∧
    (∀ e, simulateFile pf d (env.text (env.exampleData "benchy.gcode")) = .error e →
      benchyExample pf env = ([], .raised e)) ∧
    ∀ ps bs dir, fileStates pf d (env.text (env.exampleData "benchy.gcode")) = .ok ps → Sensible ps →
      simulateFile pf d (env.text (env.exampleData "benchy.gcode")) = .ok bs →
      dir = env.cwdDir "output_benchy_example" →
      ((∀ x ∈ executed none none ps, ¬ x.Extrudes) → benchyExample pf env = ([], .raised .valueError)) ∧
      ((∃ x ∈ executed none none ps, x.Extrudes ∧ x.B.pause = none) →
        plot3dLines bs true ≠ [] ∧
        ∃ sm rows events, saveSummary bs "SImm" = .ok sm ∧ saveLayerMetrics true bs = .ok (some rows) ∧
          abaqusEvents bs "SImm" none 1e-12 = .ok events ∧ EndTime (Spec.path bs) sm.tEnd ∧
          events.getLast?.map EventRow.t = some sm.tEnd ∧
          (env.localeInstalled = false → benchyExample pf env =
            ([.mkdir dir, .summary (env.inDir dir "benchy_summary.yaml") (env.exampleData "benchy.gcode") sm],
              .localeError)) ∧
          (env.localeInstalled = true → benchyExample pf env =
            ([.mkdir dir, .summary (env.inDir dir "benchy_summary.yaml") (env.exampleData "benchy.gcode") sm,
              .layers (env.inDir dir "benchy_layer_metrics.csv") rows,
              .events (env.inDir dir "benchy_prusa_mini_event_series.csv") events,
              .vtk (env.inDir dir "benchy.vtk") (plot3dLines bs true)] ++
              (if env.display = true then
                [.screenshot (env.inDir dir "benchy.png") (plot3dLines bs true), .window (plot3dLines bs true)]
               else []), .done))) := by
  obtain ⟨s0, s1, d, s, h0, h1, h2, h3, h4, h5⟩ := benchy_guards hi
  refine ⟨d, h4, h5, ?_, ?_⟩
  · intro e he
    have hs : Session.create pf (env.presetsIn env.defaultPresets) (env.text (env.exampleData "benchy.gcode"))
        none (some s1) "SImm" = .error e := by
      simp only [simulateFile, bind, Except.bind] at he
      simp only [Session.create, h2, bind, Except.bind]
      split at he
      · cases he
        rfl
      · split at he
        · cases he
          rfl
        · rw [he]
    simp only [benchyExample, h0, h1, hs]
  · rintro ps bs dir hps hsens hb rfl
    generalize hdir : env.cwdDir "output_benchy_example" = dir
    have hcheck := (c46_validation d).1.2 h4.accepted
    simp only [simulateFile, bind, Except.bind, hcheck, hps] at hb
    have hs : Session.create pf (env.presetsIn env.defaultPresets) (env.text (env.exampleData "benchy.gcode"))
        none (some s1) "SImm" = .ok ⟨s, s.printer.getD "", "SImm", ps, bs, none⟩ := by
      simp only [Session.create, h2, bind, Except.bind, hcheck, hps, hb]
    have hcmd : benchyExample pf env = benchyOutputs env dir ⟨s, s.printer.getD "", "SImm", ps, bs, none⟩ := by
      simp only [benchyExample, h0, h1, hs, hdir]
    have hcue : Session.hasCue ⟨s, s.printer.getD "", "SImm", ps, bs, none⟩ = true := by
      simp only [Session.hasCue, h3, h5, Option.isSome_some]
    have hpl : plan (firmwareOf d) ps = .ok bs ∧ bs ≠ [] := by
      unfold simulate at hb
      simp only [bind, Except.bind] at hb
      split at hb
      · cases hb
      rename_i bs' hpl
      split at hb
      · cases hb
      rename_i t ht
      cases hb
      refine ⟨hpl, ?_⟩
      rintro rfl
      cases ht
    obtain ⟨hpl, hne⟩ := hpl
    obtain ⟨g1, g2⟩ := c116_summary hsens hpl (own := "SImm") (f := 1) (by simp [InUnit])
    rw [hcmd]
    constructor
    · intro hno
      have := g1 hno
      rw [if_neg hne] at this
      simp only [benchyOutputs, this]
    · rintro ⟨x, hx, hx1, hx2⟩
      obtain ⟨sm, k1, k2, _⟩ := g2 ⟨x, hx, hx1⟩
      refine ⟨lines_sensible hsens hpl hx hx1 hx2, ?_⟩
      have hl : ∀ y ∈ executed none none ps, y.B.layer ≠ none := by
        intro y hy
        obtain ⟨i, j1, j2, _⟩ := executed_states _ _ _ y hy
        cases i with
        | zero => cases j2 rfl
        | succ i => exact file_layers hcheck hps (by rw [h5]; rfl) j1
      obtain ⟨z, hz⟩ := Option.isSome_iff_exists.1 (List.getLast?_isSome.2 (List.ne_nil_of_mem hx))
      obtain ⟨n, hn⟩ := Option.ne_none_iff_exists'.1 (hl z (List.mem_of_getLast? hz))
      obtain ⟨rows, _, _, _, r1, _⟩ := c116_layers hsens hpl hl hz hn
      obtain ⟨events, e1, _, _, e2, _⟩ := c93_event_series hsens hpl k2 (own := "SImm") (u := none) (f := 1)
        (by simp [InUnit]) 1e-12
      have e1' : abaqusEvents bs "SImm" (some "SImm") 1e-12 = .ok events := by
        rw [← e1]
        rfl
      refine ⟨sm, rows, events, k1, r1, e1, k2, e2, ?_, ?_⟩
      · intro hloc
        simp only [benchyOutputs, k1, hcue, hloc, Bool.not_false, Bool.and_self, if_true]
      · intro hloc
        have e1'' : abaqusEvents bs "SImm" (some "SImm") 1.0e-12 = .ok events := by
          rw [← e1']
          norm_num
        simp only [benchyOutputs, k1, hcue, hloc, Bool.not_true, Bool.and_false, Bool.false_eq_true, if_false, r1,
          e1'', plot3dEffects]
        split <;> simp

/-- **C115, the benchy example with a plain file.** If the settings of the file make sense, its waits come after moves and
it pushes filament, the example does what it announces with a display and the locale `en_US.utf8`: it saves all five files
and ends normally. Without one of the two, a file is missing. -/
theorem c115_benchy_plain (hpf : FloatLike pf) (hi : Installed env) {ls : List Line} (hp : ∀ l ∈ ls, l.Plain pf)
    (hw : Decent pf mini.printer ls) (hfile : FileOf ls (env.text (env.exampleData "benchy.gcode")))
    (hwait : WaitsFollow pf mini.printer ls) (hprint : PushesFilament pf mini.printer ls)
    (hdir : ∀ m n, env.inDir (env.cwdDir "output_benchy_example") m = env.inDir (env.cwdDir "output_benchy_example") n →
      m = n)
    (hself : ∀ n, env.inDir (env.cwdDir "output_benchy_example") n ≠ env.cwdDir "output_benchy_example") :
    ((benchyExample pf env).2 = .done ↔ env.localeInstalled = true) ∧
    ((∀ n ∈ benchyNames, ∃ x ∈ (benchyExample pf env).1,
        touched x = some (env.inDir (env.cwdDir "output_benchy_example") n)) ↔
      env.localeInstalled = true ∧ env.display = true) ∧
    (∀ v ∈ (benchyExample pf env).1, ∀ lines, v = .window lines → lines ≠ []) := by
  obtain ⟨d, h1, _, _, h2⟩ := c115_benchy (pf := pf) hi
  obtain ⟨ps, g1, g2⟩ := c67_read_as_written hpf h1.printer hp hfile
  have hsens := decent_sensible hw g2
  obtain ⟨x, hx, hx1, hx2⟩ : ∃ x ∈ executed none none ps, x.Extrudes ∧ x.B.pause = none := by
    cases g2 with
    | cons k1 k2 =>
      obtain ⟨l, A, B, r, e1, e2, e3⟩ := prints_executed k1 k2 hprint
      obtain ⟨x, hx, rfl, rfl⟩ := executed_mem e2 l r none none
      exact ⟨x, by rw [e1]; exact hx, ⟨e2.2.2, e3⟩, e2.1⟩
  have hdrive : Drives pf mini.printer ls := by
    obtain ⟨pre, l, post, e1, e2, e3⟩ := hprint
    refine ⟨pre, l, post, e1, fun h => ?_, e3⟩
    exact e2.ne' (congrArg Vec4.e h)
  obtain ⟨bs, hb⟩ := (c88_simulated hpf h1.accepted h1.printer hp hw hfile).2 ⟨hdrive, hwait⟩
  obtain ⟨k1, sm, rows, events, _, _, _, _, _, k2, k3⟩ := (h2 ps bs _ g1 hsens hb rfl).2 ⟨x, hx, hx1, hx2⟩
  generalize env.cwdDir "output_benchy_example" = dir at *
  by_cases hl : env.localeInstalled = true
  · rw [k3 hl]
    refine ⟨by simp [hl], ?_, ?_⟩
    · by_cases hd : env.display = true
      · simp [hl, hd, benchyNames, touched]
      · refine iff_of_false ?_ (by simp [hd])
        intro hall
        obtain ⟨y, hy, hy'⟩ := hall "benchy.png" (by simp [benchyNames])
        simp only [hd, Bool.false_eq_true, if_false, List.append_nil, List.mem_cons, List.not_mem_nil, or_false] at hy
        rcases hy with rfl | rfl | rfl | rfl | rfl <;> simp only [touched, Option.some.injEq] at hy' <;>
          first | exact hself _ hy'.symm | exact absurd (hdir _ _ hy') (by decide)
    · intro v hv lines hvl
      subst hvl
      by_cases hd : env.display = true
      · simp [hd] at hv
        rw [hv]
        exact k1
      · simp [hd] at hv
  · have hl' : env.localeInstalled = false := by simpa using hl
    rw [k2 hl']
    refine ⟨by simp [hl'], iff_of_false ?_ (by simp [hl']), by simp⟩
    intro hall
    obtain ⟨y, hy, hy'⟩ := hall "benchy.png" (by simp [benchyNames])
    simp only [List.mem_cons, List.not_mem_nil, or_false] at hy
    rcases hy with rfl | rfl <;> simp only [touched, Option.some.injEq] at hy'
    · exact hself _ hy'.symm
    · exact absurd (hdir _ _ hy') (by decide)

/-- **C115, as it is in the repository.** The G-code files at the pinned commit only name files that are stored elsewhere
(Git LFS). If they are not replaced, both examples end with an `IndexError` and have neither written nor shown anything.
The same holds for every text in which no command can begin. -/
theorem c115_pointers (hpf : FloatLike pf) (hi : Installed env) :
    (NoCommands (env.text (env.exampleData "brace.gcode")) → braceExample pf env = ([], .raised .indexError)) ∧
    (NoCommands (env.text (env.exampleData "benchy.gcode")) → benchyExample pf env = ([], .raised .indexError)) ∧
    NoCommands bracePointer ∧ NoCommands benchyPointer := by
  refine ⟨?_, ?_, ?_, ?_⟩
  · intro hn
    obtain ⟨d, h1, h2, _⟩ := c115_brace (pf := pf) hi
    exact h2 _ (noCommands_simulate hpf (by simp [stock, aniso]) h1 hn)
  · intro hn
    obtain ⟨d, h1, _, h2, _⟩ := c115_benchy (pf := pf) hi
    exact h2 _ (noCommands_simulate hpf (by simp [stock, mini]) h1 hn)
  · unfold NoCommands bracePointer
    decide +kernel
  · unfold NoCommands benchyPointer
    decide +kernel

/-! ### An example -/

/-- The package is installed on a machine with a display; the benchy is the file of `Demo.plain` and the brace is what the
repository contains. Paths are lists of names. -/
noncomputable def Demo.exampleEnv (loc : Bool) : ExampleEnv (List String) ℝ where
  isFile _ := false
  cwdGcodes := []
  defaultPresets := ["presets"]
  outDirFor p := p
  text p := if p = ["data", "benchy.gcode"] then Demo.plainText else bracePointer
  presetsIn _ := shippedPresets fun v : ℚ => (v : ℝ)
  inDir d n := d ++ [n]
  stem _ := "a"
  display := true
  localeInstalled := loc
  exampleData n := ["data", n]
  cwdDir n := [n]

/-- On this machine the benchy example saves its five files and the brace example ends with an `IndexError`. -/
example : (benchyExample Demo.num (Demo.exampleEnv true)).2 = .done ∧
    (∀ n ∈ benchyNames, ∃ x ∈ (benchyExample Demo.num (Demo.exampleEnv true)).1,
      touched x = some ["output_benchy_example", n]) ∧
    (benchyExample Demo.num (Demo.exampleEnv false)).2 ≠ .done ∧
    braceExample Demo.num (Demo.exampleEnv true) = ([], .raised .indexError) := by
  have hi : ∀ loc, Installed (Demo.exampleEnv loc) := fun _ => ⟨rfl, rfl⟩
  have hwork := Demo.stock_workable (r := mini) (by simp [stock, mini])
  have hdec : Decent Demo.num mini.printer Demo.plain :=
    ⟨⟨hwork.settings.1.le, hwork.settings.2⟩, fun l hl hc v hv => (hwork.feed l hl hc v hv).le, hwork.acc, hwork.jerk⟩
  have hwait : WaitsFollow Demo.num mini.printer Demo.plain := by
    intro pre l post he v hv
    refine ⟨hwork.wait l (by rw [he]; simp) v hv, ?_⟩
    cases pre with
    | nil =>
      rw [List.nil_append, Demo.plain, List.cons.injEq] at he
      rw [← he.1] at hv
      simp [Line.wait] at hv
    | cons y pre =>
      rw [List.cons_append, Demo.plain, List.cons.injEq] at he
      refine ⟨[], y, pre, rfl, ?_⟩
      rw [← he.1]
      refine ⟨Demo.stock_first, ?_⟩
      simp [Printer.exec, Line.value, Demo.num]
  have hprint : PushesFilament Demo.num mini.printer Demo.plain := by
    refine ⟨Demo.plain.take 5, _, [], rfl, ?_, ?_⟩
    · simp [Demo.plain, Printer.after, Printer.exec, Line.value, Demo.num, Stock.printer, letter, Printer.abs]
    · simp [Demo.plain, Printer.after, Printer.exec, Line.value, Demo.num, Stock.printer, letter, Printer.abs]
  have htext : ∀ loc, (Demo.exampleEnv loc).text ((Demo.exampleEnv loc).exampleData "benchy.gcode") = Demo.plainText :=
    fun _ => by simp [Demo.exampleEnv]
  have key := fun loc => c115_benchy_plain Demo.num_floatLike (hi loc) Demo.plain_lines hdec
    (by rw [htext]; exact Demo.plain_file) hwait hprint
    (by simp [Demo.exampleEnv]) (by simp [Demo.exampleEnv])
  refine ⟨(key true).1.2 rfl, (key true).2.1.2 ⟨rfl, rfl⟩, fun h => ?_, ?_⟩
  · have := (key false).1.1 h
    simp [Demo.exampleEnv] at this
  · obtain ⟨h1, _, h2, _⟩ := c115_pointers Demo.num_floatLike (hi true)
    exact h1 (by
      have : (Demo.exampleEnv true).text ((Demo.exampleEnv true).exampleData "brace.gcode") = bracePointer := by
        simp [Demo.exampleEnv]
      rw [this]
      exact h2)

end PyGCD
