import Mathlib.Data.List.Nodup
import Mathlib.Tactic.IntervalCases
import Verif.Proofs.ArgValues
import Verif.Props.Plot

/-!
# Properties C111, C112, C113: reading the command line
-/

set_option linter.unusedSimpArgs false

namespace PyGCD
open Spec

variable {dig : Char → Bool}

/-! ## C111 -/

/-- **C111** `pygcd plot` with options, each by its long or short name and with its value joined by `=` or as the next
word, in any order and any number: the command runs with the value given last for each option. -/
theorem c111_documented {gs : List Given} (hg : ∀ g ∈ gs, g.Fine) :
    readMain dig (w!"plot" :: line gs) = .ok (.plot (argsOf gs)) := by
  have := plot_line (dig := dig) hg (ws := []) rfl ⟨_, rfl⟩
  rw [List.append_nil] at this
  rw [this]
  rfl

/-- **C111** The order of options that are given at most once does not matter. -/
theorem c111_order {gs gs' : List Given} (hg : ∀ g ∈ gs, g.Fine) (hp : gs.Perm gs')
    (hn : (gs.map Given.field).Nodup) : readMain dig (w!"plot" :: line gs) = readMain dig (w!"plot" :: line gs') := by
  rw [c111_documented hg, c111_documented fun g h => hg g (hp.mem_iff.2 h)]
  have key : ∀ (l : List Given), (l.map Given.field).Nodup → ∀ f v, lastValue l f = some v ↔
      ∃ g ∈ l, g.field = f ∧ g.value = v := by
    intro l hl f v
    unfold lastValue
    rw [Option.map_eq_some_iff]
    constructor
    · rintro ⟨g, h, rfl⟩
      exact ⟨g, List.mem_reverse.1 (List.mem_of_find?_eq_some h), by simpa using List.find?_some h, rfl⟩
    · rintro ⟨g, h, rfl, rfl⟩
      rcases h' : l.reverse.find? fun x => x.field = g.field with _ | g'
      · rw [List.find?_eq_none] at h'
        exact absurd (by simp) (h' g (List.mem_reverse.2 h))
      · refine ⟨g', h'.symm ▸ rfl, ?_⟩
        have h1 := List.mem_reverse.1 (List.mem_of_find?_eq_some h')
        have h2 : g'.field = g.field := by simpa using List.find?_some h'
        rw [List.inj_on_of_nodup_map hl h1 h h2]
  have : ∀ f, lastValue gs f = lastValue gs' f := by
    intro f
    refine Option.ext fun v => ?_
    rw [key gs hn, key gs' ((hp.map _).nodup_iff.1 hn)]
    constructor <;> rintro ⟨g, h, h'⟩
    · exact ⟨g, hp.mem_iff.1 h, h'⟩
    · exact ⟨g, hp.mem_iff.2 h, h'⟩
  unfold argsOf
  simp only [this]

/-- **C111** A word without a dash that is not the value of an option is refused. -/
theorem c111_stray {gs gs' : List Given} (hg : ∀ g ∈ gs, g.Fine) (hg' : ∀ g ∈ gs', g.Fine) {w : Word} (hw : NoDash w) :
    readMain dig (w!"plot" :: line gs ++ w :: line gs') = .error .usage := by
  have h1 := classify_line (dig := dig) hg' (ws := []) rfl
  obtain ⟨k, h2⟩ := global_line (dig := dig) hg' (ws := []) ⟨_, rfl⟩
  rw [List.append_nil] at h1 h2
  rw [plot_line hg (classify_cons (noDash_ne hw) (parse_noDash hw) h1)
    ⟨_, classify_cons (noDash_ne hw) (parse_noDash hw) h2⟩]
  unfold plotWords
  rw [readWords]
  · change (match plotWords (argsOf gs) [w] _ with
      | .error e => Except.error e
      | .ok (_, a, ex) => if ex = [] then Except.ok (MainCall.plot a) else Except.error ArgStop.usage) = _
    rw [read_line]
    rfl
  · simp [kindOf]

/-- **C111** So `pygcd` does what the `plot` command does with these arguments. -/
theorem c111_effects {Path : Type} {path : Word → Path} {pf : List Char → Option ℝ} {env : ExampleEnv Path ℝ}
    {answers : List String} {gs : List Given} (hg : ∀ g ∈ gs, g.Fine) :
    mainCommand dig path pf env (w!"plot" :: line gs) answers =
      ((plotCommand pf env.toPlotEnv ((argsOf gs).toArgs path) answers).1,
        .plot (plotCommand pf env.toPlotEnv ((argsOf gs).toArgs path) answers).2) := by
  unfold mainCommand
  rw [c111_documented hg]

/-- A line in mixed spelling: `pygcd plot --out_dir=out -g a -lc=;L -g b`. -/
example : readMain Char.isDigit [w!"plot", w!"--out_dir=out", w!"-g", w!"a", w!"-lc=;L", w!"-g", w!"b"] =
    .ok (.plot { gcode := some w!"b", outDir := some w!"out", layerCue := some w!";L" }) :=
  c111_documented (dig := Char.isDigit) (gs := [⟨.outDir, true, true, w!"out"⟩, ⟨.gcode, false, false, w!"a"⟩,
    ⟨.layerCue, false, true, w!";L"⟩, ⟨.gcode, false, false, w!"b"⟩]) (by simp [Given.Fine, NoDash])

/-! ## C112 -/

/-- **C112** Only without any words nothing runs and the help is printed. -/
theorem c112_none {ws : List Word} : readMain dig ws = .ok .none ↔ ws = [] := by
  constructor
  · intro h
    rcases main_inv h with ⟨rfl, -⟩ | ⟨w, r, rfl, hr⟩
    · rfl
    · unfold readCommand at hr
      split_ifs at hr <;> split at hr <;> cases hr
  · rintro rfl
    rfl

/-- **C112** An example runs exactly if the line is `run_example` with its name, up to one `--`. -/
theorem c112_example {ws : List Word} {n : Word} : readMain dig ws = .ok (.runExample n) ↔
    (n = w!"brace" ∨ n = w!"benchy") ∧
      (ws = [w!"run_example", n] ∨ ws = [w!"run_example", w!"--", n] ∨ ws = [w!"run_example", n, w!"--"]) := by
  constructor
  · intro h
    rcases main_inv h with ⟨-, h⟩ | ⟨w, r, rfl, hr⟩
    · cases h
    · unfold readCommand at hr
      split_ifs at hr with hw hw'
      · split at hr
        · cases hr
        rename_i m ex hx
        cases hr
        obtain ⟨h1, h2⟩ := example_inv hx
        refine ⟨h1, ?_⟩
        rw [hw]
        rcases h2 with rfl | rfl | rfl
        · exact Or.inl rfl
        · exact Or.inr (Or.inl rfl)
        · exact Or.inr (Or.inr rfl)
      · split at hr <;> cases hr
  · rintro ⟨rfl | rfl, rfl | rfl | rfl⟩ <;> rfl

/-- **C112** The `plot` command runs only if the first word is `plot`, and every argument is then one of the other words
or the end of one. -/
theorem c112_plot {ws : List Word} {a : PlotWords} (h : readMain dig ws = .ok (.plot a)) :
    ∃ r, ws = w!"plot" :: r ∧
      ∀ v, (a.gcode = some v ∨ a.presets = some v ∨ a.printerName = some v ∨ a.outDir = some v ∨ a.layerCue = some v) →
        ∃ w ∈ r, v <:+ w := by
  rcases main_inv h with ⟨-, h⟩ | ⟨w, r, rfl, hr⟩
  · cases h
  · unfold readCommand at hr
    split_ifs at hr with hw hw'
    · split at hr <;> cases hr
    · split at hr
      · cases hr
      rename_i a' ex hx
      cases hr
      refine ⟨r, by rw [hw'], ?_⟩
      rintro v (h | h | h | h | h)
      · exact plot_values hx (f := .gcode) h
      · exact plot_values hx (f := .presets) h
      · exact plot_values hx (f := .printerName) h
      · exact plot_values hx (f := .outDir) h
      · exact plot_values hx (f := .layerCue) h

/-- **C112** A mistyped option is never ignored: nothing runs, wherever it is. -/
theorem c112_mistyped (hd : dig '-' = false) {ws : List Word} {w : Word} (hw : w ∈ ws) (hm : Mistyped dig w)
    (c : MainCall) : readMain dig (w!"plot" :: ws) ≠ .ok c := by
  obtain ⟨x, hx, hx0⟩ := mistyped_parse hd hm
  exact plot_refuses hw hx hx0 c

/-- **C112** So nothing is written or shown either. -/
theorem c112_untouched {Path : Type} {path : Word → Path} {pf : List Char → Option ℝ}
    {env : ExampleEnv Path ℝ} {answers : List String} (hd : dig '-' = false) {ws : List Word} {w : Word} (hw : w ∈ ws)
    (hm : Mistyped dig w) :
    ∃ s, mainCommand dig path pf env (w!"plot" :: ws) answers = ([], .stopped s) := by
  unfold mainCommand
  rcases h : readMain dig (w!"plot" :: ws) with e | c
  · exact ⟨e, rfl⟩
  · exact absurd h (c112_mistyped hd hw hm c)

/-- Mistyped words: `--gcodes=a`, `-x`. -/
example (c : MainCall) : readMain Char.isDigit [w!"plot", w!"-o", w!"out", w!"--gcodes=a"] ≠ .ok c :=
  c112_mistyped (by decide) (w := w!"--gcodes=a") (by simp)
    (.long w!"gcodes" w!"=a" (by simp) (by simp) (by simp) (by simp) (by decide)) c

example (c : MainCall) : readMain Char.isDigit [w!"plot", w!"-x", w!"-o", w!"out"] ≠ .ok c :=
  c112_mistyped (by decide) (w := w!"-x") (by simp)
    (.short 'x' [] [] (by decide) (by decide) (by simp) (by simp) (by simp) (by decide)) c

/-! ## C113 -/

/-- What the documentation of `argparse` suggests: a short option with its value in the same word is the same as in two
words. -/
def C113Full : Prop := ∀ (dig : Char → Bool) (gs gs' : List Given) (f : Field) (v : Word), (∀ g ∈ gs, g.Fine) →
  (∀ g ∈ gs', g.Fine) → v ≠ [] → NoDash v → v.head? ≠ some '=' →
  readMain dig (w!"plot" :: line gs ++ (f.short ++ v) :: line gs') =
    readMain dig (w!"plot" :: line gs ++ f.short :: v :: line gs')

/-- A word that gives the option `f` the value `v`. -/
theorem plot_word {gs gs' : List Given} (hg : ∀ g ∈ gs, g.Fine) (hg' : ∀ g ∈ gs', g.Fine) {w v : Word} {f : Field}
    {s j : Bool} (hw : w ≠ w!"--") (h : parseOptional dig plotTable w = .ok (some ⟨some f.opt, s, j, some v⟩))
    (hG : ∃ k, parseOptional dig globalTable w = .ok k) :
    readMain dig (w!"plot" :: line gs ++ w :: line gs') = .ok (.plot (argsOf (gs ++ ⟨f, false, true, v⟩ :: gs'))) := by
  have h1 := classify_line (dig := dig) hg' (ws := []) rfl
  obtain ⟨k, h2⟩ := global_line (dig := dig) hg' (ws := []) ⟨_, rfl⟩
  obtain ⟨k', hk'⟩ := hG
  rw [List.append_nil] at h1 h2
  rw [plot_line hg (classify_cons hw h h1) ⟨_, classify_cons hw hk' h2⟩]
  have : plotWords (argsOf gs) [] ((w, kindOf (some ⟨some f.opt, s, j, some v⟩)) :: (gs'.flatMap Given.kinds ++ [])) =
      plotWords (setField (argsOf gs) f (some v)) [] (gs'.flatMap Given.kinds ++ []) := by
    unfold plotWords kindOf
    rw [readWords]
    dsimp only [takeOption]
    rw [glued_value (by cases f <;> decide)]
    cases f <;> rfl
  rw [this, read_line, ← fold_args, ← fold_args, List.foldl_append]
  rfl

/-- A word that names the option `f`, followed by its value. -/
theorem plot_words {gs gs' : List Given} (hg : ∀ g ∈ gs, g.Fine) (hg' : ∀ g ∈ gs', g.Fine) {w v : Word} {f : Field}
    {s j : Bool} (hw : w ≠ w!"--") (h : parseOptional dig plotTable w = .ok (some ⟨some f.opt, s, j, none⟩))
    (hG : ∃ k, parseOptional dig globalTable w = .ok k) (hv : NoDash v) :
    readMain dig (w!"plot" :: line gs ++ w :: v :: line gs') =
      .ok (.plot (argsOf (gs ++ ⟨f, false, false, v⟩ :: gs'))) := by
  have h1 := classify_line (dig := dig) hg' (ws := []) rfl
  obtain ⟨k, h2⟩ := global_line (dig := dig) hg' (ws := []) ⟨_, rfl⟩
  obtain ⟨k', hk'⟩ := hG
  rw [List.append_nil] at h1 h2
  rw [plot_line hg (classify_cons hw h (classify_cons (noDash_ne hv) (parse_noDash hv) h1))
    ⟨_, classify_cons hw hk' (classify_cons (noDash_ne hv) (parse_noDash hv) h2)⟩]
  have : plotWords (argsOf gs) [] ((w, kindOf (some ⟨some f.opt, s, j, none⟩)) :: (v, kindOf none) ::
      (gs'.flatMap Given.kinds ++ [])) =
      plotWords (setField (argsOf gs) f (some v)) [] (gs'.flatMap Given.kinds ++ []) := by
    unfold plotWords kindOf
    rw [readWords]
    cases f <;> rfl
  rw [this, read_line, ← fold_args, ← fold_args, List.foldl_append]
  rfl

theorem parse_single {t : OptTable} {cs : Word} {x : OptWord} (h1 : t.lookup ('-' :: cs) = none)
    (h2 : t.lookup (splitEq ('-' :: cs)).1 = none) (h3 : optionTuples t ('-' :: cs) = [x]) :
    parseOptional dig t ('-' :: cs) = .ok (some x) := by
  unfold parseOptional
  rw [h1, h2, h3]
  generalize (splitEq ('-' :: cs)).2 = z
  dsimp only
  by_cases hc : cs = []
  · subst hc
    cases h3
  cases z <;> simp [hc]

theorem global_unknown {w : Word} (h1 : globalTable.lookup w = none) (h2 : globalTable.lookup (splitEq w).1 = none)
    (h3 : optionTuples globalTable w = []) : ∃ k, parseOptional dig globalTable w = .ok k := by
  obtain ⟨k, hk, -⟩ := parse_unknown (dig := dig) h1 h2 h3
  exact ⟨k, hk⟩

/-- **C113** The value may be in the same word for `-g`, `-o` and, unless it begins with `n`, `-p`. -/
theorem c113_glued_partial {gs gs' : List Given} (hg : ∀ g ∈ gs, g.Fine) (hg' : ∀ g ∈ gs', g.Fine) {f : Field}
    (hf : f = .gcode ∨ f = .outDir ∨ f = .presets) {c : Char} {v : Word} (hc : c ≠ '=')
    (hn : f = .presets → c ≠ 'n') :
    readMain dig (w!"plot" :: line gs ++ (f.short ++ c :: v) :: line gs') =
      .ok (.plot (argsOf (gs ++ ⟨f, false, true, c :: v⟩ :: gs'))) := by
  rcases hf with rfl | rfl | rfl
  · refine plot_word hg hg' (s := true) (j := false) (by simp [Field.short]) ?_ (global_unknown rfl rfl rfl)
    exact parse_single (by simp [plotTable, List.lookup]) (by simp [plotTable, List.lookup, splitEq, hc])
      (by simp [optionTuples, plotTable, isShort, Field.opt])
  · refine plot_word hg hg' (s := true) (j := false) (by simp [Field.short]) ?_ (global_unknown rfl rfl rfl)
    exact parse_single (by simp [plotTable, List.lookup]) (by simp [plotTable, List.lookup, splitEq, hc])
      (by simp [optionTuples, plotTable, isShort, Field.opt])
  · have hn := hn rfl
    have hn' : ('n' == c) = false := by simpa using hn.symm
    have hn'' : (c == 'n') = false := by simpa using hn
    refine plot_word hg hg' (s := true) (j := false) (by simp [Field.short]) ?_ (global_unknown rfl rfl rfl)
    exact parse_single (by simp [plotTable, List.lookup, hn', hn'']) (by simp [plotTable, List.lookup, splitEq, hc, hn', hn''])
      (by simp [optionTuples, plotTable, isShort, Field.opt, hn, hn.symm])

/-- **C113** But `-pnNAME` is read as `-p nNAME`: the name of the printer becomes the name of a presets file. -/
theorem c113_printer {gs gs' : List Given} (hg : ∀ g ∈ gs, g.Fine) (hg' : ∀ g ∈ gs', g.Fine) {c : Char} {v : Word}
    (hc : c ≠ '=') : readMain dig (w!"plot" :: line gs ++ (w!"-pn" ++ c :: v) :: line gs') =
      .ok (.plot (argsOf (gs ++ ⟨.presets, false, true, 'n' :: c :: v⟩ :: gs'))) := by
  refine plot_word hg hg' (s := true) (j := false) (by simp) ?_ (global_unknown rfl rfl rfl)
  exact parse_single (by simp [plotTable, List.lookup]) (by simp [plotTable, List.lookup, splitEq, hc])
    (by simp [optionTuples, plotTable, isShort, Field.opt])

/-- **C113** And `-lcCUE` is refused. -/
theorem c113_cue {gs gs' : List Given} (hg : ∀ g ∈ gs, g.Fine) (hg' : ∀ g ∈ gs', g.Fine) {c : Char} {v : Word}
    (hc : c ≠ '=') : readMain dig (w!"plot" :: line gs ++ (w!"-lc" ++ c :: v) :: line gs') = .error .usage := by
  have h1 := classify_line (dig := dig) hg' (ws := []) rfl
  obtain ⟨k, h2⟩ := global_line (dig := dig) hg' (ws := []) ⟨_, rfl⟩
  rw [List.append_nil] at h1 h2
  obtain ⟨k', hk'⟩ := global_unknown (dig := dig) (w := w!"-lc" ++ c :: v) rfl rfl rfl
  obtain ⟨x, hx, hx0⟩ := parse_unknown (dig := dig) (t := plotTable) (w := w!"-lc" ++ c :: v)
    (by simp [plotTable, List.lookup]) (by simp [plotTable, List.lookup, splitEq, hc]) (by simp [optionTuples, plotTable])
  rw [plot_line hg (classify_cons (by simp) hx h1) ⟨_, classify_cons (by simp) hk' h2⟩]
  have : plotWords (argsOf gs) [] ((w!"-lc" ++ c :: v, kindOf x) :: (gs'.flatMap Given.kinds ++ [])) =
      plotWords (argsOf gs) [w!"-lc" ++ c :: v] (gs'.flatMap Given.kinds ++ []) := by
    unfold plotWords
    cases x with
    | none =>
      rw [readWords]
      · rfl
      · simp [kindOf]
    | some x =>
      unfold kindOf
      rw [readWords, hx0 x rfl]
      rfl
  rw [this, read_line]
  rfl

/-- **C113** A long name may be abbreviated as long as it is the beginning of one name only; then the value follows, in
the same word after `=` or as the next word. -/
theorem c113_abbreviated {gs gs' : List Given} (hg : ∀ g ∈ gs, g.Fine) (hg' : ∀ g ∈ gs', g.Fine) {f : Field} {p v : Word}
    (hp : p <+: f.long) (hl : 3 ≤ p.length) (hu : ∀ n ∈ longNames, p <+: n → n = f.long) :
    readMain dig (w!"plot" :: line gs ++ (p ++ '=' :: v) :: line gs') =
      .ok (.plot (argsOf (gs ++ ⟨f, true, true, v⟩ :: gs'))) ∧
    (NoDash v → readMain dig (w!"plot" :: line gs ++ p :: v :: line gs') =
      .ok (.plot (argsOf (gs ++ ⟨f, true, false, v⟩ :: gs')))) := by
  have hpt : p = f.long.take p.length := List.prefix_iff_eq_take.1 hp
  have hle : p.length ≤ f.long.length := hp.length_le
  have key : ∀ n, 3 ≤ n → n ≤ f.long.length → p = f.long.take n →
      p ≠ w!"--" ∧ p ++ '=' :: v ≠ w!"--" ∧
      (∃ k, parseOptional dig globalTable p = .ok k) ∧ (∃ k, parseOptional dig globalTable (p ++ '=' :: v) = .ok k) ∧
      parseOptional dig plotTable p = .ok (some ⟨some f.opt, false, false, none⟩) ∧
      parseOptional dig plotTable (p ++ '=' :: v) = .ok (some ⟨some f.opt, false, true, some v⟩) := by
    intro n h3 hn hpn
    cases f <;> dsimp only [Field.long, List.length_cons, List.length_nil] at hn <;> interval_cases n <;>
      dsimp only [Field.long, List.take_succ_cons, List.take_zero] at hpn <;> subst hpn <;>
      first
      | exact absurd (hu w!"--presets" (by decide) (by decide)) (by decide)
      | exact absurd (hu w!"--printer_name" (by decide) (by decide)) (by decide)
      | exact ⟨by simp, by simp, global_unknown rfl rfl rfl, global_unknown rfl rfl rfl, rfl, rfl⟩
  obtain ⟨h1, h2, h3, h4, h5, h6⟩ := key _ hl hle hpt
  refine ⟨?_, fun hv => ?_⟩
  · have := plot_word hg hg' h2 h6 h4
    rw [this, ← fold_args, ← fold_args, List.foldl_append, List.foldl_append]
    rfl
  · have := plot_words hg hg' h1 h5 h3 hv
    rw [this, ← fold_args, ← fold_args, List.foldl_append, List.foldl_append]
    rfl

/-- **C113** `-l` is `-lc`. -/
theorem c113_short_cue {gs gs' : List Given} (hg : ∀ g ∈ gs, g.Fine) (hg' : ∀ g ∈ gs', g.Fine) {v : Word}
    (hv : NoDash v) : readMain dig (w!"plot" :: line gs ++ w!"-l" :: v :: line gs') =
      .ok (.plot (argsOf (gs ++ ⟨.layerCue, false, false, v⟩ :: gs'))) :=
  plot_words hg hg' (s := true) (j := false) (by simp) rfl (global_unknown rfl rfl rfl) hv

/-- **C113** `--p` and `--pr` could be two options and are refused. -/
theorem c113_ambiguous {gs gs' : List Given} (hg : ∀ g ∈ gs, g.Fine) (hg' : ∀ g ∈ gs', g.Fine) {p v : Word}
    (hp : p = w!"--p" ∨ p = w!"--pr") (hv : NoDash v) :
    readMain dig (w!"plot" :: line gs ++ p :: v :: line gs') = .error .usage := by
  obtain ⟨k, h2⟩ := global_line (dig := dig) hg' (ws := []) ⟨_, rfl⟩
  rw [List.append_nil] at h2
  have hG : ∃ k, parseOptional dig globalTable p = .ok k := by
    rcases hp with rfl | rfl <;> exact global_unknown rfl rfl rfl
  have hne : p ≠ w!"--" := by rcases hp with rfl | rfl <;> simp
  obtain ⟨k', hk'⟩ := hG
  obtain ⟨r, hr⟩ := global_line (dig := dig) hg
    ⟨_, classify_cons hne hk' (classify_cons (noDash_ne hv) (parse_noDash hv) h2)⟩
  rw [List.cons_append, main_plot hr]
  have herr : parseOptional dig plotTable p = .error .usage := by rcases hp with rfl | rfl <;> rfl
  have : ∀ {l : List Word}, (∀ g ∈ gs, g.Fine) →
      classify dig plotTable (line gs ++ p :: l) = .error .usage := by
    intro l hg
    clear hr
    induction gs with
    | nil =>
      unfold line classify
      rw [List.flatMap_nil, List.nil_append]
      dsimp only
      rw [if_neg hne, herr]
    | cons g gs ih =>
      rw [List.forall_mem_cons] at hg
      have ih := ih hg.2 hg.2
      unfold line at *
      rw [List.flatMap_cons, List.append_assoc]
      by_cases hj : g.joined = true
      · have hw : g.words = [g.name ++ '=' :: g.value] := by rw [Given.words, if_pos hj]
        rw [hw, List.singleton_append, classify, if_neg (name_ne g).2, parse_joined]
        dsimp only
        rw [ih]
      · have hw : g.words = [g.name, g.value] := by rw [Given.words, if_neg hj]
        rw [hw]
        have hv := hg.1 (by simpa using hj)
        rw [List.cons_append, List.singleton_append, classify, if_neg (name_ne g).1, parse_name, classify,
          if_neg (noDash_ne hv), parse_noDash hv]
        dsimp only
        rw [ih]
  unfold readPlot
  rw [this hg]

/-- **C113** A `-g` without a value at the end of the line takes back the file given before it. -/
theorem c113_no_file {gs : List Given} (hg : ∀ g ∈ gs, g.Fine) :
    readMain dig (w!"plot" :: line gs ++ [w!"-g"]) = .ok (.plot { argsOf gs with gcode := none }) := by
  rw [plot_line hg (r := [(w!"-g", .opt ⟨some .gcode, true, false, none⟩)]) rfl
    ⟨_, classify_cons (by simp) (global_unknown (w := w!"-g") rfl rfl rfl).choose_spec rfl⟩]
  rfl

/-- `pygcd plot -pnultimaker`. -/
example : readMain dig [w!"plot", w!"-pnultimaker"] = .ok (.plot { presets := some w!"nultimaker" }) :=
  c113_printer (gs := []) (gs' := []) (by simp) (by simp) (c := 'u') (v := w!"ltimaker") (by decide)

example : readMain dig [w!"plot", w!"--pre=a.yaml"] = .ok (.plot { presets := some w!"a.yaml" }) :=
  (c113_abbreviated (gs := []) (gs' := []) (f := .presets) (p := w!"--pre") (v := w!"a.yaml") (by simp) (by simp)
    (by decide) (by decide) (by decide)).1

theorem c113_refuted : ¬ C113Full := by
  intro h
  have h1 := h (fun _ => false) [] [] .printerName w!"a" (by simp) (by simp) (by simp) (by simp [NoDash]) (by simp)
  revert h1
  decide

end PyGCD
