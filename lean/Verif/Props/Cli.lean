import Mathlib.Tactic.Tauto
import Verif.Model.Cli

/-!
# Property C48: the command line
-/

namespace PyGCD

/-- An answer to the question about the output directory. -/
def Spec.Accepted (a : String) : Prop := a.toLower ∈ ["y", "yes", "n", "no"]

/-- The answer means yes. -/
def Spec.MeansYes (a : String) : Prop := a.toLower ∈ ["y", "yes"]

open Spec

variable {Path : Type}

theorem isNo_iff (a : String) : isNo a = true ↔ a.toLower ∈ ["n", "no"] := by
  simp [isNo]

theorem isYes_iff (a : String) : isYes a = true ↔ MeansYes a := by
  simp [isYes, MeansYes]

/-- **C48, G-code file.** A given file is used if it exists, otherwise the command exits. Without one it uses
the only `*.gcode` file of the directory, and exits if there is none or several. -/
theorem c48_gcode_file (env : CliEnv Path) :
    (∀ p, env.isFile p = true → findGcodeFile env (some p) = .ok p) ∧
    (∀ p, env.isFile p = false → findGcodeFile env (some p) = .error .exit) ∧
    (∀ p, env.cwdGcodes = [p] → findGcodeFile env none = .ok p) ∧
    (env.cwdGcodes.length ≠ 1 → findGcodeFile env none = .error .exit) := by
  refine ⟨?_, ?_, ?_, ?_⟩
  · intro p h
    simp [findGcodeFile, h]
  · intro p h
    simp [findGcodeFile, h]
  · intro p h
    simp [findGcodeFile, h]
  · intro h
    match hl : env.cwdGcodes, h with
    | [], _ => simp [findGcodeFile, hl]
    | [_], h => simp at h
    | _ :: _ :: _, _ => simp [findGcodeFile, hl]

theorem askLoop_skip (pre rest : List String) (h : ∀ a ∈ pre, ¬ Accepted a) :
    askLoop (pre ++ rest) = askLoop rest := by
  induction pre with
  | nil => rfl
  | cons a pre ih =>
    have ha := h a (by simp)
    have h1 : isNo a = false := by
      rw [← Bool.not_eq_true, isNo_iff]
      intro hc
      exact ha (by simp only [List.mem_cons, List.not_mem_nil, or_false, Accepted] at hc ⊢; tauto)
    have h2 : isYes a = false := by
      rw [← Bool.not_eq_true, isYes_iff]
      intro hc
      exact ha (by simp only [List.mem_cons, List.not_mem_nil, or_false, MeansYes, Accepted] at hc ⊢; tauto)
    rw [List.cons_append, askLoop, h1, h2]
    exact ih fun b hb => h b (by simp [hb])

/-- **C48, output directory.** A given directory is used without asking. Otherwise the question is repeated
until an answer is yes or no (in any case): the first such answer decides, all answers before it are ignored,
and if there is none the question is still open when the input ends. -/
theorem c48_out_dir (env : CliEnv Path) (g : Path) :
    (∀ o answers, getOutDir env (some o) g answers = .ok (some o)) ∧
    (∀ pre a post, (∀ b ∈ pre, ¬ Accepted b) → MeansYes a →
      getOutDir env none g (pre ++ a :: post) = .ok (some (env.outDirFor g))) ∧
    (∀ pre a post, (∀ b ∈ pre, ¬ Accepted b) → Accepted a → ¬ MeansYes a →
      getOutDir env none g (pre ++ a :: post) = .ok none) ∧
    (∀ answers, (∀ b ∈ answers, ¬ Accepted b) → getOutDir env none g answers = .error .eof) := by
  refine ⟨fun _ _ => rfl, ?_, ?_, ?_⟩
  · intro pre a post hpre ha
    have h1 : isNo a = false := by
      rw [← Bool.not_eq_true, isNo_iff]
      intro hc
      unfold MeansYes at ha
      simp only [List.mem_cons, List.not_mem_nil, or_false] at hc ha
      rcases hc with hc | hc <;> rw [hc] at ha <;> simp at ha
    unfold getOutDir
    simp only [askLoop_skip pre _ hpre, askLoop, h1, (isYes_iff a).2 ha, bind, Except.bind]
    rfl
  · intro pre a post hpre ha hn
    have h1 : isNo a = true := by
      rw [isNo_iff]
      unfold MeansYes at hn
      unfold Accepted at ha
      simp only [List.mem_cons, List.not_mem_nil, or_false] at *
      tauto
    unfold getOutDir
    simp only [askLoop_skip pre _ hpre, askLoop, h1, bind, Except.bind]
    rfl
  · intro answers h
    have := askLoop_skip answers [] h
    rw [List.append_nil] at this
    unfold getOutDir
    simp only [this, askLoop, bind, Except.bind]

/-- **C48, presets and printer.** Given presets must exist; without them the shipped ones are used. Without a
name the printer is `anisoprint_a4`. The whole resolution succeeds exactly with the three parts. -/
theorem c48_resolution (env : CliEnv Path) (args : CliArgs Path) (answers : List String) :
    (∀ r, resolveCli env args answers = .ok r ↔
      findGcodeFile env args.gcode = .ok r.gcode ∧ getOutDir env args.outDir r.gcode answers = .ok r.outDir ∧
      (args.presets = none ∧ r.presets = env.defaultPresets ∨
        args.presets = some r.presets ∧ env.isFile r.presets = true) ∧
      r.printer = match args.printerName with | some n => n | none => "anisoprint_a4") ∧
    (∀ p, args.presets = some p → env.isFile p = false → ∀ g o, findGcodeFile env args.gcode = .ok g →
      getOutDir env args.outDir g answers = .ok o → resolveCli env args answers = .error .exit) := by
  have hp : ∀ p, getPresetsFile env args.presets = .ok p ↔ args.presets = none ∧ p = env.defaultPresets ∨
      args.presets = some p ∧ env.isFile p = true := by
    intro p
    unfold getPresetsFile
    cases args.presets with
    | none =>
      simp only [Except.ok.injEq, reduceCtorEq, false_and, or_false, true_and]
      exact eq_comm
    | some q =>
      simp only
      by_cases hq : env.isFile q = true
      · rw [if_pos hq]
        simp only [Except.ok.injEq, reduceCtorEq, false_and, Option.some.injEq, false_or]
        constructor
        · rintro rfl; exact ⟨rfl, hq⟩
        · exact fun h => h.1
      · rw [if_neg hq]
        simp only [reduceCtorEq, false_and, Option.some.injEq, false_or, false_iff]
        rintro ⟨rfl, h⟩
        exact hq h
  have hn : ∀ n : Option String, n.getD "anisoprint_a4" = match n with | some n => n | none => "anisoprint_a4" := by
    intro n
    cases n <;> rfl
  constructor
  · intro r
    unfold resolveCli
    rw [hn]
    cases hg : findGcodeFile env args.gcode with
    | error e => simp [bind, Except.bind]
    | ok g =>
      simp only [bind, Except.bind]
      cases ho : getOutDir env args.outDir g answers with
      | error e =>
        simp only [reduceCtorEq, false_iff, not_and]
        intro h1 h2
        rw [Except.ok.injEq] at h1
        subst h1
        rw [ho] at h2
        cases h2
      | ok o =>
        simp only
        rw [← hp]
        cases hpr : getPresetsFile env args.presets with
        | error e => simp
        | ok p =>
          simp only [Except.ok.injEq]
          constructor
          · rintro rfl
            exact ⟨rfl, ho, rfl, rfl⟩
          · rintro ⟨h1, h2, h3, h4⟩
            subst h1
            rw [ho, Except.ok.injEq] at h2
            rw [h2, h3, ← h4]
  · intro p h1 h2 g o h3 h4
    unfold resolveCli
    simp [h3, h4, getPresetsFile, h1, h2, bind, Except.bind]

/-- A wrong answer, then `YES`. -/
example (env : CliEnv String) : getOutDir env none "a.gcode" ["maybe", "YES", "no"] =
    .ok (some (env.outDirFor "a.gcode")) :=
  (c48_out_dir env "a.gcode").2.1 ["maybe"] "YES" ["no"] (by
    simp only [List.mem_singleton, forall_eq, Accepted]
    decide +kernel) (by unfold MeansYes; decide +kernel)

end PyGCD
