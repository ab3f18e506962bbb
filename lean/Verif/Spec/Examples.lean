import Verif.Model.Examples
import Verif.Model.Presets
import Verif.Spec.Plots
import Verif.Spec.Shipped
import Verif.Spec.Runnable

/-!
# Specification vocabulary for the examples
-/

namespace PyGCD.Spec
open PyGCD

variable {Path : Type}

/-- The package is installed: both files with presets are those that come with it. (They are equal.) -/
structure Installed (env : ExampleEnv Path ℝ) : Prop where
  default : env.presetsIn env.defaultPresets = shippedPresets fun v : ℚ => (v : ℝ)
  data : env.presetsIn (env.exampleData "printer_presets.yaml") = shippedPresets fun v : ℚ => (v : ℝ)

/-- The files that the benchy example announces. -/
def benchyNames : List String :=
  ["benchy.png", "benchy.vtk", "benchy_summary.yaml", "benchy_layer_metrics.csv", "benchy_prusa_mini_event_series.csv"]

/-- The printer of the brace example. -/
def aniso : Stock := ⟨"anisoprint_a4", 35, 1000, 10, .mka⟩

/-- The printer of the benchy example. -/
def mini : Stock := ⟨"prusa_mini", 35, 1250, 8, .marlinJerk⟩

/-- Some line makes the printer push filament, at a feedrate that is not zero. -/
def PushesFilament (pf : List Char → Option ℝ) (q : Printer) (ls : List Line) : Prop :=
  ∃ pre l post, ls = pre ++ l :: post ∧ (q.after pf pre).place .E < ((q.after pf pre).exec pf l).place .E ∧
    0 < ((q.after pf pre).exec pf l).feed

/-- No command can begin in this text. -/
def NoCommands (content : List Char) : Prop := ∀ c ∈ content, c ≠ 'G' ∧ c ≠ 'M' ∧ c ≠ ';'

/-- What `examples/data/benchy.gcode` of the pinned commit contains: the name of a file that is stored elsewhere. -/
def benchyPointer : List Char :=
  ("version https://git-lfs.github.com/spec/v1\noid sha256:" ++
    "5f7799ab4b39630aa1b5c869672399c7cb5c5b2a158cd4a9204334495b64514d\nsize 5175490\n").toList

/-- What `examples/data/brace.gcode` of the pinned commit contains. -/
def bracePointer : List Char :=
  ("version https://git-lfs.github.com/spec/v1\noid sha256:" ++
    "6e855d483b541f0c131f372ff69f896986da36f8f0d6cda1dad90caaaeb4cfb3\nsize 9838338\n").toList

end PyGCD.Spec
