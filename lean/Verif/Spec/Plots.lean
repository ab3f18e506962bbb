import Verif.Model.Plot
import Verif.Spec.Setups

/-!
# Specification vocabulary for the `plot` command
-/

namespace PyGCD.Spec
open PyGCD

variable {Path : Type}

/-- The place in the file system that an effect touches. -/
def touched : PlotEffect Path ℝ → Option Path
  | .mkdir p => some p
  | .summary p _ _ => some p
  | .layers p _ => some p
  | .events p _ => some p
  | .vtk p _ => some p
  | .screenshot p _ => some p
  | .window _ => none

/-- The names of the files that belong to a G-code file. -/
def outputNames (stem : String) : List String :=
  [stem ++ "_summary.yaml", stem ++ "_layer_metrics.csv", stem ++ ".png", stem ++ ".vtk"]

/-- A layer cue is known: it was given, or the presets have one for the printer. -/
def CueKnown (presets : Dict (Dict (SVal ℝ))) (printer : String) (cue : Option String) : Prop :=
  cue ≠ none ∨ ∃ d v, presets.lookup printer = some d ∧ d.lookup "layer_cue" = some v

end PyGCD.Spec
