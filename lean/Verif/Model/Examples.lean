import Verif.Model.Plot

/-!
# The examples

Models `/repo/pyGCodeDecode/examples/brace.py` lines 8-22, `/repo/pyGCodeDecode/examples/benchy.py` lines 11-78 and
`/repo/pyGCodeDecode/cli.py` lines 15-20, with the effects of `Model/Plot`. The texts that are printed are not modelled.
-/

namespace PyGCD

/-- What the examples see of the world: besides `PlotEnv`, the files in `examples/data` of the package (brace.py:16,
benchy.py:14) and the directories in the current working directory (benchy.py:15). -/
structure ExampleEnv (Path K : Type) extends PlotEnv Path K where
  exampleData : String → Path
  cwdDir : String → Path

section
variable {Path K : Type} [Add K] [Sub K] [Mul K] [Div K] [Neg K] [LT K] [LE K] [DecidableLT K]
  [DecidableLE K] [DecidableEq K] [OfNat K 0] [OfNat K 1] [OfNat K 2] [OfNat K 4] [OfNat K 10] [OfNat K 18]
  [OfNat K 30] [OfNat K 33] [OfNat K 35] [OfNat K 60] [OfNat K 180] [OfNat K 200] [OfNat K 1000]
  [OfScientific K] [PyMath K]

/-- examples/brace.py:8-22 `brace_example`. -/
def braceExample (pf : List Char → Option K) (env : ExampleEnv Path K) : List (PlotEffect Path K) × PlotEnd :=
  match Session.create pf (env.presetsIn env.defaultPresets) (env.text (env.exampleData "brace.gcode"))
      (some "anisoprint_a4") none "SImm" with
  | .error e => ([], .raised e)
  | .ok sim => (plot3dEffects env.display none none (plot3dLines sim.blocks true), .done)

/-- examples/benchy.py:50-78: the outputs of the finished simulation in the directory `dir`, which `save_summary` makes
(gcode_interpreter.py:774-775) after the summary is computed. -/
def benchyOutputs (env : ExampleEnv Path K) (dir : Path) (sim : Session K) : List (PlotEffect Path K) × PlotEnd :=
  let lines := plot3dLines sim.blocks true
  match saveSummary sim.blocks sim.own with
  | .error e => ([], .raised e)
  | .ok sm =>
    let saved := [.mkdir dir, .summary (env.inDir dir "benchy_summary.yaml") (env.exampleData "benchy.gcode") sm]
    if sim.hasCue && !env.localeInstalled then (saved, .localeError)
    else
      match saveLayerMetrics sim.hasCue sim.blocks with
      | .error e => (saved, .raised e)
      | .ok rows =>
        let saved := saved ++
          (match rows with
            | some rows => [.layers (env.inDir dir "benchy_layer_metrics.csv") rows]
            | none => [])
        match abaqusEvents sim.blocks sim.own (some "SImm") 1.0e-12 with
        | .error e => (saved, .raised e)
        | .ok events =>
          (saved ++ [.events (env.inDir dir "benchy_prusa_mini_event_series.csv") events] ++
            plot3dEffects env.display (some (env.inDir dir "benchy.png")) (some (env.inDir dir "benchy.vtk")) lines ++
            plot3dEffects env.display none none lines, .done)

/-- examples/benchy.py:11-78 `benchy_example`. -/
def benchyExample (pf : List Char → Option K) (env : ExampleEnv Path K) : List (PlotEffect Path K) × PlotEnd :=
  match Setup.create (env.presetsIn (env.exampleData "printer_presets.yaml")) (some "prusa_mini")
      (some "LAYER_CHANGE") with
  | .error e => ([], .raised e)
  | .ok setup =>
    match setup.setInitialPosition (.dict [("X", 0), ("Y", 0), ("Z", 0), ("E", 0)]) (some "SImm") with
    | .error e => ([], .raised e)
    | .ok setup =>
      match Session.create pf (env.presetsIn env.defaultPresets) (env.text (env.exampleData "benchy.gcode")) none
          (some setup) "SImm" with
      | .error e => ([], .raised e)
      | .ok sim => benchyOutputs env (env.cwdDir "output_benchy_example") sim

/-- cli.py:15-20 `_run_example`. -/
def runExample (pf : List Char → Option K) (env : ExampleEnv Path K) (name : String) :
    List (PlotEffect Path K) × PlotEnd :=
  if name = "brace" then braceExample pf env
  else if name = "benchy" then benchyExample pf env
  else ([], .done)

end
end PyGCD
