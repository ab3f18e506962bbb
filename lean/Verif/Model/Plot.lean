import Verif.Model.Cli
import Verif.Model.Session
import Verif.Model.Output

/-!
# The `plot` command

Models `/repo/pyGCodeDecode/cli.py` lines 88-133 and the effects of `save_summary`, `save_layer_metrics` and
`plot_3d` on the file system and the screen. What a file contains is given by the values written, not by its
bytes. The file system accepts every write.
-/

namespace PyGCD

/-- The arguments of the `plot` command (cli.py:168-213) with the layer cue. -/
structure PlotArgs (Path : Type) extends CliArgs Path where
  layerCue : Option String

/-- What the command sees of the world: besides `CliEnv`, the decoded text of a file, the content of a presets
file, the path of a file in a directory, the name of a file without suffix, whether a display is available
(gcode_interpreter.py:423-426) and whether the locale `en_US.utf8` is installed (cli.py:121). -/
structure PlotEnv (Path K : Type) extends CliEnv Path where
  text : Path → List Char
  presetsIn : Path → Dict (Dict (SVal K))
  inDir : Path → String → Path
  stem : Path → String
  display : Bool
  localeInstalled : Bool

/-- What a user can observe. -/
inductive PlotEffect (Path K : Type) where
  | mkdir (dir : Path)
  | summary (file : Path) (gcode : Path) (s : Summary K)
  | layers (file : Path) (rows : List (LayerRow K))
  | events (file : Path) (rows : List (EventRow K))
  | vtk (file : Path) (lines : List (List (Vertex K)))
  | screenshot (file : Path) (lines : List (List (Vertex K)))
  | window (lines : List (List (Vertex K)))

/-- How the command ends: regularly, by `exit()` or the end of the input, with an exception of the library, or
with the `locale.Error` of `locale.setlocale` (tools.py:37-40). -/
inductive PlotEnd where
  | done
  | stop (s : CliStop)
  | raised (e : PyErr)
  | localeError
  deriving DecidableEq, Repr

section
variable {Path K : Type} [Add K] [Sub K] [Mul K] [Div K] [Neg K] [LT K] [LE K] [DecidableLT K]
  [DecidableLE K] [DecidableEq K] [OfNat K 0] [OfNat K 1] [OfNat K 2] [OfNat K 4] [OfNat K 10] [OfNat K 18]
  [OfNat K 30] [OfNat K 33] [OfNat K 35] [OfNat K 60] [OfNat K 180] [OfNat K 200] [OfNat K 1000]
  [OfScientific K] [PyMath K]

/-- gcode_interpreter.py:422-455: what `plot_3d` does with the poly-lines. What PyVista does without any
poly-line is not modelled (here: an empty picture). -/
def plot3dEffects (display : Bool) (shot vtk : Option Path) (lines : List (List (Vertex K))) :
    List (PlotEffect Path K) :=
  (match vtk with
    | some p => [.vtk p lines]
    | none => []) ++
  (match shot with
    | some p => if display then [.screenshot p lines] else []
    | none => if display then [.window lines] else [])

/-- tools.py:33: `"layer_cue" in simulation.initial_machine_setup`. -/
def Session.hasCue (s : Session K) : Bool :=
  match s.setup.presets.lookup s.printer with
  | some d => (d.lookup "layer_cue").isSome
  | none => false

/-- cli.py:112-130: the outputs of a finished simulation in the directory `dir`. The interactive plot of line 133
reuses the mesh. -/
def saveOutputs (env : PlotEnv Path K) (gcode dir : Path) (sim : Session K) :
    List (PlotEffect Path K) × PlotEnd :=
  let lines := plot3dLines sim.blocks true
  match saveSummary sim.blocks sim.own with
  | .error e => ([.mkdir dir], .raised e)
  | .ok sm =>
    let saved := [.mkdir dir, .summary (env.inDir dir (env.stem gcode ++ "_summary.yaml")) gcode sm]
    if sim.hasCue && !env.localeInstalled then (saved, .localeError)
    else
      match saveLayerMetrics sim.hasCue sim.blocks with
      | .error e => (saved, .raised e)
      | .ok rows =>
        (saved ++
          (match rows with
            | some rows => [.layers (env.inDir dir (env.stem gcode ++ "_layer_metrics.csv")) rows]
            | none => []) ++
          plot3dEffects env.display (some (env.inDir dir (env.stem gcode ++ ".png")))
            (some (env.inDir dir (env.stem gcode ++ ".vtk"))) lines ++
          plot3dEffects env.display none none lines, .done)

/-- cli.py:23-133 `_plot`. -/
def plotCommand (pf : List Char → Option K) (env : PlotEnv Path K) (args : PlotArgs Path)
    (answers : List String) : List (PlotEffect Path K) × PlotEnd :=
  match resolveCli env.toCliEnv args.toCliArgs answers with
  | .error s => ([], .stop s)
  | .ok r =>
    match Setup.create (env.presetsIn r.presets) (some r.printer) args.layerCue with
    | .error e => ([], .raised e)
    | .ok setup =>
      match Session.create pf [] (env.text r.gcode) none (some setup) "SImm" with
      | .error e => ([], .raised e)
      | .ok sim =>
        match r.outDir with
        | none => (plot3dEffects env.display none none (plot3dLines sim.blocks true), .done)
        | some dir => saveOutputs env r.gcode dir sim

end
end PyGCD
