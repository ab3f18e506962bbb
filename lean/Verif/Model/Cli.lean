import Verif.Model.Basic

/-!
# Input resolution of the command line interface

Models `/repo/pyGCodeDecode/cli.py` lines 26-97. The file system is given by a predicate and a
directory listing, the user's answers by a list.
-/

namespace PyGCD

/-- How the resolution can stop: `exit()`, or `EOFError` when the user gives no more answers. -/
inductive CliStop where
  | exit | eof
  deriving DecidableEq, Repr

/-- What the resolution sees of the world. -/
structure CliEnv (Path : Type) where
  isFile : Path → Bool
  cwdGcodes : List Path
  defaultPresets : Path
  outDirFor : Path → Path

variable {Path : Type}

/-- cli.py:26-51 `_find_gcode_file`. -/
def findGcodeFile (env : CliEnv Path) (specified : Option Path) : Except CliStop Path :=
  match specified with
  | some p => if env.isFile p then .ok p else .error .exit
  | none =>
    match env.cwdGcodes with
    | [] => .error .exit
    | [p] => .ok p
    | _ => .error .exit

/-- cli.py:53-66 `_get_presets_file`. -/
def getPresetsFile (env : CliEnv Path) (presets : Option Path) : Except CliStop Path :=
  match presets with
  | none => .ok env.defaultPresets
  | some p => if env.isFile p then .ok p else .error .exit

/-- cli.py:79, 81: the two kinds of accepted answers. -/
def isNo (a : String) : Bool := a.toLower = "n" || a.toLower = "no"
/-- cli.py:81. -/
def isYes (a : String) : Bool := a.toLower = "y" || a.toLower = "yes"

/-- cli.py:71-83: ask until there is an answer. Returns the decision and the unread answers. -/
def askLoop : List String → Except CliStop (Bool × List String)
  | [] => .error .eof
  | a :: as => if isNo a then .ok (false, as) else if isYes a then .ok (true, as) else askLoop as

/-- cli.py:68-86 `_get_out_dir`. `none` means: no outputs. -/
def getOutDir (env : CliEnv Path) (out : Option Path) (gcode : Path) (answers : List String) :
    Except CliStop (Option Path) :=
  match out with
  | some o => .ok (some o)
  | none => do
    let r ← askLoop answers
    .ok (if r.1 then some (env.outDirFor gcode) else none)

/-- The arguments of the `plot` command (cli.py:168-213). -/
structure CliArgs (Path : Type) where
  gcode : Option Path
  presets : Option Path
  printerName : Option String
  outDir : Option Path

/-- What `_plot` works with after resolution. -/
structure CliResolved (Path : Type) where
  gcode : Path
  outDir : Option Path
  presets : Path
  printer : String
  deriving DecidableEq, Repr

/-- cli.py:88-97. -/
def resolveCli (env : CliEnv Path) (args : CliArgs Path) (answers : List String) :
    Except CliStop (CliResolved Path) := do
  let g ← findGcodeFile env args.gcode
  let o ← getOutDir env args.outDir g answers
  let p ← getPresetsFile env args.presets
  .ok ⟨g, o, p, args.printerName.getD "anisoprint_a4"⟩

end PyGCD
