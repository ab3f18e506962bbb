import Verif.Model.Args

/-!
# Documented command lines
-/

namespace PyGCD.Spec
open PyGCD

/-- The options of `pygcd plot` that carry a value, by their documented names. -/
inductive Field where
  | gcode | presets | printerName | outDir | layerCue
  deriving DecidableEq, Repr

def Field.short : Field → Word
  | .gcode => w!"-g"
  | .presets => w!"-p"
  | .printerName => w!"-pn"
  | .outDir => w!"-o"
  | .layerCue => w!"-lc"

def Field.long : Field → Word
  | .gcode => w!"--gcode"
  | .presets => w!"--presets"
  | .printerName => w!"--printer_name"
  | .outDir => w!"--out_dir"
  | .layerCue => w!"--layer_cue"

/-- An option given with a value: by its long or short name, joined by `=` or as two words. -/
structure Given where
  field : Field
  long : Bool
  joined : Bool
  value : Word

def Given.name (g : Given) : Word := if g.long then g.field.long else g.field.short

/-- The words that give it. -/
def Given.words (g : Given) : List Word :=
  if g.joined then [g.name ++ '=' :: g.value] else [g.name, g.value]

/-- The word does not begin with a dash. -/
def NoDash (w : Word) : Prop := w.head? ≠ some '-'

/-- A value of its own must not begin with a dash. -/
def Given.Fine (g : Given) : Prop := g.joined = false → NoDash g.value

/-- The value given last for an option. -/
def lastValue (gs : List Given) (f : Field) : Option Word :=
  (gs.reverse.find? fun g => g.field = f).map Given.value

/-- The arguments that a line gives. -/
def argsOf (gs : List Given) : PlotWords :=
  { gcode := lastValue gs .gcode, presets := lastValue gs .presets, printerName := lastValue gs .printerName,
    outDir := lastValue gs .outDir, layerCue := lastValue gs .layerCue }

/-- The words of a line. -/
def line (gs : List Given) : List Word := gs.flatMap Given.words

/-- The long names of `pygcd plot`. -/
def longNames : List Word :=
  [w!"--help", w!"--gcode", w!"--presets", w!"--printer_name", w!"--out_dir", w!"--layer_cue"]

/-- The word begins with a dash, but not with the name of an option of `pygcd plot`: it has two dashes and is, up to a
first `=`, not the beginning of a long name, or it has one dash, and neither one of the letters of the short names of one
letter nor a digit or a dot follows, and it is, up to a first `=`, not the beginning of `-lc`. Words with a space are
left out. -/
inductive Mistyped (dig : Char → Bool) : Word → Prop
  | long (p tail : Word) : p ≠ [] → '=' ∉ p → tail.head?.all (· = '=') → ' ' ∉ p ++ tail →
      (∀ n ∈ longNames, ¬ w!"--" ++ p <+: n) → Mistyped dig (w!"--" ++ p ++ tail)
  | short (c : Char) (p tail : Word) : c ∉ w!"-hgpo.=" → dig c = false → '=' ∉ p → tail.head?.all (· = '=') →
      ' ' ∉ c :: p ++ tail → ¬ c :: p <+: w!"lc" → Mistyped dig ('-' :: c :: p ++ tail)

end PyGCD.Spec
