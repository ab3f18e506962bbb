import Verif.Model.Output
import Verif.Model.Double

/-!
# Text files

Models what `generate_abaqus_event_series` (`/repo/pyGCodeDecode/abaqus_file_generator.py`) and `save_layer_metrics`
(`/repo/pyGCodeDecode/tools.py`) write, and the dictionary that `write_submodel_times` dumps.

`num` is the text of a number (`str` of a `float`), `round8` is `round(·, 8)`. Simplifications: one text per number,
whereas Python writes the integer `0` as `0` and the float `0.0` as `0.0`; file system errors and encodings are left out;
a delimiter with `%`, which `numpy.savetxt` would take as a format, is not treated specially. The `locale` argument of
`save_layer_metrics` does not occur: `%s` does not use locales.
-/

namespace PyGCD

/-- The decimal digits of a natural number (`str` of an `int`). -/
def natText (n : Nat) : List Char := Nat.toDigits 10 n

section
variable {K : Type} [Add K] [Sub K] [Mul K] [Div K] [Neg K] [LT K] [LE K] [DecidableLT K]
  [DecidableLE K] [DecidableEq K] [OfNat K 0] [OfNat K 1] [OfNat K 2] [OfScientific K] [PyMath K]

/-- abaqus_file_generator.py:67-69: the line of a row. -/
def eventLine (num : K → List Char) (round8 : K → K) (r : EventRow K) : List Char :=
  num r.t ++ [','] ++ num (round8 r.x) ++ [','] ++ num (round8 r.y) ++ [','] ++ num (round8 r.z) ++ [','] ++
    natText r.flag ++ ['\n']

/-- abaqus_file_generator.py:23-74 with the content of the file. If something raises, no file has been opened. -/
def writeEvents (num : K → List Char) (round8 : K → K) (bs : List (Block K)) (own : String) (u : Option String)
    (tol : K) : Except PyErr (List (EventRow K) × List Char) := do
  let rows ← abaqusEvents bs own u tol
  .ok (rows, rows.flatMap (eventLine num round8))

/-- tools.py:84. -/
def layerHeader (delim : List Char) : List Char :=
  "layer".toList ++ delim ++ " layer time in s".toList ++ delim ++ " travel distance in mm".toList ++ delim ++
    " avg speed in mm/s".toList

/-- tools.py:85-93: the line of a row, as `numpy.savetxt` joins the cells. -/
def layerLine (num : K → List Char) (delim : List Char) (r : LayerRow K) : List Char :=
  let sep := delim ++ [' ']
  natText r.layer ++ sep ++ num r.duration ++ sep ++ num r.travel ++ sep ++
    (match r.avg with
      | none => "NaN".toList
      | some v => num v) ++ ['\n']

/-- tools.py:14-97 `save_layer_metrics`: the returned lists and, if a path is given, the content of the file. -/
def writeLayerMetrics (num : K → List Char) (delim : List Char) (path hasCue : Bool) (bs : List (Block K)) :
    Except PyErr (Option (List (LayerRow K)) × Option (List Char)) := do
  let r ← saveLayerMetrics hasCue bs
  match r with
  | none => .ok (none, none)
  | some rows =>
    .ok (some rows, if path then some (layerHeader delim ++ ['\n'] ++ rows.flatMap (layerLine num delim)) else none)

/-- An entry of the dictionary of `write_submodel_times`: what the caller added, or a result. -/
inductive SubEntry (V K : Type) where
  | extra (v : V)
  | time (t : K)
  | count (n : Nat)
  | times (l : List K)

/-- `{**d, k: v}`: the entry is replaced in place, or appended. -/
def withEntry {V : Type} : List (String × V) → String → V → List (String × V)
  | [], k, v => [(k, v)]
  | (k', v') :: d, k, v => if k' = k then (k, v) :: d else (k', v') :: withEntry d k v

/-- tools.py:261-267: the dictionary that is returned and dumped. -/
def submodelDict {V : Type} (kwargs : List (String × V)) (r : SubmodelTimes K) : List (String × SubEntry V K) :=
  withEntry (withEntry (withEntry (withEntry (kwargs.map fun kv => (kv.1, SubEntry.extra kv.2)) "time_process"
    (.time r.timeProcess)) "n_filaments" (.count r.nFilaments)) "time_in" (.times r.timeIn)) "time_out" (.times r.timeOut)

/-- tools.py:100-273 `write_submodel_times` with the extra entries. -/
def writeSubmodel {V : Type} (kwargs : List (String × V)) (c : Box K) (bs : List (Block K)) :
    Except PyErr (List (String × SubEntry V K)) :=
  (submodelTimes c bs).map (submodelDict kwargs)

end

/-- `round(x, 8)` of a Python `float`: the double nearest to the nearest multiple of `1e-8`, ties to even. -/
def round8Py (x : Dbl) : Dbl := ⟨rnd ((roundEven (x.val * 100000000) : Rat) / 100000000)⟩

/-- `round(x, 8)` of a numpy `float64`: `rint(x * 1e8) / 1e8`. -/
def round8Np (x : Dbl) : Dbl := (⟨(roundEven (x * (100000000 : Dbl)).val : Rat)⟩ : Dbl) / (100000000 : Dbl)

end PyGCD
