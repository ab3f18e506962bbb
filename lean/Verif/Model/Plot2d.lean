import Verif.Model.Sim

/-!
# The 2D plot

Models `/repo/pyGCodeDecode/gcode_interpreter.py` lines 242-354, `plot_2d_position`: what is handed to
matplotlib. How matplotlib turns lines and numbers into pixels is not modelled.
-/

namespace PyGCD

/-- `int(np.ceil(x))` of a number that is not negative, and the conversion of an integer to a float. -/
class PyGrid (K : Type) where
  ceilNat : K → Nat
  natCast : Nat → K

instance : PyGrid Float where
  ceilNat x := x.ceil.toUInt64.toNat
  natCast n := Float.ofNat n

/-- A point of the plot with the value of the colour variable. -/
structure Dot (K : Type) where
  x : K
  y : K
  c : K
  deriving DecidableEq, Repr

/-- The collection of lines (a colour value per point, line `i` takes value `i`) and the markers. -/
structure Drawing2d (K : Type) where
  lines : List ((K × K) × (K × K))
  colours : List K
  markers : List (K × K)
  deriving DecidableEq, Repr

section
variable {K : Type} [Add K] [Sub K] [Mul K] [Div K] [Neg K] [LT K] [LE K] [DecidableLT K]
  [DecidableLE K] [DecidableEq K] [OfNat K 0] [OfNat K 1] [OfNat K 2] [OfScientific K] [PyMath K] [PyGrid K]

/-- gcode_interpreter.py:276 `np.linspace(0, 1, n, endpoint=True)`. -/
def linspace01 : Nat → List K
  | 0 => []
  | 1 => [0]
  | n + 2 => (List.range (n + 2)).map fun i => PyGrid.natCast i / PyGrid.natCast (n + 1)

/-- gcode_interpreter.py:277-279 `np.interp(step, [0, 1], [old, new])` in the three columns. -/
def Dot.lerp (p q : Dot K) (s : K) : Dot K :=
  ⟨p.x + (q.x - p.x) * s, p.y + (q.y - p.y) * s, p.c + (q.c - p.c) * s⟩

/-- gcode_interpreter.py:263-268: the number of points on the way from `p` to `q`. The resolution is positive. -/
def Dot.count (res : K) (p q : Dot K) : Nat :=
  if 0 < pyAbs (q.c - p.c) then
    PyGrid.ceilNat (PyMath.sqrt ((q.x - p.x) * (q.x - p.x) + (q.y - p.y) * (q.y - p.y)) / res) + 1
  else 1

/-- gcode_interpreter.py:262-285 `interp_2D`. -/
def interp2D (res : K) : List (Dot K) → List (Dot K)
  | p :: q :: r => (linspace01 (Dot.count res p q)).map (Dot.lerp p q) ++ interp2D res (q :: r)
  | _ => []

/-- gcode_interpreter.py:290-299: the vertices of the trajectory; `segments[0]` of an empty list raises. -/
def dots : List (Segment K) → Except PyErr (List (Dot K))
  | [] => .error .indexError
  | s :: ss => .ok (⟨s.posBegin.x, s.posBegin.y, s.velBegin.norm3⟩ ::
      (s :: ss).map fun s => ⟨s.posEnd.x, s.posEnd.y, s.velEnd.norm3⟩)

/-- The point without its colour. -/
def Dot.xy (p : Dot K) : K × K := (p.x, p.y)

/-- gcode_interpreter.py:309-311: the lines between consecutive points. -/
def linesOf (l : List (Dot K)) : List ((K × K) × (K × K)) := (l.zip l.tail).map fun p => (p.1.xy, p.2.xy)

/-- gcode_interpreter.py:337-345: a marker at the end of each block. -/
def blockEnds : List (Block K) → Except PyErr (List (K × K))
  | [] => .ok []
  | b :: bs =>
    match b.segments.getLast? with
    | none => .error .indexError
    | some s => do .ok ((s.posEnd.x, s.posEnd.y) :: (← blockEnds bs))

/-- gcode_interpreter.py:287-345: what `plot_2d_position` draws. With `colvar="Velocity"` the variable `fig` is a
`Figure`, which has no method `scatter`. -/
def plot2d (colvar : String) (showPoints : Bool) (res : K) (bs : List (Block K)) :
    Except PyErr (Drawing2d K) := do
  let ps ← dots (unpack bs)
  if colvar = "Velocity" then
    let d := interp2D res ps
    if showPoints && !bs.isEmpty then .error .attributeError
    else .ok ⟨linesOf d, d.map Dot.c, []⟩
  else
    let ms ← if showPoints then blockEnds bs else .ok []
    .ok ⟨linesOf ps, [], ms⟩

end
end PyGCD
