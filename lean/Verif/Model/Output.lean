import Verif.Model.Sim

/-!
# Outputs

Models `/repo/pyGCodeDecode/abaqus_file_generator.py`, `/repo/pyGCodeDecode/tools.py` and, from
`/repo/pyGCodeDecode/gcode_interpreter.py`, the poly-lines of `plot_3d` and `save_summary`.
Files, number formatting and rendering are not modelled.
-/

namespace PyGCD

section
variable {K : Type} [Add K] [Sub K] [Mul K] [Div K] [Neg K] [LT K] [LE K] [DecidableLT K]
  [DecidableLE K] [DecidableEq K] [OfNat K 0] [OfNat K 1] [OfNat K 2] [OfScientific K] [PyMath K]

/-! ## Abaqus event series -/

/-- A row of the event series: time, x, y, z, extrusion flag. -/
structure EventRow (K : Type) where
  t : K
  x : K
  y : K
  z : K
  flag : Nat
  deriving DecidableEq, Repr

/-- abaqus_file_generator.py:42-46: times and positions. -/
def abaqusVertices (path : List (Segment K)) : List (K × Vec4 K) :=
  match path with
  | [] => []
  | s :: _ => (0, s.posBegin) :: path.map fun s => (s.tEnd, s.posEnd)

/-- abaqus_file_generator.py:49-54, 66-70: the flag loop. It overwrites `pos[id][3]` only after reading
`pos[id + 1][3]`, so the difference always uses the original values. -/
def abaqusRows (tol scaling : K) : List (K × Vec4 K) → List (EventRow K)
  | [] => []
  | [(t, p)] => [⟨t, scaling * p.x, scaling * p.y, scaling * p.z, 0⟩]
  | (t, p) :: (t', p') :: rest =>
    ⟨t, scaling * p.x, scaling * p.y, scaling * p.z, if tol < p'.e - p.e then 1 else 0⟩ ::
      abaqusRows tol scaling ((t', p') :: rest)

/-- abaqus_file_generator.py:23-74 `generate_abaqus_event_series`. -/
def abaqusEvents (bs : List (Block K)) (own : String) (u : Option String) (tol : K) :
    Except PyErr (List (EventRow K)) :=
  if (unpack bs).isEmpty then .error .indexError
  else do
    let f ← simScaling (u.getD own)
    .ok (abaqusRows tol f (abaqusVertices (unpack bs)))

/-! ## Layer metrics -/

/-- A row of the layer metrics: layer, duration, travel distance, average speed (`none` is `"NaN"`). -/
structure LayerRow (K : Type) where
  layer : Nat
  duration : K
  travel : K
  avg : Option K
  deriving DecidableEq, Repr

/-- tools.py:64-69. -/
def layerRow (layer : Nat) (duration travel : K) : LayerRow K :=
  ⟨layer, duration, travel, if duration = 0 then none else some (travel / duration)⟩

/-- tools.py:49-78, the loop over the blocks. A block is the last one iff its `next_block` is `None`. -/
def layerLoop : Nat → K → K → List (Block K) → Except PyErr (List (LayerRow K))
  | _, _, _, [] => .ok []
  | cur, lastT, travel, b :: bs => do
    let next ← match b.stateB.layer with
      | some n => .ok n
      | none => .error .typeError
    if cur < next then do
      let s ← b.firstSeg
      let d ← b.travel
      let rest ← layerLoop next s.tBegin (0 + d) bs
      .ok (layerRow cur (s.tBegin - lastT) travel :: rest)
    else if bs.isEmpty then do
      let s ← b.lastSeg
      let d ← b.travel
      let rest ← layerLoop cur lastT (travel + d) bs
      .ok (layerRow cur (s.tEnd - lastT) travel :: rest)
    else do
      let d ← b.travel
      layerLoop cur lastT (travel + d) bs

/-- tools.py:14-97 `save_layer_metrics` (the returned lists; `none` without a layer cue). -/
def saveLayerMetrics (hasCue : Bool) (bs : List (Block K)) :
    Except PyErr (Option (List (LayerRow K))) :=
  if hasCue then (layerLoop 0 0 0 bs).map some else .ok none

/-! ## Submodel entry and exit times -/

/-- The coordinates 0, 1, 2 of a position. -/
def axisOf : Fin 3 → Vec4 K → K
  | 0, p => p.x
  | 1, p => p.y
  | 2, p => p.z

/-- tools.py:119-125 `cube`: origin (the centre) and side lengths. -/
structure Box (K : Type) where
  orig : Vec4 K
  side : Vec4 K

/-- tools.py:127-141 `get_plane_lim`, upper limit of an axis. -/
def Box.hi (c : Box K) (i : Fin 3) : K := axisOf i c.orig + axisOf i c.side / 2
/-- tools.py:127-141 `get_plane_lim`, lower limit of an axis. -/
def Box.lo (c : Box K) (i : Fin 3) : K := axisOf i c.orig - axisOf i c.side / 2

/-- tools.py:169-177 `point_eval`, one axis. -/
def pointEval (c : Box K) (p : Vec4 K) (i : Fin 3) : Bool × Bool :=
  (decide (axisOf i p ≤ c.hi i), decide (c.lo i ≤ axisOf i p))

/-- The three axes in order. -/
def axes3 : List (Fin 3) := [0, 1, 2]

/-- tools.py:179-180 `point_inside`. -/
def pointInside (c : Box K) (p : Vec4 K) : Bool :=
  axes3.all fun i => (pointEval c p i).1 && (pointEval c p i).2

/-- tools.py:182-195 `intersect_possible`, the loop with accumulator. -/
def intersectLoop (c : Box K) (p q : Vec4 K) : Bool → List (Fin 3) → Bool
  | acc, [] => acc
  | acc, i :: is =>
    if pointEval c p i ≠ pointEval c q i then intersectLoop c p q true is
    else if pointEval c p i = (true, true) then intersectLoop c p q acc is
    else false

/-- tools.py:182-195 `intersect_possible`. -/
def intersectPossible (c : Box K) (p q : Vec4 K) : Bool := intersectLoop c p q false axes3

/-- tools.py:143-167: the six planes: axis, and whether the outward normal is positive. -/
def planes : List (Fin 3 × Bool) :=
  [(0, true), (0, false), (1, true), (1, false), (2, true), (2, false)]

/-- tools.py:156-167: the coordinate of a plane along its axis. -/
def Box.planeAt (c : Box K) (pl : Fin 3 × Bool) : K := if pl.2 then c.hi pl.1 else c.lo pl.1

/-- tools.py:197-228 `isect_line_plane` for an axis-normal plane: intersection point, distance from
`p0`, and the entering flag. (The dot products with a normal ±e_i reduce to the axis component; the
`e` component is not part of Python's vectors and set to `0` here.) -/
def isectLinePlane (p0 p1 : Vec4 K) (pl : Fin 3 × Bool) (at_ : K) : Option (Vec4 K × K × Bool) :=
  let u : Vec4 K := ⟨p1.x - p0.x, p1.y - p0.y, p1.z - p0.z, 0⟩
  let sg := fun v : K => if pl.2 then v else -v
  let dot := sg (axisOf pl.1 u)
  if 1e-6 < pyAbs dot then
    let fac := -(sg (axisOf pl.1 p0 - at_)) / dot
    if 0 ≤ fac ∧ fac ≤ 1 then
      let uf := u.mul fac
      some (⟨p0.x + uf.x, p0.y + uf.y, p0.z + uf.z, 0⟩, uf.norm3, decide (dot < 0))
    else none
  else none

/-- tools.py:244-253: the timetable entries of one block. -/
def blockCrossings (c : Box K) (b : Block K) (A : PState K) :
    List (Fin 3 × Bool) → Except PyErr (List (K × Bool))
  | [] => .ok []
  | pl :: pls =>
    match isectLinePlane A.position b.stateB.position pl (c.planeAt pl) with
    | some (q, sLen, sgn) =>
      if pointInside c q then do
        let t ← b.inverseTimeAtPos sLen
        let rest ← blockCrossings c b A pls
        .ok ((t, sgn) :: rest)
      else blockCrossings c b A pls
    | none => blockCrossings c b A pls

/-- tools.py:239-253: the unsorted timetable. -/
def timetable (c : Box K) : List (Block K) → Except PyErr (List (K × Bool))
  | [] => .ok []
  | b :: bs =>
    match b.stateA with
    | none => .error .attributeError
    | some A => do
      let here ←
        if intersectPossible c A.position b.stateB.position then blockCrossings c b A planes
        else .ok []
      let rest ← timetable c bs
      .ok (here ++ rest)

/-- Insertion into a list sorted by time. -/
def insertByTime (x : K × Bool) : List (K × Bool) → List (K × Bool)
  | [] => [x]
  | y :: ys => if x.1 ≤ y.1 then x :: y :: ys else y :: insertByTime x ys

/-- tools.py:256: `timetable[timetable[:, 0].argsort()]`. (NumPy's order among equal times is not
specified; here it is stable.) -/
def sortByTime (l : List (K × Bool)) : List (K × Bool) := l.foldr insertByTime []

/-- The returned dictionary of `write_submodel_times` without the user's extra entries. -/
structure SubmodelTimes (K : Type) where
  timeProcess : K
  nFilaments : Nat
  timeIn : List K
  timeOut : List K
  deriving DecidableEq, Repr

/-- tools.py:100-273 `write_submodel_times`. An empty timetable has no column 0 (`IndexError`). -/
def submodelTimes (c : Box K) (bs : List (Block K)) : Except PyErr (SubmodelTimes K) := do
  let tt ← timetable c bs
  if tt.isEmpty then .error .indexError
  else do
    let srt := sortByTime tt
    let tin := (srt.filter fun p => p.2).map Prod.fst
    let tout := (srt.filter fun p => !p.2).map Prod.fst
    let tp ← endTime bs
    .ok ⟨tp, tin.length, tin, tout⟩

/-! ## 3D plot poly-lines -/

/-- A vertex of a poly-line: position and speed. -/
abbrev Vertex (K : Type) := Vec4 K × K

/-- gcode_interpreter.py:385-418: the loop over the segments with the current vertex list. -/
def polyLoop (extrusionOnly : Bool) : List (Vertex K) → List (Segment K) → List (List (Vertex K))
  | _, [] => []
  | cur, s :: ss =>
    let cur :=
      if !extrusionOnly || s.isExtruding then
        (if cur.isEmpty then [(s.posBegin, s.velBegin.norm3)] else cur) ++
          [(s.posEnd, s.velEnd.norm3)]
      else cur
    if (extrusionOnly && !cur.isEmpty && !s.isExtruding) || (!cur.isEmpty && ss.isEmpty) then
      cur :: polyLoop extrusionOnly [] ss
    else polyLoop extrusionOnly cur ss

/-- gcode_interpreter.py:379-418: the poly-lines drawn by `plot_3d`. -/
def plot3dLines (bs : List (Block K)) (extrusionOnly : Bool) : List (List (Vertex K)) :=
  polyLoop extrusionOnly [] (unpack bs)

/-! ## Summary -/

/-- gcode_interpreter.py:762-772: the saved summary (without the file name). -/
structure Summary (K : Type) where
  tEnd : K
  lo : Vec4 K
  hi : Vec4 K
  maxVel : K
  deriving DecidableEq, Repr

/-- gcode_interpreter.py:747-772 `save_summary`. -/
def saveSummary (bs : List (Block K)) (own : String) : Except PyErr (Summary K) := do
  let t ← endTime bs
  let ext ← extrusionExtent bs own none
  let v ← extrusionMaxVel bs own none
  .ok ⟨t, ext.1, ext.2, v⟩

end
end PyGCD
