import Verif.Model.Sim
import Verif.Model.Plot2d

/-!
# The velocity plot

Models `/repo/pyGCodeDecode/gcode_interpreter.py` lines 456-564, `plot_vel`: what is handed to matplotlib.
-/

namespace PyGCD

/-- The argument `time_steps`: a number of steps, `"constrained"`, or anything else. -/
inductive TimeSteps where
  | number (n : Int)
  | constrained
  | other
  deriving DecidableEq, Repr

/-- What is drawn: the sample times, a velocity and a position curve per axis, the speed curve, vertical lines at
the ends of blocks and of segments, and junction speeds as crosses (time, height). -/
structure VelPlot (K : Type) where
  times : List K
  vel : List (List K)
  pos : List (List K)
  abs : List K
  blockLines : List K
  segmentLines : List K
  crosses : List (K × K)
  deriving DecidableEq, Repr

section
variable {K : Type} [Add K] [Sub K] [Mul K] [Div K] [Neg K] [LT K] [LE K] [DecidableLT K]
  [DecidableLE K] [DecidableEq K] [OfNat K 0] [OfNat K 1] [OfNat K 2] [OfScientific K] [PyMath K] [PyGrid K]

/-- gcode_interpreter.py:486 `axis_dict`. -/
def axisEntry : String → Except PyErr (Vec4 K → K)
  | "x" => .ok Vec4.x
  | "y" => .ok Vec4.y
  | "z" => .ok Vec4.z
  | "e" => .ok Vec4.e
  | _ => .error .keyError

/-- The entries of all axes; the first unknown one raises. -/
def axisEntries : List String → Except PyErr (List (Vec4 K → K))
  | [] => .ok []
  | a :: l => do .ok ((← axisEntry a) :: (← axisEntries l))

/-- gcode_interpreter.py:490-503: the sample times; `np.linspace(0, end, n, endpoint=False)` for a number. -/
def plotTimes (bs : List (Block K)) : TimeSteps → Except PyErr (List K)
  | .number n => do
    let T ← endTime bs
    if n < 0 then .error .valueError
    else .ok ((List.range n.toNat).map fun i => PyGrid.natCast i * (T / PyGrid.natCast n.toNat))
  | .constrained => .ok (constrainedTimes (unpack bs))
  | .other => .error .valueError

/-- gcode_interpreter.py:528-551: lines and crosses of each block. -/
def blockMarks (axes : List (Vec4 K → K)) (showBlocks showSegments showJv : Bool) :
    List (Block K) → Except PyErr (List K × List K × List (K × K))
  | [] => .ok ([], [], [])
  | b :: bs => do
    let last ← match b.segments.getLast? with
      | none => .error .indexError
      | some s => .ok s.tEnd
    let jv ← if showJv then
        match b.jd with
        | none => .error .attributeError
        | some j => .ok ((last, j.norm3) :: axes.map fun f => (last, f j))
      else .ok []
    let r ← blockMarks axes showBlocks showSegments showJv bs
    .ok ((if showBlocks then [last] else []) ++ r.1,
      (if showSegments then b.segments.map Segment.tEnd else []) ++ r.2.1, jv ++ r.2.2)

/-- gcode_interpreter.py:456-564 `plot_vel`. The first sample is taken before the axis names are looked up. With a
repeated axis the curve has more values than there are times, which matplotlib rejects. -/
def plotVel (axis : List String) (steps : TimeSteps) (showBlocks showSegments showJv : Bool)
    (bs : List (Block K)) : Except PyErr (VelPlot K) := do
  let times ← plotTimes bs steps
  let _ ← sampleLoop (unpack bs) 0 (times.take 1)
  let axes ← axisEntries axis
  let vals ← sampleLoop (unpack bs) 0 times
  let marks ← blockMarks axes showBlocks showSegments showJv bs
  if times ≠ [] ∧ ¬ axis.Nodup then .error .valueError
  else .ok ⟨times, axes.map (fun f => vals.map fun vp => f vp.1), axes.map (fun f => vals.map fun vp => f vp.2),
    vals.map (fun vp => vp.1.norm3), marks.1, marks.2.1, marks.2.2⟩

end
end PyGCD
