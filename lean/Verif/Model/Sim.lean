import Verif.Model.Planner
import Verif.Model.Traveler

/-!
# The simulation: block generation, correction, queries

Models `/repo/pyGCodeDecode/gcode_interpreter.py` lines 63-240 and 457-797.
-/

namespace PyGCD

section
variable {K : Type} [Add K] [Sub K] [Mul K] [Div K] [Neg K] [LT K] [LE K] [DecidableLT K]
  [DecidableLE K] [DecidableEq K] [OfNat K 0] [OfNat K 1] [OfNat K 2] [OfNat K 4] [OfNat K 18]
  [OfNat K 180] [OfScientific K] [PyMath K]

/-- A number, or the `TypeError` of using a string in arithmetic. -/
def Val.toNum : Val K → Except PyErr K
  | .num v => .ok v
  | .str _ => .error .typeError

/-- The planner's view of a state. Simplification: Python raises the `TypeError` for a string valued
acceleration, jerk or pause at the first arithmetic use, here it is raised when the planner gets the
state (a state that neither moves nor pauses could survive in Python). -/
def GState.toPState (s : GState K) : Except PyErr (PState K) := do
  let acc ← s.settings.pAcc.toNum
  let jerk ← s.settings.jerk.toNum
  let pause ← match s.pause with
    | none => .ok none
    | some v => v.toNum.map some
  .ok { position := s.position, speed := s.settings.speed, pAcc := acc, jerk := jerk,
        pause := pause, layer := s.layer }

/-- gcode_interpreter.py:63-82 `generate_planner_blocks`. `pa` is the previous state
(`state.prev_state`), `pb` the last block in the list. -/
def genBlocks (fw : Firmware) : Option (PState K) → Option (Block K) → List (PState K) →
    Except PyErr (List (Block K))
  | _, _, [] => .ok []
  | pa, pb, s :: rest => do
    let b ← mkBlock fw pa s rest pb
    if b.segments.isEmpty then genBlocks fw (some s) pb rest
    else do
      let bs ← genBlocks fw (some s) (some b) rest
      .ok (b :: bs)

/-- gcode_interpreter.py:574-580, the loop from block `b` on; `rp` are the blocks before it, nearest
first. -/
def correctFrom : List (Block K) → Block K → List (Block K) → Except PyErr (List (Block K))
  | rp, b, [] => do
    let r ← selfCorrection rp b none
    .ok (r.1.reverse ++ [r.2.1])
  | rp, b, nx :: tl => do
    let r ← selfCorrection rp b (some nx)
    correctFrom (r.2.1 :: r.1) (r.2.2.getD nx) tl

/-- gcode_interpreter.py:569-580 `trajectory_self_correct`. -/
def correctAll : List (Block K) → Except PyErr (List (Block K))
  | [] => .ok []
  | b :: tl => correctFrom [] b tl

/-- gcode_interpreter.py:237-238 and 695-698: planning of a list of states. -/
def plan (fw : Firmware) (states : List (PState K)) : Except PyErr (List (Block K)) := do
  let bs ← genBlocks fw none none states
  correctAll bs

/-- gcode_interpreter.py:150-162 `unpack_blocklist`. -/
def unpack (bs : List (Block K)) : List (Segment K) := bs.flatMap Block.segments

/-- `blocklist[-1].get_segments()[-1].t_end`. -/
def endTime (bs : List (Block K)) : Except PyErr K :=
  match bs.getLast? with
  | none => .error .indexError
  | some b => b.lastSeg.map Segment.tEnd

/-- gcode_interpreter.py:230-240: the part of `simulation.__init__` behind the setup checks;
`print_summary` reads the end time of the last block. -/
def simulate (fw : Firmware) (states : List (PState K)) : Except PyErr (List (Block K)) := do
  let bs ← plan fw states
  let _ ← endTime bs
  .ok bs

/-! ## Queries -/

/-- gcode_interpreter.py:140-142: linear search from the start, half-open intervals; `i` counts. -/
def searchFresh (t : K) : Nat → List (Segment K) → Option (Segment K × Nat)
  | _, [] => none
  | i, s :: ss => if s.tBegin ≤ t ∧ t < s.tEnd then some (s, i) else searchFresh t (i + 1) ss

/-- gcode_interpreter.py:144-146: search from the remembered index, closed intervals. -/
def searchWarm (t : K) : Nat → List (Segment K) → Option (Segment K × Nat)
  | _, [] => none
  | i, s :: ss => if s.tBegin ≤ t ∧ t ≤ s.tEnd then some (s, i) else searchWarm t (i + 1) ss

/-- gcode_interpreter.py:138, 100: is the unoptimised search used? -/
def useFresh (path : List (Segment K)) (t : K) (last : Option Nat) : Bool :=
  match last with
  | none => true
  | some i =>
    match path[i]? with
    | none => true
    | some s => decide (t < s.tBegin)

/-- gcode_interpreter.py:132-147 `find_current_segment` with `keep_position=False`. `ok none` is the
result `(None, None)`. A fall-through of the first loop returns `None`, which every caller unpacks at
once (`TypeError`). -/
def findSegment (path : List (Segment K)) (t : K) (last : Option Nat) :
    Except PyErr (Option (Segment K × Nat)) :=
  match path.getLast? with
  | none => .error .indexError
  | some l =>
    if l.tEnd < t then .ok none
    else if useFresh path t last then
      match searchFresh t 0 path with
      | some r => .ok (some r)
      | none => .error .typeError
    else
      match searchWarm t (last.getD 0) (path.drop (last.getD 0)) with
      | some r => .ok (some r)
      | none => .error .valueError

/-- gcode_interpreter.py:198 `available_unit_systems` and 782-797 `get_scaling_factor`. -/
def simScaling (u : String) : Except PyErr K :=
  if u = "SI" then .ok 1e-3 else if u = "SImm" then .ok 1 else if u = "inch" then .ok (1 / 25.4)
  else .error .keyError

/-- gcode_interpreter.py:582-605 `get_values`: returns the result and the new `last_index`. `own` is the
simulation's unit system, `u` the optional argument. -/
def getValues (path : List (Segment K)) (own : String) (u : Option String) (t : K)
    (last : Option Nat) : Except PyErr (Vec4 K × Vec4 K) × Option Nat :=
  match findSegment path t last with
  | .error e => (.error e, last)
  | .ok none => (.error .attributeError, none)
  | .ok (some (s, i)) =>
    (do
      let v ← s.getVelocity t
      let p ← s.getPosition t
      let f ← simScaling (u.getD own)
      .ok (v.mul f, p.mul f), some i)

/-- A session of queries: the `last_index` after asking for the times `ts` in order. -/
def queryHistory (path : List (Segment K)) (own : String) (ts : List (K × Option String))
    (last : Option Nat) : Option Nat :=
  ts.foldl (fun l q => (getValues path own q.2 q.1 l).2) last

/-- gcode_interpreter.py:607-629 `get_width`. -/
def getWidth (path : List (Segment K)) (own : String) (t h dia : K) (last : Option Nat) :
    Except PyErr K × Option Nat :=
  let r := getValues path own none t last
  (r.1.map fun vp =>
    let feed := vp.1.norm3
    let flow := vp.1.e
    let cross := (PyMath.pi * (dia * dia)) / 4
    if 0 < feed then (flow * cross) / (h * feed) else 0, r.2)

/-! ## The gap-tolerant search used by `plot_vel` -/

/-- gcode_interpreter.py:106-115, 122-131: the static segment bridging a gap. -/
def bridge (s nx : Segment K) : Except PyErr (Segment K) :=
  Segment.make s.tEnd nx.tBegin s.posEnd Vec4.zero s.posEnd Vec4.zero

/-- gcode_interpreter.py:102-115. `none` is the fall-through (a `TypeError` when unpacked). -/
def keepFresh (path : List (Segment K)) (t : K) : Nat → List (Segment K) →
    Except PyErr (Segment K × Nat)
  | _, [] => .error .typeError
  | i, s :: ss =>
    if s.tBegin ≤ t ∧ t < s.tEnd then .ok (s, i)
    else if s.tEnd ≤ t then
      match path[i + 1]? with
      | none => .error .indexError
      | some nx => if t < nx.tBegin then (bridge s nx).map (·, i) else keepFresh path t (i + 1) ss
    else keepFresh path t (i + 1) ss

/-- gcode_interpreter.py:118-131. Line 121 looks at `path[last_index + 1]`, not at the successor of the
segment under inspection. -/
def keepWarm (path : List (Segment K)) (t : K) (last : Nat) : Nat → List (Segment K) →
    Except PyErr (Segment K × Nat)
  | _, [] => .error .typeError
  | i, s :: ss =>
    if s.tBegin ≤ t ∧ t ≤ s.tEnd then .ok (s, i)
    else if s.tEnd ≤ t then
      match path[last + 1]? with
      | none => .error .indexError
      | some nx => if t < nx.tBegin then (bridge s nx).map (·, last) else keepWarm path t last (i + 1) ss
    else keepWarm path t last (i + 1) ss

/-- gcode_interpreter.py:98-131 `find_current_segment` with `keep_position=True`. -/
def findKeep (path : List (Segment K)) (t : K) (last : Option Nat) :
    Except PyErr (Segment K × Nat) :=
  if useFresh path t last then keepFresh path t 0 path
  else keepWarm path t (last.getD 0) (last.getD 0) (path.drop (last.getD 0))

/-- gcode_interpreter.py:509-520, the sampling loop of `plot_vel` (velocity, position at each time),
carrying `index_saved`. -/
def sampleLoop (path : List (Segment K)) : Nat → List K → Except PyErr (List (Vec4 K × Vec4 K))
  | _, [] => .ok []
  | idx, t :: ts => do
    let r ← findKeep path t (some idx)
    let v ← r.1.getVelocity t
    let p ← r.1.getPosition t
    let rest ← sampleLoop path r.2 ts
    .ok ((v, p) :: rest)

/-- gcode_interpreter.py:498-501: the times of `time_steps="constrained"`. -/
def constrainedTimes (path : List (Segment K)) : List K := 0 :: path.map Segment.tEnd

/-! ## Extents -/

/-- gcode_interpreter.py:713-716: end points of extruding blocks, first all begins then all ends.
(`block.is_extruding` implies that `state_A` exists.) -/
def extrudingPoints (bs : List (Block K)) : List (Vec4 K) :=
  ((bs.filter (·.isExtruding)).filterMap fun b => b.stateA.map PState.position) ++
    ((bs.filter (·.isExtruding)).map fun b => b.stateB.position)

/-- `np.amin`/`np.amax` of a non-empty list. -/
def listMin (a : K) (l : List K) : K := l.foldl pyMin a
/-- `np.amax` of a non-empty list. -/
def listMax (a : K) (l : List K) : K := l.foldl pyMax a

/-- Component wise extreme of a non-empty list of vectors (`axis=0`); the `e` component is dropped by
`get_vec()` and set to `0` here. -/
def vecFold (f : K → List K → K) (p : Vec4 K) (ps : List (Vec4 K)) : Vec4 K :=
  ⟨f p.x (ps.map Vec4.x), f p.y (ps.map Vec4.y), f p.z (ps.map Vec4.z), 0⟩

/-- gcode_interpreter.py:700-726 `extrusion_extent`: (min, max). -/
def extrusionExtent (bs : List (Block K)) (own : String) (u : Option String) :
    Except PyErr (Vec4 K × Vec4 K) :=
  match extrudingPoints bs with
  | [] => .error .valueError
  | p :: ps => do
    let f ← simScaling (u.getD own)
    .ok ((vecFold listMin p ps).mul f, (vecFold listMax p ps).mul f)

/-- gcode_interpreter.py:728-745 `extrusion_max_vel`. `np.amax` of an empty array is a
`ValueError`. -/
def extrusionMaxVel (bs : List (Block K)) (own : String) (u : Option String) : Except PyErr K :=
  match (bs.filter (·.isExtruding)).map fun b => b.maxVel.norm3 with
  | [] => .error .valueError
  | v :: vs => do
    let f ← simScaling (u.getD own)
    .ok (f * listMax v vs)

end
end PyGCD
