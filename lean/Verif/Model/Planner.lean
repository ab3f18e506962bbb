import Verif.Model.Junction

/-!
# Planner blocks

Models `/repo/pyGCodeDecode/planner_block.py`.
-/

namespace PyGCD

/-- planner_block.py:70, 100, 117, 134: the values of `blocktype`. -/
inductive BlockType where
  | trapezoid | triangle | single
  deriving DecidableEq, Repr

/-- planner_block.py:281-297 `planner_block`. The links `prev_block`/`next_block` are the neighbours in
the block list. -/
structure Block (K : Type) where
  stateA : Option (PState K)
  stateB : PState K
  direction : Option (Vec4 K)
  isExtruding : Bool
  jd : Option (Vec4 K)
  segments : List (Segment K)
  blocktype : Option BlockType
  deriving DecidableEq, Repr

section
variable {K : Type} [Add K] [Sub K] [Mul K] [Div K] [Neg K] [LT K] [LE K] [DecidableLT K]
  [DecidableLE K] [DecidableEq K] [OfNat K 0] [OfNat K 1] [OfNat K 2] [OfNat K 18] [OfNat K 180]
  [OfScientific K] [PyMath K]

/-- `block.get_segments()[-1]`. -/
def Block.lastSeg (b : Block K) : Except PyErr (Segment K) :=
  match b.segments.getLast? with
  | some s => .ok s
  | none => .error .indexError

/-- `block.get_segments()[0]`. -/
def Block.firstSeg (b : Block K) : Except PyErr (Segment K) :=
  match b.segments.head? with
  | some s => .ok s
  | none => .error .indexError

/-- planner_block.py:42, 55, 67, …: a segment is stored only if it covers travel or extrusion. -/
def keepSeg (s : Segment K) : List (Segment K) :=
  if s.posEnd.isTravel s.posBegin || s.posEnd.isExtrudingTo s.posBegin false then [s] else []

/-- planner_block.py:31-70 `trapezoid`. `prev` is the previous segment, `u` the direction, `vConst`
the norm computed in line 46. -/
def trapezoid (prev : Segment K) (u : Vec4 K) (acc vTarget vBegin vEnd distance : K)
    (extrusionOnly : Bool) : Except PyErr (List (Segment K)) := do
  let travelUp := (vTarget - vBegin) * (vBegin + vTarget) / (2 * acc)
  let travelDown := (vEnd - vTarget) * (vEnd + vTarget) / (2 * -acc)
  let velConst := u.mul vTarget
  let t0 := prev.tEnd
  let t1 := t0 + (vTarget - vBegin) / acc
  let p1 := prev.posEnd.add (u.mul travelUp)
  let sA ← Segment.make t0 t1 prev.posEnd (u.mul vBegin) p1 velConst
  let travelConst := distance - travelDown - travelUp
  let vConst := if extrusionOnly then velConst.norm4 else velConst.norm3
  let t2 := t1 + travelConst / vConst
  let p2 := p1.add (u.mul travelConst)
  let sB ← Segment.make t1 t2 p1 velConst p2 velConst
  let t3 := t2 + (vTarget - vEnd) / acc
  let p3 := p2.add (u.mul travelDown)
  let sC ← Segment.make t2 t3 p2 velConst p3 (u.mul vEnd)
  .ok (keepSeg sA ++ keepSeg sB ++ keepSeg sC)

/-- planner_block.py:72-100 `triang`. -/
def triang (prev : Segment K) (u : Vec4 K) (acc vPeak vBegin vEnd : K) :
    Except PyErr (List (Segment K)) := do
  let t0 := prev.tEnd
  let t1 := t0 + (vPeak - vBegin) / acc
  let travelUp := (vPeak - vBegin) * (vBegin + vPeak) / (2 * acc)
  let p1 := prev.posEnd.add (u.mul travelUp)
  let sA ← Segment.make t0 t1 prev.posEnd (u.mul vBegin) p1 (u.mul vPeak)
  let t3 := t1 + (vPeak - vEnd) / acc
  let travelDown := (vPeak - vEnd) * (vEnd + vPeak) / (2 * acc)
  let p3 := p1.add (u.mul travelDown)
  let sC ← Segment.make t1 t3 p1 (u.mul vPeak) p3 (u.mul vEnd)
  .ok (keepSeg sA ++ keepSeg sC)

/-- planner_block.py:102-117 `singl_up`. -/
def singlUp (prev : Segment K) (u : Vec4 K) (acc vEndSing vBegin : K) :
    Except PyErr (List (Segment K)) := do
  let t0 := prev.tEnd
  let t1 := t0 + (vEndSing - vBegin) / acc
  let travelUp := (vEndSing - vBegin) * (vBegin + vEndSing) / (2 * acc)
  let p1 := prev.posEnd.add (u.mul travelUp)
  let sA ← Segment.make t0 t1 prev.posEnd (u.mul vBegin) p1 (u.mul vEndSing)
  .ok (keepSeg sA)

/-- planner_block.py:119-134 `singl_dwn`. -/
def singlDwn (prev : Segment K) (u : Vec4 K) (acc vBeginSing vEnd : K) :
    Except PyErr (List (Segment K)) := do
  let t0 := prev.tEnd
  let t1 := t0 + (vBeginSing - vEnd) / acc
  let travelUp := (vBeginSing - vEnd) * (vBeginSing + vEnd) / (2 * acc)
  let p1 := prev.posEnd.add (u.mul travelUp)
  let sC ← Segment.make t0 t1 prev.posEnd (u.mul vBeginSing) p1 (u.mul vEnd)
  .ok (keepSeg sC)

/-- planner_block.py:174, 200-202: `except ValueError: … raise RuntimeError()`. -/
def rescueValueError {α : Type} : Except PyErr α → Except PyErr α
  | .error .valueError => .error .runtimeError
  | r => r

/-- planner_block.py:157-202: the case selection, given the previous segment, direction, distance and
whether the move is extrusion only. -/
def planMove (prev : Segment K) (u : Vec4 K) (B : PState K) (distance : K) (extrusionOnly : Bool)
    (vEnd : K) : Except PyErr (List (Segment K) × BlockType) :=
  let acc := B.pAcc
  let vTarget := B.speed
  let v0 := prev.velEnd.norm3
  let vBegin := if v0 < vTarget then v0 else vTarget
  let travelUp := (vTarget - vBegin) * (vBegin + vTarget) / (2 * acc)
  let travelDown := (vEnd - vTarget) * (vEnd + vTarget) / (2 * -acc)
  let vPeak := PyMath.sqrt (acc * distance + vBegin * vBegin / 2 + vEnd * vEnd / 2)
  let vEndSingSqr :=
    if vEnd < vBegin then vBegin * vBegin - 2 * acc * distance
    else vBegin * vBegin + 2 * acc * distance
  let vEndSing := if 0 ≤ vEndSingSqr then PyMath.sqrt vEndSingSqr else 0
  let vBeginSing := PyMath.sqrt (2 * acc * distance + vEnd * vEnd)
  rescueValueError <|
    if travelUp + travelDown < distance ∧ (0 < travelUp ∨ isClose travelUp 0 = true)
        ∧ (0 < travelDown ∨ isClose travelDown 0 = true) then
      (trapezoid prev u acc vTarget vBegin vEnd distance extrusionOnly).map (·, .trapezoid)
    else if vEnd < vPeak ∧ vBegin < vPeak ∧ (vPeak < vTarget ∨ isClose vPeak vTarget = true) then
      (triang prev u acc vPeak vBegin vEnd).map (·, .triangle)
    else if vBegin < vEndSing ∧ (vEndSing < vTarget ∨ isClose vEndSing vTarget = true) then
      (singlUp prev u acc vEndSing vBegin).map (·, .single)
    else if vEndSing < vBegin then
      (singlDwn prev u acc vBeginSing vEnd).map (·, .single)
    else .error .nameError

/-- planner_block.py:136-151: distance and the extrusion-only flag. -/
def moveDistance (A B : PState K) : K × Bool :=
  let d := B.position.tDistance A.position
  if d = 0 then (B.position.tDistance4 A.position, true) else (d, false)

/-- planner_block.py:23-202 `move_maker2`. Without a previous state the initial segment cannot be
created (`None.state_position`, line 150), and without direction line 163 multiplies `None`. -/
def moveMaker (b : Block K) (prevBlock : Option (Block K)) (vEnd : K) : Except PyErr (Block K) :=
  match b.stateA, b.direction with
  | some A, some u => do
    let prev ← match prevBlock with
      | some pb => pb.lastSeg
      | none => .ok (Segment.initial A.position)
    let r ← planMove prev u b.stateB (moveDistance A b.stateB).1 (moveDistance A b.stateB).2 vEnd
    .ok { b with segments := r.1, blocktype := some r.2 }
  | some _, none => .error .typeError
  | none, _ => .error .attributeError

/-- planner_block.py:328-339: the dwell segment. -/
def dwellSegment (prevBlock : Option (Block K)) (pause : K) : Except PyErr (Segment K) :=
  match prevBlock with
  | none => .error .attributeError
  | some pb => do
    let s ← pb.lastSeg
    Segment.make s.tEnd (s.tEnd + pause) s.posEnd Vec4.zero s.posEnd Vec4.zero

/-- planner_block.py:281-339 `planner_block.__init__`. `rest` are the states following `B`. -/
def mkBlock (fw : Firmware) (A : Option (PState K)) (B : PState K) (rest : List (PState K))
    (prevBlock : Option (Block K)) : Except PyErr (Block K) := do
  let tv := targetVel A B
  let vJD := junctionVel fw A B rest
  let b0 : Block K :=
    { stateA := A, stateB := B, direction := tv.normDir4, isExtruding := false, jd := none,
      segments := [], blocktype := none }
  let b1 ←
    if tv.notZero then do
      let b ← moveMaker b0 prevBlock vJD
      let ext := match A with
        | some A => A.position.isExtrudingTo B.position
        | none => false
      .ok { b with jd := b0.direction.map (·.mul vJD), isExtruding := ext }
    else .ok b0
  match B.pause with
  | none => .ok b1
  | some p => do
    let s ← dwellSegment prevBlock p
    .ok { b1 with jd := some Vec4.zero, segments := [s] }

/-- planner_block.py:248-256 `timeshift`. -/
def Block.timeshift (d : K) (b : Block K) : Block K :=
  { b with segments := b.segments.map (Segment.shift d) }

/-- planner_block.py:204-246 `self_correction` with its default tolerance `1e-12`, on a zipper: `rp`
are the blocks before `b`, nearest first, `next` is `b.next_block`. Returns the three corrected parts.
Line 239-244 only prints; line 246's return value is not used by any caller. -/
def selfCorrection : List (Block K) → Block K → Option (Block K) →
    Except PyErr (List (Block K) × Block K × Option (Block K))
  | rp, b, none => .ok (rp, b, none)
  | rp, b, some nx => do
    let last ← b.lastSeg
    let nfirst ← nx.firstSeg
    let flag := decide (¬ last.velEnd.norm3 = nfirst.velBegin.norm3) &&
      decide ((1e-12 : K) < pyAbs (last.velEnd.norm3 - nfirst.velBegin.norm3))
    let (rp, b) ←
      if flag then do
        let b' ← moveMaker b rp.head? nfirst.velBegin.norm3
        if b'.blocktype = some .single then
          match rp with
          | [] => .error .attributeError
          | p :: rp' => do
            let r ← selfCorrection rp' p (some b')
            match r with
            | (rp'', p', some b'') => .ok (p' :: rp'', b'')
            | (rp'', p', none) => .ok (p' :: rp'', b')
        else .ok (rp, b')
      else .ok (rp, b)
    let last ← b.lastSeg
    let nx := nx.timeshift (last.tEnd - nfirst.tBegin)
    if last.posEnd.eq nfirst.posBegin = true then .ok (rp, b, some nx)
    else if (1e-12 : K) < (last.posEnd.sub nfirst.posBegin).norm3 then .error .nameError
    else .ok (rp, b, some nx)

/-- planner_block.py:378-380 `get_block_travel`. -/
def Block.travel (b : Block K) : Except PyErr K :=
  match b.stateA with
  | some A => .ok (A.position.tDistance b.stateB.position)
  | none => .error .attributeError

/-- planner_block.py:393-408, the loop of `inverse_time_at_pos` with accumulated distance `cum`. -/
def inverseTimeLoop (dist : K) : K → List (Segment K) → Except PyErr K
  | _, [] => .error .valueError
  | cum, s :: ss =>
    let cum' := cum + s.len
    if dist ≤ cum' then s.interpolateTimeToSpace s.tBegin s.tEnd (s.len - (cum' - dist))
    else inverseTimeLoop dist cum' ss

/-- planner_block.py:382-408 `inverse_time_at_pos`. -/
def Block.inverseTimeAtPos (b : Block K) (dist : K) : Except PyErr K :=
  inverseTimeLoop dist 0 b.segments

/-- Component wise maximum of absolute values, one step of planner_block.py:266-276. -/
def maxAbs4 (m v : Vec4 K) : Vec4 K :=
  ⟨pyMax m.x (pyAbs v.x), pyMax m.y (pyAbs v.y), pyMax m.z (pyAbs v.z), pyMax m.e (pyAbs v.e)⟩

/-- planner_block.py:258-279 `extrusion_block_max_vel`: component wise maximum of the absolute vertex
velocities. The fold starts from zero, which is exact because all entries are non-negative and the
segment list of a listed block is non-empty. -/
def Block.maxVel (b : Block K) : Vec4 K :=
  b.segments.foldl (fun m s => maxAbs4 (maxAbs4 m s.velBegin) s.velEnd) Vec4.zero

end
end PyGCD
