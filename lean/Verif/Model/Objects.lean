import Verif.Model.Planner

/-!
# The classes of `utils.py`

`Verif/Model/Basic.lean` uses one type for `vector_4D`, `velocity` and `position` and lets every operator
succeed. Python checks classes and argument types at run time. This file models
`/repo/pyGCodeDecode/utils.py` once more with these checks, together with the functions of
`/repo/pyGCodeDecode/planner_block.py` that create segments.

Numbers: Python's `float`, `numpy.float64` and `int` are told apart only where the code does (the second
operand of `*` and `/`); arithmetic mixing them is arithmetic in `K`.
-/

namespace PyGCD

/-- utils.py:15, 194, 252: the three vector classes. -/
inductive Cls where
  | vector4D | velocity | position
  deriving DecidableEq, Repr

/-- `isinstance(x, d)` for an `x` of class `c`: `velocity` and `position` derive from `vector_4D`. -/
def Cls.isA (c d : Cls) : Bool := decide (c = d) || decide (d = .vector4D)

/-- The types of numbers utils.py:114, 132 tell apart; `other` is any other type that holds a number
(`bool`, `numpy.int64`, `numpy.float32`, `Fraction`, …). -/
inductive NumType where
  | float | float64 | int | other
  deriving DecidableEq, Repr

/-- An instance of one of the vector classes: its class and coordinates. -/
structure Obj (K : Type) where
  cls : Cls
  v : Vec4 K
  deriving DecidableEq, Repr

/-- A Python value as far as the vector operators can tell: an instance, a sequence of numbers (`list`,
`tuple` or one-dimensional `numpy.ndarray`), a number, or `None`. -/
inductive Value (K : Type) where
  | obj (o : Obj K)
  | seq (l : List K)
  | num (t : NumType) (k : K)
  | none
  deriving DecidableEq, Repr

section
variable {K : Type} [Add K] [Sub K] [Mul K] [Div K] [Neg K] [LT K] [LE K] [DecidableLT K]
  [DecidableLE K] [DecidableEq K] [OfNat K 0] [OfNat K 1] [OfNat K 2] [OfNat K 18] [OfNat K 180]
  [OfScientific K] [PyMath K]

/-- Four numbers as coordinates. -/
def vecOf : List K → Option (Vec4 K)
  | [x, y, z, e] => some ⟨x, y, z, e⟩
  | _ => none

/-- utils.py:27-47 `vector_4D.__init__` with one positional argument: `tuple(arg)` must have four entries;
numbers, instances and `None` are not iterable. -/
def Cls.of1 (c : Cls) : Value K → Except PyErr (Obj K)
  | .seq l =>
    match vecOf l with
    | some v => .ok ⟨c, v⟩
    | none => .error .valueError
  | _ => .error .typeError

/-- utils.py:27-47 `vector_4D.__init__` with any other number of positional arguments, all numbers. -/
def Cls.ofN (c : Cls) (args : List K) : Except PyErr (Obj K) :=
  match vecOf args with
  | some v => .ok ⟨c, v⟩
  | none => .error .valueError

namespace Obj

/-- utils.py:53-77 `self + other`. No vector class defines `__radd__`, so this is also what Python does
when `other`'s class is a subclass of `self`'s. -/
def add (a : Obj K) : Value K → Except PyErr (Obj K)
  | .obj b => if b.cls.isA a.cls then .ok ⟨a.cls, a.v.add b.v⟩ else .error .valueError
  | .seq l =>
    match vecOf l with
    | some w => .ok ⟨a.cls, a.v.add w⟩
    | none => .error .valueError
  | _ => .error .valueError

/-- utils.py:79-103 `self - other`. -/
def sub (a : Obj K) : Value K → Except PyErr (Obj K)
  | .obj b => if b.cls.isA a.cls then .ok ⟨a.cls, a.v.sub b.v⟩ else .error .valueError
  | .seq l =>
    match vecOf l with
    | some w => .ok ⟨a.cls, a.v.sub w⟩
    | none => .error .valueError
  | _ => .error .valueError

/-- utils.py:105-121 `self * other`. -/
def mul (a : Obj K) : Value K → Except PyErr (Obj K)
  | .num .float k => .ok ⟨a.cls, a.v.mul k⟩
  | .num .float64 k => .ok ⟨a.cls, a.v.mul k⟩
  | .num .int k => .ok ⟨a.cls, a.v.mul k⟩
  | _ => .error .typeError

/-- utils.py:123-139 `self / other`: integers are rejected, although the message and the documentation
say they are supported. (`ZeroDivisionError` for a zero `float` is not modelled: no caller divides by zero.) -/
def div (a : Obj K) : Value K → Except PyErr (Obj K)
  | .num .float k => .ok ⟨a.cls, a.v.div k⟩
  | .num .float64 k => .ok ⟨a.cls, a.v.div k⟩
  | _ => .error .typeError

/-- utils.py:141-166 `self.__eq__(other)` as a truth value (Python returns `True` or `None`). -/
def eqMethod (a : Obj K) : Value K → Bool
  | .obj b => b.cls.isA a.cls && a.v.eq b.v
  | .seq l =>
    match vecOf l with
    | some w => a.v.eq w
    | none => false
  | _ => false

/-- The expression `self == other`: Python asks the right operand first if its class is a proper subclass
of the left one's. -/
def eqOp (a : Obj K) (x : Value K) : Bool :=
  match x with
  | .obj b => if b.cls ≠ a.cls ∧ b.cls.isA a.cls then b.eqMethod (.obj a) else a.eqMethod x
  | _ => a.eqMethod x

/-- utils.py:168-180 `get_vec`. -/
def getVec (a : Obj K) (withExtrusion : Bool := false) : List K :=
  if withExtrusion then [a.v.x, a.v.y, a.v.z, a.v.e] else [a.v.x, a.v.y, a.v.z]

/-- utils.py:182-191 `get_norm`. -/
def getNorm (a : Obj K) (withExtrusion : Bool := false) : K :=
  if withExtrusion then a.v.norm4 else a.v.norm3

/-- utils.py:218-233 `velocity.avoid_overspeed`: line 228 first asks for `self.Vx`, which no instance
has. -/
def avoidOverspeed (_a : Obj K) : Except PyErr (Obj K) := .error .attributeError

/-- utils.py:259-271 `position.is_travel`; `other.x` exists for instances only. -/
def isTravel (a : Obj K) : Value K → Except PyErr Bool
  | .obj b => .ok (a.v.isTravel b.v)
  | _ => .error .attributeError

/-- utils.py:273-288 `position.is_extruding`. -/
def isExtruding (a : Obj K) (ignoreRetract : Bool := true) : Value K → Except PyErr Bool
  | .obj b => .ok (a.v.isExtrudingTo b.v ignoreRetract)
  | _ => .error .attributeError

/-- utils.py:290-304 `position.get_t_distance`; without `other` the distance from the origin. -/
def tDistance (a : Obj K) (withExtrusion : Bool := false) : Value K → Except PyErr K
  | .obj b => .ok (if withExtrusion then a.v.tDistance4 b.v else a.v.tDistance b.v)
  | .none => .ok (if withExtrusion then a.v.tDistance4 Vec4.zero else a.v.tDistance Vec4.zero)
  | _ => .error .attributeError

end Obj

/-- `numpy` array times number, for the direction of a block (planner_block.py:36, 37, …). -/
def arr (u : Vec4 K) (k : K) : Value K := .seq [u.x * k, u.y * k, u.z * k, u.e * k]

/-- utils.py:307-350 `segment`, with the classes of its vectors. -/
structure TSegment (K : Type) where
  tBegin : K
  tEnd : K
  posBegin : Obj K
  velBegin : Obj K
  posEnd : Obj K
  velEnd : Obj K
  deriving DecidableEq, Repr

namespace TSegment

/-- The segment without classes. -/
def erase (s : TSegment K) : Segment K :=
  ⟨s.tBegin, s.tEnd, s.posBegin.v, s.velBegin.v, s.posEnd.v, s.velEnd.v⟩

/-- utils.py:414-444 `self_check`, before the vertices are known to be instances: `pos_end` and `vel_end`
are documented to default to `None`. `speed` is `p_settings.speed` if settings are given. -/
def selfCheck (tBegin tEnd : K) (posBegin velBegin : Obj K) (posEnd velEnd : Value K)
    (speed : Option K) : Except PyErr Unit := do
  let v ← velBegin.add velEnd
  let w ← v.mul (.num .float (tEnd - tBegin))
  let w ← w.div (.num .float 2)
  let position ← posBegin.add (.seq (w.getVec true))
  let errorDistance ← match posEnd with
    | .obj p => .ok (p.v.sub position.v).norm3
    | _ => .error .attributeError
  if 1e-6 < errorDistance then .error .valueError
  else if tEnd < tBegin then .error .valueError
  else match speed with
    | none => .ok ()
    | some f =>
      if f < velBegin.getNorm ∧ ¬ isClose velBegin.getNorm f = true then .error .valueError
      else match velEnd with
        | .obj e =>
          if f < e.getNorm ∧ ¬ isClose e.getNorm f = true then .error .valueError else .ok ()
        | _ => .error .attributeError

/-- utils.py:324-350 `segment.__init__`. -/
def make (tBegin tEnd : K) (posBegin velBegin : Obj K) (posEnd velEnd : Value K) :
    Except PyErr (TSegment K) := do
  selfCheck tBegin tEnd posBegin velBegin posEnd velEnd none
  match posEnd, velEnd with
  | .obj p, .obj v => .ok ⟨tBegin, tEnd, posBegin, velBegin, p, v⟩
  | _, _ => .error .attributeError

/-- utils.py:369-386 `get_velocity`. `nt` is the type of `t - t_begin` and `nd` the type of
`t_end - t_begin`. -/
def getVelocity (s : TSegment K) (nt nd : NumType) (t : K) : Except PyErr (Obj K) :=
  if t < s.tBegin ∨ s.tEnd < t then .error .valueError
  else do
    let deltVel ← s.velEnd.sub (.obj s.velBegin)
    let deltT := s.tEnd - s.tBegin
    let slope ← if 0 < deltT then deltVel.div (.num nd deltT) else .ok ⟨.velocity, Vec4.zero⟩
    let d ← slope.mul (.num nt (t - s.tBegin))
    s.velBegin.add (.obj d)

/-- utils.py:388-404 `get_position`. -/
def getPosition (s : TSegment K) (nt nd : NumType) (t : K) : Except PyErr (Obj K) :=
  if t < s.tBegin ∨ s.tEnd < t then .error .valueError
  else do
    let currentVel ← s.getVelocity nt nd t
    let sum ← s.velBegin.add (.obj currentVel)
    let d ← sum.mul (.num nt (t - s.tBegin))
    let d ← d.div (.num .float 2)
    s.posBegin.add (.seq (d.getVec true))

/-- utils.py:406-408 `get_segm_len`. -/
def len (s : TSegment K) : Except PyErr K := do
  let d ← s.posEnd.sub (.obj s.posBegin)
  .ok d.getNorm

/-- utils.py:548-560 `create_initial`: without a position line 559 calls `position` with keywords, which
`__init__` does not take. -/
def initial : Option (Obj K) → Except PyErr (TSegment K)
  | some p => make 0 0 p ⟨.velocity, Vec4.zero⟩ (.obj p) (.obj ⟨.velocity, Vec4.zero⟩)
  | none => .error .typeError

/-- planner_block.py:42-43, 55-56, …: the segment is kept if `pos_end` differs from `pos_begin`. -/
def keep (s : TSegment K) : Except PyErr (List (TSegment K)) := do
  let a ← s.posEnd.isTravel (.obj s.posBegin)
  let b ← s.posEnd.isExtruding false (.obj s.posBegin)
  .ok (if a || b then [s] else [])

/-- planner_block.py:31-70 `trapezoid`. -/
def trapezoid (prev : TSegment K) (u : Vec4 K) (acc vTarget vBegin vEnd distance : K)
    (extrusionOnly : Bool) : Except PyErr (List (TSegment K)) := do
  let travelUp := (vTarget - vBegin) * (vBegin + vTarget) / (2 * acc)
  let travelDown := (vEnd - vTarget) * (vEnd + vTarget) / (2 * -acc)
  let velConst ← Cls.velocity.of1 (arr u vTarget)
  let t0 := prev.tEnd
  let t1 := t0 + (vTarget - vBegin) / acc
  let p1 ← prev.posEnd.add (arr u travelUp)
  let v0 ← Cls.velocity.of1 (arr u vBegin)
  let sA ← make t0 t1 prev.posEnd v0 (.obj p1) (.obj velConst)
  let kA ← keep sA
  let travelConst := distance - travelDown - travelUp
  let vConst := velConst.getNorm extrusionOnly
  let t2 := t1 + travelConst / vConst
  let p2 ← sA.posEnd.add (arr u travelConst)
  let sB ← make t1 t2 sA.posEnd velConst (.obj p2) (.obj velConst)
  let kB ← keep sB
  let t3 := sB.tEnd + (vTarget - vEnd) / acc
  let p3 ← sB.posEnd.add (arr u travelDown)
  let v3 ← Cls.velocity.of1 (arr u vEnd)
  let sC ← make sB.tEnd t3 sB.posEnd sB.velEnd (.obj p3) (.obj v3)
  let kC ← keep sC
  .ok (kA ++ kB ++ kC)

/-- planner_block.py:72-100 `triang`. -/
def triang (prev : TSegment K) (u : Vec4 K) (acc vPeak vBegin vEnd : K) :
    Except PyErr (List (TSegment K)) := do
  let t0 := prev.tEnd
  let t1 := t0 + (vPeak - vBegin) / acc
  let travelUp := (vPeak - vBegin) * (vBegin + vPeak) / (2 * acc)
  let p1 ← prev.posEnd.add (arr u travelUp)
  let v0 ← Cls.velocity.of1 (arr u vBegin)
  let v1 ← Cls.velocity.of1 (arr u vPeak)
  let sA ← make t0 t1 prev.posEnd v0 (.obj p1) (.obj v1)
  let kA ← keep sA
  let t3 := sA.tEnd + (vPeak - vEnd) / acc
  let travelDown := (vPeak - vEnd) * (vEnd + vPeak) / (2 * acc)
  let p3 ← sA.posEnd.add (arr u travelDown)
  let v3 ← Cls.velocity.of1 (arr u vEnd)
  let sC ← make sA.tEnd t3 sA.posEnd sA.velEnd (.obj p3) (.obj v3)
  let kC ← keep sC
  .ok (kA ++ kC)

/-- planner_block.py:102-134 `singl_up` (`vb = v_begin`, `ve = v_end_sing`, `up`) and `singl_dwn`
(`vb = v_begin_sing`, `ve = v_end`). -/
def single (prev : TSegment K) (u : Vec4 K) (acc vb ve : K) (up : Bool) :
    Except PyErr (List (TSegment K)) := do
  let t0 := prev.tEnd
  let t1 := if up then t0 + (ve - vb) / acc else t0 + (vb - ve) / acc
  let travel := if up then (ve - vb) * (vb + ve) / (2 * acc) else (vb - ve) * (vb + ve) / (2 * acc)
  let p1 ← prev.posEnd.add (arr u travel)
  let v0 ← Cls.velocity.of1 (arr u vb)
  let v1 ← Cls.velocity.of1 (arr u ve)
  let s ← make t0 t1 prev.posEnd v0 (.obj p1) (.obj v1)
  keep s

/-- planner_block.py:328-339: the dwell segment after the last segment `prev` of the previous block. -/
def dwell (prev : TSegment K) (pause : K) : Except PyErr (TSegment K) := do
  let v0 ← Cls.velocity.ofN [0, 0, 0, 0]
  make prev.tEnd (prev.tEnd + pause) prev.posEnd v0 (.obj prev.posEnd) (.obj v0)

/-- planner_block.py:230-237: the continuity check between two segments. -/
def continuity (last next : TSegment K) : Except PyErr Unit :=
  if last.posEnd.eqOp (.obj next.posBegin) then .ok ()
  else do
    let err ← last.posEnd.sub (.obj next.posBegin)
    let dist ← err.tDistance false .none
    if 1e-12 < dist then .error .nameError else .ok ()

end TSegment
end
end PyGCD
