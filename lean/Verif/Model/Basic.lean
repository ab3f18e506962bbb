/-!
# Numbers, errors, 4D vectors and segments

Models `/repo/pyGCodeDecode/utils.py` (`vector_4D`, `velocity`, `position`, `segment`).

All definitions are polymorphic in the number type `K` and only ask for the operations they use.
`K := Float` runs the model, `K := ℝ` is what the kinematic theorems are about.
-/

namespace PyGCD

/-- Python exception classes raised by the modelled code (messages are not modelled). -/
inductive PyErr where
  | valueError | typeError | nameError | attributeError | indexError | runtimeError | keyError
  deriving DecidableEq, Repr

/-- Decidable equality of results, for concrete examples. -/
instance {ε α : Type} [DecidableEq ε] [DecidableEq α] : DecidableEq (Except ε α)
  | .ok a, .ok b => if h : a = b then isTrue (h ▸ rfl) else isFalse fun e => h (by injection e)
  | .error a, .error b =>
    if h : a = b then isTrue (h ▸ rfl) else isFalse fun e => h (by injection e)
  | .ok _, .error _ => isFalse nofun
  | .error _, .ok _ => isFalse nofun

/-- `numpy`/`math` functions used by the code (`np.sqrt`, `np.sin`, `np.pi`). -/
class PyMath (K : Type) where
  sqrt : K → K
  sin : K → K
  pi : K

instance : PyMath Float where
  sqrt := Float.sqrt
  sin := Float.sin
  pi := 3.141592653589793

section Num
variable {K : Type} [Add K] [Sub K] [Mul K] [Div K] [Neg K] [LT K] [LE K] [DecidableLT K]
  [DecidableLE K] [OfNat K 0] [OfNat K 1] [OfNat K 2] [OfScientific K] [PyMath K]

/-- Python's builtin `abs` on numbers. -/
def pyAbs (x : K) : K := if x < 0 then -x else x

/-- Python's builtin `min(a, b)`: the first argument wins ties. -/
def pyMin (a b : K) : K := if b < a then b else a

/-- Python's builtin `max(a, b)`: the first argument wins ties. -/
def pyMax (a b : K) : K := if a < b then b else a

/-- `np.isclose(a, b)` with its default tolerances `rtol=1e-5`, `atol=1e-8`
(the formula is not symmetric in `a`, `b`). -/
def isClose (a b : K) : Bool := decide (pyAbs (a - b) ≤ 1e-8 + 1e-5 * pyAbs b)

/-- utils.py:15-47 `vector_4D`: coordinates x, y, z, e. (`velocity` and `position` are its
subclasses; the model uses one type for all three.) -/
@[ext] structure Vec4 (K : Type) where
  x : K
  y : K
  z : K
  e : K
  deriving Repr, DecidableEq

namespace Vec4

/-- The vector `velocity(0, 0, 0, 0)` / `position(0, 0, 0, 0)`. -/
def zero : Vec4 K := ⟨0, 0, 0, 0⟩

/-- utils.py:53-77 `__add__`, component wise. -/
def add (a b : Vec4 K) : Vec4 K := ⟨a.x + b.x, a.y + b.y, a.z + b.z, a.e + b.e⟩

/-- utils.py:79-103 `__sub__`, component wise. -/
def sub (a b : Vec4 K) : Vec4 K := ⟨a.x - b.x, a.y - b.y, a.z - b.z, a.e - b.e⟩

/-- utils.py:105-121 `__mul__` with a scalar (also `ndarray * scalar`). -/
def mul (a : Vec4 K) (s : K) : Vec4 K := ⟨a.x * s, a.y * s, a.z * s, a.e * s⟩

/-- utils.py:123-139 `__truediv__` by a scalar (also `ndarray / scalar`). -/
def div (a : Vec4 K) (s : K) : Vec4 K := ⟨a.x / s, a.y / s, a.z / s, a.e / s⟩

/-- utils.py:141-166 `__eq__`: component wise `np.isclose`. (Python returns `None` instead of
`False`; both are falsy and only used as truth values.) -/
def eq (a b : Vec4 K) : Bool :=
  isClose a.x b.x && isClose a.y b.y && isClose a.z b.z && isClose a.e b.e

/-- utils.py:182-191 `get_norm()` with `withExtrusion=False`: the norm of (x, y, z). -/
def norm3 (a : Vec4 K) : K := PyMath.sqrt (a.x * a.x + a.y * a.y + a.z * a.z)

/-- utils.py:182-191 `get_norm(withExtrusion=True)`: the norm of (x, y, z, e). -/
def norm4 (a : Vec4 K) : K := PyMath.sqrt (a.x * a.x + a.y * a.y + a.z * a.z + a.e * a.e)

/-- utils.py:201-216 `get_norm_dir(withExtrusion=True)`. -/
def normDir4 (a : Vec4 K) : Option (Vec4 K) :=
  if 0 < a.norm3 then some (a.div a.norm3)
  else if 0 < a.norm4 then some (a.div a.norm4)
  else none

/-- utils.py:235-241 `not_zero`. -/
def notZero (a : Vec4 K) : Bool := decide (0 < a.norm4)

/-- utils.py:259-271 `is_travel`. -/
def isTravel (a other : Vec4 K) : Bool :=
  decide (0 < pyAbs (other.x - a.x) + pyAbs (other.y - a.y) + pyAbs (other.z - a.z))

/-- utils.py:273-288 `position.is_extruding`. -/
def isExtrudingTo (a other : Vec4 K) (ignoreRetract : Bool := true) : Bool :=
  decide (0 < (if ignoreRetract then other.e - a.e else pyAbs (other.e - a.e)))

/-- utils.py:290-304 `get_t_distance(other)`. -/
def tDistance (a other : Vec4 K) : K := (a.sub other).norm3

/-- utils.py:290-304 `get_t_distance(other, withExtrusion=True)`. -/
def tDistance4 (a other : Vec4 K) : K := (a.sub other).norm4

end Vec4

/-- utils.py:307-350 `segment`. -/
structure Segment (K : Type) where
  tBegin : K
  tEnd : K
  posBegin : Vec4 K
  velBegin : Vec4 K
  posEnd : Vec4 K
  velEnd : Vec4 K
  deriving Repr, DecidableEq

namespace Segment

/-- utils.py:424-435, the part of `self_check` that runs without printer settings: the end position
must be reached (X, Y, Z within 1e-6) and time must not run backwards. -/
def selfCheckOk (s : Segment K) : Bool :=
  let position := s.posBegin.add (((s.velBegin.add s.velEnd).mul (s.tEnd - s.tBegin)).div 2)
  let errorDistance := (s.posEnd.sub position).norm3
  !decide (1e-6 < errorDistance) && !decide (s.tEnd < s.tBegin)

/-- utils.py:324-350 `segment.__init__`, which ends in `self.self_check()`. -/
def make (tBegin tEnd : K) (posBegin velBegin posEnd velEnd : Vec4 K) :
    Except PyErr (Segment K) :=
  let s : Segment K := ⟨tBegin, tEnd, posBegin, velBegin, posEnd, velEnd⟩
  if s.selfCheckOk then .ok s else .error .valueError

/-- utils.py:548-560 `create_initial(initial_position)`. -/
def initial (p : Vec4 K) : Segment K := ⟨0, 0, p, Vec4.zero, p, Vec4.zero⟩

/-- utils.py:360-367 `move_segment_time`. -/
def shift (d : K) (s : Segment K) : Segment K :=
  { s with tBegin := s.tBegin + d, tEnd := s.tEnd + d }

/-- utils.py:369-386 `get_velocity`. -/
def getVelocity (s : Segment K) (t : K) : Except PyErr (Vec4 K) :=
  if t < s.tBegin ∨ s.tEnd < t then .error .valueError
  else
    let deltVel := s.velEnd.sub s.velBegin
    let deltT := s.tEnd - s.tBegin
    let slope := if 0 < deltT then deltVel.div deltT else Vec4.zero
    .ok (s.velBegin.add (slope.mul (t - s.tBegin)))

/-- utils.py:388-404 `get_position`. -/
def getPosition (s : Segment K) (t : K) : Except PyErr (Vec4 K) :=
  if t < s.tBegin ∨ s.tEnd < t then .error .valueError
  else do
    let currentVel ← s.getVelocity t
    .ok (s.posBegin.add (((s.velBegin.add currentVel).mul (t - s.tBegin)).div 2))

/-- utils.py:406-408 `get_segm_len`. -/
def len (s : Segment K) : K := (s.posEnd.sub s.posBegin).norm3

/-- utils.py:410-412 `get_segm_duration`. -/
def duration (s : Segment K) : K := s.tEnd - s.tBegin

/-- utils.py:446-452 `is_extruding`. -/
def isExtruding (s : Segment K) : Bool := decide (s.posBegin.e < s.posEnd.e)

/-- utils.py:454-482 `_interpolate_time_to_space`. The division by zero that Python performs for a
zero-duration segment is guarded by its caller only through the segment list (`a` is computed from
`t_end - t_begin`); theorems about this function assume a positive duration. -/
def interpolateTimeToSpace (s : Segment K) (scalarBegin scalarEnd x : K) : Except PyErr K :=
  let a := (s.velEnd.sub s.velBegin).norm3 / (s.tEnd - s.tBegin)
  let linScalar := fun t => (scalarEnd - scalarBegin) / (s.tEnd - s.tBegin) * t + scalarBegin
  if 0 < a then
    let vSq := 2 * a * x + s.velBegin.norm3 * s.velBegin.norm3
    if 0 < vSq then .ok (linScalar ((PyMath.sqrt vSq - s.velBegin.norm3) / a))
    else .error .valueError
  else .ok (linScalar (x / s.velBegin.norm3))

end Segment
end Num
end PyGCD
