import Verif.Model.Objects
import Mathlib.Data.Real.Basic

/-!
# What the vector classes accept

Written against the records of `Verif/Model/Objects.lean` only (classes, instances, values).
-/

namespace PyGCD.Spec

variable {K : Type}

/-- `x` can stand on the right of `+`, `-` and `==` behind an instance of class `c`, and has the
coordinates `v`: a sequence of four numbers, an instance of the same class, or any instance if `c` is the
base class. -/
inductive Operand (c : Cls) : Value K → Vec4 K → Prop
  | four (x y z e : K) : Operand c (.seq [x, y, z, e]) ⟨x, y, z, e⟩
  | same (v : Vec4 K) : Operand c (.obj ⟨c, v⟩) v
  | base (d : Cls) (v : Vec4 K) (h : c = .vector4D) : Operand c (.obj ⟨d, v⟩) v

/-- Numbers a vector can be multiplied with. -/
def Factor (x : Value K) (k : K) : Prop :=
  x = .num .float k ∨ x = .num .float64 k ∨ x = .num .int k

/-- Numbers a vector can be divided by. -/
def Divisor (x : Value K) (k : K) : Prop := x = .num .float k ∨ x = .num .float64 k

/-- Equality up to `1e-8 + 1e-5 * |second|` in every coordinate. -/
def Near (a b : Vec4 ℝ) : Prop :=
  |a.x - b.x| ≤ 1e-8 + 1e-5 * |b.x| ∧ |a.y - b.y| ≤ 1e-8 + 1e-5 * |b.y| ∧
  |a.z - b.z| ≤ 1e-8 + 1e-5 * |b.z| ∧ |a.e - b.e| ≤ 1e-8 + 1e-5 * |b.e|

/-- A segment as the planner makes them: positions are positions, velocities are velocities. -/
structure Typed (s : TSegment K) : Prop where
  pb : s.posBegin.cls = .position
  pe : s.posEnd.cls = .position
  vb : s.velBegin.cls = .velocity
  ve : s.velEnd.cls = .velocity

/-- `t` is a segment of the plan without classes, `s` the same with classes. -/
def Dressed (s : TSegment K) (t : Segment K) : Prop :=
  s = ⟨t.tBegin, t.tEnd, ⟨.position, t.posBegin⟩, ⟨.velocity, t.velBegin⟩, ⟨.position, t.posEnd⟩,
    ⟨.velocity, t.velEnd⟩⟩

/-- Both computations fail with the same exception or both succeed with results related by `R`. -/
inductive SameOutcome {α β : Type} (R : α → β → Prop) : Except PyErr α → Except PyErr β → Prop
  | ok {a b} : R a b → SameOutcome R (.ok a) (.ok b)
  | error (e) : SameOutcome R (.error e) (.error e)

end PyGCD.Spec
