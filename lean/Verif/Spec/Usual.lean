import Verif.Spec.Doubles

/-!
# Programs of usual size, and being near in every coordinate
-/

namespace PyGCD.Spec
open PyGCD

/-- A program of usual size: coordinates up to 100 m, at most a million states, moves of at least a nanometre, ramps
of at most 10 m, and no more than 100 mm of filament on a millimetre of travel. -/
structure Usual (states : List (PState ℝ)) : Prop where
  coord : ∀ s ∈ states, |s.position.x| ≤ 100000 ∧ |s.position.y| ≤ 100000 ∧ |s.position.z| ≤ 100000 ∧
    |s.position.e| ≤ 100000
  ramp : ∀ s ∈ states, s.speed * s.speed / s.pAcc ≤ 10000
  length : ∀ pre A B post, states = pre ++ A :: B :: post → B.position ≠ A.position →
    1e-6 ≤ moveLength A.position B.position
  flow : ∀ pre A B post, states = pre ++ A :: B :: post → B.position ≠ A.position →
    |B.position.e - A.position.e| ≤ 100 * moveLength A.position B.position
  count : states.length ≤ 1000000

/-- The position of doubles is within `d` of the real position, in every coordinate. -/
def Near4 (d : ℝ) (p : Vec4 Dbl) (q : Vec4 ℝ) : Prop :=
  |p.x.r - q.x| ≤ d ∧ |p.y.r - q.y| ≤ d ∧ |p.z.r - q.z| ≤ d ∧ |p.e.r - q.e| ≤ d

/-- The segments lead from `p` to `q` without a gap, number for number. -/
def Leads {K : Type} : Vec4 K → List (Segment K) → Vec4 K → Prop
  | p, [], q => p = q
  | p, s :: ss, q => s.posBegin = p ∧ Leads s.posEnd ss q

end PyGCD.Spec
