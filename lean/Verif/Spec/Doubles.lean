import Verif.Model.Double
import Verif.Model.Setup
import Verif.Spec.Programs
import Verif.Spec.Times

/-!
# Specification of double precision: which numbers are representable, and what programs of doubles mean

Nothing here refers to the planner.
-/

namespace PyGCD.Spec
open PyGCD

/-- The number is one of the 53-bit floating-point numbers: an integer of at most 53 bits times a power of two. -/
def Rep (x : ℚ) : Prop := ∃ m e : ℤ, |m| ≤ 2 ^ 53 ∧ x = m * 2 ^ e

/-- A program of ordinary size: coordinates up to 100 m, at most 1000 mm/s, ramps and moves of at least a
nanometre, at most a million states and at most 400000 s of printing (with a stop at the end of every move). -/
structure Moderate (states : List (PState ℝ)) : Prop where
  coord : ∀ s ∈ states, |s.position.x| ≤ 100000 ∧ |s.position.y| ≤ 100000 ∧ |s.position.z| ≤ 100000 ∧
    |s.position.e| ≤ 100000
  speed : ∀ s ∈ states, s.speed ≤ 1000
  ramp : ∀ s ∈ states, 1e-6 ≤ s.speed * s.speed / s.pAcc
  length : ∀ pre A B post, states = pre ++ A :: B :: post → B.position ≠ A.position →
    1e-6 ≤ moveLength A.position B.position
  count : states.length ≤ 1000000
  total : ((active none states).map restTime).sum ≤ 400000

end PyGCD.Spec

namespace PyGCD

/-- The real number that a double denotes. -/
noncomputable def Dbl.r (a : Dbl) : ℝ := (a.val : ℝ)

/-- The real vector that a vector of doubles denotes. -/
noncomputable def Vec4.real (a : Vec4 Dbl) : Vec4 ℝ := ⟨a.x.r, a.y.r, a.z.r, a.e.r⟩

/-- The state whose numbers are the real numbers that the doubles denote. -/
noncomputable def PState.real (s : PState Dbl) : PState ℝ :=
  ⟨s.position.real, s.speed.r, s.pAcc.r, s.jerk.r, s.pause.map Dbl.r, s.layer⟩

/-- All numbers of the state are representable. -/
def PState.Representable (s : PState Dbl) : Prop :=
  Spec.Rep s.position.x.val ∧ Spec.Rep s.position.y.val ∧ Spec.Rep s.position.z.val ∧ Spec.Rep s.position.e.val ∧
    Spec.Rep s.speed.val ∧ Spec.Rep s.pAcc.val ∧ Spec.Rep s.jerk.val ∧ ∀ p ∈ s.pause, Spec.Rep p.val

/-- The two segments end within `dp` mm of each other, in every coordinate, and within `dt` s. -/
def Spec.EndsWithin (dp dt : ℝ) (s : Segment Dbl) (s' : Segment ℝ) : Prop :=
  |s.tEnd.r - s'.tEnd| ≤ dt ∧ |s.posEnd.x.r - s'.posEnd.x| ≤ dp ∧ |s.posEnd.y.r - s'.posEnd.y| ≤ dp ∧
    |s.posEnd.z.r - s'.posEnd.z| ≤ dp ∧ |s.posEnd.e.r - s'.posEnd.e| ≤ dp

/-- A setting with its number converted by `f`. -/
def SVal.conv {K : Type} (f : ℚ → K) : SVal ℚ → SVal K
  | .num v => .num (f v)
  | .text s => .text s
  | .null => .null

/-- A dictionary of settings with its numbers converted by `f`. -/
def Spec.convSettings {K : Type} (f : ℚ → K) (d : Dict (SVal ℚ)) : Dict (SVal K) :=
  d.map fun kv => (kv.1, kv.2.conv f)

/-- A number that is written in a file, as a double. -/
def Spec.toDbl (q : ℚ) : Dbl := ⟨rnd q⟩

/-- A number that is written in a file, as a real number. -/
noncomputable def Spec.toReal (q : ℚ) : ℝ := q

end PyGCD
