import Verif.Model.Planner
import Verif.Proofs.RealLemmas
import Mathlib.Data.List.Chain

/-!
# Specification of a timeline of segments

Nothing here refers to how segments are searched.
-/

namespace PyGCD.Spec
open PyGCD

/-- A segment that reaches its end position with the mean of its begin and end velocity. -/
def Kinematic (s : Segment ℝ) : Prop :=
  s.posEnd = s.posBegin.add (((s.velBegin.add s.velEnd).mul (s.tEnd - s.tBegin)).div 2)

/-- A gap-free path: it starts at time `0`, every segment begins when and where its predecessor ends, none
has negative duration, each reaches its end position. -/
structure Timeline (path : List (Segment ℝ)) : Prop where
  start : ∀ s ∈ path.head?, s.tBegin = 0
  time : path.IsChain fun s s' => s'.tBegin = s.tEnd
  place : path.IsChain fun s s' => s'.posBegin = s.posEnd
  duration : ∀ s ∈ path, s.tBegin ≤ s.tEnd
  kinematic : ∀ s ∈ path, Kinematic s

/-- Time `t` lies in segment `s`, both ends included. -/
def Covers (s : Segment ℝ) (t : ℝ) : Prop := s.tBegin ≤ t ∧ t ≤ s.tEnd

/-- The path of the simulation: the segments of all blocks, one block after the other. -/
def path (bs : List (Block ℝ)) : List (Segment ℝ) := bs.flatMap Block.segments

/-- Lengths in millimetres are expressed in the unit system `u` by multiplying with `f`. -/
def InUnit (u : String) (f : ℝ) : Prop :=
  (u = "SI" ∧ f = 1 / 1000) ∨ (u = "SImm" ∧ f = 1) ∨ (u = "inch" ∧ f = 1 / 25.4)

/-- `T` is the end time of the path. -/
def EndTime (path : List (Segment ℝ)) (T : ℝ) : Prop := ∃ s, path.getLast? = some s ∧ s.tEnd = T

end PyGCD.Spec
