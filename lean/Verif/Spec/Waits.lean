import Verif.Spec.Cuts
import Verif.Spec.Idle
import Verif.Model.Planner

/-!
# Specification of programs that differ in how long they wait
-/

namespace PyGCD.Spec
open PyGCD

/-- The second state asks for the same as the first one, except for how long it waits. -/
structure Rewaited (s s' : PState ℝ) : Prop where
  position : s'.position = s.position
  speed : s'.speed = s.speed
  acc : s'.pAcc = s.pAcc
  jerk : s'.jerk = s.jerk
  waits : s.pause = none ∧ s'.pause = none ∨ ∃ p p', 0 ≤ p ∧ 0 ≤ p' ∧ s.pause = some p ∧ s'.pause = some p'

/-- States that pause stay where the machine is. -/
def PausesStay (states : List (PState ℝ)) : Prop :=
  states.IsChain fun A B => B.pause ≠ none → B.position = A.position

/-- Segments that run `δ` later. -/
def Later (δ : ℝ) (l l' : List (Segment ℝ)) : Prop :=
  l' = l.map fun s => { s with tBegin := s.tBegin + δ, tEnd := s.tEnd + δ }

/-- The segment stays in its place, at rest, for the time `p`. -/
structure Holds (p : ℝ) (s : Segment ℝ) : Prop where
  lasts : s.tEnd = s.tBegin + p
  stays : s.posEnd = s.posBegin
  begins : s.velBegin = Vec4.zero
  ends : s.velEnd = Vec4.zero

/-- The second blocks are the first ones with other waits: moves run `δ` later, where `δ` is by how much the machine has waited
longer so far; a wait begins `δ` later, lasts as long as its state says, and holds the same place. -/
inductive Delayed : ℝ → List (Block ℝ) → List (Block ℝ) → Prop
  | nil (δ) : Delayed δ [] []
  | move {δ b b' bs bs'} : b.stateB.pause = none → b'.stateB.pause = none → b'.isExtruding = b.isExtruding →
      Later δ b.segments b'.segments → Delayed δ bs bs' → Delayed δ (b :: bs) (b' :: bs')
  | wait {δ b b' bs bs' p p' s} : b.stateB.pause = some p → b'.stateB.pause = some p' → b'.isExtruding = b.isExtruding →
      b.segments = [s] → Holds p s →
      b'.segments = [{ s with tBegin := s.tBegin + δ, tEnd := s.tEnd + (δ + (p' - p)) }] →
      Delayed (δ + (p' - p)) bs bs' → Delayed δ (b :: bs) (b' :: bs')

/-- How much longer the second program pauses. -/
noncomputable def longer (l l' : List (PState ℝ)) : ℝ :=
  (l'.map fun s => s.pause.getD 0).sum - (l.map fun s => s.pause.getD 0).sum

/-- The second printer is asked for the same, except for how long it waits. -/
structure Relaxed (x x' : Doing) : Prop where
  place : x'.place = x.place
  feed : x'.feed = x.feed
  acc : x'.acc = x.acc
  jerk : x'.jerk = x.jerk
  waits : x.wait = none ∧ x'.wait = none ∨ ∃ p p', 0 ≤ p ∧ 0 ≤ p' ∧ x.wait = some p ∧ x'.wait = some p'

/-- How long a printer waits. -/
noncomputable def waited (l : List Doing) : ℝ := (l.map fun x => x.wait.getD 0).sum

/-- Where segments lead, and how fast. -/
def tracks (l : List (Segment ℝ)) : List (Vec4 ℝ × Vec4 ℝ × Vec4 ℝ × Vec4 ℝ) :=
  l.map fun s => (s.posBegin, s.posEnd, s.velBegin, s.velEnd)

end PyGCD.Spec
