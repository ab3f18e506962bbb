import Verif.Model.Junction
import Mathlib.Data.Real.Basic

/-!
# Specification of programs: which state lists the machine can execute, and what moves in them

Nothing here refers to the planner.
-/

namespace PyGCD.Spec
open PyGCD

/-- A list of states that a machine can execute: feedrates and accelerations are positive, jerk and pauses
are not negative, and a pausing state stays where it is and comes after some motion. -/
structure Regular (states : List (PState ℝ)) : Prop where
  speed : ∀ s ∈ states, 0 < s.speed
  acc : ∀ s ∈ states, 0 < s.pAcc
  jerk : ∀ s ∈ states, 0 ≤ s.jerk
  pause : ∀ s ∈ states, ∀ p ∈ s.pause, 0 ≤ p
  stays : ∀ pre s post, states = pre ++ s :: post → s.pause ≠ none →
    ∃ A, pre.getLast? = some A ∧ s.position = A.position
  moved : ∀ pre s post, states = pre ++ s :: post → s.pause ≠ none →
    ∃ x ∈ pre, ∃ y ∈ pre, x.position ≠ y.position

/-- Every state of `states` together with the state before it; `pa` is before the first one. -/
def withPrev (pa : Option (PState ℝ)) (states : List (PState ℝ)) :
    List (Option (PState ℝ) × PState ℝ) :=
  (pa :: states.map some).zip states

open Classical in
/-- The states that move or pause, with the states before them, in order. -/
noncomputable def active (pa : Option (PState ℝ)) (states : List (PState ℝ)) :
    List (Option (PState ℝ) × PState ℝ) :=
  (withPrev pa states).filter fun x =>
    decide (x.2.pause ≠ none ∨ ∃ A, x.1 = some A ∧ x.2.position ≠ A.position)

open Classical in
/-- The states that move or pause, each with the state before it and the states after it, in order. -/
noncomputable def actions : Option (PState ℝ) → List (PState ℝ) →
    List (Option (PState ℝ) × PState ℝ × List (PState ℝ))
  | _, [] => []
  | pa, s :: rest =>
    if s.pause ≠ none ∨ ∃ A, pa = some A ∧ s.position ≠ A.position then
      (pa, s, rest) :: actions (some s) rest
    else actions (some s) rest

/-- The program goes from `A` to the next state `B` and pushes filament on the way. -/
def ExtrudingMove (states : List (PState ℝ)) (A B : PState ℝ) : Prop :=
  (some A, B) ∈ withPrev none states ∧ A.position.e < B.position.e

end PyGCD.Spec
