import Verif.Spec.Programs
import Verif.Spec.Motion
import Verif.Spec.Times

/-!
# Specification of what a machine makes of an unusual program

A program may contain moves with feedrate zero and lines that move and pause. This file says which of its moves are
carried out, and from where. Nothing here refers to the planner.
-/

namespace PyGCD.Spec
open PyGCD

/-- The settings make sense: feedrates are not negative, accelerations are positive, jerk is not negative. Pauses
and positions are arbitrary. -/
structure Sensible (states : List (PState ℝ)) : Prop where
  speed : ∀ s ∈ states, 0 ≤ s.speed
  acc : ∀ s ∈ states, 0 < s.pAcc
  jerk : ∀ s ∈ states, 0 ≤ s.jerk

/-- The state `B` after `A` is a move that is carried out. -/
def Executes (A B : PState ℝ) : Prop := B.pause = none ∧ B.position ≠ A.position ∧ 0 < B.speed

/-- The program contains a move that is carried out. -/
def Started (states : List (PState ℝ)) : Prop := ∃ l A B r, states = l ++ A :: B :: r ∧ Executes A B

/-- Every pause is not negative and comes after a move that is carried out. -/
def PausesFollow (states : List (PState ℝ)) : Prop :=
  ∀ pre s post, states = pre ++ s :: post → ∀ p ∈ s.pause, 0 ≤ p ∧ Started pre

/-- The program can be planned (`c86_plannable`) and has sensible settings. -/
structure Feasible (states : List (PState ℝ)) : Prop extends Sensible states where
  follow : PausesFollow states

/-- Something the machine does: the state `B` after `A`, begun at the place `src` and ended at the place `dst`. -/
structure Step where
  A : PState ℝ
  B : PState ℝ
  src : Vec4 ℝ
  dst : Vec4 ℝ

open Classical in
/-- What the machine does. It is at the place `here`, if it has moved already; before, it is where the program says.
A move goes from where the machine is, by as much as the program says. A state with a pause only pauses. A move with
feedrate zero is not carried out. -/
noncomputable def executed : Option (Vec4 ℝ) → Option (PState ℝ) → List (PState ℝ) → List Step
  | _, _, [] => []
  | here, none, s :: rest => executed here (some s) rest
  | here, some A, s :: rest =>
    let src := here.getD A.position
    if s.pause ≠ none then ⟨A, s, src, src⟩ :: executed here (some s) rest
    else if Executes A s then
      let dst := src.add (s.position.sub A.position)
      ⟨A, s, src, dst⟩ :: executed (some dst) (some s) rest
    else executed here (some s) rest

open Classical in
/-- The displacements that are lost: those of the moves that are not carried out, after the first move that is. -/
noncomputable def lostMoves : Bool → Option (PState ℝ) → List (PState ℝ) → List (Vec4 ℝ)
  | _, _, [] => []
  | started, none, s :: rest => lostMoves started (some s) rest
  | started, some A, s :: rest =>
    if Executes A s then lostMoves true (some s) rest
    else if started then s.position.sub A.position :: lostMoves started (some s) rest
    else lostMoves started (some s) rest

/-- The sum of displacements. -/
noncomputable def total (l : List (Vec4 ℝ)) : Vec4 ℝ := l.foldr Vec4.add Vec4.zero

/-- A block of the plan does one thing: its segments begin at the source and end at the destination; a pause is one
segment at standstill of exactly its duration; a move is a straight line along a direction `u` that respects feedrate
and acceleration, accelerates fully, cruises and brakes fully. -/
structure CarriesOut (b : Block ℝ) (x : Step) : Prop where
  stateA : b.stateA = some x.A
  stateB : b.stateB = x.B
  pause : ∀ p ∈ x.B.pause, ∃ t, b.segments = [⟨t, t + p, x.src, Vec4.zero, x.src, Vec4.zero⟩]
  move : x.B.pause = none → ∃ u t v t' v', UnitDir u (decide ((x.dst.sub x.src).norm3 = 0)) ∧
    x.dst = x.src.add (u.mul (moveLength x.src x.dst)) ∧ b.segments ≠ [] ∧
    Ramp u x.B.pAcc x.B.speed x.src t v b.segments x.dst t' v' ∧ Profile u x.B.pAcc x.B.speed b.segments

/-- How long a step takes if it begins and ends at rest. -/
noncomputable def stepTime (x : Step) : ℝ :=
  match x.B.pause with
  | some p => p
  | none => moveTime x.B.pAcc x.B.speed (moveLength x.src x.dst) 0 0

end PyGCD.Spec
