import Verif.Spec.Speeds
import Verif.Spec.Tasks

/-!
# Specification of the speeds at the junctions of unusual programs

The closed formulas of `Spec/Speeds` for the steps of `Spec.executed`: what a machine makes of a program whose feedrates may be
zero and whose lines may both move and pause. Nothing here refers to the planner.
-/

namespace PyGCD.Spec
open PyGCD

open Classical in
/-- A step that travels the distance `d` with acceleration `a` changes the square of the speed by at most `2 a d`. Pauses
and moves of the filament alone begin and end without travel. -/
noncomputable def taskLeg (limit : Option (PState ℝ) → PState ℝ → List (PState ℝ) → ℝ) (x : Step × List (PState ℝ)) : Leg :=
  if x.1.B.pause = none ∧ (x.1.dst.sub x.1.src).norm3 ≠ 0 then
    ⟨2 * x.1.B.pAcc * (x.1.dst.sub x.1.src).norm3, x.1.B.speed, limit (some x.1.A) x.1.B x.2⟩
  else ⟨0, 0, 0⟩

/-- The time of one step that begins and ends with the given travel speeds. -/
noncomputable def taskTime (x : Step) (v v' : ℝ) : ℝ :=
  match x.B.pause with
  | some p => p
  | none => moveTime x.B.pAcc x.B.speed (moveLength x.src x.dst) v v'

/-- The time of a program whose junctions are taken with the speeds of the closed formula. -/
noncomputable def tasksTime (limit : Option (PState ℝ) → PState ℝ → List (PState ℝ) → ℝ) (states : List (PState ℝ)) : ℝ :=
  let ts := tasks none none states
  let l := ts.map (taskLeg limit)
  ((ts.zipIdx).map fun x => taskTime x.1.1 (cornerSpeed l x.2) (cornerSpeed l (x.2 + 1))).sum

/-- All steps that move travel: none moves the filament alone. -/
def TasksTravel (states : List (PState ℝ)) : Prop :=
  ∀ x ∈ tasks none none states, x.1.B.pause = none → (x.1.dst.sub x.1.src).norm3 ≠ 0

end PyGCD.Spec
