import Verif.Spec.Motion
import Verif.Spec.Programs
import Verif.Spec.Times

/-!
# Specification of the speeds at the junctions: a closed formula

Nothing here refers to the planner. The speed that a firmware allows at the end of a move is a parameter.
-/

namespace PyGCD.Spec
open PyGCD

/-- One action of a program as the speeds at its ends see it: by how much it can change the square of the speed, its
feedrate, and the speed that the firmware allows at its end. -/
structure Leg where
  gain : ℝ
  feed : ℝ
  last : ℝ

open Classical in
/-- A move that travels the distance `d` with acceleration `a` changes the square of the speed by at most `2 a d`. Pauses
and moves of the filament alone begin and end without travel. -/
noncomputable def leg (limit : Option (PState ℝ) → PState ℝ → List (PState ℝ) → ℝ)
    (x : Option (PState ℝ) × PState ℝ × List (PState ℝ)) : Leg :=
  match x with
  | (some A, B, rest) =>
    if B.pause = none ∧ (B.position.sub A.position).norm3 ≠ 0 then
      ⟨2 * B.pAcc * (B.position.sub A.position).norm3, B.speed, limit (some A) B rest⟩
    else ⟨0, 0, 0⟩
  | (none, _, _) => ⟨0, 0, 0⟩

/-- The speed that junction `i` allows by itself: none at the begin, in between what the firmware allows and not more
than the next feedrate, at the end what the firmware allows. -/
noncomputable def ownSpeed (l : List Leg) : ℕ → ℝ
  | 0 => 0
  | i + 1 =>
    match l[i]?, l[i + 1]? with
    | some b, some c => min b.last c.feed
    | some b, none => b.last
    | none, _ => 0

/-- By how much the actions before junction `i` can change the square of the speed, in total. -/
noncomputable def reach (l : List Leg) (i : ℕ) : ℝ := ((l.take i).map Leg.gain).sum

/-- The highest speed at junction `i` from which all other junctions can be taken: at junction `j` the speed is what `j`
allows by itself, and the actions in between can change its square by the sum of what each can change. -/
noncomputable def cornerSpeed (l : List Leg) (i : ℕ) : ℝ :=
  ⨅ j : Fin (l.length + 1), √(ownSpeed l j ^ 2 + |reach l i - reach l j|)

/-- The time of one action that begins and ends with the given travel speeds. -/
noncomputable def actionTime (x : Option (PState ℝ) × PState ℝ × List (PState ℝ)) (v v' : ℝ) : ℝ :=
  match x.2.1.pause, x.1 with
  | some p, _ => p
  | none, some A => moveTime x.2.1.pAcc x.2.1.speed (moveLength A.position x.2.1.position) v v'
  | none, none => 0

/-- The time of a program whose junctions are taken with the speeds of the closed formula. -/
noncomputable def programTime (limit : Option (PState ℝ) → PState ℝ → List (PState ℝ) → ℝ) (states : List (PState ℝ)) :
    ℝ :=
  let acts := actions none states
  let l := acts.map (leg limit)
  ((acts.zipIdx).map fun x => actionTime x.1 (cornerSpeed l x.2) (cornerSpeed l (x.2 + 1))).sum

end PyGCD.Spec
