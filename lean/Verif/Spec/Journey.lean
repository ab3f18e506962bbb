import Verif.Spec.Executed
import Verif.Spec.Itinerary

/-!
# What a machine does with a program, move by move
-/

namespace PyGCD.Spec
open PyGCD

/-- What the machine carries out: the states of the moves and pauses, at the places where the machine is. -/
noncomputable def doings (states : List (PState ℝ)) : List (Option (PState ℝ) × PState ℝ) :=
  (executed none none states).map fun x => (some { x.A with position := x.src }, { x.B with position := x.dst })

/-- The places that the machine visits and how long it waits there: where it begins, and where each thing it does ends. -/
noncomputable def journey (states : List (PState ℝ)) : List (Vec4 ℝ × Option ℝ) :=
  match executed none none states with
  | [] => []
  | x :: xs => (x.src, none) :: (x :: xs).map fun y => (y.dst, y.B.pause)

end PyGCD.Spec
