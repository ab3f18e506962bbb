import Verif.Spec.Executed
import Verif.Spec.Optimal

/-!
# Specification of competing motions for unusual programs

`Spec.executed` says what a machine makes of a program. Here are all ways to do these steps within the limits. Nothing here
refers to the planner.
-/

namespace PyGCD.Spec
open PyGCD

open Classical in
/-- The steps of `Spec.executed`, each together with the states of the program behind it. -/
noncomputable def tasks : Option (Vec4 ℝ) → Option (PState ℝ) → List (PState ℝ) → List (Step × List (PState ℝ))
  | _, _, [] => []
  | here, none, s :: rest => tasks here (some s) rest
  | here, some A, s :: rest =>
    let src := here.getD A.position
    if s.pause ≠ none then (⟨A, s, src, src⟩, rest) :: tasks here (some s) rest
    else if Executes A s then
      let dst := src.add (s.position.sub A.position)
      (⟨A, s, src, dst⟩, rest) :: tasks (some dst) (some s) rest
    else tasks here (some s) rest

/-- A way to do some steps in time `T`, beginning with travel speed `v`. A travel move is any drive within feedrate and
acceleration that ends with at most the speed `limit` gives for its junction; the next move begins with that speed. Pauses
and moves of the filament alone begin and end at rest. -/
inductive Timetable (limit : Option (PState ℝ) → PState ℝ → List (PState ℝ) → ℝ) :
    ℝ → List (Step × List (PState ℝ)) → ℝ → Prop
  | done (v : ℝ) : Timetable limit v [] 0
  | pause {x : Step} {behind : List (PState ℝ)} {tl : List (Step × List (PState ℝ))} {p t T : ℝ}
      (hp : x.B.pause = some p) (ht : p ≤ t) (htl : Timetable limit 0 tl T) :
      Timetable limit 0 ((x, behind) :: tl) (t + T)
  | travel {x : Step} {behind : List (PState ℝ)} {tl : List (Step × List (PState ℝ))} {v v' t T : ℝ}
      (hp : x.B.pause = none) (hne : (x.dst.sub x.src).norm3 ≠ 0)
      (hd : Drive x.B.pAcc x.B.speed (x.dst.sub x.src).norm3 v v' t)
      (hlim : v' ≤ limit (some x.A) x.B behind) (htl : Timetable limit v' tl T) :
      Timetable limit v ((x, behind) :: tl) (t + T)
  | filament {x : Step} {behind : List (PState ℝ)} {tl : List (Step × List (PState ℝ))} {t T : ℝ}
      (hp : x.B.pause = none) (h0 : (x.dst.sub x.src).norm3 = 0) (hne : x.dst.e ≠ x.src.e)
      (hd : Drive x.B.pAcc x.B.speed |x.dst.e - x.src.e| 0 0 t) (htl : Timetable limit 0 tl T) :
      Timetable limit 0 ((x, behind) :: tl) (t + T)

end PyGCD.Spec
