import Verif.Spec.Motion
import Verif.Spec.Programs
import Mathlib.Analysis.Calculus.Deriv.Basic

/-!
# Specification of competing motions: every way to execute a program within the limits

Nothing here refers to the planner.
-/

namespace PyGCD.Spec
open PyGCD Set

/-- A distance `d` can be driven in time `T`, beginning with speed `v` and ending with speed `v'`: there is a
travelled distance `x` with speed `w`, such that the speed is never negative or above `vT` and never changes
faster than `a`. -/
def Drive (a vT d v v' T : ℝ) : Prop :=
  0 ≤ T ∧ ∃ x w : ℝ → ℝ, (∀ t ∈ Icc 0 T, HasDerivWithinAt x (w t) (Icc 0 T) t) ∧
    (∀ s ∈ Icc 0 T, ∀ t ∈ Icc 0 T, |w t - w s| ≤ a * |t - s|) ∧
    (∀ t ∈ Icc 0 T, 0 ≤ w t ∧ w t ≤ vT) ∧ x 0 = 0 ∧ x T = d ∧ w 0 = v ∧ w T = v'

/-- A way to execute the program `states` in time `T`, beginning with travel speed `v` after state `pa`. A
travel move is any drive within feedrate and acceleration that ends with at most the speed `limit` gives for
its junction; the next move begins with that speed. Pauses and moves of the filament alone begin and end at
rest. -/
inductive Schedule (limit : Option (PState ℝ) → PState ℝ → List (PState ℝ) → ℝ) :
    Option (PState ℝ) → ℝ → List (PState ℝ) → ℝ → Prop
  | done (pa : Option (PState ℝ)) (v : ℝ) : Schedule limit pa v [] 0
  | idle {pa : Option (PState ℝ)} {v T : ℝ} {B : PState ℝ} {rest : List (PState ℝ)}
      (hp : B.pause = none) (hpos : ∀ A ∈ pa, B.position = A.position)
      (hrest : Schedule limit (some B) v rest T) : Schedule limit pa v (B :: rest) T
  | pause {pa : Option (PState ℝ)} {p t T : ℝ} {B : PState ℝ} {rest : List (PState ℝ)}
      (hp : B.pause = some p) (ht : p ≤ t) (hrest : Schedule limit (some B) 0 rest T) :
      Schedule limit pa 0 (B :: rest) (t + T)
  | travel {A B : PState ℝ} {v v' t T : ℝ} {rest : List (PState ℝ)}
      (hp : B.pause = none) (hne : (B.position.sub A.position).norm3 ≠ 0)
      (hd : Drive B.pAcc B.speed (B.position.sub A.position).norm3 v v' t)
      (hlim : v' ≤ limit (some A) B rest) (hrest : Schedule limit (some B) v' rest T) :
      Schedule limit (some A) v (B :: rest) (t + T)
  | filament {A B : PState ℝ} {t T : ℝ} {rest : List (PState ℝ)}
      (hp : B.pause = none) (h0 : (B.position.sub A.position).norm3 = 0)
      (hne : B.position.e ≠ A.position.e)
      (hd : Drive B.pAcc B.speed |B.position.e - A.position.e| 0 0 t)
      (hrest : Schedule limit (some B) 0 rest T) : Schedule limit (some A) 0 (B :: rest) (t + T)

end PyGCD.Spec
