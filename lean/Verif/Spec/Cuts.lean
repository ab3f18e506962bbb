import Verif.Spec.Programs
import Verif.Proofs.RealLemmas

/-!
# Specification of cuts: giving a point on the way explicitly
-/

namespace PyGCD.Spec
open PyGCD

/-- State `M` lies inside the straight travel move from `A` to `B`, with the filament in proportion, and asks
for the same feedrate, acceleration and jerk. Neither `M` nor `B` pauses. -/
structure Between (A M B : PState ℝ) : Prop where
  travels : (B.position.sub A.position).norm3 ≠ 0
  point : ∃ s, 0 < s ∧ s < 1 ∧ M.position = A.position.add ((B.position.sub A.position).mul s)
  speed : M.speed = B.speed
  acc : M.pAcc = B.pAcc
  jerk : M.jerk = B.jerk
  pause : M.pause = none
  pauseB : B.pause = none

/-- `states'` is the program `states` with one travel move cut in two. -/
def Cut (states states' : List (PState ℝ)) : Prop :=
  ∃ pre A M B post, states = pre ++ A :: B :: post ∧ states' = pre ++ A :: M :: B :: post ∧ Between A M B

/-- `states'` is the program `states` after `n` cuts. -/
inductive Cuts : ℕ → List (PState ℝ) → List (PState ℝ) → Prop
  | none (states : List (PState ℝ)) : Cuts 0 states states
  | more {n : ℕ} {states states' states'' : List (PState ℝ)} (h : Cuts n states states') (hc : Cut states' states'') :
      Cuts (n + 1) states states''

/-- All moves travel. -/
def Travels (states : List (PState ℝ)) : Prop :=
  ∀ x ∈ active none states, ∀ A ∈ x.1, x.2.pause = none → (x.2.position.sub A.position).norm3 ≠ 0

/-- How much the planner's tolerance of `1e-12` mm/s at each junction may matter for the print time. -/
noncomputable def slack (states : List (PState ℝ)) : ℝ :=
  7e-12 * states.length * (states.map fun s => 1 / s.pAcc).sum

end PyGCD.Spec
