import Verif.Spec.Cuts

/-!
# Specification of print jobs that are run one after the other
-/

namespace PyGCD.Spec
open PyGCD

/-- State `D` pauses for `p` seconds where the program `P` ends. -/
structure PauseAfter (P : List (PState ℝ)) (D : PState ℝ) (p : ℝ) : Prop where
  pause : D.pause = some p
  nonneg : 0 ≤ p
  place : ∃ A, P.getLast? = some A ∧ D.position = A.position
  speed : 0 < D.speed
  acc : 0 < D.pAcc
  jerk : 0 ≤ D.jerk

/-- The program `Q` begins at the place of state `D`. -/
def BeginsAt (Q : List (PState ℝ)) (D : PState ℝ) : Prop := ∃ q, Q.head? = some q ∧ q.position = D.position

/-- `prog` runs the programs `jobs` one after the other, each from where the one before ends, with pauses in between
of altogether `w` seconds. -/
inductive Queue : List (List (PState ℝ)) → List (PState ℝ) → ℝ → Prop
  | one {P : List (PState ℝ)} (hP : Regular P) (hact : active none P ≠ []) : Queue [P] P 0
  | more {jobs : List (List (PState ℝ))} {prog Q : List (PState ℝ)} {D : PState ℝ} {w p : ℝ} (h : Queue jobs prog w)
      (hD : PauseAfter prog D p) (hQ : Regular Q) (hact : active none Q ≠ []) (hq : BeginsAt Q D) :
      Queue (jobs ++ [Q]) (prog ++ D :: Q) (w + p)

end PyGCD.Spec
