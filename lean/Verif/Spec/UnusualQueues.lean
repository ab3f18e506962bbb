import Verif.Spec.Executed

/-!
# Specification of print jobs one after the other, for unusual programs

Feedrates may be zero and lines may both move and pause.
-/

namespace PyGCD.Spec
open PyGCD

/-- The program `Q` begins with a state at the place of state `D` that does not pause. -/
def Resumes (Q : List (PState ℝ)) (D : PState ℝ) : Prop :=
  ∃ q, Q.head? = some q ∧ q.position = D.position ∧ q.pause = none

/-- `prog` runs the programs `jobs` one after the other, with lines that pause in between. Each job begins at the place of
the line that pauses before it. That line may itself ask for a move. The pauses take `w` seconds together. -/
inductive Jobs : List (List (PState ℝ)) → List (PState ℝ) → ℝ → Prop
  | one {P : List (PState ℝ)} (hne : P ≠ []) (hP : Sensible P) : Jobs [P] P 0
  | more {jobs : List (List (PState ℝ))} {prog Q : List (PState ℝ)} {D : PState ℝ} {w p : ℝ} (h : Jobs jobs prog w)
      (hD : D.pause = some p) (hs : Sensible [D]) (hQ : Sensible Q) (hq : Resumes Q D) :
      Jobs (jobs ++ [Q]) (prog ++ D :: Q) (w + p)

end PyGCD.Spec
