import Verif.Spec.Cuts

/-!
# Specification of cuts into long pieces

With `klipper` the speed at a corner also depends on the length of the move behind it.
-/

namespace PyGCD.Spec
open PyGCD

/-- Moves of this length and longer do not lower the corner speeds of `klipper` further: `2 √(k² + 2 k F²) / a` with the
feedrate `F`, the acceleration `a` and `k = (√2 - 1) J²` for the square corner velocity `J`. -/
noncomputable def roomLength (s : PState ℝ) : ℝ :=
  2 * √(((√2 - 1) * s.jerk ^ 2) ^ 2 + 2 * ((√2 - 1) * s.jerk ^ 2) * s.speed ^ 2) / s.pAcc

/-- `states'` is the program `states` with one travel move cut in two pieces that are long enough for the settings at their
begins, with a feedrate of at most a thousand times the square corner velocity. -/
def LongCut (states states' : List (PState ℝ)) : Prop :=
  ∃ pre A M B post, states = pre ++ A :: B :: post ∧ states' = pre ++ A :: M :: B :: post ∧ Between A M B ∧
    (∀ s ∈ pre ++ [A], s.position = A.position → roomLength s ≤ (M.position.sub A.position).norm3) ∧
    roomLength B ≤ (B.position.sub M.position).norm3 ∧ B.speed ≤ 1000 * B.jerk

/-- `states'` is the program `states` after `n` such cuts. -/
inductive LongCuts : ℕ → List (PState ℝ) → List (PState ℝ) → Prop
  | none (states : List (PState ℝ)) : LongCuts 0 states states
  | more {n : ℕ} {states states' states'' : List (PState ℝ)} (h : LongCuts n states states') (hc : LongCut states' states'') :
      LongCuts (n + 1) states states''

/-- Every travel move is at least `L` long. -/
def LongMoves (L : ℝ) (states : List (PState ℝ)) : Prop :=
  states.IsChain fun A B => (B.position.sub A.position).norm3 ≠ 0 → L ≤ (B.position.sub A.position).norm3

end PyGCD.Spec
