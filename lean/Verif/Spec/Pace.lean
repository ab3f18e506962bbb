import Verif.Spec.Programs
import Verif.Spec.Doubles

/-!
# Speeds and times of plans in double precision
-/

namespace PyGCD.Spec
open PyGCD

/-- The speed `w` keeps the feedrate `F`, up to the tolerances of the planner: a relative one of `1e-5` on speeds and one
of `1e-8` mm on ramps, which the acceleration `a` turns into speed. -/
def WithinFeed (F a w : ℝ) : Prop := w ^ 2 ≤ 1.0001 * F ^ 2 + 3e-8 * (a + 1)

/-- The segments follow each other in time, from `t` to `t'`, and none of them ends before it begins. -/
def Ahead : Dbl → List (Segment Dbl) → Dbl → Prop
  | t, [], t' => t.r ≤ t'.r
  | t, s :: ss, t' => t.r ≤ s.tBegin.r ∧ s.tBegin.r ≤ s.tEnd.r ∧ Ahead s.tEnd ss t'

/-- More time than a move or pause needs: the pause, or the time for three ramps between rest and feedrate and for twice
the travel at feedrate. -/
noncomputable def span : Option (PState ℝ) × PState ℝ → ℝ
  | (none, _) => 0
  | (some A, B) => match B.pause with
    | some p => p
    | none => 3 * B.speed / B.pAcc + 2 * moveLength A.position B.position / B.speed

/-- A program that takes no longer than 400000 seconds, at feedrates of at least a nanometre per second. -/
structure Brief (states : List (PState ℝ)) : Prop where
  speed : ∀ s ∈ states, 1e-6 ≤ s.speed
  time : ((active none states).map span).sum ≤ 400000

end PyGCD.Spec
