import Verif.Model.Junction
import Verif.Spec.Files

/-!
# Specification of states that do not matter for the motion

Nothing here refers to the planner.
-/

namespace PyGCD.Spec
open PyGCD

/-- The states ask for the same motion: they agree in everything but the layer. -/
structure Alike (s s' : PState ℝ) : Prop where
  position : s.position = s'.position
  speed : s.speed = s'.speed
  acc : s.pAcc = s'.pAcc
  jerk : s.jerk = s'.jerk
  pause : s.pause = s'.pause

/-- The second list is the first one without some of the states that neither move (the state before is at `p`) nor pause.
Settings of these states and of the first one may be any; layers may be any in both lists. -/
inductive Thinned : Option (Vec4 ℝ) → List (PState ℝ) → List (PState ℝ) → Prop
  | nil (p) : Thinned p [] []
  | first {s s' l l'} : s.position = s'.position → s.pause = none → s'.pause = none → Thinned (some s.position) l l' →
      Thinned none (s :: l) (s' :: l')
  | keep {p s s' l l'} : Alike s s' → Thinned (some s.position) l l' → Thinned p (s :: l) (s' :: l')
  | drop {s l l'} : s.pause = none → Thinned (some s.position) l l' → Thinned (some s.position) (s :: l) l'

/-- What a line of a file is about, if it moves or waits: where it goes, the feedrate, the acceleration, the jerk, the wait. -/
structure Doing where
  place : Vec4 ℝ
  feed : ℝ
  acc : ℝ
  jerk : ℝ
  wait : Option ℝ

open Classical in
/-- What the lines of a file make a printer do, without the lines that neither move nor wait. -/
noncomputable def Printer.doings (pf : List Char → Option ℝ) (q : Printer) : List Line → List Doing
  | [] => []
  | l :: ls =>
    let q' := q.exec pf l
    if q'.point = q.point ∧ l.wait pf = none then q'.doings pf ls
    else ⟨q'.point, q'.feed, q'.acc, q'.jerk, l.wait pf⟩ :: q'.doings pf ls

end PyGCD.Spec
