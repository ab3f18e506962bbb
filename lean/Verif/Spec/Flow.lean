import Verif.Proofs.RealLemmas
import Verif.Model.Planner
import Verif.Spec.Idle
import Verif.Model.Output

/-!
# Specification of programs that differ in how much filament they move
-/

namespace PyGCD.Spec
open PyGCD

/-- The vectors agree in X, Y and Z. -/
structure SameXYZ (v v' : Vec4 ℝ) : Prop where
  x : v'.x = v.x
  y : v'.y = v.y
  z : v'.z = v.z

/-- The second state asks for the same as the first one, except for the filament. -/
structure Reflowed (s s' : PState ℝ) : Prop where
  place : SameXYZ s.position s'.position
  speed : s'.speed = s.speed
  acc : s'.pAcc = s.pAcc
  jerk : s'.jerk = s.jerk
  pause : s'.pause = s.pause

/-- The second states ask for the same as the first ones, except for the filament; `A` and `A'` are the states before. No state
moves the filament alone: the states that do not travel leave the filament where it is. -/
inductive Reflowing : PState ℝ → PState ℝ → List (PState ℝ) → List (PState ℝ) → Prop
  | nil {A A'} : Reflowing A A' [] []
  | travel {A A' B B' l l'} : Reflowed B B' → (B.position.sub A.position).norm3 ≠ 0 → Reflowing B B' l l' →
      Reflowing A A' (B :: l) (B' :: l')
  | stay {A A' B B' l l'} : Reflowed B B' → B.position = A.position → B'.position = A'.position → Reflowing B B' l l' →
      Reflowing A A' (B :: l) (B' :: l')

/-- The second printer is asked for the same as the first one, except for the filament, and neither moves the filament alone; the
printers are at `p` and `p'` before. -/
inductive Refilled : Vec4 ℝ → Vec4 ℝ → List Doing → List Doing → Prop
  | nil {p p'} : Refilled p p' [] []
  | travel {p p' x x' l l'} : SameXYZ x.place x'.place → (x.place.sub p).norm3 ≠ 0 → x'.feed = x.feed → x'.acc = x.acc →
      x'.jerk = x.jerk → x'.wait = x.wait → Refilled x.place x'.place l l' → Refilled p p' (x :: l) (x' :: l')
  | stay {p p' x x' l l'} : x.place = p → x'.place = p' → x'.feed = x.feed → x'.acc = x.acc →
      x'.jerk = x.jerk → x'.wait = x.wait → Refilled x.place x'.place l l' → Refilled p p' (x :: l) (x' :: l')

/-- The nozzle does the same at the same times. -/
structure SameNozzle (s s' : Segment ℝ) : Prop where
  tBegin : s'.tBegin = s.tBegin
  tEnd : s'.tEnd = s.tEnd
  posBegin : SameXYZ s.posBegin s'.posBegin
  velBegin : SameXYZ s.velBegin s'.velBegin
  posEnd : SameXYZ s.posEnd s'.posEnd
  velEnd : SameXYZ s.velEnd s'.velEnd

/-- Two answers about velocity and position agree in X, Y and Z, or the question fails in the same way. -/
structure SameAnswer (r r' : Except PyErr (Vec4 ℝ × Vec4 ℝ)) : Prop where
  fails : ∀ e, r = .error e ↔ r' = .error e
  answers : ∀ v p v' p', r = .ok (v, p) → r' = .ok (v', p') → SameXYZ v v' ∧ SameXYZ p p'

/-- Two rows of event series agree in time and place. -/
structure SameRow (r r' : EventRow ℝ) : Prop where
  t : r'.t = r.t
  x : r'.x = r.x
  y : r'.y = r.y
  z : r'.z = r.z

end PyGCD.Spec
