import Verif.Spec.Flow

/-!
# Specification of programs that differ by a factor for the filament
-/

namespace PyGCD.Spec
open PyGCD

/-- The vectors agree in X, Y and Z, and the filament of the second one is `κ` times as much. -/
structure Metered (κ : ℝ) (v v' : Vec4 ℝ) : Prop where
  x : v'.x = v.x
  y : v'.y = v.y
  z : v'.z = v.z
  e : v'.e = κ * v.e

/-- The second state asks for the same as the first one, with `κ` times the filament. -/
structure MeteredState (κ : ℝ) (s s' : PState ℝ) : Prop where
  place : Metered κ s.position s'.position
  speed : s'.speed = s.speed
  acc : s'.pAcc = s.pAcc
  jerk : s'.jerk = s.jerk
  pause : s'.pause = s.pause
  layer : s'.layer = s.layer

/-- The second states ask for the same as the first ones, with `κ` times the filament; `A` and `A'` are the states before. No
state moves the filament alone. -/
inductive MeteredRun (κ : ℝ) : PState ℝ → PState ℝ → List (PState ℝ) → List (PState ℝ) → Prop
  | nil {A A'} : MeteredRun κ A A' [] []
  | travel {A A' B B' l l'} : MeteredState κ B B' → (B.position.sub A.position).norm3 ≠ 0 → MeteredRun κ B B' l l' →
      MeteredRun κ A A' (B :: l) (B' :: l')
  | stay {A A' B B' l l'} : MeteredState κ B B' → B.position = A.position → B'.position = A'.position → MeteredRun κ B B' l l' →
      MeteredRun κ A A' (B :: l) (B' :: l')

/-- The second printer is asked for the same as the first one, with `κ` times the filament. -/
structure MeteredDoing (κ : ℝ) (x x' : Doing) : Prop where
  place : Metered κ x.place x'.place
  feed : x'.feed = x.feed
  acc : x'.acc = x.acc
  jerk : x'.jerk = x.jerk
  wait : x'.wait = x.wait

/-- The filament is never moved alone; the printer is at `p` before. -/
inductive NeverAlone : Vec4 ℝ → List Doing → Prop
  | nil {p} : NeverAlone p []
  | travel {p x l} : (x.place.sub p).norm3 ≠ 0 → NeverAlone x.place l → NeverAlone p (x :: l)
  | stay {p x l} : x.place = p → NeverAlone x.place l → NeverAlone p (x :: l)

/-- The nozzle does the same at the same times, and the filament moves `κ` times as far and as fast. -/
structure MeteredMotion (κ : ℝ) (s s' : Segment ℝ) : Prop where
  tBegin : s'.tBegin = s.tBegin
  tEnd : s'.tEnd = s.tEnd
  posBegin : Metered κ s.posBegin s'.posBegin
  velBegin : Metered κ s.velBegin s'.velBegin
  posEnd : Metered κ s.posEnd s'.posEnd
  velEnd : Metered κ s.velEnd s'.velEnd

/-- Two answers about velocity and position differ by the factor for the filament only, or the question fails in the same way. -/
structure MeteredAnswer (κ : ℝ) (r r' : Except PyErr (Vec4 ℝ × Vec4 ℝ)) : Prop where
  fails : ∀ e, r = .error e ↔ r' = .error e
  answers : ∀ v p v' p', r = .ok (v, p) → r' = .ok (v', p') → Metered κ v v' ∧ Metered κ p p'

/-- Two vertices of drawn lines are at the same place in X, Y and Z, with the same speed, and the filament of the second one is `κ`
times as much. -/
def MeteredVertex (κ : ℝ) (v v' : Vertex ℝ) : Prop := Metered κ v.1 v'.1 ∧ v'.2 = v.2

end PyGCD.Spec
