import Verif.Spec.Files
import Verif.Spec.Doubles

/-!
# Files that are read with rounding

Which files keep their meaning when every number is a double, and what it means that states of doubles are near
the exact ones. Nothing here refers to the parser, the state machine or the planner.
-/

namespace PyGCD.Spec
open PyGCD

/-- The file never returns to absolute coordinates: no `G90` after `G91`, no `M82` after `M83`. -/
def NeverBack (ls : List Line) : Prop :=
  ∀ pre l post, ls = pre ++ l :: post →
    (l.cmd = some .G91 → ∀ m ∈ post, m.cmd ≠ some .G90) ∧ (l.cmd = some .M83 → ∀ m ∈ post, m.cmd ≠ some .M82)

/-- A coordinate of ordinary size: within 10 m of the origin. -/
def InReach (p : Vec4 ℝ) : Prop := |p.x| ≤ 10000 ∧ |p.y| ≤ 10000 ∧ |p.z| ≤ 10000 ∧ |p.e| ≤ 10000

/-- A program of ordinary size: coordinates up to 10 m, at most 900 mm/s, ramps of at least 10 nm, moves of at
least 1 µm, at most a million states and at most 200000 s of printing. -/
structure Ordinary (states : List (PState ℝ)) : Prop where
  coord : ∀ s ∈ states, InReach s.position
  speed : ∀ s ∈ states, s.speed ≤ 900
  ramp : ∀ s ∈ states, 1e-5 ≤ s.speed * s.speed / s.pAcc
  length : ∀ pre A B post, states = pre ++ A :: B :: post → B.position ≠ A.position →
    1e-3 ≤ moveLength A.position B.position
  count : states.length ≤ 1000000
  total : ((active none states).map restTime).sum ≤ 200000

/-- `x` is `y` up to a relative error of `1e-15`. -/
def Nearly (x y : ℝ) : Prop := |x - y| ≤ 1e-15 * |y|

/-- A coordinate moves from `c` to `c'` instead of from `p` to `p'`: the distance is right up to `1e-11` mm, and a
coordinate that should stay does stay. -/
structure SameMove (c c' p p' : ℝ) : Prop where
  near : |(c' - c) - (p' - p)| ≤ 1e-11
  still : p' = p → c' = c

/-- The same for all coordinates of two successive states; each pair is a state and the state that it should be. -/
structure SameMoves (u v : PState ℝ × PState ℝ) : Prop where
  x : SameMove u.1.position.x v.1.position.x u.2.position.x v.2.position.x
  y : SameMove u.1.position.y v.1.position.y u.2.position.y v.2.position.y
  z : SameMove u.1.position.z v.1.position.z u.2.position.z v.2.position.z
  e : SameMove u.1.position.e v.1.position.e u.2.position.e v.2.position.e

/-- The settings and the wait of a state are nearly what they should be. -/
structure SameSettings (u : PState ℝ × PState ℝ) : Prop where
  speed : Nearly u.1.speed u.2.speed
  acc : Nearly u.1.pAcc u.2.pAcc
  jerk : Nearly u.1.jerk u.2.jerk
  pause : (u.1.pause = none ∧ u.2.pause = none) ∨ ∃ p q, u.1.pause = some p ∧ u.2.pause = some q ∧ Nearly p q

/-- Two positions are within `d` mm in every coordinate. -/
def ApartBy (d : ℝ) (p q : Vec4 ℝ) : Prop :=
  |p.x - q.x| ≤ d ∧ |p.y - q.y| ≤ d ∧ |p.z - q.z| ≤ d ∧ |p.e - q.e| ≤ d

/-- The states `us` are the states `rs` up to small errors, which do not accumulate in the moves. -/
structure RoundedTo (us rs : List (PState ℝ)) : Prop where
  length : us.length = rs.length
  settings : ∀ u ∈ us.zip rs, SameSettings u
  moves : (us.zip rs).IsChain SameMoves
  near : ∀ (n : ℕ) u r, us[n]? = some u → rs[n]? = some r → ApartBy ((n + 1) * 1e-11) u.position r.position

end PyGCD.Spec
