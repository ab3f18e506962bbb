import Verif.Model.Planner
import Verif.Proofs.RealLemmas

/-!
# Placing a print elsewhere on the machine
-/

namespace PyGCD.Spec
open PyGCD

/-- A rigid motion of space (a shift, turn or reflection) that may also re-label the filament axis: all
distances between places and all differences of filament stay the same. -/
def Rigid (g : Vec4 ℝ → Vec4 ℝ) : Prop :=
  ∀ p q, ((g p).sub (g q)).norm3 = (p.sub q).norm3 ∧ (g p).e - (g q).e = p.e - q.e

/-- The state, placed elsewhere. -/
def placed (g : Vec4 ℝ → Vec4 ℝ) (s : PState ℝ) : PState ℝ := { s with position := g s.position }

/-- Two answers (velocity, position) for the same print, the second one shifted by `c`: the same error, or
positions shifted by `c` with the same velocity. -/
def ShiftedAnswer (c : Vec4 ℝ) (x y : Except PyErr (Vec4 ℝ × Vec4 ℝ)) : Prop :=
  (∃ e, x = .error e ∧ y = .error e) ∨ ∃ v p, x = .ok (v, p) ∧ y = .ok (v, p.add c)

/-- Two answers (velocity, position) for the same print, the second one placed by `g`, in units of `1 / f`
millimetres: the same error, or positions that correspond, with the same travel speed and the same flow. -/
def PlacedAnswer (g : Vec4 ℝ → Vec4 ℝ) (f : ℝ) (x y : Except PyErr (Vec4 ℝ × Vec4 ℝ)) : Prop :=
  (∃ e, x = .error e ∧ y = .error e) ∨
    ∃ v p v', x = .ok (v, p.mul f) ∧ y = .ok (v', (g p).mul f) ∧ v'.norm3 = v.norm3 ∧ v'.e = v.e

end PyGCD.Spec
