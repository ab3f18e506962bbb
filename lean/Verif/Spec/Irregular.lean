import Verif.Spec.Executed

/-!
# Specification of extrusion in an unusual program

Which of the things a machine does count as extruding, and how far from the programmed place it does them. Nothing here
refers to the planner.
-/

namespace PyGCD.Spec
open PyGCD

/-- The program wants filament to be pushed by this step, and gives it a feedrate. -/
def Step.Extrudes (x : Step) : Prop := 0 < x.B.speed ∧ x.A.position.e < x.B.position.e

/-- How far the programmed place is from where the machine is. -/
noncomputable def Step.offset (x : Step) : Vec4 ℝ := x.A.position.sub x.src

/-- How far the machine travels. -/
noncomputable def Step.travelled (x : Step) : ℝ := (x.dst.sub x.src).norm3

/-- How far the program says it travels. -/
noncomputable def Step.programmed (x : Step) : ℝ := (x.B.position.sub x.A.position).norm3

/-- `p` is in the box from `lo` to `hi`, as far as travel is concerned. -/
def Within (lo hi p : Vec4 ℝ) : Prop :=
  (lo.x ≤ p.x ∧ p.x ≤ hi.x) ∧ (lo.y ≤ p.y ∧ p.y ≤ hi.y) ∧ (lo.z ≤ p.z ∧ p.z ≤ hi.z)

end PyGCD.Spec
