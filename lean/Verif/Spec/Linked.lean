import Verif.Model.Linked
import Verif.Spec.Programs
import Verif.Spec.Motion

/-!
# Linked lists of objects, and braking distances
-/

namespace PyGCD.Spec

/-- The objects at the addresses `list` hold `bs`, in this order, are different objects, and each one is
linked to the one before it and to the one after it; the ends are not linked. -/
structure LinkedList {K : Type} (h : BlockHeap K) (list : List Nat) (bs : List (Block K)) : Prop where
  distinct : list.Nodup
  length : list.length = bs.length
  data : ∀ k : Nat, (list[k]?.bind fun i => h[i]?.map BlockObj.data) = bs[k]?
  first : ∀ i ∈ list[0]?, ∀ o ∈ h[i]?, o.prev = none
  before : ∀ k : Nat, ∀ i ∈ list[k + 1]?, ∀ o ∈ h[i]?, o.prev = list[k]?
  after : ∀ k : Nat, ∀ i ∈ list[k]?, ∀ o ∈ h[i]?, o.next = list[k + 1]?

/-- Does the action travel? -/
def Travelling (x : Option (PState ℝ) × PState ℝ) : Prop :=
  x.2.pause = none ∧ ∃ A, x.1 = some A ∧ (x.2.position.sub A.position).norm3 ≠ 0

/-- By how much an action can change the square of the speed: twice the acceleration times the distance. -/
noncomputable def squareGain (x : Option (PState ℝ) × PState ℝ) : ℝ :=
  match x.1 with
  | some A => 2 * x.2.pAcc * (x.2.position.sub A.position).norm3
  | none => 0

/-- Within any `n` actions in a row the machine stands still in between, or they are long enough to brake from
the feedrate of the first one to standstill. -/
def BrakesWithin (n : ℕ) (states : List (PState ℝ)) : Prop :=
  ∀ x l, x :: l <:+: active none states → (x :: l).length = n →
    (∃ y ∈ x :: l, ¬ Travelling y) ∨ x.2.speed ^ 2 < ((x :: l).map squareGain).sum

end PyGCD.Spec
