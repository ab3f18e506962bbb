import Verif.Spec.Programs

/-!
# Itineraries: when a machine is where
-/

namespace PyGCD.Spec
open PyGCD

/-- Between the times `a` and `b` a machine with position `pos` goes straight from `P` to `Q`, without turning
back. -/
def Straight (pos : ℝ → Vec4 ℝ) (P Q : Vec4 ℝ) (a b : ℝ) : Prop :=
  ∃ c : ℝ → ℝ, MonotoneOn c (Set.Icc a b) ∧ pos a = P ∧ pos b = Q ∧
    ∀ t ∈ Set.Icc a b, 0 ≤ c t ∧ c t ≤ 1 ∧ pos t = P.add ((Q.sub P).mul (c t))

/-- A machine with position `pos` visits the places in the given order, each one straight from the one before,
and is at place `i` at the time `τ i`. It takes time to move, it waits exactly as long as a place says, and
nothing else takes time. -/
structure Itinerary (places : List (Vec4 ℝ × Option ℝ)) (τ : Nat → ℝ) (T : ℝ) (pos : ℝ → Vec4 ℝ) : Prop where
  start : τ 0 = 0
  finish : τ (places.length - 1) = T
  straight : ∀ i A B, places[i]? = some A → places[i + 1]? = some B → Straight pos A.1 B.1 (τ i) (τ (i + 1))
  move : ∀ i A B, places[i]? = some A → places[i + 1]? = some B → B.2 = none → B.1 ≠ A.1 → τ i < τ (i + 1)
  wait : ∀ i B p, places[i + 1]? = some B → B.2 = some p → τ (i + 1) = τ i + p
  rest : ∀ i A B, places[i]? = some A → places[i + 1]? = some B → B.2 = none → B.1 = A.1 → τ (i + 1) = τ i

/-- Where a state is and how long it waits. -/
def place (s : PState ℝ) : Vec4 ℝ × Option ℝ := (s.position, s.pause)

end PyGCD.Spec
