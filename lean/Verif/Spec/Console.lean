import Mathlib.Data.Rat.Floor
import Mathlib.Algebra.Order.Field.Rat
import Verif.Model.Console

/-!
# Specification: an honest progress bar
-/

namespace PyGCD.Spec

/-- The bar tells that a fraction `p` of the work is done: ten characters, as many of them filled as tenths of the work
are done, and the percentage right to the displayed decimal. -/
structure Tells (name : String) (p : ℚ) (b : Bar) : Prop where
  hashes : |10 * p - b.hashes| ≤ 1 / 2
  filled : 0 ≤ b.hashes ∧ b.hashes ≤ 10
  percent : |100 * p - b.tenths / 10| ≤ 1 / 20
  range : 0 ≤ b.tenths ∧ b.tenths ≤ 1000
  name : b.name = name

/-- What is shown while `n` items are worked on: there are items after which the bar is written; it then tells which
fraction is done, and announces the end after the last item and only there. Up to the announcement no percentage is
shown twice. -/
structure ShowsLoop (name : String) (n : ℕ) (bars : List Bar) : Prop where
  told : ∃ items : List ℕ, items.Pairwise (· < ·) ∧ (∀ i ∈ items, i < n) ∧ n - 1 ∈ items ∧
    List.Forall₂ (fun i b => Tells name ((i + 1 : ℕ) / (n : ℚ)) b ∧
      b.status = if i + 1 = n then .done else .plain) items bars
  once : (bars.dropLast.map Bar.tenths).Pairwise (· < ·)

/-- The text of a bar as one reads it: carriage return, ten characters between brackets, the percentage with one
decimal. -/
def BarText (b : Bar) (text : List Char) : Prop :=
  ∃ bar rest, text = ['\r', '['] ++ bar ++ ']' :: rest ∧ bar.length = 10 ∧ (∀ c ∈ bar, c = '#' ∨ c = '-') ∧
    (bar.count '#' : ℤ) = b.hashes

end PyGCD.Spec
