import Verif.Spec.Doubles
import Verif.Model.Output

/-!
# Tables in text files

How a table is read from a text: at line ends and separators. Nothing here refers to how the files are written.
-/

namespace PyGCD.Spec
open PyGCD

/-- The pieces of a text between the occurrences of a character. -/
def pieces (sep : Char) : List Char → List (List Char)
  | [] => [[]]
  | c :: t =>
    if c = sep then [] :: pieces sep t
    else
      match pieces sep t with
      | [] => [[c]]
      | p :: ps => (c :: p) :: ps

/-- The text is the table: every line ends with a line break, and its cells are the pieces between the separators. -/
def IsTable (sep : Char) (text : List Char) (table : List (List (List Char))) : Prop :=
  ∃ lines, pieces '\n' text = lines ++ [[]] ∧ lines.map (pieces sep) = table

/-- The text of the number can be read back, and has none of the characters that separate cells. -/
structure Prints {K : Type} (pf : List Char → Option K) (seps : List Char) (num : K → List Char) (x : K) : Prop where
  back : pf (num x) = some x
  clean : ∀ c ∈ seps, c ∉ num x

/-- The cell is read as `x` up to the eighth decimal place. -/
def ReadsNear (pf : List Char → Option Dbl) (cell : List Char) (x : Dbl) : Prop :=
  ∃ y, pf cell = some y ∧ |y.r - x.r| ≤ 5.001e-9 + 1e-15 * |x.r|

/-- Rounding to eight places. -/
def Rounds8 (round8 : Dbl → Dbl) : Prop := ∀ x, |(round8 x).r - x.r| ≤ 5.001e-9 + 1e-15 * |x.r|

/-- The cells of a line show the row of the event series. -/
def EventCells (pf : List Char → Option Dbl) (r : EventRow Dbl) (cells : List (List Char)) : Prop :=
  ∃ t x y z f, cells = [t, x, y, z, f] ∧ pf t = some r.t ∧ ReadsNear pf x r.x ∧ ReadsNear pf y r.y ∧
    ReadsNear pf z r.z ∧ f = [if r.flag = 0 then '0' else '1']

/-- The cells of a line show the row of the layer metrics. -/
def LayerCells {K : Type} (pf : List Char → Option K) (r : LayerRow K) (cells : List (List Char)) : Prop :=
  ∃ l d t v, cells = [l, ' ' :: d, ' ' :: t, ' ' :: v] ∧ l = (Nat.repr r.layer).toList ∧ pf d = some r.duration ∧
    pf t = some r.travel ∧ ((r.avg = none ∧ v = ['N', 'a', 'N']) ∨ ∃ x, r.avg = some x ∧ pf v = some x)

end PyGCD.Spec
