import Verif.Spec.Tables
import Verif.Spec.Files

/-!
# Specification of texts for people

How numbers are read from a text, and what the texts of objects are supposed to tell. Nothing here refers to how the texts
are made.
-/

namespace PyGCD.Spec
open PyGCD

/-- The value of a digit. -/
def digit? (c : Char) : Option ℕ := if c.isDigit then some (c.toNat - 48) else none

/-- The value of a sequence of digits, after `acc`. -/
def digits? : ℕ → List Char → Option ℕ
  | acc, [] => some acc
  | acc, c :: t => (digit? c).bind fun d => digits? (10 * acc + d) t

/-- A number without sign in decimal notation: digits, or digits, a point and digits. -/
def unsigned? (t : List Char) : Option ℚ :=
  match pieces '.' t with
  | [a] => if a = [] then none else (digits? 0 a).map fun n => (n : ℚ)
  | [a, b] =>
    if a = [] ∨ b = [] then none
    else (digits? 0 a).bind fun n => (digits? 0 b).map fun m => (n : ℚ) + (m : ℚ) / 10 ^ b.length
  | _ => none

/-- A number in decimal notation. -/
def number? : List Char → Option ℚ
  | '-' :: t => (unsigned? t).map fun x => -x
  | t => unsigned? t

/-- The numbers in a text: the words that are numbers in decimal notation. -/
def numbers (t : List Char) : List ℚ := (pieces ' ' t).filterMap number?

/-- The text tells: `n` states from the file, `m` blocks, `t` seconds for the print and `took` seconds for the simulation,
both to two places. -/
structure SummaryTells (txt file : List Char) (n m : ℕ) (t took : ℚ) : Prop where
  tells : ∃ a b l2 l3 x y, txt = a ++ file ++ b ++ '\n' :: (l2 ++ '\n' :: l3) ∧ '\n' ∉ a ++ b ∧ '\n' ∉ l2 ∧ '\n' ∉ l3 ∧
    numbers a = [(n : ℚ)] ∧ numbers b = [(m : ℚ)] ∧ numbers l2 = [x] ∧ numbers l3 = [y] ∧
    |x - t| ≤ 0.005 ∧ |y - took| ≤ 0.005

/-- The segment gets faster. -/
def SpeedsUp (s : Segment ℝ) : Prop := s.velBegin.norm4 < s.velEnd.norm4

/-- The segment gets slower. -/
def SlowsDown (s : Segment ℝ) : Prop := s.velEnd.norm4 < s.velBegin.norm4

/-- The segment has constant velocity. -/
def Steady (s : Segment ℝ) : Prop := s.velBegin = s.velEnd

/-- The text is the title in the middle of 40 characters. -/
def Titled (title txt : List Char) : Prop :=
  ∃ l r, txt = List.replicate l '-' ++ title ++ List.replicate r '-' ∧ txt.length = 40 ∧ (l = r ∨ l + 1 = r)

/-- The text between brackets is read as the four coordinates. -/
def ReadsVector {K : Type} (pf : List Char → Option K) (txt : List Char) (v : Vec4 K) : Prop :=
  ∃ inner a b c d, txt = '[' :: inner ++ [']'] ∧ pieces ',' inner = [a, ' ' :: b, ' ' :: c, ' ' :: d] ∧
    pf a = some v.x ∧ pf b = some v.y ∧ pf c = some v.z ∧ pf d = some v.e

/-- The text shows a value: it is read as the number, or it is the text. -/
def ShowsVal {K : Type} (pf : List Char → Option K) (txt : List Char) : Val K → Prop
  | .num x => pf txt = some x
  | .str s => txt = s

/-- The text of the settings shows jerk, acceleration, the four speed limits and the feedrate. -/
def SettingsTell {K : Type} (pf : List Char → Option K) (txt : List Char) (p : PSettings K) : Prop :=
  ∃ j a x y z e v units, txt = "jerk: ".toList ++ j ++ ", p_acc: ".toList ++ a ++ ", max_ax_vel: [".toList ++ x ++ [',', ' '] ++ y ++
      [',', ' '] ++ z ++ [',', ' '] ++ e ++ [']'] ++ ", p_vel: ".toList ++ v ++ ", units: ".toList ++ units ∧
    ShowsVal pf j p.jerk ∧ ShowsVal pf a p.pAcc ∧ ShowsVal pf x (p.vAx .X) ∧ ShowsVal pf y (p.vAx .Y) ∧ ShowsVal pf z (p.vAx .Z) ∧
    ShowsVal pf e (p.vAx .E) ∧ pf v = some p.speed

/-- The text of a state tells line number, layer if there is one, position, settings, comment and pause. -/
def StateTells {K : Type} (pf : List Char → Option K) (txt : List Char) (line layer : Option ℕ) (pos : Vec4 K)
    (p : PSettings K) (comment : Option (List Char)) (pause : Option (Val K)) : Prop :=
  ∃ n l q settings c w, txt = "<state: line: ".toList ++ n ++ l ++ ", position: ".toList ++ q ++
      ", settings: ".toList ++ settings ++ ", comment: ".toList ++ c ++ ", pause: ".toList ++ w ++ ['>', '\n'] ∧
    (match line with
      | none => n = "None".toList
      | some k => digits? 0 n = some k) ∧
    (match layer with
      | none => l = []
      | some k => ∃ d, l = ", layer: ".toList ++ d ∧ digits? 0 d = some k) ∧
    ReadsVector pf q pos ∧ SettingsTell pf settings p ∧ c = comment.getD "None".toList ∧
    (match pause with
      | none => w = "None".toList
      | some x => ShowsVal pf w x)

end PyGCD.Spec
