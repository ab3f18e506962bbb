import Verif.Spec.Commands

/-!
# Small specification vocabulary for lines of text

Only the types of command tags and values are shared with the model.
-/

namespace PyGCD.Spec

/-- `pat` occurs in `s` at index `i`. -/
def OccursAt (pat s : List Char) (i : Nat) : Prop := pat <+: s.drop i

/-- The first occurrence of `pat` in `s` is at index `i`. -/
def FirstAt (pat s : List Char) (i : Nat) : Prop :=
  OccursAt pat s i ∧ ∀ j < i, ¬ OccursAt pat s j

/-- The first occurrence of command `k` in the line is at `i`, and it is not the beginning of a longer
command name. -/
def Credited (s : List Char) (k : Cmd) (i : Nat) : Prop :=
  FirstAt (name k) s i ∧ ∀ k' : Cmd, OccursAt (name k') s i → (name k').length ≤ (name k).length

/-- The same with the names of the model. -/
theorem credited_iff {s : List Char} {k : Cmd} {i : Nat} : Credited s k i ↔
    FirstAt k.chars s i ∧ ∀ k' : Cmd, OccursAt k'.chars s i → k'.chars.length ≤ k.chars.length := by
  simp only [Credited, name_eq]

/-- `q` is where the text behind index `p` ends: at the next credited command (or comment), else at the
end of the line. -/
def EndsAt (s : List Char) (p q : Nat) : Prop :=
  p ≤ q ∧ q ≤ s.length ∧ ((∃ k, Credited s k q) ∨ q = s.length) ∧
    ∀ k j, Credited s k j → p ≤ j → q ≤ j

/-- The text between two indices, without blanks and newlines. -/
def cleanText (s : List Char) (p q : Nat) : List Char :=
  ((s.take q).drop p).filter fun c => c != ' ' && c != '\n'

/-- The command takes argument letters. -/
def TakesLetters (k : Cmd) : Prop := ∃ c, Takes k c

/-- The same with the table of the model. -/
theorem takesLetters_iff {k : Cmd} : TakesLetters k ↔ k.table ≠ none := by
  simp only [TakesLetters, takes_iff]
  cases k <;> simp [Cmd.table] <;> exact ⟨_, Or.inl rfl⟩

/-- The characters of a number text. -/
def numChars : List Char :=
  ['0', '1', '2', '3', '4', '5', '6', '7', '8', '9', '+', '-', '.', 'e', '_']

/-- A word of a command: `blanks` blanks, a letter, a number text. -/
structure Word where
  blanks : Nat
  letter : Char
  number : List Char

/-- The text of a word. -/
def Word.text (w : Word) : List Char := List.replicate w.blanks ' ' ++ w.letter :: w.number

/-- The words fit the command: letters it takes, each at most once, with number texts. -/
def WordsFor (k : Cmd) (ws : List Word) : Prop :=
  TakesLetters k ∧ (ws.map Word.letter).Nodup ∧
    ∀ w ∈ ws, Takes k w.letter ∧ w.number ≠ [] ∧ ∀ c ∈ w.number, c ∈ numChars

/-- What is needed of `float`: it rejects the empty text and every text that starts with a capital letter
followed by a digit, sign, point, `e` or `_` (Python accepts words only as `inf`, `infinity`, `nan`). -/
structure FloatLike {K : Type} (pf : List Char → Option K) : Prop where
  empty : pf [] = none
  letter : ∀ l c t, Char.isUpper l = true → c ∈ numChars → pf (l :: c :: t) = none

/-- The value of a text: its number if it is one. -/
def valueOf {K : Type} (pf : List Char → Option K) (t : List Char) : Val K :=
  match pf t with
  | some v => .num v
  | none => .str t

end PyGCD.Spec
