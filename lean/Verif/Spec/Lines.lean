import Verif.Model.Traveler

/-!
# Small specification vocabulary for histories of parsed lines

Nothing here is used by the model.
-/

namespace PyGCD.Spec
variable {K : Type}

/-- The entry of a dictionary (list of pairs) under a key: the first one. -/
def entry {α β : Type} [DecidableEq α] (d : List (α × β)) (k : α) : Option β :=
  (d.find? fun p => decide (p.1 = k)).map Prod.snd

/-- The line contains command `c`. -/
def has (d : LineDict K) (c : Cmd) : Prop := ∃ v, (c, v) ∈ d

instance (d : LineDict K) (c : Cmd) : Decidable (has d c) :=
  decidable_of_iff (c ∈ d.map Prod.fst) (by simp [has])

/-- The argument with letter `l` of command `c` in a line. -/
def arg (d : LineDict K) (c : Cmd) (l : Char) : Option (Val K) :=
  match entry d c with
  | some (.args a) => entry a l
  | _ => none

/-- The latest defined value of `f` in a history, else `dflt`. -/
def latest {α : Type} (f : LineDict K → Option α) (ds : List (LineDict K)) (dflt : α) : α :=
  ((ds.reverse).findSome? f).getD dflt

/-- The coordinate of a position along an axis. -/
def comp (p : Vec4 K) : Axis → K
  | .X => p.x | .Y => p.y | .Z => p.z | .E => p.e

/-- What a line says about the positioning mode of X, Y, Z (`G91` wins over `G90` on one line). -/
def xyzModeOf (d : LineDict K) : Option Bool :=
  if has d .G91 then some false else if has d .G90 then some true else none

/-- What a line says about the extrusion mode (`M83` wins over `M82` on one line). -/
def eModeOf (d : LineDict K) : Option Bool :=
  if has d .M83 then some false else if has d .M82 then some true else none

/-- Is an axis in absolute mode after the given history? -/
def absolute (m : Machine K) (ds : List (LineDict K)) : Axis → Bool
  | .E => latest eModeOf ds m.absExt
  | _ => latest xyzModeOf ds m.absPos

/-- What a line says about the units flag (`G21` wins over `G20` on one line). -/
def unitsOf (d : LineDict K) : Option Units :=
  if has d .G21 then some .SImm else if has d .G20 then some .inch else none

/-- The letter of an axis. -/
def letter : Axis → Char
  | .X => 'X' | .Y => 'Y' | .Z => 'Z' | .E => 'E'

/-- The coordinate word for an axis of a line in absolute mode: that of `G1`, else of `G0`. -/
def moveWord (d : LineDict K) (a : Axis) : Option (Val K) :=
  (arg d .G1 (letter a)).or (arg d .G0 (letter a))

end PyGCD.Spec

namespace PyGCD.Spec
variable {K : Type}

/-- The number of a word, `0` if the word is missing. -/
def num0 [OfNat K 0] : Option (Val K) → K
  | some (.num v) => v
  | _ => 0

/-- The distance a line in relative mode adds along an axis (`G0` and `G1` words both count). -/
def relWord [Add K] [OfNat K 0] (a : Axis) (d : LineDict K) : K :=
  num0 (arg d .G0 (letter a)) + num0 (arg d .G1 (letter a))

/-- The feedrate (per second) set by a line: that of `G1`, else of `G0`. -/
def feed [Div K] [OfNat K 60] (d : LineDict K) : Option K :=
  match (arg d .G1 'F').or (arg d .G0 'F') with
  | some (.num v) => some (v / 60)
  | _ => none

/-- The pause of a line: `S` seconds, else `P` milliseconds. -/
def pauseSpec [Div K] [OfNat K 1000] (d : LineDict K) : Option (Val K) :=
  match arg d .G4 'S', arg d .G4 'P' with
  | some v, _ => some v
  | none, some (.num p) => some (.num (p / 1000))
  | none, _ => none

/-- The text of a line's comment. -/
def commentText (d : LineDict K) : Option (List Char) :=
  match entry d .comment with
  | some (.val (.str s)) => some s
  | _ => none

/-- White space: the code points that Python counts as such, written out. -/
def Blank (c : Char) : Prop :=
  c.toNat ∈ [0x09, 0x0a, 0x0b, 0x0c, 0x0d, 0x1c, 0x1d, 0x1e, 0x1f, 0x20, 0x85, 0xa0, 0x1680, 0x2000, 0x2001, 0x2002,
    0x2003, 0x2004, 0x2005, 0x2006, 0x2007, 0x2008, 0x2009, 0x200a, 0x2028, 0x2029, 0x202f, 0x205f, 0x3000]

/-- `c` is `t` without surrounding white space. -/
def StripsTo (t c : List Char) : Prop :=
  ∃ l r, t = l ++ c ++ r ∧ (∀ x ∈ l, Blank x) ∧ (∀ x ∈ r, Blank x) ∧
    (∀ x ∈ c.head?, ¬ Blank x) ∧ (∀ x ∈ c.getLast?, ¬ Blank x)

/-- A line that contains nothing but (possibly) a comment. -/
def Inert (d : LineDict K) : Prop := ∀ p ∈ d, p.1 = Cmd.comment

/-- A state without line number and links. -/
structure Core (K : Type) where
  position : Vec4 K
  settings : PSettings K
  comment : Option (List Char)
  layer : Option Nat
  pause : Option (Val K)

/-- Forget line number and links. -/
def core (s : GState K) : Core K := ⟨s.position, s.settings, s.comment, s.layer, s.pause⟩

/-- A line without its unit commands. -/
def dropUnits (d : LineDict K) : LineDict K := d.filter fun p => decide (p.1 ≠ .G20 ∧ p.1 ≠ .G21)

/-- Universal newlines: `\r\n` and a lone `\r` are read as `\n`. -/
inductive Newlines : List Char → List Char → Prop
  | nil : Newlines [] []
  | crlf {a b : List Char} (h : Newlines a b) : Newlines ('\r' :: '\n' :: a) ('\n' :: b)
  | cr {a b : List Char} (hn : a.head? ≠ some '\n') (h : Newlines a b) : Newlines ('\r' :: a) ('\n' :: b)
  | other {c : Char} {a b : List Char} (hc : c ≠ '\r') (h : Newlines a b) : Newlines (c :: a) (c :: b)

/-- `ls` are the lines of a text: put together they give the text, every line but the last ends with a
newline, and newlines are nowhere else. -/
inductive Lines : List Char → List (List Char) → Prop
  | none : Lines [] []
  | open {l : List Char} (hne : l ≠ []) (h : '\n' ∉ l) : Lines l [l]
  | line {l t : List Char} {ls : List (List Char)} (h : '\n' ∉ l) (hr : Lines t ls) :
      Lines (l ++ '\n' :: t) ((l ++ ['\n']) :: ls)

/-- The displacement `G92` has put between the coordinates of an axis in the file and the machine after `i`
lines: the latest `G92` word `v` for the axis says that the machine position at that moment is called
`v`. -/
def offset [Sub K] [OfNat K 0] (ds : List (LineDict K)) (ss : List (GState K)) (a : Axis) : Nat → K
  | 0 => 0
  | i + 1 =>
    match (ds[i]?).bind fun d => arg d .G92 (letter a), ss[i + 1]? with
    | some (.num v), some s => comp s.position a - v
    | _, _ => offset ds ss a i

/-- Where the move words of a line put an axis that was at `x`: in absolute mode at the word's value plus the
displacement, in relative mode further by the words. -/
def moved [Add K] [OfNat K 0] (abs : Bool) (o x : K) (a : Axis) (d : LineDict K) : K :=
  if abs then
    match moveWord d a with
    | some (.num v) => v + o
    | _ => x
  else x + relWord a d

/-- A word that is missing or a number. -/
def Numeric (w : Option (Val K)) : Prop := ∀ t, w ≠ some (.str t)

/-- All words of the line that the machine computes with are numbers. (In absolute mode a `G1` word replaces
the `G0` word of the same line unread.) -/
structure LineNumeric (abs : Axis → Bool) (d : LineDict K) : Prop where
  absolute : ∀ a, abs a = true → Numeric (moveWord d a)
  relative : ∀ a, abs a = false → Numeric (arg d .G0 (letter a)) ∧ Numeric (arg d .G1 (letter a))
  setpos : ∀ a, Numeric (arg d .G92 (letter a))
  feed : Numeric (arg d .G0 'F') ∧ Numeric (arg d .G1 'F')
  pause : Numeric (arg d .G4 'P')

end PyGCD.Spec
