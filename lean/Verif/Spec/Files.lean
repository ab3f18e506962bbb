import Verif.Spec.Text
import Verif.Spec.Lines
import Verif.Spec.Programs
import Verif.Model.Setup

/-!
# Plain G-code files and what they ask a printer to do

A reference interpreter, written without the parser and the state machine of the model. It knows the
commands that the tool simulates; only the types of command tags and axes are shared.
-/

namespace PyGCD.Spec
open PyGCD

/-- A line of a plain file: at most one command with its words, blanks, text that is none of the tool's business
(such as `M104 S200`), and maybe a comment. -/
structure Line where
  cmd : Option Cmd
  words : List Word
  blanks : Nat
  comment : Option (List Char)
  other : List Char

/-- The text in front of the comment. -/
def Line.code (l : Line) : List Char :=
  (l.cmd.map name).getD [] ++ (l.words.flatMap Word.text ++ (List.replicate l.blanks ' ' ++ l.other))

/-- The text of the line, without the line break. -/
def Line.text (l : Line) : List Char :=
  l.code ++ (match l.comment with | some c => ';' :: c | none => [])

/-- The file with this content consists of these lines. Line breaks may be `\n`, `\r\n` or `\r`; the last line
may lack one. -/
def FileOf (ls : List Line) (content : List Char) : Prop :=
  ∃ text rows, Newlines content text ∧ Lines text rows ∧
    List.Forall₂ (fun l row => row = l.text ∨ row = l.text ++ ['\n']) ls rows

/-- The comment of the line, without surrounding white space, is the cue. -/
def Line.Marks (l : Line) (cue : String) : Prop := ∃ t, l.comment = some t ∧ StripsTo t cue.toList

section
variable (pf : List Char → Option ℝ)

/-- The number behind a letter. -/
def Line.value (l : Line) (c : Char) : Option ℝ :=
  (l.words.find? fun w => w.letter == c).bind fun w => pf w.number

/-- The letters that a command of a plain file may have. -/
def plainLetters : Cmd → List Char
  | .G0 | .G1 => ['X', 'Y', 'Z', 'E', 'F']
  | .G4 => ['P', 'S']
  | .G92 | .M203 => ['X', 'Y', 'Z', 'E']
  | .M204 => ['P']
  | .M205 => ['X']
  | _ => []

/-- A line that is simulated as the Marlin reference describes it: moves, dwells, positioning modes,
acceleration, jerk, axis limits, millimetres, and `G92` only to call the current place zero. Every number is
readable. A line without such a command may have any text in which no name of a command occurs: temperatures,
fans, tools, progress. The comment contains no name of a command either. -/
structure Line.Plain (l : Line) : Prop where
  cmd : ∀ k, l.cmd = some k → k ∈ [Cmd.G0, .G1, .G4, .G21, .G90, .G91, .G92, .M82, .M83, .M203, .M204, .M205]
  nothing : l.cmd = none → l.words = []
  other : l.other ≠ [] → l.cmd = none ∧ ∀ k i, ¬ OccursAt (name k) l.other i
  letters : ∀ k, l.cmd = some k → ∀ w ∈ l.words, w.letter ∈ plainLetters k
  once : (l.words.map Word.letter).Nodup
  numbers : ∀ w ∈ l.words, w.number ≠ [] ∧ (∀ c ∈ w.number, c ∈ numChars) ∧ pf w.number ≠ none
  zero : l.cmd = some .G92 → ∀ w ∈ l.words, pf w.number = some 0
  comment : ∀ t, l.comment = some t → ∀ k, k ≠ .comment → ∀ i, ¬ OccursAt (name k) t i

/-- What a printer remembers: where each axis is, which place of the axis is called zero, whether coordinates
are absolute, and the feedrate (per second), acceleration and jerk settings. -/
structure Printer where
  place : Axis → ℝ
  zero : Axis → ℝ
  absXYZ : Bool
  absE : Bool
  feed : ℝ
  acc : ℝ
  jerk : ℝ

/-- Are the coordinates of the axis absolute? -/
def Printer.abs (q : Printer) : Axis → Bool
  | .E => q.absE
  | _ => q.absXYZ

/-- What a line makes the printer do. -/
noncomputable def Printer.exec (q : Printer) (l : Line) : Printer :=
  match l.cmd with
  | some .G0 | some .G1 =>
    { q with
      place := fun a =>
        match l.value pf (letter a) with
        | none => q.place a
        | some v => if q.abs a then q.zero a + v else q.place a + v
      feed := match l.value pf 'F' with
        | none => q.feed
        | some v => v / 60 }
  | some .G92 =>
    { q with
      zero := fun a =>
        match l.value pf (letter a) with
        | none => q.zero a
        | some v => q.place a - v }
  | some .G90 => { q with absXYZ := true }
  | some .G91 => { q with absXYZ := false }
  | some .M82 => { q with absE := true }
  | some .M83 => { q with absE := false }
  | some .M204 => { q with acc := (l.value pf 'P').getD q.acc }
  | some .M205 => { q with jerk := (l.value pf 'X').getD q.jerk }
  | _ => q

/-- How long the line makes the printer wait: `S` seconds, else `P` milliseconds. -/
noncomputable def Line.wait (l : Line) : Option ℝ :=
  if l.cmd = some .G4 then
    match l.value pf 'S', l.value pf 'P' with
    | some s, _ => some s
    | none, some p => some (p / 1000)
    | none, none => none
  else none

/-- The printer after each line, with the wait of the line. -/
noncomputable def Printer.run (q : Printer) : List Line → List (Printer × Option ℝ)
  | [] => []
  | l :: ls => (q.exec pf l, l.wait pf) :: (q.exec pf l).run ls

end

/-- The place of a printer as a point. -/
def Printer.point (q : Printer) : Vec4 ℝ := ⟨q.place .X, q.place .Y, q.place .Z, q.place .E⟩

/-- The printer that a setup dictionary describes: it is at the given place in millimetres with the given
settings, and takes coordinates as absolute. The axis limits are numbers and the layer cue, if any, is a
text. -/
structure PrinterOf (d : Dict (SVal ℝ)) (q : Printer) : Prop where
  x : d.lookup "X" = some (.num (q.place .X))
  y : d.lookup "Y" = some (.num (q.place .Y))
  z : d.lookup "Z" = some (.num (q.place .Z))
  e : d.lookup "E" = some (.num (q.place .E))
  zero : ∀ a, q.zero a = 0
  abs : q.absXYZ = true ∧ q.absE = true
  feed : d.lookup "p_vel" = some (.num q.feed)
  acc : d.lookup "p_acc" = some (.num q.acc)
  jerk : d.lookup "jerk" = some (.num q.jerk)
  limits : ∀ k ∈ ["vX", "vY", "vZ", "vE"], ∃ v, d.lookup k = some (.num v)

/-- A setup dictionary that the simulation accepts: the required entries are there, and no unknown ones. -/
def SetupAccepted (d : Dict (SVal ℝ)) : Prop :=
  (∀ k ∈ ["p_vel", "p_acc", "jerk", "vX", "vY", "vZ", "vE", "X", "Y", "Z", "E", "printer_name", "firmware"],
    (d.lookup k).isSome) ∧
  ∀ k, (d.lookup k).isSome → k ∈ ["p_vel", "p_acc", "jerk", "vX", "vY", "vZ", "vE", "X", "Y", "Z", "E",
    "printer_name", "firmware"] ∨ k ∈ ["layer_cue", "nozzle_diam", "filament_diam"]

/-- The printer can do what the lines say: feedrates and accelerations are positive, jerk and waits are not
negative, it never waits before the first movement, and it does move. -/
structure Workable (pf : List Char → Option ℝ) (q : Printer) (ls : List Line) : Prop where
  settings : 0 < q.feed ∧ 0 < q.acc ∧ 0 ≤ q.jerk
  feed : ∀ l ∈ ls, l.cmd = some .G0 ∨ l.cmd = some .G1 → ∀ v ∈ l.value pf 'F', 0 < v
  acc : ∀ l ∈ ls, l.cmd = some .M204 → ∀ v ∈ l.value pf 'P', 0 < v
  jerk : ∀ l ∈ ls, l.cmd = some .M205 → ∀ v ∈ l.value pf 'X', 0 ≤ v
  wait : ∀ l ∈ ls, ∀ v ∈ l.wait pf, 0 ≤ v
  warm : ∀ pre l post, ls = pre ++ l :: post → l.wait pf ≠ none → ∃ x ∈ q.run pf pre, x.1.point ≠ q.point
  moves : ∃ x ∈ q.run pf ls, x.1.point ≠ q.point

/-- A state shows what the printer is doing. -/
structure Shows (s : PState ℝ) (x : Printer × Option ℝ) : Prop where
  position : s.position = x.1.point
  speed : s.speed = x.1.feed
  acc : s.pAcc = x.1.acc
  jerk : s.jerk = x.1.jerk
  pause : s.pause = x.2

end PyGCD.Spec
