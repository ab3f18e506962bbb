import Verif.Model.Setup
import Verif.Model.Output
import Verif.Model.Cli
import Verif.Model.Plot2d
import Verif.Model.PlotVel
import Verif.Model.Objects
import Verif.Model.Warnings
import Verif.Model.Double
import Verif.Model.Linked

/-!
# Running the model on `Float`

Checks of the transcription against the numbers asserted by the repository's own unit tests
(`/repo/tests/test_planner_block.py`, `/repo/tests/test_gcode_interpreter.py`). These are tests, not
proofs; no theorem depends on this file.
-/

namespace PyGCD.Exec
open PyGCD

instance {n : Nat} : OfNat Float n := ⟨Float.ofNat n⟩

/-- A decimal numeral reader standing in for Python's `float`. -/
def pf (s : List Char) : Option Float :=
  let (neg, s) := match s with
    | '-' :: r => (true, r)
    | '+' :: r => (false, r)
    | r => (false, r)
  let ip := s.takeWhile Char.isDigit
  let rest := s.dropWhile Char.isDigit
  let fp := match rest with
    | '.' :: r => some r
    | [] => some []
    | _ => none
  match fp with
  | none => none
  | some f =>
    if f.all Char.isDigit && !(ip.isEmpty && f.isEmpty) then
      let n := (ip ++ f).foldl (fun a c => a * 10 + (c.toNat - 48)) 0
      let v := Float.ofScientific n true f.length
      some (if neg then -v else v)
    else none

def close (a b : Float) : Bool := (a - b).abs ≤ 1e-8 + 1e-5 * b.abs

def st (x y z e speed acc jerk : Float) : PState Float :=
  { position := ⟨x, y, z, e⟩, speed := speed, pAcc := acc, jerk := jerk, pause := none, layer := none }

def errOf {α : Type} : Except PyErr α → Option PyErr
  | .ok _ => none
  | .error e => some e

/-- The block of a single move. -/
def oneBlock (fw : Firmware) (A B : PState Float) (rest : List (PState Float)) :
    Option (Block Float) := (mkBlock fw (some A) B rest none).toOption

def lastT (b : Option (Block Float)) : Float :=
  ((b.bind fun b => b.segments.getLast?).map Segment.tEnd).getD (-1)
def firstT (b : Option (Block Float)) : Float :=
  ((b.bind fun b => b.segments.head?).map Segment.tEnd).getD (-1)
def firstV (b : Option (Block Float)) : Float :=
  ((b.bind fun b => b.segments.head?).map fun s => s.velEnd.norm3).getD (-1)

-- tests/test_planner_block.py:33-42 trapezoid
def trap := oneBlock .default (st 0 0 0 0 10 100 0) (st 10 0 0 0 10 100 0) []
#guard (trap.bind Block.blocktype) = some .trapezoid
#guard close (lastT trap) ((10 * 10 + 10 * 100) / (100 * 10))

-- tests/test_planner_block.py:55-62 triangle
def tri := oneBlock .default (st 0 0 0 0 100 100 0) (st 30 0 0 0 100 100 0) []
#guard (tri.bind Block.blocktype) = some .triangle
#guard close (firstT tri) (Float.sqrt (4 * 30 * 100) / 200)
#guard close (firstV tri) (100 * firstT tri)

-- tests/test_planner_block.py:79-86 single
def sing := oneBlock .marlinJd (st 0 0 0 0 100 100 10) (st 3 0 0 0 100 100 10) [st 6 0 0 0 100 100 10]
#guard (sing.bind Block.blocktype) = some .single
#guard close (firstT sing) (Float.sqrt (2 * 3 * 100) / 100)
#guard close (firstV sing) (100 * firstT sing)

/-- The machine of `tests/test_gcode_interpreter.py` (jerk 0, acceleration 50, speed 85). -/
def setupDict : Dict (SVal Float) :=
  [("p_vel", .num 85), ("p_acc", .num 50), ("jerk", .num 0), ("vX", .num 180), ("vY", .num 170),
   ("vZ", .num 12), ("vE", .num 80), ("firmware", .text "marlin_jd"), ("X", .num 0), ("Y", .num 0),
   ("Z", .num 0), ("E", .num 0), ("printer_name", .text "debugging")]

/-- A file with the moves named in `tests/test_gcode_interpreter.py:69-73`: two of 100 mm, four of 10
mm, one of 0.2 mm (the repository's own file is not available in this checkout). -/
def gcode : List Char :=
  "G1 F1800\nG1 X100 ; first\nG1 X0\nG1 Y10\nG1 Y0\nG1 X10\nG1 X0\nG1 Z0.2\n".toList

def bl := (simulateFile pf setupDict gcode).toOption.getD []
def tEnd := ((endTime bl).toOption).getD (-1)
-- speed 30: a 100 mm move takes 30/50 + 100/30 = 3.93333
#guard bl.length = 7
#guard (tEnd - (3.93333 * 2 + 0.89442 * 4 + 0.12649)).abs < 0.001
#guard ((getValues (unpack bl) "SImm" none 0 none).1.toOption.map fun v => v.2.x) == some 0
#guard errOf (getValues (unpack bl) "SImm" none tEnd none).1 = some .typeError
#guard errOf (getValues (unpack bl) "SImm" none (tEnd + 1) none).1 = some .attributeError
#guard ((getValues (unpack bl) "SImm" none tEnd (some 3)).1.toOption.map fun v =>
  close v.2.z 0.2) = some true
#guard ((sampleLoop (unpack bl) 0 (constrainedTimes (unpack bl))).toOption.map List.length) =
  some ((unpack bl).length + 1)

-- a move too short for its feedrate before a full stop forces back-correction over several blocks
def bc := "G1 F6000\nG1 X0.1\nG1 X0.2\nG1 X0.3\nG1 X0.4\nG1 X0.5\nG1 X0.5 Y0.5\nG4 P500\nG1 X0".toList
def bcBlocks := (simulateFile pf (dictSet setupDict "jerk" (.num 10)) bc).toOption.getD []
#guard bcBlocks.length = 8
#guard ((unpack bcBlocks).zip (unpack bcBlocks).tail).all fun p =>
  close p.1.tEnd p.2.tBegin && (p.1.velEnd.norm3 - p.2.velBegin.norm3).abs ≤ 1e-9

-- the 2D plot: with `marlin_jerk` the drawing of a move of 10 mm ends where the feedrate is reached (0.5 mm)
def mj := (plan .marlinJerk [st 0 0 0 0 10 100 5, st 10 0 0 0 10 100 5]).toOption.getD []
#guard ((plot2d "Velocity" false 0.25 mj).toOption.map fun d => d.lines.length) = some 3
#guard ((plot2d "Velocity" false 0.25 mj).toOption.map fun d => d.lines.all fun l => l.2.1 ≤ 0.5 + 1e-9) = some true
#guard ((plot2d "Velocity" false 1 bl).toOption.map fun d => d.lines.any fun l => close l.2.1 100) = some true
#guard errOf (plot2d "Velocity" true 1 bl) = some .attributeError
#guard ((plot2d "None" true 1 bl).toOption.map fun d => d.markers.length) = some 7

-- the velocity plot: behind a corner passed at 10 mm/s the x velocity fades out although the move goes along y
def corner := (plan .marlinJerk [st 0 0 0 0 10 100 10, st 10 0 0 0 10 100 10, st 10 10 0 0 10 100 10]).toOption.getD []
#guard ((plotVel ["x", "y"] .constrained true true true corner).toOption.map fun d =>
  (d.times.length, d.blockLines.length, d.segmentLines.length, d.crosses.length)) = some (4, 2, 3, 6)
#guard ((plotVel ["x", "y"] .constrained true true true corner).toOption.map fun d =>
  d.vel.map fun l => l.map fun v => v.round) = some [[0, 10, 10, 0], [0, 0, 0, 10]]
#guard ((plotVel ["e"] (.number 4) true false false corner).toOption.map fun d => d.abs.map Float.round) = some [0, 10, 10, 10]
#guard errOf (plotVel ["x", "a"] .constrained true true true corner) = some .keyError
#guard errOf (plotVel ["x", "x"] .constrained true true true corner) = some .valueError

-- the classes of `utils.py`
def pos1 : Obj Float := ⟨.position, ⟨1, 2, 3, 4⟩⟩
def vel1 : Obj Float := ⟨.velocity, ⟨1, 2, 3, 4⟩⟩
#guard errOf (pos1.add (.obj vel1)) = some .valueError
#guard ((pos1.add (.seq [1, 1, 1, 1])).toOption.map fun o => (o.cls, o.getVec true)) = some (.position, [2, 3, 4, 5])
#guard errOf (pos1.div (.num .int 2)) = some .typeError
#guard ((pos1.div (.num .float 2)).toOption.map fun o => o.getVec) = some [0.5, 1, 1.5]
#guard pos1.eqOp (.seq [1, 2, 3, 4]) && pos1.eqOp (.obj pos1) && !pos1.eqOp (.obj vel1)
#guard !(⟨.vector4D, ⟨1, 2, 3, 4⟩⟩ : Obj Float).eqOp (.obj vel1)
#guard errOf (TSegment.make 0 1 pos1 vel1 .none .none) = some .valueError
#guard errOf (TSegment.initial (none : Option (Obj Float))) = some .typeError

-- back-correction without warnings
#guard ((planW .marlinJd [st 0 0 0 0 100 100 5, st 0.1 0 0 0 100 100 5, st 0.2 0 0 0 100 100 5]).toOption.map (·.2)) =
  some [false, false]

/-! ## `Dbl` against the processor's arithmetic -/

/-- The double that a `Float` is. -/
def ofFloat (x : Float) : Dbl :=
  let (m, e) := x.frExp
  let k := (m.abs.scaleB 53).toUInt64.toNat
  ⟨(if x < 0 then -(k : Rat) else (k : Rat)) * pow2 (e - 53)⟩

/-- Numbers to calculate with. -/
def sampleFloats : List Float :=
  [0.1, 0.2, 0.3, 1, 2, 3, 7, 10, 1.5, 35, 200, 1000, 0.017, 123.456, 99.99999, 3.14159, 2.2250738585072014e-30, 1e17,
    (0.1 : Float) + 0.2, Float.sqrt 2, (1 : Float) / 3, 5e-7, 54321.0625]

#guard sampleFloats.all fun x => sampleFloats.all fun y =>
  decide (ofFloat (x + y) = ofFloat x + ofFloat y) && decide (ofFloat (x - y) = ofFloat x - ofFloat y) &&
  decide (ofFloat (x * y) = ofFloat x * ofFloat y) && decide (ofFloat (x / y) = ofFloat x / ofFloat y) &&
  decide (ofFloat (Float.sqrt (x * y)) = PyMath.sqrt (ofFloat x * ofFloat y)) &&
  decide (x < y) == decide (ofFloat x < ofFloat y) && decide (ofFloat (-x) = -ofFloat x)
#guard decide (ofFloat 0.1 = 0.1) && decide (ofFloat 1e-12 = 1e-12) && decide (ofFloat (PyMath.pi) = PyMath.pi) 
#guard [(18.0:Float), 10].all fun k => decide (ofFloat (Float.sin (PyMath.pi / k)) = PyMath.sin (ofFloat (PyMath.pi / k)))

def dblState (s : PState Float) : PState Dbl :=
  ⟨⟨ofFloat s.position.x, ofFloat s.position.y, ofFloat s.position.z, ofFloat s.position.e⟩, ofFloat s.speed,
    ofFloat s.pAcc, ofFloat s.jerk, s.pause.map ofFloat, s.layer⟩
def dblVec (v : Vec4 Float) : Vec4 Dbl := ⟨ofFloat v.x, ofFloat v.y, ofFloat v.z, ofFloat v.e⟩
def dblSeg (s : Segment Float) : Segment Dbl :=
  ⟨ofFloat s.tBegin, ofFloat s.tEnd, dblVec s.posBegin, dblVec s.velBegin, dblVec s.posEnd, dblVec s.velEnd⟩
/-- Does the plan on `Float` consist, bit for bit, of the segments of the plan on `Dbl`? -/
def samePlan (fw : Firmware) (l : List (PState Float)) : Bool :=
  match plan fw l, plan fw (l.map dblState) with
  | .ok bs, .ok cs => decide ((unpack bs).map dblSeg = unpack cs)
  | .error e, .error e' => decide (e = e')
  | _, _ => false
def lcg (n : Nat) : Nat := (n * 1103515245 + 12345) % 2147483648
def randProg (seed : Nat) : List (PState Float) := Id.run do
  let mut n := seed
  let mut out := [st 0 0 0.2 0 30 1000 10]
  let mut e : Float := 0
  for _ in [0:6] do
    n := lcg n
    let x := Float.ofNat (n / 65536 % 1000) / 100
    n := lcg n
    let y := Float.ofNat (n / 65536 % 1000) / 100
    n := lcg n
    let f := Float.ofNat (n / 65536 % 50 + 10)
    e := e + Float.ofNat (n / 65536 % 7) / 10
    out := out ++ [st x y 0.2 e f 1000 10]
  return out
#guard [Firmware.default, .marlinJd, .klipper, .marlinJerk, .mka].all fun fw =>
  (List.range 20).all fun i => samePlan fw (randProg (i * 7919 + 1))
#guard [Firmware.default, .marlinJd, .klipper, .marlinJerk, .mka].all fun fw =>
  samePlan fw [st 0 0 0 0 50 1000 10, st 2 1 0 0 50 1000 10, st 4 2 0 0 50 1000 10]

/-! Objects and the recursion limit: a long run-up, then moves too short to brake in. -/
def shortMoves (n : Nat) : List (PState Float) :=
  st (-20) 0 0 0 100 500 10 :: (List.range (n + 1)).map fun i => st (Float.ofNat i * 0.005) 0 0 0 100 500 10
#guard match planLinked 5 .marlinJd (shortMoves 8) with | .error .recursion => true | _ => false
#guard match planLinked 20 .marlinJd (shortMoves 8) with
  | .ok (h, list) => list == [1, 2, 3, 4, 5, 6, 7, 8, 9] && (h.map fun (o : BlockObj Float) => (o.prev, o.next)) ==
      (none, none) :: (List.range 9).map fun i =>
        (if i = 0 then none else some i, if i = 8 then none else some (i + 2))
  | _ => false

end PyGCD.Exec
