import Verif.Model.Basic

/-!
# Junction handling

Models `/repo/pyGCodeDecode/junction_handling.py`.
-/

namespace PyGCD

/-- The view the planner has of a state (state.py:6-76 with numeric settings): position, target
speed, acceleration, jerk, optional pause, layer.
Simplification: a state whose acceleration, jerk or pause is a *string* (garbage in the G-code) has
no `PState`; `GState.toPState` rejects it with the `TypeError` that Python raises at the first
arithmetic use. -/
structure PState (K : Type) where
  position : Vec4 K
  speed : K
  pAcc : K
  jerk : K
  pause : Option K
  layer : Option Nat
  deriving DecidableEq, Repr

/-- planner_block.py:299-308: the firmware dispatch. Every unknown name selects the default class. -/
inductive Firmware where
  | marlinJd | klipper | marlinJerk | mka | default
  deriving DecidableEq, Repr

/-- planner_block.py:299-308. -/
def Firmware.ofName : Option String → Firmware
  | some "marlin_jd" => .marlinJd
  | some "klipper" => .klipper
  | some "marlin_jerk" => .marlinJerk
  | some "MKA" => .mka
  | _ => .default

section
variable {K : Type} [Add K] [Sub K] [Mul K] [Div K] [Neg K] [LT K] [LE K] [DecidableLT K]
  [DecidableLE K] [DecidableEq K] [OfNat K 0] [OfNat K 1] [OfNat K 2] [OfNat K 18] [OfNat K 180]
  [OfScientific K] [PyMath K]

/-- junction_handling.py:28-38 `connect_state` for two existing states: the target velocity of the
move from `A` to `B`. -/
def connectState (A B : PState K) : Vec4 K :=
  let d := B.position.sub A.position
  let tDist := d.norm3
  let dir :=
    if 0 < pyAbs tDist then d.div tDist
    else if 0 < pyAbs d.e then d.div (pyAbs d.e)
    else Vec4.zero
  dir.mul B.speed

/-- junction_handling.py:25-26 and 69: the target velocity for a block; zero if there is no previous
state. -/
def targetVel (A : Option (PState K)) (B : PState K) : Vec4 K :=
  match A with
  | none => Vec4.zero
  | some A => connectState A B

/-- junction_handling.py:40-54 `calc_vel_next`: the state that the velocity behind the junction leads
to. `rest` are the states after `B`. -/
def nextTarget (B : PState K) : List (PState K) → PState K
  | [] => B
  | n :: rest =>
    if rest.isEmpty ∨ 0 < B.position.tDistance4 n.position then n else nextTarget B rest

/-- junction_handling.py:40-54 `calc_vel_next`. -/
def velNext (B : PState K) (rest : List (PState K)) : Vec4 K := connectState B (nextTarget B rest)

/-- junction_handling.py:84-134 `calc_JD`. -/
def calcJD (vel0 vel1 : Vec4 K) (B : PState K) : K :=
  let jdAcc := B.pAcc
  if B.jerk = 0 then 0
  else
    let jdDelta := 0.4 * B.jerk * B.jerk / jdAcc
    let jdMinAngle : K := 18
    let jdMaxAngle : K := 180 - 18
    if vel0.norm3 = 0 ∨ vel1.norm3 = 0 then 0
    else
      let cosTheta := (-vel0.x * vel1.x + -vel0.y * vel1.y + -vel0.z * vel1.z)
        / (vel0.norm3 * vel1.norm3)
      let sinHalf := if cosTheta < 1 then PyMath.sqrt ((1 - cosTheta) / 2) else 0
      if sinHalf < PyMath.sin (jdMaxAngle * PyMath.pi / (2 * 180)) then
        if PyMath.sin (jdMinAngle * PyMath.pi / (2 * 180)) < sinHalf then
          let radius := jdDelta * sinHalf / (1 - sinHalf)
          let v := PyMath.sqrt (jdAcc * radius)
          if v < B.speed then v else B.speed
        else 0
      else B.speed

/-- junction_handling.py:177-190, marlin classic jerk. -/
def calcJerk (vel0 vel1 : Vec4 K) (B : PState K) : K :=
  let jerk := B.jerk * 2
  let jerkMove := (vel0.sub vel1).norm3
  let scale := if 0 < jerk then jerkMove / jerk else 0
  if 1 ≤ scale then (vel0.div scale).norm3 else vel0.norm3

/-- junction_handling.py:227-266, klipper. `tDist` is `self.t_distance`, which `connect_state`
overwrites: when it is read it is the length of the *next* move (junction_handling.py:29, 69-70). -/
def calcKlipper (vel0 vel1 : Vec4 K) (tDist : K) (B : PState K) : K :=
  let jDelta := B.jerk * B.jerk * (PyMath.sqrt 2 - 1) / B.pAcc
  if vel0.norm3 = 0 ∨ vel1.norm3 = 0 then 0
  else
    let dir0 := vel0.div vel0.norm3
    let dir1 := vel1.div vel1.norm3
    let cos0 := -(dir0.x * dir1.x + dir0.y * dir1.y + dir0.z * dir1.z)
    let cos := pyMax cos0 (-0.999999)
    if 0.999999 < cos then 0
    else
      let sinD2 := PyMath.sqrt (0.5 * (1 - cos))
      let r := jDelta * sinD2 / (1 - sinD2)
      let tanD2 := sinD2 / PyMath.sqrt (0.5 * (1 + cos))
      let centripetal := 0.5 * tDist * tanD2 * B.pAcc
      PyMath.sqrt (pyMin (pyMin (B.pAcc * r) centripetal) (B.speed * B.speed))

/-- State of the loop in junction_handling.py:304-327. -/
structure MkaAcc (K : Type) where
  vFactor : K
  limFlag : Bool
  vMaxJunc : K

/-- junction_handling.py:307-327: one axis of the MKA loop. -/
def mkaStep (jerkLim smallSpeedFac : K) (s : MkaAcc K) (vEntry vExit : K) : MkaAcc K :=
  let vExit := vExit * smallSpeedFac
  let vEntry' := if s.limFlag then vEntry * s.vFactor else vEntry
  let vExit' := if s.limFlag then vExit * s.vFactor else vExit
  let jerk :=
    if vEntry' < vExit' then
      (if 0 < vEntry' ∨ vExit' < 0 then vExit' - vEntry' else pyMax vExit' (-vEntry'))
    else
      (if vEntry' < 0 ∨ 0 < vExit' then vEntry' - vExit' else pyMax (-vExit') vEntry')
  let s := if jerkLim < jerk then
      { s with vFactor := s.vFactor * (jerkLim / jerk), limFlag := true } else s
  if s.limFlag then { s with vMaxJunc := s.vMaxJunc * s.vFactor } else s

/-- junction_handling.py:295-327, MKA. -/
def calcMKA (vel0 vel1 : Vec4 K) (B : PState K) : K :=
  let vMax := pyMin vel0.norm3 vel1.norm3
  let fac := if 0 < vMax then vMax / vel0.norm3 else 0
  let s0 : MkaAcc K := ⟨1, false, vMax⟩
  let s1 := mkaStep B.jerk fac s0 vel0.x vel1.x
  let s2 := mkaStep B.jerk fac s1 vel0.y vel1.y
  let s3 := mkaStep B.jerk fac s2 vel0.z vel1.z
  (mkaStep B.jerk fac s3 vel0.e vel1.e).vMaxJunc

/-- planner_block.py:299-313 with junction_handling.py: the junction speed at the end of the move
from `A` to `B`, followed by the states `rest`. -/
def junctionVel (fw : Firmware) (A : Option (PState K)) (B : PState K) (rest : List (PState K)) : K :=
  let vel0 := targetVel A B
  let vel1 := velNext B rest
  match fw with
  | .marlinJd => calcJD vel0 vel1 B
  | .klipper => calcKlipper vel0 vel1 ((nextTarget B rest).position.sub B.position).norm3 B
  | .marlinJerk => calcJerk vel0 vel1 B
  | .mka => calcMKA vel0 vel1 B
  | .default => 0

end
end PyGCD
