import Verif.Model.Sim

/-!
# What the correction prints

Models the last part of `planner_block.self_correction` (`/repo/pyGCodeDecode/planner_block.py:239-244`):
after a block has been corrected its segments are checked against the settings of its state, and a
violation is printed ("… does not adhere to machine limits …"). `Verif/Model/Planner.lean` leaves this out
because it does not change the blocks; here the correction is written with the check and returns, besides
the blocks, one flag per check: whether something was printed.
-/

namespace PyGCD

section
variable {K : Type} [Add K] [Sub K] [Mul K] [Div K] [Neg K] [LT K] [LE K] [DecidableLT K]
  [DecidableLE K] [DecidableEq K] [OfNat K 0] [OfNat K 1] [OfNat K 2] [OfNat K 18] [OfNat K 180]
  [OfScientific K] [PyMath K]

/-- utils.py:414-444 `self_check(p_settings)` passes, with `f = p_settings.speed`: the checks without
settings and no vertex faster than `f` (up to `np.isclose`). -/
def Segment.adheres (s : Segment K) (f : K) : Bool :=
  s.selfCheckOk && !(decide (f < s.velBegin.norm3) && !isClose s.velBegin.norm3 f) &&
    !(decide (f < s.velEnd.norm3) && !isClose s.velEnd.norm3 f)

/-- planner_block.py:239-244: a warning is printed for this block. -/
def Block.warns (b : Block K) : Bool := b.segments.any fun s => !s.adheres b.stateB.speed

/-- planner_block.py:204-246 `self_correction` including the check of lines 239-244, on a zipper as in
`selfCorrection`. -/
def selfCorrectionW : List (Block K) → Block K → Option (Block K) →
    Except PyErr ((List (Block K) × Block K × Option (Block K)) × List Bool)
  | rp, b, none => .ok ((rp, b, none), [b.warns])
  | rp, b, some nx => do
    let last ← b.lastSeg
    let nfirst ← nx.firstSeg
    let flag := decide (¬ last.velEnd.norm3 = nfirst.velBegin.norm3) &&
      decide ((1e-12 : K) < pyAbs (last.velEnd.norm3 - nfirst.velBegin.norm3))
    let ((rp, b), w) ←
      if flag then do
        let b' ← moveMaker b rp.head? nfirst.velBegin.norm3
        if b'.blocktype = some .single then
          match rp with
          | [] => .error .attributeError
          | p :: rp' => do
            let (r, w) ← selfCorrectionW rp' p (some b')
            match r with
            | (rp'', p', some b'') => .ok ((p' :: rp'', b''), w)
            | (rp'', p', none) => .ok ((p' :: rp'', b'), w)
        else .ok ((rp, b'), [])
      else .ok ((rp, b), [])
    let last ← b.lastSeg
    let nx := nx.timeshift (last.tEnd - nfirst.tBegin)
    if last.posEnd.eq nfirst.posBegin = true then .ok ((rp, b, some nx), w ++ [b.warns])
    else if (1e-12 : K) < (last.posEnd.sub nfirst.posBegin).norm3 then .error .nameError
    else .ok ((rp, b, some nx), w ++ [b.warns])

/-- gcode_interpreter.py:574-580, the loop from block `b` on, with its warnings. -/
def correctFromW : List (Block K) → Block K → List (Block K) → Except PyErr (List (Block K) × List Bool)
  | rp, b, [] => do
    let (r, w) ← selfCorrectionW rp b none
    .ok (r.1.reverse ++ [r.2.1], w)
  | rp, b, nx :: tl => do
    let (r, w) ← selfCorrectionW rp b (some nx)
    let (bs, w') ← correctFromW (r.2.1 :: r.1) (r.2.2.getD nx) tl
    .ok (bs, w ++ w')

/-- gcode_interpreter.py:569-580 `trajectory_self_correct`, with its warnings. -/
def correctAllW : List (Block K) → Except PyErr (List (Block K) × List Bool)
  | [] => .ok ([], [])
  | b :: tl => correctFromW [] b tl

/-- gcode_interpreter.py:237-238 and 695-698: planning of a list of states, with the warnings of the
correction. -/
def planW (fw : Firmware) (states : List (PState K)) : Except PyErr (List (Block K) × List Bool) := do
  let bs ← genBlocks fw none none states
  correctAllW bs

end
end PyGCD
