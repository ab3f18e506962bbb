import Verif.Model.Setup

/-!
# Results of a segment

Models `segment.calc_results` and `segment.get_result` of `/repo/pyGCodeDecode/utils.py`. Both use the attribute `result`,
which `segment.__init__` does not create (utils.py:324-350): it is `none` here until a caller sets it.
-/

namespace PyGCD

section
variable {K : Type} [Add K] [Sub K] [Mul K] [Div K] [Neg K] [LT K] [LE K] [DecidableLT K] [DecidableLE K] [OfNat K 0]
  [OfNat K 1] [OfNat K 2] [OfNat K 3] [OfScientific K] [PyMath K]

/-- utils.py:492-498 `error_integral`. (`np.sqrt` of a negative number is `nan` and not an exception.) -/
def Segment.errorIntegral (s : Segment K) (a vBegin vTarget xEnd : K) : K :=
  let sqr := if isClose s.velEnd.norm3 0 then 0 else 2 * a * xEnd + vBegin * vBegin
  (vBegin * vBegin * vBegin + 3 * a * vTarget * xEnd - (2 * a * xEnd + vBegin * vBegin) * PyMath.sqrt sqr) /
    (3 * a * vTarget)

/-- utils.py:500-514: the value of `avg_error`. -/
def Segment.avgError (s : Segment K) (vTarget : K) : K :=
  let deltaT := s.duration
  let deltaV := s.velEnd.norm3 - s.velBegin.norm3
  if !isClose vTarget 0 && !isClose deltaT 0 && !isClose deltaV 0 then
    s.errorIntegral (deltaV / deltaT) s.velBegin.norm3 vTarget s.len
  else 0

/-- utils.py:484-530 `calc_results`: the new value of the attribute `result`. -/
def Segment.calcResults (s : Segment K) (result : Option (Dict (List K))) (vTarget : K) : Except PyErr (Dict (List K)) :=
  match result with
  | none => .error .attributeError
  | some r =>
    let rel : List K :=
      if 0 < vTarget then [(vTarget - s.velBegin.norm3) / vTarget, (vTarget - s.velEnd.norm3) / vTarget] else [0, 0]
    .ok (dictSet (dictSet (dictSet r "segm_error" [s.avgError vTarget]) "rel_vel_err" rel)
      "vel" [s.velBegin.norm3, s.velEnd.norm3])

end

/-- utils.py:532-546 `get_result`. `none` is the result `None` for lists that have neither one nor two entries. -/
def getResult {K : Type} (result : Option (Dict (List K))) (key : String) : Except PyErr (Option (List K)) :=
  match result with
  | none => .error .attributeError
  | some r =>
    match r.lookup key with
    | some [a, b] => .ok (some [a, b])
    | some [a] => .ok (some [a, a])
    | some _ => .ok none
    | none => .error .valueError

end PyGCD
