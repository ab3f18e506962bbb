import Verif.Spec.Timeline

/-!
# Specification of a list of segments with gaps

Nothing here refers to how segments are searched.
-/

namespace PyGCD.Spec
open PyGCD

/-- Segments in the order of time. There may be gaps between them. -/
structure InOrder (path : List (Segment ℝ)) : Prop where
  duration : ∀ s ∈ path, s.tBegin ≤ s.tEnd
  order : path.IsChain fun a b => a.tEnd ≤ b.tBegin

/-- `s` is the segment number `i` of the path and `t` lies in it. -/
def MovesAt (path : List (Segment ℝ)) (t : ℝ) (s : Segment ℝ) (i : ℕ) : Prop := path[i]? = some s ∧ Covers s t

/-- `t` lies in the gap behind segment number `i`, and `s` rests where that segment ends, for as long as the gap lasts. -/
def RestsAt (path : List (Segment ℝ)) (t : ℝ) (s : Segment ℝ) (i : ℕ) : Prop :=
  ∃ a b, path[i]? = some a ∧ path[i + 1]? = some b ∧ a.tEnd ≤ t ∧ t < b.tBegin ∧ s.tBegin = a.tEnd ∧ s.tEnd = b.tBegin ∧
    ∀ t', Covers s t' → s.getPosition t' = .ok a.posEnd ∧ s.getVelocity t' = .ok Vec4.zero

/-- There is no usable hint: none at all, one that is too large, or one whose segment begins later than `t`. -/
def NoHint (path : List (Segment ℝ)) (t : ℝ) (last : Option ℕ) : Prop :=
  ∀ k s, last = some k → path[k]? = some s → t < s.tBegin

end PyGCD.Spec
