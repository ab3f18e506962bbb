import Verif.Proofs.BlockLemmas
import Verif.Props.Junctions

/-!
# Properties C17 and C19: junction speeds and the shape of a single move
-/

set_option linter.unusedSectionVars false
set_option linter.unusedSimpArgs false

namespace PyGCD
open Vec4 Spec

theorem moveDistance_length (A B : PState ℝ) :
    (moveDistance A B).1 = moveLength A.position B.position := by
  unfold moveDistance moveLength
  simp only
  by_cases h : (B.position.sub A.position).norm3 = 0
  · rw [if_pos (show B.position.tDistance A.position = 0 from h), if_pos h]
    obtain ⟨hx, hy, hz⟩ := norm3_eq_zero.1 h
    show (B.position.sub A.position).norm4 = _
    have h4 := norm4_sq (B.position.sub A.position)
    rw [hx, hy, hz] at h4
    have h5 : (B.position.sub A.position).norm4 ^ 2 = |B.position.e - A.position.e| ^ 2 := by
      rw [h4, sq_abs]
      simp [Vec4.sub]
    exact (pow_left_inj₀ (norm4_nonneg _) (abs_nonneg _) (by norm_num)).1 h5
  · rw [if_neg (show ¬ B.position.tDistance A.position = 0 from h), if_neg h]
    rfl

/-- The shapes exclude each other, and which one applies is decided by the speeds alone. -/
theorem Shape.cases_iff {a vT vb ve d : ℝ} {bt : BlockType} {s0 s1 : ℝ}
    (hb : 0 ≤ vb ∧ vb ≤ vT) (he : 0 ≤ ve ∧ ve ≤ vT) (h : Shape a vT vb ve d bt s0 s1) :
    (bt = .trapezoid ↔ (vT ^ 2 - vb ^ 2) + (vT ^ 2 - ve ^ 2) < 2 * a * d) ∧
      (bt = .triangle ↔ 2 * a * d ≤ (vT ^ 2 - vb ^ 2) + (vT ^ 2 - ve ^ 2) ∧
        |ve ^ 2 - vb ^ 2| < 2 * a * d) ∧
      (bt = .single ↔ 2 * a * d ≤ |ve ^ 2 - vb ^ 2|) := by
  have h1 : vb ^ 2 ≤ vT ^ 2 := (sq_le_sq₀ hb.1 (le_trans hb.1 hb.2)).2 hb.2
  have h2 : ve ^ 2 ≤ vT ^ 2 := (sq_le_sq₀ he.1 (le_trans he.1 he.2)).2 he.2
  have h3 : |ve ^ 2 - vb ^ 2| ≤ (vT ^ 2 - vb ^ 2) + (vT ^ 2 - ve ^ 2) := by
    rw [abs_le]
    constructor <;> linarith
  have h4 := le_abs_self (ve ^ 2 - vb ^ 2)
  have h5 := neg_le_abs (ve ^ 2 - vb ^ 2)
  cases h with
  | trapezoid h =>
    simp only [reduceCtorEq, false_iff, true_iff, not_and, not_le, not_lt]
    exact ⟨h, fun h' => absurd h (not_lt.2 h'), by linarith⟩
  | triangle h h' =>
    simp only [reduceCtorEq, false_iff, true_iff, not_and, not_le, not_lt]
    exact ⟨h, ⟨h, h'⟩, h'⟩
  | up h =>
    simp only [reduceCtorEq, false_iff, true_iff, not_and, not_le, not_lt]
    exact ⟨by linarith, fun _ => by linarith, by linarith⟩
  | down h =>
    simp only [reduceCtorEq, false_iff, true_iff, not_and, not_le, not_lt]
    exact ⟨by linarith, fun _ => by linarith, by linarith⟩

/-- **C19.** For every previous speed, feedrate, acceleration, positive distance and end speed within the
feedrate, planning a move succeeds, and its shape is the one of the three that the speeds dictate. -/
theorem c19_plannable {b : Block ℝ} {A : PState ℝ} {pb : Option (Block ℝ)} {v0 ve : ℝ}
    (hA : b.stateA = some A) (hdir : b.direction = (connectState A b.stateB).normDir4)
    (hne : b.stateB.position ≠ A.position) (hs : 0 < b.stateB.speed) (ha : 0 < b.stateB.pAcc)
    (hnone : pb = none → v0 = 0)
    (hsome : ∀ c ∈ pb, ∃ s ∈ c.segments.getLast?, s.velEnd.norm3 = v0)
    (he : 0 ≤ ve ∧ ve ≤ b.stateB.speed) :
    ∃ b', moveMaker b pb ve = .ok b' ∧ b'.stateA = b.stateA ∧ b'.stateB = b.stateB ∧
      b'.segments ≠ [] ∧
      let vb := min v0 b.stateB.speed
      let vT := b.stateB.speed
      let d := moveLength A.position b.stateB.position
      (b'.blocktype = some .trapezoid ↔
        (vT ^ 2 - vb ^ 2) + (vT ^ 2 - ve ^ 2) < 2 * b.stateB.pAcc * d) ∧
      (b'.blocktype = some .triangle ↔
        2 * b.stateB.pAcc * d ≤ (vT ^ 2 - vb ^ 2) + (vT ^ 2 - ve ^ 2) ∧
          |ve ^ 2 - vb ^ 2| < 2 * b.stateB.pAcc * d) ∧
      (b'.blocktype = some .single ↔ 2 * b.stateB.pAcc * d ≤ |ve ^ 2 - vb ^ 2|) := by
  obtain ⟨u, h1, h2, h3, h4, h5, h6, h7⟩ := move_direction hne hs
  have hprev : ∃ prev, (match pb with
      | some pb => pb.lastSeg
      | none => .ok (Segment.initial A.position)) = .ok prev ∧ prev.velEnd.norm3 = v0 := by
    cases pb with
    | none => exact ⟨_, rfl, by rw [hnone rfl]; exact norm3_zero⟩
    | some c =>
      obtain ⟨s, hs, hv⟩ := hsome c rfl
      exact ⟨s, lastSeg_ok hs, hv⟩
  obtain ⟨prev, p1, p2⟩ := hprev
  obtain ⟨segs, bt, t', s0, s1, q1, q2, q3, q4⟩ := planMove_spec h2 prev b.stateB ha hs h3 he
  rw [p2, moveDistance_length] at q2
  have hv0 : 0 ≤ v0 := by rw [← p2]; exact norm3_nonneg _
  refine ⟨{ b with segments := segs, blocktype := some bt }, ?_, rfl, rfl, ?_, ?_⟩
  · unfold moveMaker
    rw [hA, hdir, h1]
    cases pb with
    | none =>
      cases p1
      simp only [bind, Except.bind, q1]
    | some pb =>
      simp only at p1
      simp only [bind, Except.bind, p1, q1]
  · rintro rfl
    have := q3.nil_pos
    have e : prev.posEnd.add (u.mul (moveDistance A b.stateB).1) = prev.posEnd.add (u.mul 0) := by
      rw [this, Vec4.mul_zero, Vec4.add_zero]
    linarith [unit_cancel h2 e]
  · simp only [Option.some.injEq]
    exact q2.cases_iff ⟨le_min hv0 hs.le, min_le_right _ _⟩ he

/-- The hypotheses of C19 are met by a move of 10 mm after a standstill, and it is a trapezoid: 10 mm are
enough to accelerate to 10 mm/s and stop again. -/
example : ∃ b', moveMaker (K := ℝ)
    { stateA := some ⟨⟨0, 0, 0, 0⟩, 10, 100, 5, none, none⟩,
      stateB := ⟨⟨10, 0, 0, 1⟩, 10, 100, 5, none, none⟩,
      direction := (connectState ⟨⟨0, 0, 0, 0⟩, 10, 100, 5, none, none⟩
        ⟨⟨10, 0, 0, 1⟩, 10, 100, 5, none, none⟩).normDir4,
      isExtruding := false, jd := none, segments := [], blocktype := none } none 0 = .ok b' ∧
    b'.blocktype = some .trapezoid := by
  obtain ⟨b', h1, _, _, _, h2, _⟩ := c19_plannable (b :=
    { stateA := some ⟨⟨0, 0, 0, 0⟩, 10, 100, 5, none, none⟩,
      stateB := ⟨⟨10, 0, 0, 1⟩, 10, 100, 5, none, none⟩,
      direction := (connectState ⟨⟨0, 0, 0, 0⟩, 10, 100, 5, none, none⟩
        ⟨⟨10, 0, 0, 1⟩, 10, 100, 5, none, none⟩).normDir4,
      isExtruding := false, jd := none, segments := [], blocktype := none })
    (pb := none) (v0 := 0) (ve := 0) rfl rfl
    (fun h => by simpa using congrArg Vec4.x h) (by norm_num) (by norm_num) (fun _ => rfl) (by simp)
    (by norm_num)
  refine ⟨b', h1, h2.2 ?_⟩
  have hd : moveLength (⟨0, 0, 0, 0⟩ : Vec4 ℝ) ⟨10, 0, 0, 1⟩ = 10 := by
    have hn : (((⟨10, 0, 0, 1⟩ : Vec4 ℝ)).sub ⟨0, 0, 0, 0⟩).norm3 = 10 := by
      rw [← pow_left_inj₀ (norm3_nonneg _) (by norm_num) (two_ne_zero), norm3_sq]
      norm_num [Vec4.sub]
    unfold moveLength
    rw [hn]
    norm_num
  simp only [hd]
  norm_num

/-- C17 on a right-angled corner: the junction speed of each firmware is between 0 and 10 mm/s. -/
example (fw : Firmware) :
    0 ≤ junctionVel fw (some ⟨⟨0, 0, 0, 0⟩, 10, 100, 5, none, none⟩)
      (⟨⟨10, 0, 0, 1⟩, 10, 100, 5, none, none⟩ : PState ℝ) [⟨⟨10, 10, 0, 2⟩, 10, 100, 5, none, none⟩] ∧
    junctionVel fw (some ⟨⟨0, 0, 0, 0⟩, 10, 100, 5, none, none⟩)
      (⟨⟨10, 0, 0, 1⟩, 10, 100, 5, none, none⟩ : PState ℝ) [⟨⟨10, 10, 0, 2⟩, 10, 100, 5, none, none⟩] ≤ 10 :=
  c17_junction_speed fw _ _ _ (by norm_num) (by norm_num)

end PyGCD
