import Verif.Proofs.DirectionLemmas
import Verif.Props.PlanMove
import Mathlib.Data.List.Chain

/-!
# Well-formed blocks
-/

set_option linter.unusedSectionVars false

namespace PyGCD
open Vec4 Spec

/-- When a block begins. -/
noncomputable def Block.t0 (b : Block ℝ) : ℝ := (b.segments.head?.map Segment.tBegin).getD 0
/-- When a block ends. -/
noncomputable def Block.t1 (b : Block ℝ) : ℝ := (b.segments.getLast?.map Segment.tEnd).getD 0
/-- The travel speed at the begin of a block. -/
noncomputable def Block.nIn (b : Block ℝ) : ℝ :=
  (b.segments.head?.map fun s => s.velBegin.norm3).getD 0
/-- The travel speed at the end of a block. -/
noncomputable def Block.nOut (b : Block ℝ) : ℝ :=
  (b.segments.getLast?.map fun s => s.velEnd.norm3).getD 0

/-- The header of a block that moves from `A` along `u`. -/
structure Hdr (b : Block ℝ) (A : PState ℝ) (u : Vec4 ℝ) : Prop where
  hA : b.stateA = some A
  hne : b.stateB.position ≠ A.position
  hs : 0 < b.stateB.speed
  ha : 0 < b.stateB.pAcc
  hdir : b.direction = some u
  hconn : (connectState A b.stateB).normDir4 = some u

/-- A block that moves from `A` along `u`, with scalar speeds `s0` at its begin and `s1` at its end. -/
structure MoveB (b : Block ℝ) (A : PState ℝ) (u : Vec4 ℝ) (s0 s1 : ℝ) : Prop extends Hdr b A u where
  hpause : b.stateB.pause = none
  hext : b.isExtruding = decide (A.position.e < b.stateB.position.e)
  hramp : Ramp u b.stateB.pAcc b.stateB.speed A.position b.t0 s0 b.segments b.stateB.position b.t1 s1
  hprof : Profile u b.stateB.pAcc b.stateB.speed b.segments
  hjd : ∃ j, b.jd = some (u.mul j) ∧ s1 ≤ j

/-- A block that stands still. -/
structure DwellB (b : Block ℝ) (A : PState ℝ) (p : ℝ) : Prop where
  hA : b.stateA = some A
  hpause : b.stateB.pause = some p
  hp : 0 ≤ p
  hpos : b.stateB.position = A.position
  hext : b.isExtruding = false
  hseg : ∃ t, b.segments = [⟨t, t + p, A.position, Vec4.zero, A.position, Vec4.zero⟩]

/-- A well-formed block. -/
def Good (b : Block ℝ) : Prop :=
  (∃ A u s0 s1, MoveB b A u s0 s1) ∨ ∃ A p, DwellB b A p

theorem Hdr.unit {b : Block ℝ} {A : PState ℝ} {u : Vec4 ℝ} (h : Hdr b A u) :
    UnitDir u (moveDistance A b.stateB).2 ∧ 0 < (moveDistance A b.stateB).1 ∧
      b.stateB.position = A.position.add (u.mul (moveDistance A b.stateB).1) ∧
      ((moveDistance A b.stateB).2 = true ↔ (b.stateB.position.sub A.position).norm3 = 0) ∧
      connectState A b.stateB = u.mul b.stateB.speed := by
  obtain ⟨u', h1, h2, h3, h4, _, h5, h6⟩ := move_direction h.hne h.hs
  rw [h.hconn] at h1
  cases h1
  exact ⟨h2, h3, h4, h5, h6⟩

theorem unit_cancel {u p : Vec4 ℝ} {eo : Bool} (hu : UnitDir u eo) {l d : ℝ}
    (h : p.add (u.mul l) = p.add (u.mul d)) : l = d := by
  have hx := congrArg Vec4.x h
  have hy := congrArg Vec4.y h
  have hz := congrArg Vec4.z h
  have he := congrArg Vec4.e h
  simp only [Vec4.add, Vec4.mul] at hx hy hz he
  have h4 := norm4_sq u
  have h1 := hu.norms.2.1
  have e0 : (l - d) * u.norm4 ^ 2 = 0 := by
    rw [h4]
    linear_combination u.x * hx + u.y * hy + u.z * hz + u.e * he
  have : u.norm4 ^ 2 ≠ 0 := by positivity
  rcases mul_eq_zero.1 e0 with h | h
  · linarith
  · exact absurd h this

theorem MoveB.ne_nil {b : Block ℝ} {A : PState ℝ} {u : Vec4 ℝ} {s0 s1 : ℝ} (h : MoveB b A u s0 s1) :
    b.segments ≠ [] := by
  intro hn
  have hr := h.hramp
  rw [hn] at hr
  exact h.hne hr.nil_pos

/-- Speeds and distance of a moving block. -/
theorem MoveB.facts {b : Block ℝ} {A : PState ℝ} {u : Vec4 ℝ} {s0 s1 : ℝ} (h : MoveB b A u s0 s1) :
    0 ≤ s0 ∧ s0 ≤ b.stateB.speed ∧ 0 ≤ s1 ∧ s1 ≤ b.stateB.speed ∧
      |s1 ^ 2 - s0 ^ 2| ≤ 2 * b.stateB.pAcc * (moveDistance A b.stateB).1 ∧ b.t0 < b.t1 := by
  obtain ⟨l, h1, h2, h3, h4, h5, h6⟩ := h.hramp.facts h.ha.le
  obtain ⟨h7, h8, h9, h10, h11, h12⟩ := h6 h.ne_nil
  obtain ⟨hu, hd, hpos, _⟩ := h.toHdr.unit
  have hl : l = (moveDistance A b.stateB).1 := by
    refine unit_cancel hu (p := A.position) ?_
    rw [← h2, ← hpos]
  rw [← hl]
  exact ⟨h8, h9, h10, h11, h3, h12⟩

theorem firstSeg_ok {b : Block ℝ} {s : Segment ℝ} (h : b.segments.head? = some s) :
    b.firstSeg = .ok s := by
  unfold Block.firstSeg
  rw [h]

theorem lastSeg_ok {b : Block ℝ} {s : Segment ℝ} (h : b.segments.getLast? = some s) :
    b.lastSeg = .ok s := by
  unfold Block.lastSeg
  rw [h]

/-- The end points of a well-formed block. -/
theorem MoveB.ends {b : Block ℝ} {A : PState ℝ} {u : Vec4 ℝ} {s0 s1 : ℝ} (h : MoveB b A u s0 s1) :
    ∃ s s', b.segments.head? = some s ∧ b.segments.getLast? = some s' ∧ s.tBegin = b.t0 ∧
      s.posBegin = A.position ∧ s.velBegin = u.mul s0 ∧ s'.tEnd = b.t1 ∧
      s'.posEnd = b.stateB.position ∧ s'.velEnd = u.mul s1 ∧ b.nIn = u.norm3 * s0 ∧
      b.nOut = u.norm3 * s1 := by
  obtain ⟨s, s', h1, h2, h3, h4, h5, h6, h7, h8⟩ := h.hramp.ends h.ne_nil
  obtain ⟨f1, f2, f3, f4, _⟩ := h.facts
  refine ⟨s, s', h1, h2, h3, h4, h5, h6, h7, h8, ?_, ?_⟩
  · unfold Block.nIn
    rw [h1, Option.map_some, Option.getD_some, h5, norm3_mul, abs_of_nonneg f1]
  · unfold Block.nOut
    rw [h2, Option.map_some, Option.getD_some, h8, norm3_mul, abs_of_nonneg f3]

/-- The direction and the scalar speeds of a moving block are determined by the block. -/
theorem MoveB.unique {b : Block ℝ} {A A' : PState ℝ} {u u' : Vec4 ℝ} {s0 s1 r0 r1 : ℝ}
    (h : MoveB b A u s0 s1) (h' : MoveB b A' u' r0 r1) : A = A' ∧ u = u' ∧ s0 = r0 ∧ s1 = r1 := by
  obtain ⟨s, s', h1, h2, _, _, h5, _, _, h8, _⟩ := h.ends
  obtain ⟨q, q', g1, g2, _, _, g5, _, _, g8, _⟩ := h'.ends
  have hA := h.hA.symm.trans h'.hA
  have hu := h.hdir.symm.trans h'.hdir
  cases hA
  cases hu
  rw [h1] at g1
  rw [h2] at g2
  cases g1
  cases g2
  obtain ⟨hun, _⟩ := h.toHdr.unit
  refine ⟨rfl, rfl, ?_, ?_⟩
  · refine unit_cancel hun (p := Vec4.zero) ?_
    rw [← h5, ← g5]
  · refine unit_cancel hun (p := Vec4.zero) ?_
    rw [← h8, ← g8]

theorem Good.facts {b : Block ℝ} (h : Good b) :
    ∃ A s s', b.stateA = some A ∧ b.segments.head? = some s ∧ b.segments.getLast? = some s' ∧
      s.tBegin = b.t0 ∧ s.posBegin = A.position ∧ s.velBegin.norm3 = b.nIn ∧ s'.tEnd = b.t1 ∧
      s'.posEnd = b.stateB.position ∧ s'.velEnd.norm3 = b.nOut ∧ 0 ≤ b.nIn ∧ 0 ≤ b.nOut ∧
      b.t0 ≤ b.t1 := by
  rcases h with ⟨A, u, s0, s1, h⟩ | ⟨A, p, h⟩
  · obtain ⟨s, s', h1, h2, h3, h4, h5, h6, h7, h8, h9, h10⟩ := h.ends
    refine ⟨A, s, s', h.hA, h1, h2, h3, h4, ?_, h6, h7, ?_, ?_, ?_, h.facts.2.2.2.2.2.le⟩
    · unfold Block.nIn
      rw [h1]
      rfl
    · unfold Block.nOut
      rw [h2]
      rfl
    · rw [h9]
      exact mul_nonneg (norm3_nonneg _) h.facts.1
    · rw [h10]
      exact mul_nonneg (norm3_nonneg _) h.facts.2.2.1
  · obtain ⟨t, ht⟩ := h.hseg
    refine ⟨A, ⟨t, t + p, A.position, Vec4.zero, A.position, Vec4.zero⟩,
      ⟨t, t + p, A.position, Vec4.zero, A.position, Vec4.zero⟩, h.hA, by rw [ht]; rfl,
      by rw [ht]; rfl, ?_, rfl, ?_, ?_, h.hpos.symm, ?_, ?_, ?_, ?_⟩
    · simp [Block.t0, ht]
    · simp [Block.nIn, ht]
    · simp [Block.t1, ht]
    · simp [Block.nOut, ht]
    · simp [Block.nIn, ht, norm3_zero]
    · simp [Block.nOut, ht, norm3_zero]
    · simp [Block.t0, Block.t1, ht, h.hp]

theorem Good.ne_nil {b : Block ℝ} (h : Good b) : b.segments ≠ [] := by
  obtain ⟨_, _, _, _, h1, _⟩ := h.facts
  intro hn
  rw [hn] at h1
  cases h1

theorem head?_map' {α β : Type} (f : α → β) (l : List α) : (l.map f).head? = l.head?.map f := by
  cases l <;> rfl

/-- Shifting a block in time. -/
theorem timeshift_views {b : Block ℝ} (hb : b.segments ≠ []) (d : ℝ) :
    (b.timeshift d).t0 = b.t0 + d ∧ (b.timeshift d).t1 = b.t1 + d ∧ (b.timeshift d).nIn = b.nIn ∧
      (b.timeshift d).nOut = b.nOut := by
  unfold Block.timeshift Block.t0 Block.t1 Block.nIn Block.nOut
  simp only [List.getLast?_map, head?_map', Option.map_map]
  cases hh : b.segments.head? with
  | none =>
    rw [List.head?_eq_none_iff] at hh
    exact absurd hh hb
  | some s =>
    cases hl : b.segments.getLast? with
    | none =>
      rw [List.getLast?_eq_none_iff] at hl
      exact absurd hl hb
    | some s' => exact ⟨rfl, rfl, rfl, rfl⟩

theorem Spec.Profile.shift {u : Vec4 ℝ} {a vT : ℝ} {segs : List (Segment ℝ)} (d : ℝ)
    (h : Profile u a vT segs) : Profile u a vT (segs.map (Segment.shift d)) := by
  obtain ⟨l1, l2, l3, rfl, h1, h2, h3, n1, n2, n3⟩ := h
  refine ⟨l1.map (Segment.shift d), l2.map (Segment.shift d), l3.map (Segment.shift d), by simp, ?_, ?_, ?_,
    by simpa using n1, by simpa using n2, by simpa using n3⟩
  · intro s hs
    obtain ⟨x, hx, rfl⟩ := List.mem_map.1 hs
    simp only [Segment.shift, add_sub_add_right_eq_sub]
    exact h1 x hx
  · intro s hs
    obtain ⟨x, hx, rfl⟩ := List.mem_map.1 hs
    exact h2 x hx
  · intro s hs
    obtain ⟨x, hx, rfl⟩ := List.mem_map.1 hs
    simp only [Segment.shift, add_sub_add_right_eq_sub]
    exact h3 x hx

theorem MoveB.timeshift {b : Block ℝ} {A : PState ℝ} {u : Vec4 ℝ} {s0 s1 : ℝ} (h : MoveB b A u s0 s1)
    (d : ℝ) : MoveB (b.timeshift d) A u s0 s1 := by
  obtain ⟨h1, h2, _, _⟩ := timeshift_views h.ne_nil d
  refine ⟨⟨h.hA, h.hne, h.hs, h.ha, h.hdir, h.hconn⟩, h.hpause, h.hext, ?_, h.hprof.shift d, h.hjd⟩
  rw [h1, h2]
  exact h.hramp.shift d

theorem DwellB.timeshift {b : Block ℝ} {A : PState ℝ} {p : ℝ} (h : DwellB b A p) (d : ℝ) :
    DwellB (b.timeshift d) A p := by
  refine ⟨h.hA, h.hpause, h.hp, h.hpos, h.hext, ?_⟩
  obtain ⟨t, ht⟩ := h.hseg
  refine ⟨t + d, ?_⟩
  simp only [Block.timeshift, ht, List.map_cons, List.map_nil, Segment.shift]
  congr 2
  ring

theorem Good.timeshift {b : Block ℝ} (h : Good b) (d : ℝ) : Good (b.timeshift d) := by
  rcases h with ⟨A, u, s0, s1, h⟩ | ⟨A, p, h⟩
  · exact Or.inl ⟨A, u, s0, s1, h.timeshift d⟩
  · exact Or.inr ⟨A, p, h.timeshift d⟩

/-- Planning (also re-planning) the segments of a move. -/
theorem moveMaker_spec {b : Block ℝ} {A : PState ℝ} {u : Vec4 ℝ} (h : Hdr b A u)
    {pb : Option (Block ℝ)} {prev : Segment ℝ}
    (hprev : (match pb with
      | some pb => pb.lastSeg
      | none => .ok (Segment.initial A.position)) = .ok prev)
    (hpos : prev.posEnd = A.position) {ve : ℝ} (he : 0 ≤ ve ∧ ve ≤ b.stateB.speed) :
    ∃ segs bt s0 s1, moveMaker b pb ve = .ok { b with segments := segs, blocktype := some bt } ∧
      Shape b.stateB.pAcc b.stateB.speed (min prev.velEnd.norm3 b.stateB.speed) ve
        (moveDistance A b.stateB).1 bt s0 s1 ∧ Profile u b.stateB.pAcc b.stateB.speed segs ∧
      (∀ b' : Block ℝ, b'.segments = segs → b'.t0 = prev.tEnd) ∧
      ∀ b' : Block ℝ, b'.segments = segs → Ramp u b.stateB.pAcc b.stateB.speed A.position b'.t0 s0
        segs b.stateB.position b'.t1 s1 := by
  obtain ⟨hu, hd, hB, _⟩ := h.unit
  obtain ⟨segs, bt, t', s0, s1, h1, h2, h3, h4⟩ := planMove_spec hu prev b.stateB h.ha h.hs hd he
  rw [hpos, ← hB] at h3
  have hne : segs ≠ [] := by
    rintro rfl
    exact h.hne h3.nil_pos
  obtain ⟨s, s', e1, e2, e3, _, _, e6, _⟩ := h3.ends hne
  have ht0 : ∀ b' : Block ℝ, b'.segments = segs → b'.t0 = prev.tEnd := by
    intro b' hb'
    unfold Block.t0
    rw [hb', e1, Option.map_some, Option.getD_some, e3]
  refine ⟨segs, bt, s0, s1, ?_, h2, h4, ht0, ?_⟩
  · unfold moveMaker
    rw [h.hA, h.hdir]
    cases pb with
    | none =>
      cases hprev
      simp only [bind, Except.bind, h1]
    | some pb =>
      simp only at hprev
      simp only [bind, Except.bind, hprev, h1]
  · intro b' hb'
    rw [ht0 b' hb']
    have : b'.t1 = t' := by
      unfold Block.t1
      rw [hb', e2, Option.map_some, Option.getD_some, e6]
    rw [this]
    exact h3

end PyGCD
