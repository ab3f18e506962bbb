import Verif.Proofs.DoublePlan

/-!
# A program with default junction handling in double precision
-/

set_option linter.unusedSectionVars false
set_option linter.unusedSimpArgs false

namespace PyGCD
open PyGCD.Spec Vec4

/-- The segment `prev` ends at rest near the position `p` and near the time `S`. -/
structure Arrived (prev : Segment Dbl) (p : Vec4 ℝ) (k : ℕ) (S : ℝ) : Prop where
  vel : prev.velEnd = Vec4.zero
  rt : Dbl.Rounded prev.tEnd
  t0 : 0 ≤ prev.tEnd.r
  time : |prev.tEnd.r - S| ≤ k * 1e-9 + 1e-12 * S
  px : |prev.posEnd.x.r - p.x| ≤ k * 1e-8
  py : |prev.posEnd.y.r - p.y| ≤ k * 1e-8
  pz : |prev.posEnd.z.r - p.z| ≤ k * 1e-8
  pe : |prev.posEnd.e.r - p.e| ≤ k * 1e-8

theorem Arrived.initial (p : Vec4 Dbl) : Arrived (Segment.initial p) p.real 0 0 := by
  refine ⟨rfl, Dbl.rounded_zero, Dbl.r_zero.ge, ?_, ?_, ?_, ?_, ?_⟩
  · show |(0 : Dbl).r - 0| ≤ _
    rw [Dbl.r_zero]
    norm_num
  all_goals
    show |_ - _| ≤ _
    simp [Segment.initial, Vec4.real]

theorem coord_step {p' p c k : ℝ} {a b : ℝ} (h1 : |p' - (p + c)| ≤ 1e-8) (h2 : |p - a| ≤ k * 1e-8)
    (h3 : b - a = c) : |p' - b| ≤ (k + 1) * 1e-8 := by
  rw [show p' - b = (p' - (p + c)) + (p - a) by rw [← h3]; ring]
  refine (abs_add_le _ _).trans ?_
  linarith

theorem Arrived.step {prev s s' : Segment Dbl} {pA pB ur : Vec4 ℝ} {D T S : ℝ} {k : ℕ} {segs : List (Segment Dbl)}
    (h : Arrived prev pA k S) (hm : MoveOut prev ur D T segs s s') (hd : pB.sub pA = ur.mul D) :
    Arrived s' pB (k + 1) (S + T) := by
  have dx := congrArg Vec4.x hd
  have dy := congrArg Vec4.y hd
  have dz := congrArg Vec4.z hd
  have de := congrArg Vec4.e hd
  simp only [Vec4.sub, Vec4.mul] at dx dy dz de
  refine ⟨hm.v1, hm.rt, hm.t1, ?_, ?_, ?_, ?_, ?_⟩
  · rw [show s'.tEnd.r - (S + T) = (s'.tEnd.r - (prev.tEnd.r + T)) + (prev.tEnd.r - S) by ring]
    refine (abs_add_le _ _).trans ?_
    have := hm.time
    have := h.time
    push_cast
    linarith
  · push_cast
    exact coord_step hm.px h.px dx
  · push_cast
    exact coord_step hm.py h.py dy
  · push_cast
    exact coord_step hm.pz h.pz dz
  · push_cast
    exact coord_step hm.pe h.pe de

theorem near_bound_dbl {p a k : ℝ} (h : |p - a| ≤ k * 1e-8) (ha : |a| ≤ 100000) (hk : k ≤ 1000000) : |p| ≤ 150000 := by
  obtain ⟨h1, h2⟩ := abs_le.1 h
  obtain ⟨h3, h4⟩ := abs_le.1 ha
  rw [abs_le]
  constructor <;> linarith

theorem diff_bound {a b : ℝ} (ha : |a| ≤ 100000) (hb : |b| ≤ 100000) : |b - a| ≤ 200000 := by
  obtain ⟨h1, h2⟩ := abs_le.1 hb
  obtain ⟨h3, h4⟩ := abs_le.1 ha
  rw [abs_le]
  constructor <;> linarith

theorem length_bound {p q : Vec4 ℝ} (hx : |q.x - p.x| ≤ 200000) (hy : |q.y - p.y| ≤ 200000)
    (hz : |q.z - p.z| ≤ 200000) (he : |q.e - p.e| ≤ 200000) : moveLength p q ≤ 400000 := by
  unfold moveLength
  split
  · linarith
  · have h := norm3_sq (q.sub p)
    apply abs_le_of_sq_le_sq' _ (by norm_num) |>.2
    rw [h]
    simp only [Vec4.sub]
    have h1 := sq_le_sq' (abs_le.1 hx).1 (abs_le.1 hx).2
    have h2 := sq_le_sq' (abs_le.1 hy).1 (abs_le.1 hy).2
    have h3 := sq_le_sq' (abs_le.1 hz).1 (abs_le.1 hz).2
    nlinarith

/-- The way covered a time after the begin of an action of a program when every move begins and ends at rest. -/
noncomputable def actDist : Option (PState ℝ) × PState ℝ → ℝ → ℝ
  | (pa, B) =>
    match B.pause, pa with
    | some _, _ => fun _ => 0
    | none, some A => restDist B.pAcc B.speed (moveLength A.position B.position)
    | none, none => fun _ => 0

/-- What a block in double precision is known for: it goes from `prev` to (nearly) the target of the state. -/
def BlockOut (b : Block Dbl) (prev : Segment Dbl) (A B : PState Dbl) : Prop :=
  b.stateA = some A ∧ b.stateB = B ∧ ∃ ur D s s', B.position.real.sub A.position.real = ur.mul D ∧
    MoveOut prev ur D (restTime (some A.real, B.real)) b.segments s s' ∧
    MoveMid prev ur (actDist (some A.real, B.real)) B.speed.r b.segments ∧
    (B.pause = none → D = moveLength A.position.real B.position.real ∧ 0 < D) ∧ (B.pause ≠ none → ur = Vec4.zero)

theorem mkBlock_move_dbl {A B : PState Dbl} {rest : List (PState Dbl)} {pb : Option (Block Dbl)} {prev : Segment Dbl}
    {k : ℕ} {S : ℝ}
    (hprev : (match pb with | some pb => pb.lastSeg | none => .ok (Segment.initial A.position)) = .ok prev)
    (ha : Arrived prev A.position.real k S) (hk : k ≤ 1000000)
    (cA : |A.position.x.r| ≤ 100000 ∧ |A.position.y.r| ≤ 100000 ∧ |A.position.z.r| ≤ 100000 ∧ |A.position.e.r| ≤ 100000)
    (cB : |B.position.x.r| ≤ 100000 ∧ |B.position.y.r| ≤ 100000 ∧ |B.position.z.r| ≤ 100000 ∧ |B.position.e.r| ≤ 100000)
    (hne : B.position.real ≠ A.position.real) (hlen : 1e-6 ≤ moveLength A.position.real B.position.real)
    (hv : 0 < B.speed.r) (hv' : B.speed.r ≤ 1000) (hacc : 0 < B.pAcc.r)
    (hramp : 1e-6 ≤ B.speed.r * B.speed.r / B.pAcc.r) (hp : B.pause = none)
    (hT : S + restTime (some A.real, B.real) ≤ 400000) :
    ∃ b, mkBlock .default (some A) B rest pb = .ok b ∧ BlockOut b prev A B := by
  obtain ⟨u, ur, u1, u2, u3, u4, u5, u6, u7⟩ := move_direction_dbl hne hv
  have hk' : (k : ℝ) ≤ 1000000 := by exact_mod_cast hk
  have dx := congrArg Vec4.x u6
  have dy := congrArg Vec4.y u6
  have dz := congrArg Vec4.z u6
  have de := congrArg Vec4.e u6
  simp only [Vec4.sub, Vec4.mul] at dx dy dz de
  have bx := diff_bound (show |A.position.real.x| ≤ _ from cA.1) (show |B.position.real.x| ≤ _ from cB.1)
  have bY := diff_bound (show |A.position.real.y| ≤ _ from cA.2.1) (show |B.position.real.y| ≤ _ from cB.2.1)
  have bz := diff_bound (show |A.position.real.z| ≤ _ from cA.2.2.1) (show |B.position.real.z| ≤ _ from cB.2.2.1)
  have be := diff_bound (show |A.position.real.e| ≤ _ from cA.2.2.2) (show |B.position.real.e| ≤ _ from cB.2.2.2)
  have hrest : restTime (some A.real, B.real) =
      moveTime B.pAcc.r B.speed.r (moveLength A.position.real B.position.real) 0 0 := by
    unfold restTime
    simp only [PState.real, hp, Option.map_none]
  rw [hrest] at hT
  have hyp : MoveHyp prev u ur B (moveDistance A B).1 (moveDistance A B).2
      (moveLength A.position.real B.position.real) := by
    refine ⟨ha.vel, ha.rt, ha.t0, near_bound_dbl ha.px cA.1 hk', near_bound_dbl ha.py cA.2.1 hk',
      near_bound_dbl ha.pz cA.2.2.1 hk', near_bound_dbl ha.pe cA.2.2.2 hk', u2, u3, hlen, length_bound bx bY bz be,
      ?_, ?_, ?_, ?_, u5, hv, hv', hacc, hramp, ?_⟩
    · rw [← dx]; exact bx.trans (by norm_num)
    · rw [← dy]; exact bY.trans (by norm_num)
    · rw [← dz]; exact bz.trans (by norm_num)
    · rw [← de]; exact be.trans (by norm_num)
    · have h1 := (abs_le.1 ha.time).2
      have h2 : S ≤ 400000 := by
        have := c65_rest_to_rest hacc hv (by linarith : 0 ≤ moveLength A.position.real B.position.real)
        have : 0 ≤ moveTime B.pAcc.r B.speed.r (moveLength A.position.real B.position.real) 0 0 := by
          rw [this]
          split <;> positivity
        linarith
      linarith
  obtain ⟨segs, bt, s, s', h1, h2, h3⟩ := planMove_dbl hyp
  have hmm : moveMaker ⟨some A, B, some u, false, none, [], none⟩ pb 0 =
      .ok ⟨some A, B, some u, false, none, segs, some bt⟩ := by
    unfold moveMaker
    cases pb <;> simp only at hprev ⊢ <;> rw [hprev] <;> simp only [bind, Except.bind, h1]
  refine ⟨⟨some A, B, some u, A.position.isExtrudingTo B.position, some (u.mul 0), segs, some bt⟩, ?_, rfl, rfl,
    ur, _, s, s', u6, ?_, ?_, fun _ => ⟨rfl, by linarith⟩, fun h => absurd hp h⟩
  · unfold mkBlock
    simp only [targetVel, u1, u7, if_true, hp]
    have hj : junctionVel .default (some A) B rest = 0 := rfl
    rw [hj, hmm]
    rfl
  · rw [hrest]
    exact h2
  · have hdist : actDist (some A.real, B.real) =
        restDist B.pAcc.r B.speed.r (moveLength A.position.real B.position.real) := by
      unfold actDist
      simp only [PState.real, hp, Option.map_none]
    rw [hdist]
    exact h3

theorem dbl_add_rest {p : Vec4 Dbl} (hx : Dbl.Rounded p.x) (hy : Dbl.Rounded p.y) (hz : Dbl.Rounded p.z)
    (he : Dbl.Rounded p.e) : p.add ((Vec4.zero : Vec4 Dbl).mul 0) = p := by
  simp only [Vec4.add, Vec4.mul, Dbl.mul_zero, hx.add_zero, hy.add_zero, hz.add_zero, he.add_zero]

/-- The position at the end of the segment is representable. -/
def Landed (s : Segment Dbl) : Prop :=
  Dbl.Rounded s.posEnd.x ∧ Dbl.Rounded s.posEnd.y ∧ Dbl.Rounded s.posEnd.z ∧ Dbl.Rounded s.posEnd.e

theorem mkBlock_dwell_dbl {A B : PState Dbl} {rest : List (PState Dbl)} {c : Block Dbl} {prev : Segment Dbl}
    {k : ℕ} {S : ℝ} {p : Dbl} (hprev : c.segments.getLast? = some prev) (hl : Landed prev)
    (ha : Arrived prev A.position.real k S) (hk : k ≤ 1000000)
    (cA : |A.position.x.r| ≤ 100000 ∧ |A.position.y.r| ≤ 100000 ∧ |A.position.z.r| ≤ 100000 ∧ |A.position.e.r| ≤ 100000)
    (heq : B.position.real = A.position.real) (hv : 0 < B.speed.r) (hp : B.pause = some p) (hp0 : 0 ≤ p.r)
    (hT : S + restTime (some A.real, B.real) ≤ 400000) :
    ∃ b, mkBlock .default (some A) B rest (some c) = .ok b ∧ BlockOut b prev A B := by
  have he := eps_pos
  have he' := eps_lt
  have hk' : (k : ℝ) ≤ 1000000 := by exact_mod_cast hk
  have hrest : restTime (some A.real, B.real) = p.r := by
    unfold restTime
    simp only [PState.real, hp, Option.map_some]
  rw [hrest] at hT
  have hbud : prev.tEnd.r + p.r ≤ 450000 := by
    have h1 := (abs_le.1 ha.time).2
    linarith
  have hlo : ∀ x : ℝ, |x| ≤ 150000 → |x| ≤ 1000000 := fun x hx => hx.trans (by norm_num)
  have z42 : RelV 42 (Vec4.zero : Vec4 Dbl) ((Vec4.zero : Vec4 ℝ).mul 0) := by
    rw [Vec4.mul_zero]
    exact RelV.zero 42
  have ok : SegOk prev.posEnd Vec4.zero Vec4.zero Vec4.zero Vec4.zero 0 0 0 prev.tEnd p := by
    refine ⟨RelV.zero 41, z42, z42, by simp [Vec4.zero], le_rfl, le_rfl, by norm_num,
      ⟨hlo _ (near_bound_dbl ha.px cA.1 hk'), hlo _ (near_bound_dbl ha.py cA.2.1 hk'),
        hlo _ (near_bound_dbl ha.pz cA.2.2.1 hk')⟩, Dbl.r_zero.ge, by rw [Dbl.r_zero]; norm_num, ha.t0, hp0,
      by linarith, ?_, ha.rt⟩
    rw [Dbl.r_zero]
    exact Rel.of_eq 100 (by ring)
  have hmk := ok.make
  rw [dbl_add_rest hl.1 hl.2.1 hl.2.2.1 hl.2.2.2] at hmk
  set seg : Segment Dbl := ⟨prev.tEnd, prev.tEnd + p, prev.posEnd, Vec4.zero, prev.posEnd, Vec4.zero⟩ with hseg
  have hmono := ha.rt.le_add hp0
  refine ⟨⟨some A, B, (connectState A B).normDir4, false, some Vec4.zero, [seg], none⟩, ?_, rfl, rfl,
    Vec4.zero, 0, seg, seg, ?_, ?_, ?_, fun h => (by rw [hp] at h; cases h), fun _ => rfl⟩
  · unfold mkBlock
    simp only [targetVel, move_nowhere_dbl heq, Bool.false_eq_true, if_false, hp, dwellSegment, Block.lastSeg, hprev,
      bind, Except.bind, hmk]
  · rw [heq, Vec4.mul_zero]
    simp [Vec4.sub, Vec4.zero]
  · refine ⟨rfl, rfl, rfl, rfl, rfl, rfl, Dbl.rounded_add _ _, by linarith [ha.t0], ?_, ?_, ?_, ?_, ?_, hl.1, hl.2.1,
      hl.2.2.1, hl.2.2.2, ?_⟩
    · rw [hrest]
      have h1 := (Dbl.r_add prev.tEnd p).abs_sub (by norm_num)
      push_cast at h1
      have h0 := ha.t0
      rw [abs_of_nonneg (show 0 ≤ prev.tEnd.r + p.r by linarith)] at h1
      have h2 : 2 * 1 * eps * (prev.tEnd.r + p.r) ≤ 2 * 1 * eps * 450000 := by gcongr
      show |(prev.tEnd + p).r - _| ≤ _
      linarith
    all_goals try
      show |_ - (_ + 0 * 0)| ≤ _
      rw [MulZeroClass.mul_zero, _root_.add_zero, _root_.sub_self, abs_zero]
      norm_num
    · intro g hg
      rw [List.mem_singleton.1 hg]
      exact ⟨ha.rt, Dbl.rounded_add _ _⟩
  · have hdist : actDist (some A.real, B.real) = fun _ => 0 := by
      unfold actDist
      simp only [PState.real, hp, Option.map_some]
    rw [hdist]
    refine ⟨?_, ?_, List.isChain_singleton _⟩
    · intro g hg t ht0 ht1
      rw [List.mem_singleton] at hg
      have hg' : g = ⟨prev.tEnd, prev.tEnd + p, prev.posEnd, Vec4.zero,
          prev.posEnd.add ((Vec4.zero : Vec4 Dbl).mul 0), Vec4.zero⟩ := by
        rw [dbl_add_rest hl.1 hl.2.1 hl.2.2.1 hl.2.2.2]
        exact hg
      obtain ⟨q, h1, h2⟩ := ok.mid (hlo _ (near_bound_dbl ha.pe cA.2.2.2 hk')) hg' (P := prev.posEnd) (l := 0) (κ := 0)
        (f := fun _ => 0) ((Beside.start _ _).mono (by norm_num)) (by intro x _ _; simp) t ht0 ht1
      exact ⟨q, h1, h2.mono (by linarith)⟩
    · intro g hg
      rw [List.mem_singleton.1 hg]
      exact hmono

/-- Two blocks meet at rest. -/
def Meets (b c : Block Dbl) : Prop :=
  ∃ l f, b.segments.getLast? = some l ∧ c.segments.head? = some f ∧ f.tBegin = l.tEnd ∧ f.posBegin = l.posEnd ∧
    l.velEnd = Vec4.zero ∧ f.velBegin = Vec4.zero ∧ ∀ g ∈ c.segments, Dbl.Rounded g.tBegin ∧ Dbl.Rounded g.tEnd

theorem dbl_close_self (a : Dbl) : isClose a a = true := by
  unfold isClose
  rw [decide_eq_true_eq, Dbl.sub_self, Dbl.le_iff, Dbl.r_abs, Dbl.r_zero, abs_zero]
  have e8 : (1e-8 : Dbl) = ⟨rnd (mkRat 1 (10 ^ 8))⟩ := by
    show (⟨rnd (if true = true then mkRat 1 (10 ^ 8) else ((1 * 10 ^ 8 : Nat) : Rat))⟩ : Dbl) = _
    rw [if_pos rfl]
  have e5 : (1e-5 : Dbl) = ⟨rnd (mkRat 1 (10 ^ 5))⟩ := by
    show (⟨rnd (if true = true then mkRat 1 (10 ^ 5) else ((1 * 10 ^ 5 : Nat) : Rat))⟩ : Dbl) = _
    rw [if_pos rfl]
  have p8 : 0 ≤ (1e-8 : Dbl).r := by
    rw [e8]
    have : (0 : ℚ) ≤ rnd (mkRat 1 (10 ^ 8)) := rnd_nonneg (by rw [Rat.mkRat_eq_div]; positivity)
    show (0 : ℝ) ≤ ((rnd (mkRat 1 (10 ^ 8)) : ℚ) : ℝ)
    exact_mod_cast this
  have p5 : 0 ≤ (1e-5 : Dbl).r := by
    rw [e5]
    have : (0 : ℚ) ≤ rnd (mkRat 1 (10 ^ 5)) := rnd_nonneg (by rw [Rat.mkRat_eq_div]; positivity)
    show (0 : ℝ) ≤ ((rnd (mkRat 1 (10 ^ 5)) : ℚ) : ℝ)
    exact_mod_cast this
  have h1 : 0 ≤ ((1e-5 : Dbl) * pyAbs a).r := by
    refine (Dbl.r_mul _ _).nonneg (mul_nonneg p5 ?_)
    rw [Dbl.r_abs]
    exact abs_nonneg _
  exact (Dbl.r_add _ _).nonneg (by linarith)

theorem Meets.correct {b c : Block Dbl} (h : Meets b c) (rp : List (Block Dbl)) :
    selfCorrection rp b (some c) = .ok (rp, b, some c) := by
  obtain ⟨l, f, h1, h2, h3, h4, h5, h6, h7⟩ := h
  have hshift : c.timeshift (l.tEnd - f.tBegin) = c := by
    rw [h3, Dbl.sub_self]
    unfold Block.timeshift
    have : c.segments.map (Segment.shift 0) = c.segments := by
      conv_rhs => rw [← List.map_id c.segments]
      apply List.map_congr_left
      intro g hg
      unfold Segment.shift
      rw [(h7 g hg).1.add_zero, (h7 g hg).2.add_zero]
      rfl
    rw [this]
  have heq : l.posEnd.eq f.posBegin = true := by
    rw [h4]
    unfold Vec4.eq
    simp only [dbl_close_self, Bool.and_self]
  rw [selfCorrection.eq_def]
  simp only [Block.lastSeg, Block.firstSeg, h1, h2, bind, Except.bind, h5, h6, not_true_eq_false, decide_false,
    Bool.false_and, Bool.false_eq_true, if_false, hshift, heq, if_true]

theorem correct_same : ∀ (tl rp : List (Block Dbl)) (b : Block Dbl), (b :: tl).IsChain Meets →
    correctFrom rp b tl = .ok (rp.reverse ++ b :: tl) := by
  intro tl
  induction tl with
  | nil =>
    intro rp b _
    simp [correctFrom, selfCorrection, bind, Except.bind]
  | cons c tl ih =>
    intro rp b h
    obtain ⟨h1, h2⟩ := List.isChain_cons_cons.1 h
    rw [correctFrom, h1.correct]
    simp only [bind, Except.bind, Option.getD_some]
    rw [ih _ _ h2]
    simp

theorem correctAll_same {bs : List (Block Dbl)} (h : bs.IsChain Meets) : correctAll bs = .ok bs := by
  cases bs with
  | nil => rfl
  | cons b tl => exact correct_same tl [] b h

/-- The inside of a block in double precision follows the action: it is the block number `k` and would begin at `S` if
the times were exact. -/
def Inside (k : ℕ) (S : ℝ) (b : Block Dbl) (a : Option (PState ℝ) × PState ℝ) : Prop :=
  ∃ prev ur D A s, a.1 = some A ∧ Arrived prev A.position k S ∧ a.2.position.sub A.position = ur.mul D ∧
    (a.2.pause = none → D = moveLength A.position a.2.position ∧ 0 < D) ∧ (a.2.pause ≠ none → ur = Vec4.zero) ∧
    b.segments.head? = some s ∧ s.tBegin = prev.tEnd ∧ MoveMid prev ur (actDist a) a.2.speed b.segments

/-- Blocks in double precision that follow the actions of a program: `k` blocks are done, and the next action
begins at `S` if the times are exact. -/
inductive Tracks : ℕ → ℝ → List (Block Dbl) → List (Option (PState ℝ) × PState ℝ) → Prop
  | done (k : ℕ) (S : ℝ) : Tracks k S [] []
  | step {k : ℕ} {S : ℝ} {b : Block Dbl} {bs : List (Block Dbl)} {a : Option (PState ℝ) × PState ℝ}
      {acts : List (Option (PState ℝ) × PState ℝ)} {s' : Segment Dbl} :
      b.stateA.map PState.real = a.1 → b.stateB.real = a.2 → b.segments.getLast? = some s' →
      Arrived s' a.2.position (k + 1) (S + restTime a) → Inside k S b a → Tracks (k + 1) (S + restTime a) bs acts →
      Tracks k S (b :: bs) (a :: acts)

theorem restTime_nonneg {A : Option (PState ℝ)} {B : PState ℝ} (hv : 0 < B.speed) (ha : 0 < B.pAcc)
    (hp : ∀ p ∈ B.pause, 0 ≤ p) : 0 ≤ restTime (A, B) := by
  unfold restTime
  cases h : B.pause with
  | some p =>
    simp only [h]
    exact hp p h
  | none =>
    cases A with
    | none => simp only [h, le_refl]
    | some A =>
      have hl : 0 ≤ moveLength A.position B.position := by
        unfold moveLength
        split
        · exact abs_nonneg _
        · exact norm3_nonneg _
      simp only [h]
      rw [c65_rest_to_rest ha hv hl]
      split <;> positivity

theorem active_mem {pa : Option (PState ℝ)} {l : List (PState ℝ)} {x : Option (PState ℝ) × PState ℝ}
    (h : x ∈ active pa l) : x.2 ∈ l := by
  unfold active withPrev at h
  exact (List.of_mem_zip (List.mem_filter.1 h).1).2

theorem active_sum_nonneg {states : List (PState ℝ)} (hreg : Regular states) {pa : Option (PState ℝ)}
    {l : List (PState ℝ)} (hl : ∀ s ∈ l, s ∈ states) : 0 ≤ ((active pa l).map restTime).sum := by
  apply List.sum_nonneg
  intro t ht
  obtain ⟨x, hx, rfl⟩ := List.mem_map.1 ht
  have := hl _ (active_mem hx)
  exact restTime_nonneg (hreg.speed _ this) (hreg.acc _ this) (hreg.pause _ this)

theorem dbl_zero_still : (Vec4.zero : Vec4 Dbl).notZero = false := by
  have h2 := (RelV.zero 0).norm4
  rw [norm4_zero] at h2
  unfold Vec4.notZero
  rw [decide_eq_false_iff_not, Dbl.lt_iff, Dbl.r_zero, h2.zero]
  exact lt_irrefl _

theorem genBlocks_dbl {states : List (PState Dbl)} (hreg : Regular (states.map PState.real))
    (hmod : Moderate (states.map PState.real)) :
    ∀ (rest done : List (PState Dbl)) (pb : Option (Block Dbl)) (k : ℕ) (S : ℝ), states = done ++ rest →
    0 ≤ S → k ≤ done.length →
    S + ((active (done.getLast?.map PState.real) (rest.map PState.real)).map restTime).sum ≤ 400000 →
    (pb = none → (∀ x ∈ done, ∀ y ∈ done, x.position = y.position) ∧ k = 0 ∧ S = 0) →
    (∀ c ∈ pb, ∃ A l, done.getLast? = some A ∧ c.segments.getLast? = some l ∧ Arrived l A.position.real k S ∧ Landed l) →
    ∃ bs, genBlocks .default done.getLast? pb rest = .ok bs ∧ (pb.toList ++ bs).IsChain Meets ∧
      Tracks k S bs (active (done.getLast?.map PState.real) (rest.map PState.real)) := by
  intro rest
  induction rest with
  | nil =>
    intro done pb k S _ _ _ _ _ _
    refine ⟨[], rfl, ?_, ?_⟩
    · cases pb <;> simp
    · have : active (done.getLast?.map PState.real) ([].map PState.real) = [] := by simp [active, withPrev]
      rw [this]
      exact .done k S
  | cons s rest ih =>
    intro done pb k S hst hS hk hsum hnone hsome
    have hmem : s ∈ states := by rw [hst]; simp
    have hmem' : s.real ∈ states.map PState.real := List.mem_map_of_mem hmem
    have hst' : states = (done ++ [s]) ++ rest := by rw [hst]; simp
    have hlast : (done ++ [s]).getLast? = some s := by simp
    have hlen : done.length + (rest.length + 1) ≤ 1000000 := by
      have := hmod.count
      rw [List.length_map, hst, List.length_append, List.length_cons] at this
      exact this
    have hk' : k ≤ 1000000 := by omega
    have hrestmem : ∀ x ∈ rest.map PState.real, x ∈ states.map PState.real := by
      intro x hx
      rw [hst, List.map_append, List.map_cons]
      simp [hx]
    by_cases hact : s.pause ≠ none ∨ ∃ A, done.getLast? = some A ∧ s.position.real ≠ A.position.real
    · have hact' : s.real.pause ≠ none ∨
          ∃ A, done.getLast?.map PState.real = some A ∧ s.real.position ≠ A.position := by
        rcases hact with h | ⟨A, hA, hne⟩
        · left
          simpa [PState.real] using h
        · exact Or.inr ⟨A.real, by rw [hA]; rfl, hne⟩
      rw [List.map_cons, active_cons_take _ hact', List.map_cons, List.sum_cons] at hsum
      have hnn := active_sum_nonneg hreg (pa := some s.real) hrestmem
      have hrn : 0 ≤ restTime (done.getLast?.map PState.real, s.real) :=
        restTime_nonneg (hreg.speed _ hmem') (hreg.acc _ hmem') (hreg.pause _ hmem')
      have hblock : ∃ b A prev, done.getLast? = some A ∧ Arrived prev A.position.real k S ∧
          mkBlock .default (some A) s rest pb = .ok b ∧ BlockOut b prev A s ∧
          (∀ c ∈ pb, c.segments.getLast? = some prev) := by
        by_cases hp : s.pause = none
        · obtain ⟨A, hA, hne⟩ := hact.resolve_left (by simpa using hp)
          have hAmem : A ∈ states := by
            rw [hst]
            exact List.mem_append_left _ (List.mem_of_getLast? hA)
          obtain ⟨pre, hpre⟩ := List.getLast?_eq_some_iff.1 hA
          have hl := hmod.length (pre.map PState.real) A.real s.real (rest.map PState.real)
            (by rw [hst, hpre]; simp) hne
          rw [hA, Option.map_some] at hsum
          have hprev : ∃ prev, (match pb with | some pb => pb.lastSeg | none => .ok (Segment.initial A.position)) =
              Except.ok prev ∧ Arrived prev A.position.real k S ∧ (∀ c ∈ pb, c.segments.getLast? = some prev) := by
            cases pb with
            | none =>
              obtain ⟨_, rfl, rfl⟩ := hnone rfl
              exact ⟨_, rfl, Arrived.initial _, by simp⟩
            | some c =>
              obtain ⟨A', l, hA', hl, ha, _⟩ := hsome c rfl
              rw [hA] at hA'
              cases hA'
              refine ⟨l, by simp [Block.lastSeg, hl], ha, ?_⟩
              intro c' hc'
              cases hc'
              exact hl
          obtain ⟨prev, p1, p2, p3⟩ := hprev
          obtain ⟨b, b1, b2⟩ := mkBlock_move_dbl (rest := rest) p1 p2 hk'
            (hmod.coord _ (List.mem_map_of_mem hAmem)) (hmod.coord _ hmem') hne hl (hreg.speed _ hmem')
            (hmod.speed _ hmem') (hreg.acc _ hmem') (hmod.ramp _ hmem') hp (by linarith)
          exact ⟨b, A, prev, hA, p2, b1, b2, p3⟩
        · have hp' : s.real.pause ≠ none := by simpa [PState.real] using hp
          have hst2 : states.map PState.real = done.map PState.real ++ s.real :: rest.map PState.real := by
            rw [hst]; simp
          obtain ⟨A', hA', heq⟩ := hreg.stays _ _ _ hst2 hp'
          obtain ⟨x, hx, y, hy, hxy⟩ := hreg.moved _ _ _ hst2 hp'
          rw [List.getLast?_map] at hA'
          obtain ⟨A, hA, rfl⟩ := Option.map_eq_some_iff.1 hA'
          obtain ⟨p, hpp⟩ := Option.ne_none_iff_exists'.1 hp
          have hAmem : A ∈ states := by
            rw [hst]
            exact List.mem_append_left _ (List.mem_of_getLast? hA)
          rw [hA, Option.map_some] at hsum
          cases pb with
          | none =>
            exfalso
            obtain ⟨x', hx', rfl⟩ := List.mem_map.1 hx
            obtain ⟨y', hy', rfl⟩ := List.mem_map.1 hy
            apply hxy
            show x'.position.real = y'.position.real
            rw [(hnone rfl).1 x' hx' y' hy']
          | some c =>
            obtain ⟨A', l, hA', hl, ha, hland⟩ := hsome c rfl
            rw [hA] at hA'
            cases hA'
            obtain ⟨b, b1, b2⟩ := mkBlock_dwell_dbl (B := s) (rest := rest) hl hland ha hk'
              (hmod.coord _ (List.mem_map_of_mem hAmem)) heq (hreg.speed _ hmem') hpp
              (hreg.pause _ hmem' p.r (by show s.pause.map Dbl.r = _; rw [hpp]; rfl)) (by linarith)
            refine ⟨b, A, l, hA, ha, b1, b2, ?_⟩
            intro c' hc'
            cases hc'
            exact hl
      obtain ⟨b, A, prev, hA, ha, b1, ⟨b2, b3, ur, D, q, q', b4, b5, b7, b8, b9⟩, b6⟩ := hblock
      rw [hA, Option.map_some] at hsum hrn ⊢
      have harr := ha.step b5 b4
      obtain ⟨bs, r1, r2, r3⟩ := ih (done ++ [s]) (some b) (k + 1) (S + restTime (some A.real, s.real)) hst'
        (by linarith) (by simp; omega) (by rw [hlast, Option.map_some]; linarith) (by simp) (by
          intro c hc
          cases hc
          exact ⟨s, q', hlast, b5.last, harr, b5.rx, b5.ry, b5.rz, b5.re⟩)
      rw [hlast] at r1 r3
      have hne : b.segments ≠ [] := by
        intro h0
        have := b5.head
        rw [h0] at this
        cases this
      refine ⟨b :: bs, ?_, ?_, ?_⟩
      · unfold genBlocks
        simp only [b1, bind, Except.bind, List.isEmpty_iff, hne, if_false, r1]
      · cases pb with
        | none => simpa using r2
        | some c =>
          simp only [Option.toList_some, List.singleton_append, List.isChain_cons_cons]
          refine ⟨⟨prev, q, b6 c rfl, b5.head, b5.t0, b5.p0, ha.vel, b5.v0, b5.times⟩, by simpa using r2⟩
      · rw [List.map_cons, active_cons_take _ (by rw [hA, Option.map_some] at hact'; exact hact')]
        refine .step (by rw [b2]; rfl) (by rw [b3]) b5.last harr ?_ r3
        refine ⟨prev, ur, D, A.real, q, rfl, ha, b4, ?_, ?_, b5.head, b5.t0, b7⟩
        · intro hpa
          exact b8 (by simpa [PState.real] using hpa)
        · intro hpa
          exact b9 (by simpa [PState.real] using hpa)
    · push Not at hact
      obtain ⟨hp, heq⟩ := hact
      have heq' : ∀ A' ∈ done.getLast?.map PState.real, s.real.position = A'.position := by
        intro A' hA'
        obtain ⟨A, hA, rfl⟩ := Option.map_eq_some_iff.1 hA'
        exact heq A hA
      have hskip : active (done.getLast?.map PState.real) ((s :: rest).map PState.real) =
          active (some s.real) (rest.map PState.real) := by
        rw [List.map_cons]
        exact active_cons_skip _ heq' (by simp [PState.real, hp])
      rw [hskip] at hsum ⊢
      have hpos : ∀ A, done.getLast? = some A → s.position = A.position := by
        intro A hA
        have := heq A hA
        have hx := congrArg Vec4.x this
        have hy := congrArg Vec4.y this
        have hz := congrArg Vec4.z this
        have he := congrArg Vec4.e this
        exact Vec4.ext (Dbl.ext_r hx) (Dbl.ext_r hy) (Dbl.ext_r hz) (Dbl.ext_r he)
      have hb : ∃ b, mkBlock .default done.getLast? s rest pb = .ok b ∧ b.segments = [] := by
        cases hd : done.getLast? with
        | none =>
          refine ⟨_, by
            unfold mkBlock
            simp only [targetVel, hp]
            rw [if_neg (by rw [dbl_zero_still]; exact Bool.false_ne_true)]
            rfl, rfl⟩
        | some A =>
          refine ⟨_, by
            unfold mkBlock
            simp only [targetVel, hp, move_nowhere_dbl (heq A hd), Bool.false_eq_true, if_false]
            rfl, rfl⟩
      obtain ⟨b, b1, b2⟩ := hb
      obtain ⟨bs, r1, r2, r3⟩ := ih (done ++ [s]) pb k S hst' hS (by simp; omega)
        (by rw [hlast, Option.map_some]; exact hsum) (by
          intro h
          obtain ⟨h1, h2, h3⟩ := hnone h
          refine ⟨?_, h2, h3⟩
          have hs : ∀ x ∈ done, x.position = s.position := by
            intro x hx
            have hd : done ≠ [] := List.ne_nil_of_mem hx
            have hg := List.getLast?_eq_getLast_of_ne_nil hd
            rw [hpos _ hg]
            exact h1 x hx _ (List.getLast_mem hd)
          intro x hx y hy
          simp only [List.mem_append, List.mem_singleton] at hx hy
          rcases hx with hx | rfl <;> rcases hy with hy | rfl
          · exact h1 x hx y hy
          · exact hs x hx
          · exact (hs y hy).symm
          · rfl) (by
          intro c hc
          obtain ⟨A, l, hA, hl, ha, hland⟩ := hsome c hc
          refine ⟨s, l, hlast, hl, ?_, hland⟩
          rw [heq A hA]
          exact ha)
      rw [hlast] at r1 r3
      refine ⟨bs, ?_, r2, r3⟩
      unfold genBlocks
      simp only [b1, bind, Except.bind, b2, List.isEmpty_nil, if_true]
      exact r1

/-- The plan of a moderate program in double precision. -/
theorem plan_dbl {states : List (PState Dbl)} (hreg : Regular (states.map PState.real))
    (hmod : Moderate (states.map PState.real)) :
    ∃ bs, plan .default states = .ok bs ∧ Tracks 0 0 bs (active none (states.map PState.real)) ∧ bs.IsChain Meets := by
  obtain ⟨bs, h1, h2, h3⟩ := genBlocks_dbl hreg hmod states [] none 0 0 rfl le_rfl (by simp)
    (by rw [_root_.zero_add]; exact hmod.total) (by simp) (by simp)
  simp only [List.getLast?_nil, Option.toList_none, List.nil_append, Option.map_none] at h1 h2 h3
  refine ⟨bs, ?_, h3, h2⟩
  unfold plan
  simp only [h1, bind, Except.bind, correctAll_same h2]

end PyGCD
