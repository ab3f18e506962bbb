import Verif.Proofs.BlockLemmas
import Verif.Model.Sim

/-!
# The trajectory correction
-/

set_option linter.unusedSectionVars false
set_option linter.unusedSimpArgs false

namespace PyGCD
open Vec4 Spec

/-- Why a block does not end faster: it stands still, it ends with its junction speed, or it accelerates
all the way. -/
def Block.ExitR (b : Block ℝ) : Prop :=
  (∃ A p, DwellB b A p) ∨ ∃ A u s0 s1, MoveB b A u s0 s1 ∧ (b.jd = some (u.mul s1) ∨
    s1 ^ 2 = s0 ^ 2 + 2 * b.stateB.pAcc * (moveDistance A b.stateB).1)

/-- Why a block does not begin faster: it does not travel, it begins with its feedrate, or it brakes all the
way. -/
def Block.EntryR (c : Block ℝ) : Prop :=
  (∃ A p, DwellB c A p) ∨ ∃ A u s0 s1, MoveB c A u s0 s1 ∧ (u.norm3 = 0 ∨ s0 = c.stateB.speed ∨
    s0 ^ 2 = s1 ^ 2 + 2 * c.stateB.pAcc * (moveDistance A c.stateB).1)

theorem Block.ExitR.timeshift {b : Block ℝ} (h : b.ExitR) (d : ℝ) : (b.timeshift d).ExitR := by
  rcases h with ⟨A, p, h⟩ | ⟨A, u, s0, s1, h, h'⟩
  · exact Or.inl ⟨A, p, h.timeshift d⟩
  · exact Or.inr ⟨A, u, s0, s1, h.timeshift d, h'⟩

theorem Block.EntryR.timeshift {b : Block ℝ} (h : b.EntryR) (d : ℝ) : (b.timeshift d).EntryR := by
  rcases h with ⟨A, p, h⟩ | ⟨A, u, s0, s1, h, h'⟩
  · exact Or.inl ⟨A, p, h.timeshift d⟩
  · exact Or.inr ⟨A, u, s0, s1, h.timeshift d, h'⟩

/-- The speed between two blocks is as high as possible. -/
def LinkO (b c : Block ℝ) : Prop :=
  (c.nIn = b.nOut ∨ c.EntryR) ∧ (b.ExitR ∨ c.EntryR)

theorem LinkO.timeshift {b c : Block ℝ} (h : LinkO b c) (hc : c.segments ≠ []) (d : ℝ) :
    LinkO b (c.timeshift d) :=
  ⟨h.1.imp (fun e => by rw [(timeshift_views hc d).2.2.1]; exact e) (·.timeshift d),
    h.2.imp id (·.timeshift d)⟩

/-- `c` can follow `b`: it begins where `b` ends and is not faster. -/
def Link (b c : Block ℝ) : Prop :=
  c.stateA.map PState.position = some b.stateB.position ∧ c.nIn ≤ b.nOut ∧ LinkO b c

/-- `c` follows `b` smoothly: same position, same time, travel speeds equal up to `1e-12`. -/
def LinkT (b c : Block ℝ) : Prop :=
  c.stateA.map PState.position = some b.stateB.position ∧ c.nIn ≤ b.nOut ∧
    b.nOut ≤ c.nIn + 1e-12 ∧ c.t0 = b.t1

/-- The velocity with which a block without travel begins. -/
noncomputable def Block.feed (b : Block ℝ) : Option (Vec4 ℝ) :=
  if b.direction.map Vec4.norm3 = some 0 then b.segments.head?.map Segment.velBegin else none

theorem Block.feed_none {b : Block ℝ} {u : Vec4 ℝ} (h : b.direction = some u) (hu : u.norm3 = 1) :
    b.feed = none := by
  rw [Block.feed, h, if_neg]
  simp [hu]

/-- What the correction never changes in a block. -/
noncomputable def Block.key (b : Block ℝ) :
    Option (PState ℝ) × PState ℝ × Option (Vec4 ℝ) × Bool × Option (Vec4 ℝ) × Option (Vec4 ℝ) :=
  (b.stateA, b.stateB, b.direction, b.isExtruding, b.jd, b.feed)

theorem Block.key_timeshift (b : Block ℝ) (d : ℝ) : (b.timeshift d).key = b.key := by
  have : (b.timeshift d).feed = b.feed := by
    unfold Block.feed Block.timeshift
    cases b.segments <;> rfl
  unfold Block.key
  rw [this]
  rfl

theorem Block.key_replan {b : Block ℝ} {u : Vec4 ℝ} (h : b.direction = some u) (hu : u.norm3 = 1)
    (segs : List (Segment ℝ)) (bt : Option BlockType) :
    ({ b with segments := segs, blocktype := bt } : Block ℝ).key = b.key := by
  unfold Block.key
  rw [Block.feed_none (b := b) h hu, Block.feed_none (b := { b with segments := segs, blocktype := bt }) h hu]

/-- The corrected part of the block list: `b`, and `rp` before it in reverse order. -/
structure Zip (rp : List (Block ℝ)) (b : Block ℝ) : Prop where
  good : ∀ c ∈ b :: rp, Good c
  chain : (b :: rp).IsChain fun x y => LinkT y x ∧ LinkO y x
  first : ∀ f ∈ (b :: rp).getLast?, f.t0 = 0 ∧ f.nIn = 0 ∧ f.stateB.pause = none

theorem Zip.tail {c : Block ℝ} {rp : List (Block ℝ)} {b : Block ℝ} (h : Zip (c :: rp) b) :
    Zip rp c where
  good x hx := h.good x (List.mem_cons_of_mem _ hx)
  chain := (List.isChain_cons_cons.1 h.chain).2
  first f hf := h.first f (by rw [List.getLast?_cons_cons]; exact hf)

theorem Zip.link {c : Block ℝ} {rp : List (Block ℝ)} {b : Block ℝ} (h : Zip (c :: rp) b) :
    LinkT c b ∧ LinkO c b := (List.isChain_cons_cons.1 h.chain).1

theorem Zip.cons {c : Block ℝ} {rp : List (Block ℝ)} {b : Block ℝ} (h : Zip rp c) (hb : Good b)
    (hl : LinkT c b ∧ LinkO c b) : Zip (c :: rp) b where
  good x hx := by
    rcases List.mem_cons.1 hx with rfl | hx
    · exact hb
    · exact h.good x hx
  chain := List.isChain_cons_cons.2 ⟨hl, h.chain⟩
  first f hf := h.first f (by rw [List.getLast?_cons_cons] at hf; exact hf)

/-- A new plan for a moving block has the begin speeds of its shape. -/
theorem replanned {b : Block ℝ} {A : PState ℝ} {u : Vec4 ℝ} {s0 s1 : ℝ} (h : MoveB b A u s0 s1)
    {segs : List (Segment ℝ)} {bt : BlockType} {r0 r1 : ℝ}
    (hr : Ramp u b.stateB.pAcc b.stateB.speed A.position
      ({ b with segments := segs, blocktype := some bt } : Block ℝ).t0 r0
      segs b.stateB.position ({ b with segments := segs, blocktype := some bt } : Block ℝ).t1 r1)
    (hp : Profile u b.stateB.pAcc b.stateB.speed segs) (hle : r1 ≤ s1) :
    MoveB { b with segments := segs, blocktype := some bt } A u r0 r1 :=
  ⟨⟨h.hA, h.hne, h.hs, h.ha, h.hdir, h.hconn⟩, h.hpause, h.hext, hr, hp, by
    obtain ⟨j, h1, h2⟩ := h.hjd
    exact ⟨j, h1, hle.trans h2⟩⟩

/-- The last step of the correction: shift the next block. -/
theorem finish_ok {b nx : Block ℝ} {last nfirst : Segment ℝ} (hb : Good b) (hn : Good nx)
    (hl : b.segments.getLast? = some last) (hf : nx.segments.head? = some nfirst)
    (hpos : nx.stateA.map PState.position = some b.stateB.position)
    (h1 : nx.nIn ≤ b.nOut) (h2 : b.nOut ≤ nx.nIn + 1e-12) :
    last.posEnd.eq nfirst.posBegin = true ∧
      LinkT b (nx.timeshift (last.tEnd - nfirst.tBegin)) := by
  obtain ⟨A, s, s', e1, e2, e3, e4, e5, e6, e7, e8, e9, _⟩ := hb.facts
  obtain ⟨A', q, q', f1, f2, f3, f4, f5, f6, f7, f8, f9, _⟩ := hn.facts
  rw [hl] at e3
  rw [hf] at f2
  cases e3
  cases f2
  rw [f1, Option.map_some, Option.some.injEq] at hpos
  have hp : last.posEnd = nfirst.posBegin := by rw [e8, f5, hpos]
  obtain ⟨t1, t2, t3, t4⟩ := timeshift_views hn.ne_nil (last.tEnd - nfirst.tBegin)
  refine ⟨by rw [hp]; exact Vec4.eq_refl _, ?_, ?_, ?_, ?_⟩
  · show nx.stateA.map PState.position = _
    rw [f1, Option.map_some, hpos]
  · rw [t3]
    exact h1
  · rw [t3]
    exact h2
  · rw [t1, e7, f4]
    ring

/-- Correcting a junction: never fails, keeps everything well-formed, and makes the junction smooth. -/
theorem selfCorrection_spec : ∀ (rp : List (Block ℝ)) (b nx : Block ℝ), Zip rp b → Good nx →
    Link b nx → ∃ rp' b' δ, selfCorrection rp b (some nx) = .ok (rp', b', some (nx.timeshift δ)) ∧
      Zip rp' b' ∧ (LinkT b' (nx.timeshift δ) ∧ LinkO b' (nx.timeshift δ)) ∧ (b' :: rp').map Block.key = (b :: rp).map Block.key := by
  intro rp
  induction rp with
  | nil =>
    intro b nx hz hn hlink
    have hb := hz.good b (by simp)
    obtain ⟨A, s, last, e1, e2, e3, e4, e5, e6, e7, e8, e9, e10, e11, _⟩ := hb.facts
    obtain ⟨A', nfirst, q', f1, f2, f3, f4, f5, f6, f7, f8, f9, f10, _⟩ := hn.facts
    obtain ⟨z1, z2, z3⟩ := hz.first b (by simp)
    by_cases hflag : ¬ b.nOut = nx.nIn ∧ (1e-12 : ℝ) < |b.nOut - nx.nIn|
    · have hlt : nx.nIn < b.nOut := lt_of_le_of_ne hlink.2.1 (Ne.symm hflag.1)
      have hEn : nx.EntryR := hlink.2.2.1.resolve_left hlt.ne
      have hOn : ∀ (x : Block ℝ) (δ : ℝ), LinkO x (nx.timeshift δ) := fun x δ =>
        ⟨Or.inr (hEn.timeshift δ), Or.inr (hEn.timeshift δ)⟩
      obtain ⟨A₁, u, s0, s1, hm⟩ : ∃ A u s0 s1, MoveB b A u s0 s1 := by
        rcases hb with h | ⟨A, p, h⟩
        · exact h
        · rw [h.hpause] at z3
          cases z3
      obtain ⟨_, _, _, _, _, _, _, _, _, _, g9, g10⟩ := hm.ends
      obtain ⟨k1, k2, k3, k4, k5, k6⟩ := hm.facts
      obtain ⟨hu, hd, _⟩ := hm.toHdr.unit
      have hu1 : u.norm3 = 1 := by
        have := hu.norms.1
        cases heo : (moveDistance A₁ b.stateB).2
        · rw [heo] at this
          simpa using this
        · rw [heo] at this
          simp only [if_true] at this
          rw [g10, this] at hlt
          linarith
      rw [hu1, one_mul] at g9 g10
      have hve : 0 ≤ nx.nIn ∧ nx.nIn ≤ b.stateB.speed := ⟨f10, by linarith⟩
      obtain ⟨segs, bt, r0, r1, m1, m2, mp, m3, m4⟩ := moveMaker_spec hm.toHdr (pb := none) (prev :=
        Segment.initial A₁.position) rfl rfl hve
      have hvb : min (Segment.initial A₁.position).velEnd.norm3 b.stateB.speed = 0 := by
        simp only [Segment.initial, norm3_zero]
        exact min_eq_left hm.hs.le
      rw [hvb] at m2
      have had : 0 < b.stateB.pAcc * (moveDistance A₁ b.stateB).1 := mul_pos hm.ha hd
      have hs0 : s0 = 0 := by rw [← g9, z2]
      have hbt : bt ≠ .single ∧ r0 = 0 ∧ r1 = nx.nIn := by
        cases m2 with
        | trapezoid => exact ⟨by simp, rfl, rfl⟩
        | triangle => exact ⟨by simp, rfl, rfl⟩
        | up h =>
          exfalso
          rw [hs0] at k5
          have := le_trans (le_abs_self _) k5
          have h2 := (sq_lt_sq₀ f10 k3).2 (by rw [← g10]; exact hlt)
          linarith
        | down h =>
          exfalso
          have := sq_nonneg nx.nIn
          linarith
      obtain ⟨hb1, rfl, rfl⟩ := hbt
      have hm' := replanned hm (m4 ({ b with segments := segs, blocktype := some bt } : Block ℝ) rfl) mp
        (by rw [← g10]; exact hlink.2.1)
      have hg' : Good { b with segments := segs, blocktype := some bt } := Or.inl ⟨_, _, _, _, hm'⟩
      obtain ⟨_, l', j1, j2, j3, j4, j5, j6, j7, j8, j9, j10⟩ := hm'.ends
      rw [hu1, one_mul] at j9 j10
      obtain ⟨fin1, fin2⟩ := finish_ok hg' hn j2 f2 hlink.1 j10.ge (by rw [j10]; norm_num)
      refine ⟨[], _, _, ?_, ⟨?_, ?_, ?_⟩, ⟨fin2, hOn _ _⟩, by
        rw [List.map_singleton, List.map_singleton, Block.key_replan hm.hdir hu1]⟩
      · simp only [selfCorrection, lastSeg_ok e3, firstSeg_ok f2, bind, Except.bind, pyAbs_real, e9, f6,
          hflag.1, hflag.2, not_false_iff, decide_true, Bool.and_self, if_true, List.head?_nil, m1,
          Option.some.injEq, hb1, if_false, lastSeg_ok j2, fin1]
      · simpa using hg'
      · exact List.isChain_singleton _
      · intro f hf
        simp only [List.getLast?_singleton, Option.mem_def, Option.some.injEq] at hf
        subst hf
        exact ⟨m3 _ rfl, j9, z3⟩
    · have hclose : b.nOut ≤ nx.nIn + 1e-12 := by
        by_contra hc
        push Not at hc
        apply hflag
        refine ⟨fun h => ?_, ?_⟩
        · rw [h] at hc
          norm_num at hc
        · exact lt_of_lt_of_le (by linarith) (le_abs_self _)
      obtain ⟨fin1, fin2⟩ := finish_ok hb hn e3 f2 hlink.1 hlink.2.1 hclose
      refine ⟨[], b, _, ?_, hz, ⟨fin2, hlink.2.2.timeshift hn.ne_nil _⟩, rfl⟩
      have hfl : (decide (¬ b.nOut = nx.nIn) && decide ((1e-12 : ℝ) < |b.nOut - nx.nIn|)) = false := by
        rw [← Bool.decide_and]
        exact decide_eq_false hflag
      simp only [selfCorrection, lastSeg_ok e3, firstSeg_ok f2, bind, Except.bind, pyAbs_real, e9, f6,
        hfl, Bool.false_eq_true, if_false, fin1, if_true]
  | cons c rp ih =>
    intro b nx hz hn hlink
    have hb := hz.good b (by simp)
    have hc := hz.good c (by simp)
    obtain ⟨A, s, last, e1, e2, e3, e4, e5, e6, e7, e8, e9, e10, e11, _⟩ := hb.facts
    obtain ⟨A', nfirst, q', f1, f2, f3, f4, f5, f6, f7, f8, f9, f10, _⟩ := hn.facts
    obtain ⟨A'', cs, clast, c1, c2, c3, c4, c5, c6, c7, c8, c9, c10, c11, _⟩ := hc.facts
    obtain ⟨⟨l1, l2, l3, l4⟩, lo⟩ := hz.link
    by_cases hflag : ¬ b.nOut = nx.nIn ∧ (1e-12 : ℝ) < |b.nOut - nx.nIn|
    · have hlt : nx.nIn < b.nOut := lt_of_le_of_ne hlink.2.1 (Ne.symm hflag.1)
      have hEn : nx.EntryR := hlink.2.2.1.resolve_left hlt.ne
      have hOn : ∀ (x : Block ℝ) (δ : ℝ), LinkO x (nx.timeshift δ) := fun x δ =>
        ⟨Or.inr (hEn.timeshift δ), Or.inr (hEn.timeshift δ)⟩
      obtain ⟨A₁, u, s0, s1, hm⟩ : ∃ A u s0 s1, MoveB b A u s0 s1 := by
        rcases hb with h | ⟨A, p, h⟩
        · exact h
        · exfalso
          obtain ⟨t, ht⟩ := h.hseg
          have : b.nOut = 0 := by simp [Block.nOut, ht, norm3_zero]
          linarith
      obtain ⟨_, _, _, _, _, _, _, _, _, _, g9, g10⟩ := hm.ends
      obtain ⟨k1, k2, k3, k4, k5, k6⟩ := hm.facts
      obtain ⟨hu, hd, _⟩ := hm.toHdr.unit
      have hu1 : u.norm3 = 1 := by
        have := hu.norms.1
        cases heo : (moveDistance A₁ b.stateB).2
        · rw [heo] at this
          simpa using this
        · rw [heo] at this
          simp only [if_true] at this
          rw [g10, this] at hlt
          linarith
      rw [hu1, one_mul] at g9 g10
      have hve : 0 ≤ nx.nIn ∧ nx.nIn ≤ b.stateB.speed := ⟨f10, by linarith⟩
      have hcpos : clast.posEnd = A₁.position := by
        rw [hm.hA, Option.map_some, Option.some.injEq] at l1
        rw [c8, l1]
      obtain ⟨segs, bt, r0, r1, m1, m2, mp, m3, m4⟩ := moveMaker_spec hm.toHdr (pb := some c)
        (prev := clast) (lastSeg_ok c3) hcpos hve
      rw [c9] at m2
      have had : 0 < b.stateB.pAcc * (moveDistance A₁ b.stateB).1 := mul_pos hm.ha hd
      have hvb : s0 ≤ min c.nOut b.stateB.speed := le_min (by rw [← g9]; exact l2) k2
      have hvb2 : c.nOut ≤ min c.nOut b.stateB.speed + 1e-12 := by
        rcases le_total c.nOut b.stateB.speed with h | h
        · rw [min_eq_left h]
          norm_num
        · rw [min_eq_right h]
          linarith
      have hbt : r1 = nx.nIn ∧ r0 ≤ min c.nOut b.stateB.speed ∧
          (bt ≠ .single → r0 = min c.nOut b.stateB.speed) ∧
          (bt = .single → r0 ^ 2 = r1 ^ 2 + 2 * b.stateB.pAcc * (moveDistance A₁ b.stateB).1) := by
        cases m2 with
        | trapezoid => exact ⟨rfl, le_refl _, fun _ => rfl, fun h => by cases h⟩
        | triangle => exact ⟨rfl, le_refl _, fun _ => rfl, fun h => by cases h⟩
        | up h =>
          exfalso
          have h1 := le_trans (le_abs_self _) k5
          have h2 := (sq_lt_sq₀ f10 k3).2 (by rw [← g10]; exact hlt)
          have h3 := (sq_le_sq₀ k1 (le_trans k1 hvb)).2 hvb
          linarith
        | down h hb h1 => exact ⟨rfl, hb.2, fun h => absurd rfl h, fun _ => h1⟩
      have hdown : s0 ^ 2 = s1 ^ 2 + 2 * b.stateB.pAcc * (moveDistance A₁ b.stateB).1 → bt = .single := by
        intro hd0
        have h1 := (sq_lt_sq₀ f10 k3).2 (by rw [← g10]; exact hlt)
        have h2 := (sq_le_sq₀ k1 (le_trans k1 hvb)).2 hvb
        have h3 := (sq_le_sq₀ (le_trans k1 hvb) hm.hs.le).2 (min_le_right c.nOut b.stateB.speed)
        cases m2 with
        | trapezoid h => exfalso; linarith
        | triangle h h' =>
          exfalso
          have := neg_le_abs (nx.nIn ^ 2 - min c.nOut b.stateB.speed ^ 2)
          linarith
        | up => rfl
        | down => rfl
      obtain ⟨rfl, hr0, hr0', hr0''⟩ := hbt
      have hm' := replanned hm (m4 ({ b with segments := segs, blocktype := some bt } : Block ℝ) rfl) mp
        (by rw [← g10]; exact hlink.2.1)
      have hg' : Good { b with segments := segs, blocktype := some bt } := Or.inl ⟨_, _, _, _, hm'⟩
      obtain ⟨_, l', j1, j2, j3, j4, j5, j6, j7, j8, j9, j10⟩ := hm'.ends
      rw [hu1, one_mul] at j9 j10
      have hLO : LinkO c { b with segments := segs, blocktype := some bt } := by
        have key : bt ≠ .single → b.stateB.speed ≤ c.nOut →
            ({ b with segments := segs, blocktype := some bt } : Block ℝ).EntryR := by
          intro h1 h2
          refine Or.inr ⟨_, _, _, _, hm', Or.inr (Or.inl ?_)⟩
          rw [hr0' h1]
          exact min_eq_right h2
        by_cases hbt : bt = .single
        · have hE : ({ b with segments := segs, blocktype := some bt } : Block ℝ).EntryR :=
            Or.inr ⟨_, _, _, _, hm', Or.inr (Or.inr (hr0'' hbt))⟩
          exact ⟨Or.inr hE, Or.inr hE⟩
        · refine ⟨?_, lo.2.imp id ?_⟩
          · rcases le_total c.nOut b.stateB.speed with h | h
            · left
              rw [j9, hr0' hbt, min_eq_left h]
            · exact Or.inr (key hbt h)
          · rintro (⟨A, p, h⟩ | ⟨A, u', q0, q1, h, h'⟩)
            · exfalso
              have := hm.hpause
              rw [h.hpause] at this
              cases this
            · obtain ⟨rfl, rfl, rfl, rfl⟩ := hm.unique h
              rcases h' with h' | h' | h'
              · rw [hu1] at h'
                norm_num at h'
              · refine key hbt ?_
                rw [← h', ← g9]
                exact l2
              · exact absurd (hdown h') hbt
      by_cases hbt : bt = .single
      · -- the previous junction has to be corrected, too
        have hlk : Link c { b with segments := segs, blocktype := some bt } :=
          ⟨l1, by rw [j9]; exact le_trans hr0 (min_le_left _ _), hLO⟩
        obtain ⟨rp', c', δ, i1, i2, i3, i4⟩ := ih c _ hz.tail hg' hlk
        have hg'' := hg'.timeshift δ
        have hview := timeshift_views hg'.ne_nil δ
        obtain ⟨_, _, l'', _, _, n3, _⟩ := hg''.facts
        obtain ⟨fin1, fin2⟩ := finish_ok hg'' hn n3 f2 hlink.1 (by rw [hview.2.2.2, j10])
          (by rw [hview.2.2.2, j10]; norm_num)
        refine ⟨c' :: rp', _, _, ?_, i2.cons hg'' i3, ⟨fin2, hOn _ _⟩, ?_⟩
        · rw [selfCorrection]
          simp only [lastSeg_ok e3, firstSeg_ok f2, bind, Except.bind, pyAbs_real, e9, f6,
            hflag.1, hflag.2, not_false_iff, decide_true, Bool.and_self, if_true, List.head?_cons, m1,
            Option.some.injEq, hbt]
          rw [hbt] at i1 n3
          simp only [i1, lastSeg_ok n3, fin1, if_true, hbt]
        · rw [List.map_cons, i4, Block.key_timeshift, Block.key_replan hm.hdir hu1]
          rfl
      · have hlt' : LinkT c { b with segments := segs, blocktype := some bt } := by
          refine ⟨l1, ?_, ?_, ?_⟩
          · rw [j9]
            exact le_trans hr0 (min_le_left _ _)
          · rw [j9, hr0' hbt]
            exact hvb2
          · rw [m3 _ rfl, c7]
        obtain ⟨fin1, fin2⟩ := finish_ok hg' hn j2 f2 hlink.1 j10.ge (by rw [j10]; norm_num)
        refine ⟨c :: rp, _, _, ?_, hz.tail.cons hg' ⟨hlt', hLO⟩, ⟨fin2, hOn _ _⟩, by
          rw [List.map_cons, Block.key_replan hm.hdir hu1]
          rfl⟩
        rw [selfCorrection]
        simp only [lastSeg_ok e3, firstSeg_ok f2, bind, Except.bind, pyAbs_real, e9, f6,
          hflag.1, hflag.2, not_false_iff, decide_true, Bool.and_self, if_true, List.head?_cons, m1,
          Option.some.injEq, hbt, if_false, lastSeg_ok j2, fin1]
    · have hclose : b.nOut ≤ nx.nIn + 1e-12 := by
        by_contra hc
        push Not at hc
        apply hflag
        refine ⟨fun h => ?_, ?_⟩
        · rw [h] at hc
          norm_num at hc
        · exact lt_of_lt_of_le (by linarith) (le_abs_self _)
      obtain ⟨fin1, fin2⟩ := finish_ok hb hn e3 f2 hlink.1 hlink.2.1 hclose
      refine ⟨c :: rp, b, _, ?_, hz, ⟨fin2, hlink.2.2.timeshift hn.ne_nil _⟩, rfl⟩
      have hfl : (decide (¬ b.nOut = nx.nIn) && decide ((1e-12 : ℝ) < |b.nOut - nx.nIn|)) = false := by
        rw [← Bool.decide_and]
        exact decide_eq_false hflag
      rw [selfCorrection]
      simp only [lastSeg_ok e3, firstSeg_ok f2, bind, Except.bind, pyAbs_real, e9, f6,
        hfl, Bool.false_eq_true, if_false, fin1, if_true]

end PyGCD
