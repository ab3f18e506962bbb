import Verif.Proofs.DoubleTimes
import Verif.Props.DoubleEnds

/-!
# Feedrates and times in double precision, with every junction handling (C110)
-/

set_option linter.unusedSectionVars false
set_option linter.unusedSimpArgs false

namespace PyGCD
open PyGCD.Spec Vec4

/-- **C110** Whenever planning an executable program of usual size succeeds with doubles, whatever the firmware, time
runs forward in every block: no segment ends before it begins, and none begins before the segment before it ends. -/
theorem c110_forward {fw : Firmware} {states : List (PState Dbl)} (hreg : Regular (states.map PState.real))
    (hus : Usual (states.map PState.real)) {bs : List (Block Dbl)} (h : plan fw states = .ok bs) {b : Block Dbl}
    (hb : b ∈ bs) : ∃ f l, b.segments.head? = some f ∧ b.segments.getLast? = some l ∧
      Ahead f.tBegin b.segments l.tEnd := by
  obtain ⟨n, hn⟩ := List.getElem?_of_mem hb
  obtain ⟨_, _, f, l, h1, h2, h3, _⟩ := (plan_times hreg hus h).1 n b hn
  exact ⟨f, l, h1, h2, h3⟩

theorem real_norm_le {v : Vec4 Dbl} {u : Vec4 ℝ} (h : RelV 42 v u) : v.real.norm3 ^ 2 ≤ u.norm3 ^ 2 * 1.000001 ∧
    v.real.e ^ 2 ≤ u.e ^ 2 * 1.000001 := by
  have he := eps_pos
  have he' := eps_lt
  have key : ∀ {a b : ℝ}, Rel 42 a b → a * a ≤ b * b * 1.000001 := by
    intro a b hab
    have h1 := (hab.mul hab).le (by norm_num) (mul_self_nonneg _)
    push_cast at h1
    refine h1.trans ?_
    gcongr
    · exact mul_self_nonneg _
    · linarith
  refine ⟨?_, by rw [pow_two, pow_two]; exact key h.e⟩
  rw [norm3_sq, norm3_sq]
  have hx := key h.x
  have hy := key h.y
  have hz := key h.z
  simp only [Vec4.real]
  linarith

/-- **C110** The feedrate is kept, up to the tolerances of the planner: by the nozzle, and by the filament where the nozzle
rests. -/
theorem c110_feed {fw : Firmware} {states : List (PState Dbl)} (hreg : Regular (states.map PState.real))
    (hus : Usual (states.map PState.real)) {bs : List (Block Dbl)} (h : plan fw states = .ok bs) {b : Block Dbl}
    (hb : b ∈ bs) {s : Segment Dbl} (hs : s ∈ b.segments) :
    WithinFeed b.stateB.speed.r b.stateB.pAcc.r s.velBegin.real.norm3 ∧
    WithinFeed b.stateB.speed.r b.stateB.pAcc.r s.velEnd.real.norm3 ∧
    ∀ A, b.stateA = some A → A.position.x = b.stateB.position.x → A.position.y = b.stateB.position.y →
      A.position.z = b.stateB.position.z → WithinFeed b.stateB.speed.r b.stateB.pAcc.r s.velBegin.e.r ∧
        WithinFeed b.stateB.speed.r b.stateB.pAcc.r s.velEnd.e.r := by
  obtain ⟨n, hn⟩ := List.getElem?_of_mem hb
  obtain ⟨⟨A, ⟨hA, hP⟩, hpause⟩, ⟨s1, s2⟩, _⟩ := (plan_times hreg hus h).1 n b hn
  have hst : b.stateB.real ∈ states.map PState.real := by
    have hm := (plan_fits hreg hus h).1
    have : (b.stateA.map PState.real, b.stateB.real) ∈ active none (states.map PState.real) := by
      rw [← hm]
      exact List.mem_map_of_mem hb
    exact active_mem this
  have hacc : 0 < b.stateB.pAcc.r := hreg.acc _ hst
  have hzero : WithinFeed b.stateB.speed.r b.stateB.pAcc.r 0 := by
    unfold WithinFeed
    have := sq_nonneg b.stateB.speed.r
    linarith
  rcases hP with ⟨u, ur, hu, hm⟩ | ⟨hd, _⟩
  · obtain ⟨v, w, e1, e2, l1, l2⟩ := s1 u hu s hs
    have lim : ∀ (x : Dbl), Lim b.stateB.speed.r b.stateB.pAcc.r x → ∀ c : ℝ, c ^ 2 ≤ (x.r * x.r) * 1.000001 →
        WithinFeed b.stateB.speed.r b.stateB.pAcc.r c := by
      intro x hx c hc
      unfold WithinFeed
      have := hx.2
      have h2 := mul_self_nonneg b.stateB.speed.r
      rw [pow_two] at hc ⊢
      rw [pow_two]
      linarith
    have hn3 : ∀ (x : Dbl), ((u.mul x).real).norm3 ^ 2 ≤ (x.r * x.r) * 1.000001 := by
      intro x
      refine (real_norm_le (hm.hu.scale x)).1.trans ?_
      gcongr
      rw [norm3_mul, mul_pow, sq_abs, pow_two x.r]
      have : ur.norm3 ^ 2 ≤ 1 := by
        have hd := hm.hd
        unfold UnitDir at hd
        split at hd
        · rw [norm3_sq, hd.1, hd.2.1, hd.2.2.1]
          norm_num
        · rw [hd]
          norm_num
      have hx := mul_self_nonneg x.r
      nlinarith
    refine ⟨?_, ?_, ?_⟩
    · rw [e1]
      exact lim v l1 _ (hn3 v)
    · rw [e2]
      exact lim w l2 _ (hn3 w)
    · intro A' hA' hx hy hz
      rw [hA] at hA'
      cases hA'
      have hne : ¬ ur.norm3 = 1 := by
        intro h1
        have hdiff := congrArg Vec4.norm3 hm.diff
        have hl : moveLength A.position.real b.stateB.position.real ≠ 0 := by
          have := hm.length
          intro h0
          rw [h0] at this
          norm_num at this
        rw [norm3_mul, h1, one_mul] at hdiff
        have h0 : (b.stateB.position.real.sub A.position.real).norm3 ^ 2 = 0 := by
          rw [norm3_sq]
          simp only [Vec4.sub, Vec4.real, hx, hy, hz, _root_.sub_self]
          norm_num
        rw [hdiff, sq_abs] at h0
        exact hl (pow_eq_zero_iff two_ne_zero |>.1 h0)
      have he1 : |ur.e| = 1 := by
        have hd := hm.hd
        unfold UnitDir at hd
        split at hd
        · exact hd.2.2.2
        · exact absurd hd hne
      have hne4 : ∀ (x : Dbl), (u.mul x).real.e ^ 2 ≤ (x.r * x.r) * 1.000001 := by
        intro x
        refine (real_norm_le (hm.hu.scale x)).2.trans ?_
        show (ur.e * x.r) ^ 2 * 1.000001 ≤ _
        rw [mul_pow, ← sq_abs ur.e, he1, one_pow, one_mul, pow_two]
      constructor
      · rw [e1]
        exact lim v l1 _ (hne4 v)
      · rw [e2]
        exact lim w l2 _ (hne4 w)
  · obtain ⟨e1, e2⟩ := s2 hd s hs
    have hz3 : (Vec4.zero : Vec4 Dbl).real.norm3 = 0 := by
      have : (Vec4.zero : Vec4 Dbl).real = Vec4.zero := by
        simp only [Vec4.real, Vec4.zero, Dbl.r_zero]
      rw [this, norm3_zero]
    have hze : (Vec4.zero : Vec4 Dbl).e.r = 0 := Dbl.r_zero
    rw [e1, e2, hz3, hze]
    exact ⟨hzero, hzero, fun _ _ _ _ _ => ⟨hzero, hzero⟩⟩

theorem span_nonneg {states : List (PState ℝ)} (hreg : Regular states) {x : Option (PState ℝ) × PState ℝ}
    (hx : x ∈ active none states) : 0 ≤ span x := by
  have hm := active_mem hx
  obtain ⟨A, B⟩ := x
  cases A with
  | none => exact le_rfl
  | some A =>
    unfold span
    simp only
    cases hp : B.pause with
    | some p => exact hreg.pause _ hm p (by rw [hp]; rfl)
    | none =>
      have h1 := hreg.speed _ hm
      have h2 := hreg.acc _ hm
      have h3 : 0 ≤ moveLength A.position B.position := by
        unfold moveLength
        split
        · exact abs_nonneg _
        · exact norm3_nonneg _
      simp only at h1 h2 ⊢
      positivity

/-- The time for the first blocks of a plan. -/
theorem plan_roomy {fw : Firmware} {states : List (PState Dbl)} (hreg : Regular (states.map PState.real))
    (hus : Usual (states.map PState.real)) (hbr : Brief (states.map PState.real)) {bs : List (Block Dbl)}
    (h : plan fw states = .ok bs) (m : ℕ) (hm : m ≤ bs.length) :
    Roomy (((bs.take m).map Block.ends).reverse) ∧ budget (((bs.take m).map Block.ends).reverse) =
      (((active none (states.map PState.real)).take m).map span).sum + m * 2e-8 := by
  have ha := (plan_fits hreg hus h).1
  have hlen : bs.length ≤ 1000000 := by
    have h1 := congrArg List.length ha
    rw [List.length_map] at h1
    have h2 : (active none (states.map PState.real)).length ≤ (states.map PState.real).length := by
      unfold active withPrev
      refine (List.length_filter_le _ _).trans ?_
      simp
    have h3 := hus.count
    omega
  have hb : budget (((bs.take m).map Block.ends).reverse) =
      (((active none (states.map PState.real)).take m).map span).sum + m * 2e-8 := by
    unfold budget
    rw [List.map_reverse, List.sum_reverse, List.map_map, ← ha, ← List.map_take, List.map_map]
    have key : ∀ l : List (Block Dbl), (l.map ((fun x => dspan x + 2e-8) ∘ Block.ends)).sum =
        (l.map (span ∘ fun b => (b.stateA.map PState.real, b.stateB.real))).sum + l.length * 2e-8 := by
      intro l
      induction l with
      | nil => simp
      | cons b l ih =>
        rw [List.map_cons, List.map_cons, List.sum_cons, List.sum_cons, ih, List.length_cons]
        simp only [Function.comp_apply, dspan, Block.ends]
        push_cast
        ring
    rw [key, List.length_take, min_eq_left hm]
  have hmem : ∀ b ∈ bs, (b.stateA.map PState.real, b.stateB.real) ∈ active none (states.map PState.real) := by
    intro b hb
    rw [← ha]
    exact List.mem_map_of_mem (f := fun b : Block Dbl => (b.stateA.map PState.real, b.stateB.real)) hb
  refine ⟨⟨?_, ?_⟩, hb⟩
  · rw [hb]
    have h1 := hbr.time
    rw [← List.take_append_drop m (active none (states.map PState.real)), List.map_append, List.sum_append] at h1
    have h2 : 0 ≤ (((active none (states.map PState.real)).drop m).map span).sum := by
      apply List.sum_nonneg
      intro t ht
      obtain ⟨x, hx, rfl⟩ := List.mem_map.1 ht
      exact span_nonneg hreg (List.mem_of_mem_drop hx)
    have h3 : (m : ℝ) ≤ 1000000 := by exact_mod_cast hm.trans hlen
    linarith
  · intro x hx
    obtain ⟨b, hb', rfl⟩ := List.mem_map.1 (List.mem_reverse.1 hx)
    have := hmem b (List.mem_of_mem_take hb')
    exact ⟨hbr.speed _ (active_mem this), span_nonneg hreg this⟩

theorem take_ends {bs : List (Block Dbl)} {n : ℕ} {b : Block Dbl} (hb : bs[n]? = some b) :
    ((bs.take (n + 1)).map Block.ends).reverse = b.ends :: ((bs.take n).map Block.ends).reverse := by
  rw [List.take_add_one, hb, Option.toList_some, List.map_append, List.reverse_append]
  rfl

theorem getElem?_lt {bs : List (Block Dbl)} {n : ℕ} {b : Block Dbl} (hb : bs[n]? = some b) : n + 1 ≤ bs.length := by
  by_contra hn
  rw [List.getElem?_eq_none (by omega)] at hb
  cases hb

/-- **C110** No block begins more than a nanosecond before the block before it ends. -/
theorem c110_joints {fw : Firmware} {states : List (PState Dbl)} (hreg : Regular (states.map PState.real))
    (hus : Usual (states.map PState.real)) (hbr : Brief (states.map PState.real)) {bs : List (Block Dbl)}
    (h : plan fw states = .ok bs) {n : ℕ} {b c : Block Dbl} (hb : bs[n]? = some b) (hc : bs[n + 1]? = some c) :
    ∃ l f, b.segments.getLast? = some l ∧ c.segments.head? = some f ∧ l.tEnd.r - 1e-9 ≤ f.tBegin.r := by
  refine (plan_times hreg hus h).2 n b c hb hc ?_
  rw [← take_ends hb, ← take_ends hc]
  exact (plan_roomy hreg hus hbr h (n + 2) (getElem?_lt hc)).1

/-- **C110** Block number `n` ends at the latest after the time that is enough for the first `n + 1` moves and pauses. -/
theorem c110_total {fw : Firmware} {states : List (PState Dbl)} (hreg : Regular (states.map PState.real))
    (hus : Usual (states.map PState.real)) (hbr : Brief (states.map PState.real)) {bs : List (Block Dbl)}
    (h : plan fw states = .ok bs) {n : ℕ} {b : Block Dbl} (hb : bs[n]? = some b) :
    ∃ l, b.segments.getLast? = some l ∧
      l.tEnd.r ≤ (((active none (states.map PState.real)).take (n + 1)).map span).sum + (n + 1) * 2e-8 := by
  obtain ⟨r1, r2⟩ := plan_roomy hreg hus hbr h (n + 1) (getElem?_lt hb)
  rw [take_ends hb] at r1 r2
  obtain ⟨_, _, f, l, _, h2, _, h4⟩ := (plan_times hreg hus h).1 n b hb
  refine ⟨l, h2, ?_⟩
  have := (abs_le.1 (h4 r1)).2
  rw [r2] at this
  push_cast at this
  exact this

/-! ## Examples -/

theorem Demo.straight_brief : Brief Demo.straightReal := by
  have h5' : √5 ≤ 3 := Real.sqrt_le_iff.2 (by norm_num)
  constructor
  · intro s hs
    simp only [Demo.straightReal, List.mem_cons, List.not_mem_nil, or_false] at hs
    rcases hs with rfl | rfl | rfl <;> norm_num
  · have ha : active none Demo.straightReal =
        [(some ⟨⟨0, 0, 0, 0⟩, 50, 1000, 10, none, none⟩, ⟨⟨2, 1, 0, 0⟩, 50, 1000, 10, none, none⟩),
          (some ⟨⟨2, 1, 0, 0⟩, 50, 1000, 10, none, none⟩, ⟨⟨4, 2, 0, 0⟩, 50, 1000, 10, none, none⟩)] := by
      unfold Demo.straightReal
      rw [active_cons_skip _ (by simp) rfl, active_cons_take _ (Or.inr ⟨_, rfl, by simp⟩),
        active_cons_take _ (Or.inr ⟨_, rfl, by norm_num⟩)]
      simp [active, withPrev]
    rw [ha]
    simp only [List.map_cons, List.map_nil, List.sum_cons, List.sum_nil, span, Demo.step5.1, Demo.step5.2]
    linarith

/-- The hypotheses of C110 hold for the two moves of C83 with klipper, which pass the corner without stopping. -/
example : ∃ (bs : List (Block Dbl)) (b c : Block Dbl) (l f s : Segment Dbl),
    plan .klipper Demo.straight = .ok bs ∧ bs[0]? = some b ∧ bs[1]? = some c ∧
    b.segments.getLast? = some l ∧ c.segments.head? = some f ∧ l.tEnd.r - 1e-9 ≤ f.tBegin.r ∧ s ∈ c.segments ∧
    WithinFeed c.stateB.speed.r c.stateB.pAcc.r s.velEnd.real.norm3 := by
  have hk := Demo.straight_klipper
  split at hk
  · rename_i bs hbs
    rw [decide_eq_true_eq] at hk
    have hreg : Regular (Demo.straight.map PState.real) := by rw [Demo.straight_real]; exact Demo.straight_regular
    have hus : Usual (Demo.straight.map PState.real) := by rw [Demo.straight_real]; exact Demo.straight_usual
    have hbr : Brief (Demo.straight.map PState.real) := by rw [Demo.straight_real]; exact Demo.straight_brief
    have hb : bs[0]? = some (bs[0]'(by omega)) := List.getElem?_eq_getElem _
    have hc : bs[1]? = some (bs[1]'(by omega)) := List.getElem?_eq_getElem _
    obtain ⟨l, f, h1, h2, h3⟩ := c110_joints hreg hus hbr hbs hb hc
    have hf := List.mem_of_head? h2
    exact ⟨bs, _, _, l, f, f, hbs, hb, hc, h1, h2, h3, hf, (c110_feed hreg hus hbs (List.mem_of_getElem? hc) hf).2.1⟩
  · cases hk

/-- One move. -/
def Demo.slant : List (PState Dbl) := [Demo.dbl 0 0 0, Demo.dbl 5 1 0]

theorem Demo.slant_real : Demo.slant.map PState.real =
    [⟨⟨0, 0, 0, 0⟩, 50, 1000, 10, none, none⟩, ⟨⟨5, 1, 0, 0⟩, 50, 1000, 10, none, none⟩] := by
  have h0 : (0 : Dbl).r = 0 := Dbl.r_zero
  have h1 : (1 : Dbl).r = 1 := by rw [Dbl.r_of (q := 1) (by decide +kernel)]; norm_num
  have h5 : (5 : Dbl).r = 5 := by rw [Dbl.r_of (q := 5) (by decide +kernel)]; norm_num
  have h10 : (10 : Dbl).r = 10 := by rw [Dbl.r_of (q := 10) (by decide +kernel)]; norm_num
  have h50 : (50 : Dbl).r = 50 := by rw [Dbl.r_of (q := 50) (by decide +kernel)]; norm_num
  have h1000 : (1000 : Dbl).r = 1000 := by rw [Dbl.r_of (q := 1000) (by decide +kernel)]; norm_num
  simp only [Demo.slant, Demo.dbl, List.map_cons, List.map_nil, PState.real, Vec4.real, Option.map_none, h0, h1, h5, h10,
    h50, h1000]

/-- **C110** Without a tolerance the feedrate is not kept: rounding lets the nozzle move a little faster. -/
theorem c110_tolerance : ∃ (states : List (PState Dbl)) (bs : List (Block Dbl)) (b : Block Dbl) (s : Segment Dbl),
    Regular (states.map PState.real) ∧ plan .klipper states = .ok bs ∧ b ∈ bs ∧ s ∈ b.segments ∧
    b.stateB.speed.r < s.velEnd.real.norm3 := by
  have hex : (match plan .klipper Demo.slant with
      | .ok bs => bs.any fun b => b.segments.any fun s => decide (b.stateB.speed.val = 50 ∧
          2500 < s.velEnd.x.val * s.velEnd.x.val + s.velEnd.y.val * s.velEnd.y.val)
      | .error _ => false) = true := by decide +kernel
  split at hex
  · rename_i bs hbs
    obtain ⟨b, hb, hs⟩ := List.any_eq_true.1 hex
    obtain ⟨s, hs, hv⟩ := List.any_eq_true.1 hs
    rw [decide_eq_true_eq] at hv
    refine ⟨Demo.slant, bs, b, s, ?_, hbs, hb, hs, ?_⟩
    · rw [Demo.slant_real]
      refine regular_of_no_pause fun s hs => ?_
      simp only [List.mem_cons, List.not_mem_nil, or_false] at hs
      rcases hs with rfl | rfl <;> norm_num
    · rw [Dbl.r_of hv.1]
      apply Real.lt_sqrt_of_sq_lt
      have h2 : (2500 : ℝ) < s.velEnd.x.r * s.velEnd.x.r + s.velEnd.y.r * s.velEnd.y.r := by
        have := hv.2
        have : ((2500 : ℚ) : ℝ) < ((s.velEnd.x.val * s.velEnd.x.val + s.velEnd.y.val * s.velEnd.y.val : ℚ) : ℝ) := by
          exact_mod_cast this
        push_cast at this
        exact this
      have h3 := mul_self_nonneg s.velEnd.z.r
      simp only [Vec4.real]
      push_cast
      linarith
  · cases hex

end PyGCD
