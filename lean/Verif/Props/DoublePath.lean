import Verif.Proofs.DoubleLaid
import Verif.Props.DoubleTimes
import Verif.Props.DoubleQueries

/-!
# The answers to queries in double precision are on the programmed path, with every junction handling (C114)
-/

set_option linter.unusedSectionVars false
set_option linter.unusedSimpArgs false

namespace PyGCD
open PyGCD.Spec Vec4

/-- The velocity and the position that `get_values` reports in millimetres. -/
theorem getValues_both_dbl {path : List (Segment Dbl)} {t : Dbl} {last : Option Nat} {v p : Vec4 Dbl}
    (h : (getValues path "SImm" none t last).1 = .ok (v, p)) :
    ∃ s ∈ path, s.tBegin.r ≤ t.r ∧ t.r ≤ s.tEnd.r ∧ s.getPosition t = .ok p ∧ s.getVelocity t = .ok v := by
  unfold getValues at h
  split at h
  · cases h
  · cases h
  · rename_i s i hs
    obtain ⟨h1, h2, h3⟩ := findSegment_dbl hs
    refine ⟨s, h1, h2, h3, ?_⟩
    rw [getPosition_dbl h2 h3, getVelocity_dbl h2 h3] at h ⊢
    have hf : (simScaling ((none : Option String).getD "SImm") : Except PyErr Dbl) = .ok 1 := by
      unfold simScaling
      rw [if_neg (by decide), if_pos (by rfl)]
    simp only [hf, bind, Except.bind, Except.ok.injEq, Prod.mk.injEq, Vec4.mul] at h ⊢
    obtain ⟨e1, e2⟩ := h
    rw [← e1, ← e2]
    have hv : ∀ a b c d e : Dbl, Dbl.Rounded (velCoord a b c d e) := fun _ _ _ _ _ => Dbl.rounded_add _ _
    have hp : ∀ a b c d e f : Dbl, Dbl.Rounded (posCoord a b c d e f) := fun _ _ _ _ _ _ => Dbl.rounded_add _ _
    simp only [rounded_mul_one (hp _ _ _ _ _ _), rounded_mul_one (hv _ _ _ _ _), and_self]

theorem plan_length_dbl {fw : Firmware} {states : List (PState Dbl)} (hreg : Regular (states.map PState.real))
    (hus : Usual (states.map PState.real)) {bs : List (Block Dbl)} (h : plan fw states = .ok bs) :
    bs.length ≤ 1000000 := by
  have h1 := congrArg List.length (plan_fits hreg hus h).1
  rw [List.length_map] at h1
  have h2 : (active none (states.map PState.real)).length ≤ (states.map PState.real).length := by
    unfold active withPrev
    refine (List.length_filter_le _ _).trans ?_
    simp
  have h3 := hus.count
  omega

/-- **C114** Whenever planning an executable program of usual size succeeds with doubles, whatever the firmware, every answer
of `get_values`, with whatever history, is about a move or pause of the program, say number `n`, that is under way: the
position is on the way of this move, within `n * 1e-8 + 2e-7` mm and the way of two nanoseconds at the feedrate, with the
filament in the same proportion, and the velocity points along the way and keeps the feedrate. -/
theorem c114_on_path {fw : Firmware} {states : List (PState Dbl)} (hreg : Regular (states.map PState.real))
    (hus : Usual (states.map PState.real)) (hbr : Brief (states.map PState.real)) (hcalm : Calm (states.map PState.real))
    {bs : List (Block Dbl)} (h : plan fw states = .ok bs) {t : Dbl} {last : Option Nat} {v p : Vec4 Dbl}
    (hq : (getValues (unpack bs) "SImm" none t last).1 = .ok (v, p)) :
    ∃ (n : ℕ) (A B : PState ℝ) (b : Block Dbl), (active none (states.map PState.real))[n]? = some (some A, B) ∧
      bs[n]? = some b ∧ (∃ s ∈ b.segments, s.tBegin.r ≤ t.r ∧ t.r ≤ s.tEnd.r) ∧
      OnWay (n * 1e-8 + 2e-7 + 2e-9 * B.speed) p A.position B.position ∧
      AlongWay B.speed B.pAcc v A.position B.position := by
  obtain ⟨s, hs, h0, h1, hpos, hvel⟩ := getValues_both_dbl hq
  obtain ⟨b, hb, hsb⟩ := List.mem_flatMap.1 hs
  obtain ⟨n, hn⟩ := List.getElem?_of_mem hb
  obtain ⟨⟨⟨⟨A, ⟨hA, hP⟩, hpause⟩, ⟨s1, s2⟩, _⟩, hlone⟩, htr⟩ := plan_laid hreg hus h n b hn
  have hfit := plan_fits hreg hus h
  have hact : (active none (states.map PState.real))[n]? = some (some A.real, b.stateB.real) := by
    rw [← hfit.1, List.getElem?_map, hn, Option.map_some, hA]
    rfl
  have hst : b.stateB.real ∈ states.map PState.real := active_mem (List.mem_of_getElem? hact)
  have hn' : n ≤ 1000000 := by
    have := plan_length_dbl hreg hus h
    have := getElem?_lt hn
    omega
  have hnr : (n : ℝ) ≤ 1000000 := by exact_mod_cast hn'
  have hF : b.stateB.speed.r ≤ 100000 := hcalm.speed _ hst
  have hF0 : 0 < b.stateB.speed.r := hreg.speed _ hst
  have ha : b.stateB.pAcc.r ≤ 1e9 := hcalm.acc _ hst
  have ha0 : 0 < b.stateB.pAcc.r := hreg.acc _ hst
  refine ⟨n, A.real, b.stateB.real, b, hact, hn, ⟨s, hsb, h0, h1⟩, ?_⟩
  obtain ⟨A', ⟨hA', _⟩, f, l, f1, f2, f3, f4, f5⟩ := hfit.2.1 n b hn
  rw [hA] at hA'
  cases hA'
  show OnWay (n * 1e-8 + 2e-7 + 2e-9 * b.stateB.speed.r) _ A.position.real b.stateB.position.real ∧
    AlongWay b.stateB.speed.r b.stateB.pAcc.r _ A.position.real b.stateB.position.real
  rcases hP with ⟨u, ur, hu, hm⟩ | ⟨hd, heq⟩
  · have hroom : Roomy (b.ends :: ((bs.take n).map Block.ends).reverse) := by
      rw [← take_ends hn]
      exact (plan_roomy hreg hus hbr h (n + 1) (getElem?_lt hn)).1
    obtain ⟨f', Ls, q1, q2, q3, q4, q5⟩ := htr hroom A u hA hu
    rw [f1] at q1
    cases q1
    exact hm.onWay hF ha f3 hn' q2 q3 q4 (q5 s hsb) h0 h1 hpos hvel
  · obtain ⟨g, hg⟩ := hlone hd
    have hsg : s = g := by
      rw [hg] at hsb
      simpa using hsb
    subst hsg
    have hsf : f = s := by
      rw [hg] at f1
      simpa using f1.symm
    subst hsf
    obtain ⟨v1, v2⟩ := s2 hd f hsb
    rw [getPosition_dbl h0 h1, v1, v2] at hpos
    rw [getVelocity_dbl h0 h1, v1, v2] at hvel
    cases hpos
    cases hvel
    obtain ⟨c1, c2, c3, c4⟩ := hus.coord _ hst
    rw [show b.stateB.real.position = A.position.real from heq] at c1 c2 c3 c4
    obtain ⟨p1, p2, p3, p4⟩ := f3
    have hn0 : (0 : ℝ) ≤ n := by positivity
    have hz : Rel 42 ((0 : Dbl).r) ((0 : ℝ) * 0) := by
      rw [Dbl.r_zero, MulZeroClass.mul_zero]
      exact Rel.refl 42 0
    have pos : ∀ (q : Dbl) (a : ℝ), |q.r - a| ≤ n * 1e-8 → |a| ≤ 100000 →
        |(posCoord q 0 0 f.tBegin f.tEnd t).r - a| ≤ n * 1e-8 + 5e-8 := by
      intro q a hqa hca
      have h5 := posCoord_error (p := q) (tb := f.tBegin) (te := f.tEnd) (t := t) hz hz (by norm_num) le_rfl le_rfl h0 h1
        (by have := near_bound_dbl hqa hca hnr; linarith) (by norm_num)
      rw [MulZeroClass.zero_mul, _root_.add_zero] at h5
      exact (err_add h5 hqa).trans (by linarith)
    have vel : (velCoord 0 0 f.tBegin f.tEnd t).r = 0 := by
      have hz' : Rel 41 ((0 : Dbl).r) (0 : ℝ) := by
        rw [Dbl.r_zero]
        exact Rel.refl 41 0
      have h5 := velCoord_error (v := 0) (w := 0) (tb := f.tBegin) (te := f.tEnd) (t := t) hz' (by rw [Dbl.r_zero])
        (by rw [Dbl.r_zero]) h0 h1
      rw [Dbl.mul_zero, MulZeroClass.zero_mul, abs_zero, MulZeroClass.zero_mul, MulZeroClass.mul_zero, _root_.sub_zero] at h5
      exact abs_nonpos_iff.1 h5
    refine ⟨⟨0, le_rfl, zero_le_one, ?_⟩, ⟨0, le_rfl, ?_, ?_⟩⟩
    · simp only [MulZeroClass.zero_mul, _root_.add_zero]
      refine ⟨(pos _ _ p1 c1).trans ?_, (pos _ _ p2 c2).trans ?_, (pos _ _ p3 c3).trans ?_, (pos _ _ p4 c4).trans ?_⟩ <;> linarith
    · unfold WithinFeed
      have := sq_nonneg b.stateB.speed.r
      linarith
    · have h10 : 0 ≤ 1e-11 * (b.stateB.speed.r + 10) := by linarith
      simp only [zero_div, Vec4.mul, MulZeroClass.mul_zero, Near4, Vec4.zero, vel, _root_.sub_self, abs_zero]
      exact ⟨h10, h10, h10, h10⟩


theorem leads_chain {d : ℝ} (hd : 0 ≤ d) : ∀ {ss : List (Segment Dbl)} {p q : Vec4 Dbl}, Leads p ss q →
    ss.IsChain fun g g' => g'.tBegin = g.tEnd ∨ Near4 d g'.posBegin g.posEnd.real
  | [], _, _, _ => List.isChain_nil
  | [_], _, _, _ => List.isChain_singleton _
  | a :: b :: ss, p, q, h => by
    rw [List.isChain_cons_cons]
    refine ⟨.inr ?_, leads_chain hd h.2⟩
    rw [h.2.1]
    simp only [Near4, Vec4.real, _root_.sub_self, abs_zero]
    exact ⟨hd, hd, hd, hd⟩

theorem Near4.mono {d d' : ℝ} {p : Vec4 Dbl} {q : Vec4 ℝ} (h : Near4 d p q) (hd : d ≤ d') : Near4 d' p q :=
  ⟨h.1.trans hd, h.2.1.trans hd, h.2.2.1.trans hd, h.2.2.2.trans hd⟩

/-- The path of a plan has no gaps in space. -/
theorem plan_chain {fw : Firmware} {states : List (PState Dbl)} (hreg : Regular (states.map PState.real))
    (hus : Usual (states.map PState.real)) {bs : List (Block Dbl)} (h : plan fw states = .ok bs) :
    (unpack bs).IsChain fun g g' => g'.tBegin = g.tEnd ∨ Near4 (2 * bs.length * 1e-8) g'.posBegin g.posEnd.real := by
  have h1 := (c109_ends hreg hus h).2
  unfold unpack
  rw [List.flatMap_def]
  rw [List.isChain_flatten]
  · constructor
    · intro l hl
      obtain ⟨b, hb, rfl⟩ := List.mem_map.1 hl
      obtain ⟨n, hn⟩ := List.getElem?_of_mem hb
      obtain ⟨_, _, _, _, _, _, _, _, h2⟩ := h1 n b hn
      exact leads_chain (by positivity) h2
    · rw [List.isChain_map, List.isChain_iff_getElem]
      intro n hn
      have e0 : bs[n]? = some bs[n] := List.getElem?_eq_getElem _
      have e1 : bs[n + 1]? = some bs[n + 1] := List.getElem?_eq_getElem _
      obtain ⟨l, f, j1, j2, j3⟩ := c109_joints hreg hus h n _ _ e0 e1
      intro x hx y hy
      rw [j1] at hx
      rw [j2] at hy
      cases hx
      cases hy
      refine .inr (Near4.mono j3 ?_)
      have : ((n : ℝ) + 1) ≤ bs.length := by exact_mod_cast (by omega : n + 1 ≤ bs.length)
      gcongr
  · intro hm
    obtain ⟨b, hb, hb'⟩ := List.mem_map.1 hm
    obtain ⟨n, hn⟩ := List.getElem?_of_mem hb
    obtain ⟨_, f, _, _, h2, _⟩ := h1 n b hn
    rw [hb'] at h2
    cases h2

/-- **C114, gaps.** A query without a history at a time from the begin of the path to before its end is answered, or it
raises `TypeError` because no segment of the path is for this time: the time is between two segments of the path, and the
second begins where the first ends, within `2e-8` mm for every block. -/
theorem c114_gaps {fw : Firmware} {states : List (PState Dbl)} (hreg : Regular (states.map PState.real))
    (hus : Usual (states.map PState.real)) {bs : List (Block Dbl)} (h : plan fw states = .ok bs) {T t : Dbl} {s : Segment Dbl}
    (hT : endTime bs = .ok T) (hs : (unpack bs).head? = some s) (h0 : s.tBegin.r ≤ t.r) (h1 : t.r < T.r) :
    (∃ v p, (getValues (unpack bs) "SImm" none t none).1 = .ok (v, p)) ∨
      ((getValues (unpack bs) "SImm" none t none).1 = .error .typeError ∧
        ∃ g ∈ unpack bs, ∃ g' ∈ unpack bs, g.tEnd.r ≤ t.r ∧ t.r < g'.tBegin.r ∧
          Near4 (2 * bs.length * 1e-8) g'.posBegin g.posEnd.real) := by
  unfold endTime at hT
  cases hl : bs.getLast? with
  | none => rw [hl] at hT; cases hT
  | some l =>
    rw [hl] at hT
    simp only [Block.lastSeg] at hT
    cases hs' : l.segments.getLast? with
    | none => rw [hs'] at hT; cases hT
    | some s' =>
      rw [hs'] at hT
      simp only [Except.map, Except.ok.injEq] at hT
      subst hT
      have hlast := getLast?_segments_dbl hl hs'
      have hcov := path_cover (plan_chain hreg hus h) hs hlast h0 h1
      have hfind : findSegment (unpack bs) t none =
          match searchFresh t 0 (unpack bs) with
          | some r => .ok (some r)
          | none => .error .typeError := by
        unfold findSegment
        rw [hlast]
        simp only
        rw [if_neg (by rw [Dbl.lt_iff]; linarith), if_pos (show useFresh (unpack bs) t none = true from rfl)]
        cases searchFresh t 0 (unpack bs) <;> rfl
      cases hsf : searchFresh t 0 (unpack bs) with
      | some r =>
        left
        rw [hsf] at hfind
        obtain ⟨h4, h5, h6⟩ := searchFresh_dbl hsf
        obtain ⟨g, i⟩ := r
        simp only at hfind h4 h5 h6
        have hf : (simScaling ((none : Option String).getD "SImm") : Except PyErr Dbl) = .ok 1 := by
          unfold simScaling
          rw [if_neg (by decide), if_pos (by rfl)]
        unfold getValues
        rw [hfind]
        simp only [getPosition_dbl h5 h6.le, getVelocity_dbl h5 h6.le, hf, bind, Except.bind]
        exact ⟨_, _, rfl⟩
      | none =>
        right
        rw [hsf] at hfind
        constructor
        · unfold getValues
          rw [hfind]
        · rcases hcov with ⟨g, h4, h5⟩ | ⟨g, h4, g', h5, h6, h7, h8⟩
          · exact absurd h5 (searchFresh_none_dbl hsf g h4)
          · exact ⟨g, h4, g', h5, h7, h8, h6⟩

/-! ## Examples -/

theorem Demo.straight_calm : Calm Demo.straightReal := by
  constructor
  · intro s hs
    simp only [Demo.straightReal, List.mem_cons, List.not_mem_nil, or_false] at hs
    rcases hs with rfl | rfl | rfl <;> norm_num
  · intro s hs
    simp only [Demo.straightReal, List.mem_cons, List.not_mem_nil, or_false] at hs
    rcases hs with rfl | rfl | rfl <;> norm_num

/-- A query in the two moves of C83, with klipper. -/
theorem Demo.straight_query : (match plan .klipper Demo.straight with
    | .ok bs => (match (getValues (unpack bs) "SImm" none (0.05 : Dbl) none).1 with
      | .ok (v, p) => decide (1 < p.x ∧ 40 < v.x)
      | .error _ => false)
    | .error _ => false) = true := by
  decide +kernel

/-- The hypotheses of C114 hold for them. -/
example : ∃ (bs : List (Block Dbl)) (v p : Vec4 Dbl) (n : ℕ) (A B : PState ℝ), plan .klipper Demo.straight = .ok bs ∧
    (getValues (unpack bs) "SImm" none (0.05 : Dbl) none).1 = .ok (v, p) ∧ (1 : Dbl) < p.x ∧ (40 : Dbl) < v.x ∧
    (active none Demo.straightReal)[n]? = some (some A, B) ∧
    OnWay (n * 1e-8 + 2e-7 + 2e-9 * B.speed) p A.position B.position ∧ AlongWay B.speed B.pAcc v A.position B.position := by
  have hk := Demo.straight_query
  split at hk
  · rename_i bs hbs
    split at hk
    · rename_i v p hq
      rw [decide_eq_true_eq] at hk
      obtain ⟨n, A, B, b, h1, _, _, h2, h3⟩ := c114_on_path (by rw [Demo.straight_real]; exact Demo.straight_regular)
        (by rw [Demo.straight_real]; exact Demo.straight_usual) (by rw [Demo.straight_real]; exact Demo.straight_brief)
        (by rw [Demo.straight_real]; exact Demo.straight_calm) hbs hq
      rw [Demo.straight_real] at h1
      exact ⟨bs, v, p, n, A, B, hbs, hq, hk.1, hk.2, h1, h2, h3⟩
    · cases hk
  · cases hk

end PyGCD
