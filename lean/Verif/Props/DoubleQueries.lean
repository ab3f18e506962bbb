import Verif.Proofs.DoubleQuery
import Verif.Props.Closed
import Verif.Props.Doubles

/-!
# Property C99: queries with the numbers that Python computes with
-/

set_option linter.unusedSectionVars false
set_option linter.unusedSimpArgs false

namespace PyGCD
open PyGCD.Spec Vec4

/-- **C99, in full** (refuted): with default junction handling every time from the start to before the end can be asked,
also in double precision, and the answer is near the answer without rounding. -/
def C99Full : Prop :=
  ∀ (states : List (PState Dbl)) (bs : List (Block Dbl)) (bs' : List (Block ℝ)) (T : Dbl) (t : Dbl),
    (∀ s ∈ states, s.Representable) → Regular (states.map PState.real) → Moderate (states.map PState.real) →
    plan .default states = .ok bs → plan .default (states.map PState.real) = .ok bs' → endTime bs = .ok T →
    0 ≤ t.r → t.r < T.r →
    ∃ v p, (getValues (unpack bs) "SImm" none t none).1 = .ok (v, p) ∧
      ∀ v' p', (getValues (unpack bs') "SImm" none t.r none).1 = .ok (v', p') →
        |p.x.r - p'.x| ≤ 0.01 ∧ |p.y.r - p'.y| ≤ 0.01 ∧ |p.z.r - p'.z| ≤ 0.01

/-- The actions of a planned program. -/
theorem plan_actList {states : List (PState ℝ)} {bs : List (Block ℝ)} (hreg : Regular states)
    (h : plan .default states = .ok bs) : ActList (active none states) := by
  obtain ⟨_, hc, _, ha, _⟩ := plan_ok hreg h
  have hr := plan_rest hreg h (fun _ _ _ => rfl)
  rw [← ha]
  constructor
  · intro a hmem
    obtain ⟨b, hb, rfl⟩ := List.mem_map.1 hmem
    exact (hr b hb).act
  · rw [List.isChain_map]
    exact hc.imp fun b c hbc => hbc.1

/-- **C99, near.** With default junction handling, an answer of `get_values` in double precision and an answer without
rounding for the same time give nearly the same position, whatever was asked before; the coordinate E as well if no move
extrudes more than its length. -/
theorem c99_near_partial {states : List (PState Dbl)} (hreg : Regular (states.map PState.real))
    (hmod : Moderate (states.map PState.real)) {V : ℝ} (hV : ∀ s ∈ states, s.speed.r ≤ V) (hV0 : 0 ≤ V)
    {bs : List (Block Dbl)} {bs' : List (Block ℝ)} (h : plan .default states = .ok bs)
    (h' : plan .default (states.map PState.real) = .ok bs') {T : ℝ} (hT : EndTime (Spec.path bs') T) {t : Dbl}
    {last last' : Option Nat} {v p : Vec4 Dbl} {v' p' : Vec4 ℝ}
    (hq : (getValues (unpack bs) "SImm" none t last).1 = .ok (v, p))
    (hq' : (getValues (unpack bs') "SImm" none t.r last').1 = .ok (v', p')) :
    let δ := 2e-7 + 1e-9 * V + bs.length * (1e-8 + 2e-9 * V) + 2e-12 * V * T
    |p.x.r - p'.x| ≤ δ ∧ |p.y.r - p'.y| ≤ δ ∧ |p.z.r - p'.z| ≤ δ ∧
      ((∀ a ∈ active none (states.map PState.real), ∀ A, a.1 = some A →
        |a.2.position.e - A.position.e| ≤ moveLength A.position a.2.position) → |p.e.r - p'.e| ≤ δ) := by
  intro δ
  obtain ⟨bs₀, h1, h2, _⟩ := plan_dbl hreg hmod
  rw [h] at h1
  cases h1
  have hact := plan_actList hreg h'
  have hVa : ∀ a ∈ active none (states.map PState.real), a.2.speed ≤ V := by
    intro a ha
    have hm : a.2 ∈ states.map PState.real := (List.of_mem_zip (List.mem_filter.1 ha).1).2
    obtain ⟨s, hs, e⟩ := List.mem_map.1 hm
    rw [← e]
    exact hV s hs
  obtain ⟨g, hg, hg1, hg2, hg3⟩ := getValues_dbl hq
  obtain ⟨q, x, r, w, q1, q2, q3, q4, q5⟩ := h2.query hV0
    (ext := ∀ a ∈ active none (states.map PState.real), ∀ A, a.1 = some A →
        |a.2.position.e - A.position.e| ≤ moveLength A.position a.2.position) le_rfl hact hVa (fun hx => hx) g hg t hg1 hg2
  rw [hg3] at q1
  cases q1
  obtain ⟨r', w', m1, m2, _⟩ := c98_answers hreg h' (own := "SImm") (u := none) (f := 1) (Or.inr (Or.inl ⟨rfl, rfl⟩)) hq'
  have hpr : p' = r' := by
    rw [m2]
    simp [Vec4.mul]
  subst hpr
  have hTs := c64_print_time hreg h' hT
  rw [← hTs] at q3 q5
  push_cast at q3 q5
  simp only [_root_.zero_add, sub_zero] at q3 q5
  have hx : V * |x - t.r| ≤ V * (bs.length * 1e-9 + 1e-12 * T) := by
    rw [abs_sub_comm]
    gcongr
  have key : ∀ (c : Vec4 ℝ → ℝ), Coord c → (∀ a ∈ active none (states.map PState.real), Slower c a) →
      |c r - c p'| ≤ V * (bs.length * 1e-9 + 1e-12 * T) := by
    intro c hc hs
    exact (hact.near hc hV0 hs hVa q4 m1).trans hx
  have hδ : 2e-7 + 1e-9 * V + bs.length * 1e-8 + V * (bs.length * 1e-9 + 1e-12 * T) +
      V * (bs.length * 1e-9 + 1e-12 * T) = δ := by
    show _ = 2e-7 + 1e-9 * V + bs.length * (1e-8 + 2e-9 * V) + 2e-12 * V * T
    ring
  rw [← hδ]
  refine ⟨err_add q5.x (key _ coord_x fun a _ => (slower_xyz a).1),
    err_add q5.y (key _ coord_y fun a _ => (slower_xyz a).2.1),
    err_add q5.z (key _ coord_z fun a _ => (slower_xyz a).2.2), fun he => ?_⟩
  exact err_add (q5.e he) (key _ coord_e fun a ha => he a ha)

theorem getLast?_segments_dbl {bs : List (Block Dbl)} {b : Block Dbl} {s : Segment Dbl} (hb : bs.getLast? = some b)
    (hs : b.segments.getLast? = some s) : (unpack bs).getLast? = some s := by
  obtain ⟨l, rfl⟩ := List.getLast?_eq_some_iff.1 hb
  obtain ⟨m, hm⟩ := List.getLast?_eq_some_iff.1 hs
  unfold unpack
  rw [List.flatMap_append, List.flatMap_singleton, hm, ← List.append_assoc, List.getLast?_append, List.getLast?_singleton]
  rfl

/-- **C99, gaps.** With default junction handling in double precision, a query without a history at a time from the start
to before the end is answered, or it raises `TypeError` because the constant-speed segment of a move is missing: the move
has only two segments, the second begins where but not when the first ends, and the time is between them. At the
feedrate less than half a nanometre is driven in this time. -/
theorem c99_gaps_partial {states : List (PState Dbl)} (hreg : Regular (states.map PState.real))
    (hmod : Moderate (states.map PState.real)) {bs : List (Block Dbl)} (h : plan .default states = .ok bs) {T t : Dbl}
    (hT : endTime bs = .ok T) (h0 : 0 ≤ t.r) (h1 : t.r < T.r) :
    (∃ v p, (getValues (unpack bs) "SImm" none t none).1 = .ok (v, p)) ∨
      ((getValues (unpack bs) "SImm" none t none).1 = .error .typeError ∧
        ∃ b ∈ bs, ∃ g g', b.segments = [g, g'] ∧ g'.posBegin = g.posEnd ∧ g.tEnd.r ≤ t.r ∧ t.r < g'.tBegin.r ∧
          (g'.tBegin.r - g.tEnd.r) * b.stateB.speed.r ≤ 4e-7) := by
  obtain ⟨bs₀, g1, g2, g3⟩ := plan_dbl hreg hmod
  rw [h] at g1
  cases g1
  unfold endTime at hT
  cases hl : bs.getLast? with
  | none => rw [hl] at hT; cases hT
  | some l =>
    rw [hl] at hT
    simp only [Block.lastSeg] at hT
    cases hs : l.segments.getLast? with
    | none => rw [hs] at hT; cases hT
    | some s' =>
      rw [hs] at hT
      simp only [Except.map, Except.ok.injEq] at hT
      subst hT
      have hlast := getLast?_segments_dbl hl hs
      obtain ⟨f, s, f1, f2, f3⟩ : ∃ f s, bs.head? = some f ∧ f.segments.head? = some s ∧ s.tBegin.r = 0 := by
        generalize active none (states.map PState.real) = acts at g2
        cases g2 with
        | done => simp at hl
        | step _ _ _ _ hin _ =>
          obtain ⟨prev, _, _, _, s, _, ha, _, _, _, i1, i2, _⟩ := hin
          refine ⟨_, s, rfl, i1, ?_⟩
          rw [i2]
          have := ha.time
          norm_num at this
          exact this
      have hcov := g2.cover g3 f1 f2 hl hs (t := t.r) (by rw [f3]; exact h0) h1
      have hfind : findSegment (unpack bs) t none =
          match searchFresh t 0 (unpack bs) with
          | some r => .ok (some r)
          | none => .error .typeError := by
        unfold findSegment
        rw [hlast]
        simp only
        rw [if_neg (by rw [Dbl.lt_iff]; linarith), if_pos (show useFresh (unpack bs) t none = true from rfl)]
        cases searchFresh t 0 (unpack bs) <;> rfl
      cases hsf : searchFresh t 0 (unpack bs) with
      | some r =>
        left
        rw [hsf] at hfind
        obtain ⟨h4, h5, h6⟩ := searchFresh_dbl hsf
        obtain ⟨g, i⟩ := r
        simp only at hfind h4 h5 h6
        have hno : ¬(t < g.tBegin ∨ g.tEnd < t) := by
          rw [Dbl.lt_iff, Dbl.lt_iff]
          push Not
          exact ⟨h5, h6.le⟩
        have hv : ∃ v, g.getVelocity t = .ok v := by
          unfold Segment.getVelocity
          rw [if_neg hno]
          exact ⟨_, rfl⟩
        obtain ⟨v, hv⟩ := hv
        have hp : ∃ p, g.getPosition t = .ok p := by
          unfold Segment.getPosition
          rw [if_neg hno, hv]
          exact ⟨_, rfl⟩
        obtain ⟨p, hp⟩ := hp
        have hf : (simScaling ((none : Option String).getD "SImm") : Except PyErr Dbl) = .ok 1 := by
          unfold simScaling
          rw [if_neg (by decide), if_pos (by rfl)]
        unfold getValues
        rw [hfind]
        simp only [hv, hp, hf, bind, Except.bind]
        exact ⟨_, _, rfl⟩
      | none =>
        right
        rw [hsf] at hfind
        constructor
        · unfold getValues
          rw [hfind]
        · rcases hcov with ⟨g, h4, h5⟩ | ⟨b, h4, h5⟩
          · exact absurd h5 (searchFresh_none_dbl hsf g h4)
          · exact ⟨b, h4, h5⟩

/-! ## The counterexample -/

/-- A state moving with 50 mm/s and 1000 mm/s². -/
def Demo.steady (x y : Dbl) : PState Dbl := ⟨⟨x, y, 0, 0⟩, 50, 1000, 10, none, none⟩

/-- A move of 2.5 mm, as long as accelerating to and braking from 50 mm/s. -/
def Demo.gap : List (PState Dbl) := [Demo.steady 31.59 124.26, Demo.steady 33.09 126.26]

/-- Whether a query without a history raises `TypeError`, and whether the time is before the end. -/
def Demo.raises (r : Except PyErr (List (Block Dbl))) (t : Dbl) : Bool :=
  match r with
  | .ok bs =>
    (match (getValues (unpack bs) "SImm" none t none).1 with | .error .typeError => true | _ => false) &&
      (match endTime bs with | .ok T => decide (t.val < T.val) | .error _ => false)
  | .error _ => false

/-- The move lasts 0.1 s, but at 0.05 s there is no segment. -/
theorem Demo.gap_raises : Demo.raises (plan .default Demo.gap) 0.05 = true := by
  decide +kernel

theorem Demo.gap_lit : (50 : Dbl).r = 50 ∧ (1000 : Dbl).r = 1000 ∧ (10 : Dbl).r = 10 ∧ (0 : Dbl).r = 0 ∧
    (31 ≤ (31.59 : Dbl).r ∧ (31.59 : Dbl).r ≤ 32) ∧ (33 ≤ (33.09 : Dbl).r ∧ (33.09 : Dbl).r ≤ 34) ∧
    (124 ≤ (124.26 : Dbl).r ∧ (124.26 : Dbl).r ≤ 125) ∧ (126 ≤ (126.26 : Dbl).r ∧ (126.26 : Dbl).r ≤ 127) := by
  have key : ∀ (a : Dbl) (l u : ℚ), l ≤ a.val ∧ a.val ≤ u → (l : ℝ) ≤ a.r ∧ a.r ≤ (u : ℝ) := by
    intro a l u h
    exact ⟨(Rat.cast_le (K := ℝ)).2 h.1, (Rat.cast_le (K := ℝ)).2 h.2⟩
  refine ⟨?_, ?_, ?_, Dbl.r_zero, ?_, ?_, ?_, ?_⟩
  · rw [Dbl.r_of (q := 50) (by decide +kernel)]; norm_num
  · rw [Dbl.r_of (q := 1000) (by decide +kernel)]; norm_num
  · rw [Dbl.r_of (q := 10) (by decide +kernel)]; norm_num
  · have := key 31.59 31 32 (by decide +kernel); norm_num at this; exact this
  · have := key 33.09 33 34 (by decide +kernel); norm_num at this; exact this
  · have := key 124.26 124 125 (by decide +kernel); norm_num at this; exact this
  · have := key 126.26 126 127 (by decide +kernel); norm_num at this; exact this

theorem Demo.gap_regular : Regular (Demo.gap.map PState.real) := by
  refine regular_of_no_pause fun s hs => ?_
  obtain ⟨q, hq, rfl⟩ := List.mem_map.1 hs
  obtain ⟨h50, h1000, h10, _⟩ := Demo.gap_lit
  have : q.speed = 50 ∧ q.pAcc = 1000 ∧ q.jerk = 10 ∧ q.pause = none := by
    simp only [Demo.gap, List.mem_cons, List.not_mem_nil, or_false] at hq
    rcases hq with rfl | rfl <;> exact ⟨rfl, rfl, rfl, rfl⟩
  obtain ⟨e1, e2, e3, e4⟩ := this
  simp only [PState.real, e1, e2, e3, e4, h10, h50, h1000, Option.map_none]
  norm_num

theorem Demo.gap_representable : ∀ s ∈ Demo.gap, s.Representable := by
  have lit : ∀ a : Dbl, (∃ q, a = ⟨rnd q⟩) → Rep a.val := by
    rintro _ ⟨q, rfl⟩
    exact rep_rnd q
  have h0 : Rep (0 : Dbl).val := lit _ ⟨_, rfl⟩
  have h1 : Rep (31.59 : Dbl).val := lit _ ⟨_, rfl⟩
  have h2 : Rep (124.26 : Dbl).val := lit _ ⟨_, rfl⟩
  have h3 : Rep (33.09 : Dbl).val := lit _ ⟨_, rfl⟩
  have h4 : Rep (126.26 : Dbl).val := lit _ ⟨_, rfl⟩
  have h10 : Rep (10 : Dbl).val := lit _ ⟨_, rfl⟩
  have h50 : Rep (50 : Dbl).val := lit _ ⟨_, rfl⟩
  have h1000 : Rep (1000 : Dbl).val := lit _ ⟨_, rfl⟩
  intro s hs
  simp only [Demo.gap, List.mem_cons, List.not_mem_nil, or_false] at hs
  rcases hs with rfl | rfl <;>
    exact ⟨by assumption, by assumption, h0, h0, h50, h1000, h10, by simp [Demo.steady]⟩

/-- The counterexample, as real numbers, and the length of its only move. -/
theorem Demo.gap_move : ∃ A B L, Demo.gap.map PState.real = [A, B] ∧ active none [A, B] = [(some A, B)] ∧
    B.speed = 50 ∧ B.pAcc = 1000 ∧ B.pause = none ∧ moveLength A.position B.position = L ∧ 1 ≤ L ∧ L ≤ 400000 ∧
    ∀ s ∈ [A, B], |s.position.x| ≤ 100000 ∧ |s.position.y| ≤ 100000 ∧ |s.position.z| ≤ 100000 ∧ |s.position.e| ≤ 100000 ∧
      s.speed = 50 ∧ s.pAcc = 1000 ∧ s.jerk = 10 ∧ s.pause = none := by
  obtain ⟨h50, h1000, h10, h0, ⟨a1, a2⟩, ⟨b1, b2⟩, ⟨c1, c2⟩, d1, d2⟩ := Demo.gap_lit
  have hmap : Demo.gap.map PState.real =
      [⟨⟨(31.59 : Dbl).r, (124.26 : Dbl).r, 0, 0⟩, 50, 1000, 10, none, none⟩,
        ⟨⟨(33.09 : Dbl).r, (126.26 : Dbl).r, 0, 0⟩, 50, 1000, 10, none, none⟩] := by
    simp only [Demo.gap, Demo.steady, List.map_cons, List.map_nil, PState.real, Vec4.real, h50, h1000, h10, h0,
      Option.map_none]
  rw [hmap]
  generalize (31.59 : Dbl).r = x at *
  generalize (33.09 : Dbl).r = x' at *
  generalize (124.26 : Dbl).r = y at *
  generalize (126.26 : Dbl).r = y' at *
  have hn := norm_coord (⟨x' - x, y' - y, 0 - 0, 0 - 0⟩ : Vec4 ℝ)
  have hlow : 1 ≤ (⟨x' - x, y' - y, 0 - 0, 0 - 0⟩ : Vec4 ℝ).norm3 := by
    refine le_trans ?_ hn.1
    exact le_trans (by linarith) (le_abs_self _)
  have hL : moveLength (⟨x, y, 0, 0⟩ : Vec4 ℝ) ⟨x', y', 0, 0⟩ = (⟨x' - x, y' - y, 0 - 0, 0 - 0⟩ : Vec4 ℝ).norm3 := by
    unfold moveLength
    rw [show (⟨x', y', 0, 0⟩ : Vec4 ℝ).sub ⟨x, y, 0, 0⟩ = ⟨x' - x, y' - y, 0 - 0, 0 - 0⟩ from rfl]
    rw [if_neg (by linarith)]
  have hup : (⟨x' - x, y' - y, 0 - 0, 0 - 0⟩ : Vec4 ℝ).norm3 ≤ 400000 := by
    rw [← hL]
    apply length_bound <;> simp only [_root_.sub_self, abs_zero] <;>
      first | (rw [abs_le]; constructor <;> linarith) | norm_num
  refine ⟨_, _, _, rfl, ?_, rfl, rfl, rfl, hL, hlow, hup, ?_⟩
  · rw [active_cons_skip _ (by simp) rfl, active_cons_take _ (Or.inr ⟨_, rfl, by
      intro hcon
      have := congrArg Vec4.x hcon
      simp only at this
      linarith⟩)]
    simp [active, withPrev]
  · intro s hs
    simp only [List.mem_cons, List.not_mem_nil, or_false] at hs
    rcases hs with rfl | rfl <;>
      refine ⟨?_, ?_, by norm_num, by norm_num, rfl, rfl, rfl, rfl⟩ <;> rw [abs_le] <;> constructor <;> linarith

theorem Demo.gap_moderate : Moderate (Demo.gap.map PState.real) := by
  obtain ⟨A, B, L, hmap, hact, hv, ha, hp, hL, hlow, hup, hall⟩ := Demo.gap_move
  rw [hmap]
  refine ⟨?_, ?_, ?_, ?_, ?_, ?_⟩
  · intro s hs
    obtain ⟨e1, e2, e3, e4, _⟩ := hall s hs
    exact ⟨e1, e2, e3, e4⟩
  · intro s hs
    obtain ⟨_, _, _, _, e5, _⟩ := hall s hs
    rw [e5]
    norm_num
  · intro s hs
    obtain ⟨_, _, _, _, e5, e6, _⟩ := hall s hs
    rw [e5, e6]
    norm_num
  · intro pre A' B' post h hne
    rcases pre with _ | ⟨p, pre⟩
    · simp only [List.nil_append, List.cons.injEq] at h
      obtain ⟨rfl, rfl, _⟩ := h
      simp only [hL]
      linarith
    · have := congrArg List.length h
      simp only [List.length_cons, List.length_append, List.length_nil] at this
      omega
  · simp
  · rw [hact]
    simp only [List.map_cons, List.map_nil, List.sum_cons, List.sum_nil, restTime, hp, hL, hv, ha]
    have hm : moveTime 1000 50 L 0 0 ≤ L / 50 + 50 / 1000 := moveTime_le (by norm_num) (by norm_num) (by linarith)
    linarith

/-- Whether a query without a history is answered. -/
def Demo.answers (r : Except PyErr (List (Block Dbl))) (t : Dbl) : Bool :=
  match r with
  | .ok bs => (match (getValues (unpack bs) "SImm" none t none).1 with | .ok _ => true | .error _ => false)
  | .error _ => false

theorem Demo.gap_answers : Demo.answers (plan .default Demo.gap) 0.01 = true := by
  decide +kernel

/-- The hypotheses of `c99_near_partial` hold for the move of the counterexample at 0.01 s: the two answers agree up to
2e-6 mm. -/
example : ∃ bs bs' v p v' p', plan .default Demo.gap = .ok bs ∧ plan .default (Demo.gap.map PState.real) = .ok bs' ∧
    (getValues (unpack bs) "SImm" none 0.01 none).1 = .ok (v, p) ∧
    (getValues (unpack bs') "SImm" none (0.01 : Dbl).r none).1 = .ok (v', p') ∧ |p.x.r - p'.x| ≤ 2e-6 := by
  obtain ⟨A, B, L, hmap, hact, hv, ha, hp, hL, hlow, hup, hall⟩ := Demo.gap_move
  obtain ⟨bs, bs', h1, h2, h3, _⟩ := c84_default_partial Demo.gap_regular Demo.gap_moderate
  have hr := Demo.gap_answers
  rw [h1] at hr
  unfold Demo.answers at hr
  simp only at hr
  split at hr
  · rename_i vp hq
    obtain ⟨v, p⟩ := vp
    have hpo := plan_ok Demo.gap_regular h2
    obtain ⟨_, _, _, hac, _⟩ := hpo
    have hlen : bs'.length = 1 := by
      have := congrArg List.length hac
      rw [List.length_map, hmap, hact] at this
      exact this
    have hne : bs' ≠ [] := by
      rintro rfl
      simp at hlen
    obtain ⟨_, s', _, _, e3, _⟩ := unpack_ends Demo.gap_regular h2 hne
    have hT := endTime_path e3
    have hTs := c64_print_time Demo.gap_regular h2 hT
    have hTv : s'.tEnd = moveTime 1000 50 L 0 0 := by
      rw [hTs, hmap, hact]
      simp only [List.map_cons, List.map_nil, List.sum_cons, List.sum_nil, restTime, hp, hL, hv, ha, _root_.add_zero]
    have hlo : (0.02 : ℝ) ≤ s'.tEnd := by
      rw [hTv, c65_rest_to_rest (by norm_num) (by norm_num) (by linarith)]
      split
      · linarith
      · have : (0.01 : ℝ) ≤ √(L / 1000) := Real.le_sqrt_of_sq_le (by linarith)
        linarith
    have hhi : s'.tEnd ≤ 8001 := by
      have hm : moveTime 1000 50 L 0 0 ≤ L / 50 + 50 / 1000 := moveTime_le (by norm_num) (by norm_num) (by linarith)
      linarith
    have ht : 0 ≤ (0.01 : Dbl).r ∧ (0.01 : Dbl).r ≤ 1 / 64 := by
      have : (0 : ℚ) ≤ (0.01 : Dbl).val ∧ (0.01 : Dbl).val ≤ 1 / 64 := by decide +kernel
      have h4 := (Rat.cast_le (K := ℝ)).2 this.1
      have h5 := (Rat.cast_le (K := ℝ)).2 this.2
      rw [Rat.cast_zero] at h4
      norm_num at h5
      exact ⟨h4, by norm_num; exact h5⟩
    obtain ⟨p', v', _, hq'⟩ := c98_motion Demo.gap_regular h2 (own := "SImm") (u := none) (f := 1)
      (Or.inr (Or.inl ⟨rfl, rfl⟩)) none hT ht.1 (by linarith)
    have hV : ∀ s ∈ Demo.gap, s.speed.r ≤ 50 := by
      intro s hs
      have := hall s.real (by rw [← hmap]; exact List.mem_map_of_mem hs)
      exact le_of_eq this.2.2.2.2.1
    have hn := (c99_near_partial Demo.gap_regular Demo.gap_moderate hV (by norm_num) h1 h2 hT hq hq').1
    refine ⟨bs, bs', v, p, _, _, h1, h2, hq, hq', hn.trans ?_⟩
    rw [h3, hlen]
    push_cast
    linarith
  · cases hr

/-- **C99** is false: half way through the move there is no segment. -/
theorem c99_refuted : ¬ C99Full := by
  intro h
  have hr := Demo.gap_raises
  unfold Demo.raises at hr
  split at hr
  · rename_i bs hbs
    obtain ⟨bs', hbs'⟩ := c83_exact .default Demo.gap_regular
    rw [Bool.and_eq_true] at hr
    obtain ⟨h1, h2⟩ := hr
    split at h2
    · rename_i T hT
      have ht0 : (0 : ℝ) ≤ (0.05 : Dbl).r := by
        have : (0 : ℚ) ≤ (0.05 : Dbl).val := by decide +kernel
        have := (Rat.cast_le (K := ℝ)).2 this
        rw [Rat.cast_zero] at this
        exact this
      obtain ⟨v, p, hvp, _⟩ := h Demo.gap bs bs' T 0.05 Demo.gap_representable Demo.gap_regular Demo.gap_moderate hbs hbs' hT
        ht0 ((Rat.cast_lt (K := ℝ)).2 (of_decide_eq_true h2))
      rw [hvp] at h1
      cases h1
    · cases h2
  · cases hr

/-- The gap law applies to the counterexample: one of its blocks has the gap. -/
theorem c99_gap_exists : ∃ bs, plan .default Demo.gap = .ok bs ∧
    (getValues (unpack bs) "SImm" none 0.05 none).1 = .error .typeError ∧
    ∃ b ∈ bs, ∃ g g', b.segments = [g, g'] ∧ g'.posBegin = g.posEnd ∧ g.tEnd.r < g'.tBegin.r := by
  have hr := Demo.gap_raises
  unfold Demo.raises at hr
  split at hr
  · rename_i bs hbs
    rw [Bool.and_eq_true] at hr
    obtain ⟨h1, h2⟩ := hr
    split at h2
    · rename_i T hT
      have ht0 : (0 : ℝ) ≤ (0.05 : Dbl).r := by
        have : (0 : ℚ) ≤ (0.05 : Dbl).val := by decide +kernel
        have := (Rat.cast_le (K := ℝ)).2 this
        rw [Rat.cast_zero] at this
        exact this
      rcases c99_gaps_partial Demo.gap_regular Demo.gap_moderate hbs hT ht0
        ((Rat.cast_lt (K := ℝ)).2 (of_decide_eq_true h2)) with ⟨v, p, hvp⟩ | ⟨h3, b, hb, g, g', h4, h5, h6, h7, _⟩
      · rw [hvp] at h1
        cases h1
      · exact ⟨bs, hbs, h3, b, hb, g, g', h4, h5, by linarith⟩
    · cases h2
  · cases hr

end PyGCD
