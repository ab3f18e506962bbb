import Verif.Proofs.DoubleLulls
import Verif.Props.DoublePath
import Verif.Props.DoubleQueries

/-!
# C117: times that no segment covers are short, in double precision with every firmware
-/

set_option linter.unusedSectionVars false
set_option linter.unusedSimpArgs false

namespace PyGCD
open PyGCD.Spec Vec4

theorem walk1_size {u P : Dbl} {c D W : ℝ} {Ls pre post : List Dbl} {L : Dbl} (hu : Rel 41 u.r c)
    (hLs : Ls = pre ++ L :: post) (hp : Pieces D W Ls) (hlen : Ls.length ≤ 3) (hD : 0 ≤ D) (hcD : |c * D| ≤ 200000)
    (hP : |P.r| ≤ 150000) : |(walk1 u P pre).r| ≤ 400000 := by
  have he := eps_pos
  have he' := eps_lt
  have hcD' : |c| * D ≤ 200000 := by rwa [abs_mul, abs_of_nonneg hD] at hcD
  have hpre : (pre.map (fun L : Dbl => |L.r|)).sum ≤ 1.1 * D := by
    refine le_trans ?_ hp.2
    rw [hLs, List.map_append, List.sum_append]
    have : 0 ≤ ((L :: post).map fun L : Dbl => |L.r|).sum := by
      apply List.sum_nonneg
      intro x hx
      obtain ⟨y, _, rfl⟩ := List.mem_map.1 hx
      exact abs_nonneg _
    linarith
  have hsum : (pre.map (fun L => |c * L.r|)).sum ≤ 220000 := by
    have : (pre.map (fun L => |c * L.r|)).sum = |c| * (pre.map (fun L => |L.r|)).sum := by
      rw [← List.sum_map_mul_left]
      simp only [abs_mul]
    rw [this]
    have h1 : |c| * (pre.map (fun L => |L.r|)).sum ≤ |c| * (1.1 * D) := by gcongr
    linarith
  have hl : (pre.length : ℝ) ≤ 3 := by
    have : pre.length ≤ 3 := by
      rw [hLs] at hlen
      simp at hlen
      omega
    exact_mod_cast this
  have w1 := walk1_error hu pre P (by linarith)
  have w2 : |(walk1 u P pre).r - (P.r + c * (pre.map Dbl.r).sum)| ≤ 1e-8 := by
    refine w1.trans ?_
    have h3 : (pre.length : ℝ) * (2 * eps * 400000) ≤ 3 * (2 * eps * 400000) := by gcongr
    have h4 : eps * (pre.map (fun L => |c * L.r|)).sum ≤ eps * 220000 := by gcongr
    linarith
  have hcs : |c * (pre.map Dbl.r).sum| ≤ 220000 := by
    rw [← List.sum_map_mul_left]
    refine le_trans ?_ hsum
    exact abs_sum_map_le _ pre
  rw [abs_le] at w2 hcs hP ⊢
  constructor <;> linarith

/-- The segments of a plan begin at coordinates of usual size. -/
theorem plan_bounded {fw : Firmware} {states : List (PState Dbl)} (hreg : Regular (states.map PState.real))
    (hus : Usual (states.map PState.real)) (hbr : Brief (states.map PState.real)) {bs : List (Block Dbl)}
    (h : plan fw states = .ok bs) {n : ℕ} {b : Block Dbl} (hn : bs[n]? = some b) {s : Segment Dbl} (hs : s ∈ b.segments) :
    Bounded4 s.posBegin := by
  obtain ⟨⟨⟨⟨A, ⟨hA, hP⟩, hpause⟩, _⟩, hlone⟩, htr⟩ := plan_laid hreg hus h n b hn
  have hfit := plan_fits hreg hus h
  have hn' : n ≤ 1000000 := by
    have := plan_length_dbl hreg hus h
    have := getElem?_lt hn
    omega
  have hnr : (n : ℝ) ≤ 1000000 := by exact_mod_cast hn'
  obtain ⟨A', ⟨hA', _⟩, f, l, f1, f2, f3, f4, f5⟩ := hfit.2.1 n b hn
  rw [hA] at hA'
  cases hA'
  obtain ⟨p1, p2, p3, p4⟩ := f3
  have hact : (active none (states.map PState.real))[n]? = some (some A.real, b.stateB.real) := by
    rw [← hfit.1, List.getElem?_map, hn, Option.map_some, hA]
    rfl
  have hst : b.stateB.real ∈ states.map PState.real := active_mem (List.mem_of_getElem? hact)
  rcases hP with ⟨u, ur, hu, hm⟩ | ⟨hd, heq⟩
  · have hroom : Roomy (b.ends :: ((bs.take n).map Block.ends).reverse) := by
      rw [← take_ends hn]
      exact (plan_roomy hreg hus hbr h (n + 1) (getElem?_lt hn)).1
    obtain ⟨f', Ls, q1, q2, q3, q4, q5⟩ := htr hroom A u hA hu
    rw [f1] at q1
    cases q1
    obtain ⟨pre, L, post, v, w, l1, l2, _⟩ := q5 s hs
    obtain ⟨c1, c2, c3, c4⟩ := hm.cA
    obtain ⟨d1, d2, d3, d4⟩ := hm.cB
    have hD : 0 ≤ moveLength A.position.real b.stateB.position.real := (by norm_num : (0 : ℝ) ≤ 1e-6).trans hm.length
    have ex : ur.x * moveLength A.position.real b.stateB.position.real = b.stateB.position.x.r - A.position.x.r :=
      (congrArg Vec4.x hm.diff).symm
    have ey : ur.y * moveLength A.position.real b.stateB.position.real = b.stateB.position.y.r - A.position.y.r :=
      (congrArg Vec4.y hm.diff).symm
    have ez : ur.z * moveLength A.position.real b.stateB.position.real = b.stateB.position.z.r - A.position.z.r :=
      (congrArg Vec4.z hm.diff).symm
    have ee : ur.e * moveLength A.position.real b.stateB.position.real = b.stateB.position.e.r - A.position.e.r :=
      (congrArg Vec4.e hm.diff).symm
    rw [l2, walk_coord]
    exact ⟨walk1_size hm.hu.x l1 q2 q3 hD (by rw [ex]; exact diff_bound c1 d1) (near_bound_dbl p1 c1 hnr),
      walk1_size hm.hu.y l1 q2 q3 hD (by rw [ey]; exact diff_bound c2 d2) (near_bound_dbl p2 c2 hnr),
      walk1_size hm.hu.z l1 q2 q3 hD (by rw [ez]; exact diff_bound c3 d3) (near_bound_dbl p3 c3 hnr),
      walk1_size hm.hu.e l1 q2 q3 hD (by rw [ee]; exact diff_bound c4 d4) (near_bound_dbl p4 c4 hnr)⟩
  · obtain ⟨g, hg⟩ := hlone hd
    have hsg : s = g := by
      rw [hg] at hs
      simpa using hs
    subst hsg
    have hsf : f = s := by
      rw [hg] at f1
      simpa using f1.symm
    subst hsf
    obtain ⟨c1, c2, c3, c4⟩ := hus.coord _ hst
    rw [show b.stateB.real.position = A.position.real from heq] at c1 c2 c3 c4
    exact ⟨(near_bound_dbl p1 c1 hnr).trans (by norm_num), (near_bound_dbl p2 c2 hnr).trans (by norm_num),
      (near_bound_dbl p3 c3 hnr).trans (by norm_num), (near_bound_dbl p4 c4 hnr).trans (by norm_num)⟩

/-- The begin and end of segments are not too late. -/
theorem plan_clock {fw : Firmware} {states : List (PState Dbl)} (hreg : Regular (states.map PState.real))
    (hus : Usual (states.map PState.real)) (hbr : Brief (states.map PState.real)) {bs : List (Block Dbl)}
    (h : plan fw states = .ok bs) : ∀ {n : ℕ} {b : Block Dbl}, bs[n]? = some b → ∀ {s : Segment Dbl}, s ∈ b.segments →
    s.tBegin.r ≤ 1000000 := by
  intro n b hn s hs
  have hroom : Roomy (b.ends :: ((bs.take n).map Block.ends).reverse) := by
    rw [← take_ends hn]
    exact (plan_roomy hreg hus hbr h (n + 1) (getElem?_lt hn)).1
  obtain ⟨_, _, f, l, h1, h2, h3, h4⟩ := (plan_times hreg hus h).1 n b hn
  have := (abs_le.1 ((h4 hroom).trans hroom.1)).2
  obtain ⟨a1, a2, a3⟩ := ahead_mem h3 s hs
  linarith

theorem soon_chain {τ : ℝ} : ∀ {ss : List (Segment Dbl)} {t : Dbl}, Soon τ t ss →
    (∀ s ∈ ss, Bounded4 s.posBegin ∧ s.tBegin.r ≤ 1000000) → ss.IsChain fun g g' => g'.tBegin.r ≤ g.tEnd.r + τ
  | [], _, _, _ => List.isChain_nil
  | [_], _, _, _ => List.isChain_singleton _
  | a :: b :: ss, t, h, hb => by
    rw [List.isChain_cons_cons]
    obtain ⟨b1, b2⟩ := hb b (by simp)
    exact ⟨h.2.1 b1 b2, soon_chain h.2 fun s hs => hb s (List.mem_cons_of_mem _ hs)⟩

theorem ahead_chain : ∀ {ss : List (Segment Dbl)} {t t' : Dbl}, Ahead t ss t' →
    ss.IsChain fun g g' => g.tEnd.r ≤ g'.tBegin.r
  | [], _, _, _ => List.isChain_nil
  | [_], _, _, _ => List.isChain_singleton _
  | a :: b :: ss, t, t', h => by
    rw [List.isChain_cons_cons]
    exact ⟨h.2.2.1, ahead_chain h.2.2⟩

theorem chain_mem {α : Type} {R : α → α → Prop} : ∀ {l : List α}, l.IsChain R → l.IsChain fun a b => R a b ∧ b ∈ l
  | [], _ => List.isChain_nil
  | [_], _ => List.isChain_singleton _
  | a :: b :: l, h => by
    rw [List.isChain_cons_cons] at h ⊢
    refine ⟨⟨h.1, by simp⟩, (chain_mem h.2).imp fun x y hxy => ⟨hxy.1, List.mem_cons_of_mem _ hxy.2⟩⟩

theorem chain_both {α : Type} {R S : α → α → Prop} : ∀ {l : List α}, l.IsChain R → l.IsChain S →
    l.IsChain fun a b => R a b ∧ S a b
  | [], _, _ => List.isChain_nil
  | [_], _, _ => List.isChain_singleton _
  | a :: b :: l, h, g => by
    rw [List.isChain_cons_cons] at h g ⊢
    exact ⟨⟨h.1, g.1⟩, chain_both h.2 g.2⟩

/-- **C117** Whenever planning an executable program of usual size succeeds with doubles, whatever the firmware: every
segment of the path begins when the one before it ends, at most a nanosecond earlier and at most `lull F a` seconds later,
where `F` and `a` are the feedrate and the acceleration of its move. -/
theorem c117_path {fw : Firmware} {states : List (PState Dbl)} (hreg : Regular (states.map PState.real))
    (hus : Usual (states.map PState.real)) (hbr : Brief (states.map PState.real)) {bs : List (Block Dbl)}
    (h : plan fw states = .ok bs) : (unpack bs).IsChain fun g g' => g.tEnd.r - 1e-9 ≤ g'.tBegin.r ∧
      ∃ b ∈ bs, g' ∈ b.segments ∧ g'.tBegin.r ≤ g.tEnd.r + lull b.stateB.speed.r b.stateB.pAcc.r := by
  have hl := plan_lulls hreg hus h
  have hroom : ∀ {n : ℕ} {b : Block Dbl}, bs[n]? = some b → Roomy (b.ends :: ((bs.take n).map Block.ends).reverse) := by
    intro n b hn
    rw [← take_ends hn]
    exact (plan_roomy hreg hus hbr h (n + 1) (getElem?_lt hn)).1
  have hall : ∀ {n : ℕ} {b : Block Dbl}, bs[n]? = some b → ∀ s ∈ b.segments, Bounded4 s.posBegin ∧ s.tBegin.r ≤ 1000000 :=
    fun hn s hs => ⟨plan_bounded hreg hus hbr h hn hs, plan_clock hreg hus hbr h hn hs⟩
  unfold unpack
  rw [List.flatMap_def]
  rw [List.isChain_flatten]
  · constructor
    · intro l hl'
      obtain ⟨b, hb, rfl⟩ := List.mem_map.1 hl'
      obtain ⟨n, hn⟩ := List.getElem?_of_mem hb
      obtain ⟨t, k1, _⟩ := (hl.1 n b hn).2 (hroom hn)
      obtain ⟨_, _, f, m, _, _, k2, _⟩ := (hl.1 n b hn).1
      have c1 := chain_mem (soon_chain k1 (hall hn))
      have c2 := ahead_chain k2
      refine (chain_both c1 c2).imp fun g g' hg => ?_
      exact ⟨by linarith [hg.2], b, hb, hg.1.2, hg.1.1⟩
    · rw [List.isChain_map, List.isChain_iff_getElem]
      intro n hn
      have e0 : bs[n]? = some bs[n] := List.getElem?_eq_getElem _
      have e1 : bs[n + 1]? = some bs[n + 1] := List.getElem?_eq_getElem _
      obtain ⟨j1, j2⟩ := hl.2 n _ _ e0 e1
      have hr := hroom e1
      rw [take_ends e0] at hr
      obtain ⟨l, f, i1, i2, i3⟩ := j1 hr
      obtain ⟨l', k1, k2⟩ := j2 hr
      rw [i1] at k1
      cases k1
      intro x hx y hy
      rw [i1] at hx
      rw [i2] at hy
      cases hx
      cases hy
      have hf := List.mem_of_head? i2
      obtain ⟨q1, q2⟩ := hall e1 _ hf
      refine ⟨i3, bs[n + 1], List.getElem_mem _, hf, ?_⟩
      cases hss : bs[n + 1].segments with
      | nil => rw [hss] at i2; cases i2
      | cons z zs =>
        rw [hss] at i2 k2
        cases i2
        exact k2.1 q1 q2
  · intro hm
    obtain ⟨b, hb, hb'⟩ := List.mem_map.1 hm
    obtain ⟨n, hn⟩ := List.getElem?_of_mem hb
    obtain ⟨_, _, f, m, h2, _⟩ := (hl.1 n b hn).1
    rw [hb'] at h2
    cases h2

/-- **C117, start.** The first segment begins at most `lull F a` seconds after the start. -/
theorem c117_start {fw : Firmware} {states : List (PState Dbl)} (hreg : Regular (states.map PState.real))
    (hus : Usual (states.map PState.real)) (hbr : Brief (states.map PState.real)) {bs : List (Block Dbl)}
    (h : plan fw states = .ok bs) {b : Block Dbl} (hb : bs[0]? = some b) :
    ∃ s, b.segments.head? = some s ∧ s.tBegin.r ≤ lull b.stateB.speed.r b.stateB.pAcc.r := by
  have hroom : Roomy (b.ends :: ((bs.take 0).map Block.ends).reverse) := by
    rw [← take_ends hb]
    exact (plan_roomy hreg hus hbr h 1 (getElem?_lt hb)).1
  obtain ⟨⟨_, _, f, m, k1, _⟩, k2⟩ := (plan_lulls hreg hus h).1 0 b hb
  obtain ⟨t, k3, k4⟩ := k2 hroom
  have ht : t = 0 := k4 rfl
  subst ht
  refine ⟨f, k1, ?_⟩
  have hf := List.mem_of_head? k1
  have q1 := plan_bounded hreg hus hbr h hb hf
  have q2 := plan_clock hreg hus hbr h hb hf
  cases hss : b.segments with
  | nil => rw [hss] at k1; cases k1
  | cons z zs =>
    rw [hss] at k1 k3
    cases k1
    have := k3.1 q1 q2
    rw [Dbl.r_zero] at this
    linarith

/-- **C117, queries.** A query without a history, at a time from the begin of the path to before its end, raises no other
exception than `TypeError`, and this one only in the time between two segments, of which the second begins at most
`lull F a` seconds after the end of the first, at the same place within `2e-8` mm for every block. -/
theorem c117_query {fw : Firmware} {states : List (PState Dbl)} (hreg : Regular (states.map PState.real))
    (hus : Usual (states.map PState.real)) (hbr : Brief (states.map PState.real)) {bs : List (Block Dbl)}
    (h : plan fw states = .ok bs) {T t : Dbl} {s : Segment Dbl} (hT : endTime bs = .ok T)
    (hs : (unpack bs).head? = some s) (h0 : s.tBegin.r ≤ t.r) (h1 : t.r < T.r) {e : PyErr}
    (he : (getValues (unpack bs) "SImm" none t none).1 = .error e) : e = .typeError ∧
      ∃ b ∈ bs, ∃ g ∈ unpack bs, ∃ g' ∈ b.segments, g.tEnd.r ≤ t.r ∧ t.r < g'.tBegin.r ∧
        g'.tBegin.r ≤ g.tEnd.r + lull b.stateB.speed.r b.stateB.pAcc.r ∧
        Near4 (2 * bs.length * 1e-8) g'.posBegin g.posEnd.real := by
  rcases c114_gaps hreg hus h hT hs h0 h1 with ⟨v, p, hq⟩ | ⟨hq, _⟩
  · rw [hq] at he
    cases he
  · rw [hq] at he
    refine ⟨by cases he; rfl, ?_⟩
    unfold endTime at hT
    cases hl : bs.getLast? with
    | none => rw [hl] at hT; cases hT
    | some l =>
      rw [hl] at hT
      simp only [Block.lastSeg] at hT
      cases hs' : l.segments.getLast? with
      | none => rw [hs'] at hT; cases hT
      | some s' =>
        rw [hs'] at hT
        simp only [Except.map, Except.ok.injEq] at hT
        subst hT
        have hlast := getLast?_segments_dbl hl hs'
        have hch := chain_both (plan_chain hreg hus h) (c117_path hreg hus hbr h)
        have hch' : (unpack bs).IsChain fun g g' => g'.tBegin = g.tEnd ∨ (Near4 (2 * bs.length * 1e-8) g'.posBegin g.posEnd.real ∧
            ∃ b ∈ bs, g' ∈ b.segments ∧ g'.tBegin.r ≤ g.tEnd.r + lull b.stateB.speed.r b.stateB.pAcc.r) :=
          hch.imp fun g g' hg => hg.1.imp id fun hn => ⟨hn, hg.2.2⟩
        rcases path_cover hch' hs hlast h0 h1 with ⟨g, h4, h5⟩ | ⟨g, h4, g', h5, ⟨h6, b, h7, h8, h9⟩, h10, h11⟩
        · exfalso
          cases hsf : searchFresh t 0 (unpack bs) with
          | none => exact searchFresh_none_dbl hsf g h4 h5
          | some r =>
            have hfind : findSegment (unpack bs) t none = .ok (some r) := by
              unfold findSegment
              rw [hlast]
              simp only
              rw [if_neg (by rw [Dbl.lt_iff]; linarith), if_pos (show useFresh (unpack bs) t none = true from rfl), hsf]
            obtain ⟨k4, k5, k6⟩ := searchFresh_dbl hsf
            obtain ⟨g, i⟩ := r
            simp only at hfind k4 k5 k6
            have hf : (simScaling ((none : Option String).getD "SImm") : Except PyErr Dbl) = .ok 1 := by
              unfold simScaling
              rw [if_neg (by decide), if_pos (by rfl)]
            unfold getValues at hq
            rw [hfind] at hq
            simp only [getPosition_dbl k5 k6.le, getVelocity_dbl k5 k6.le, hf, bind, Except.bind] at hq
            cases hq
        · exact ⟨b, h7, g, h4, g', h8, h10, h11, h9, h6⟩

/-! ## Examples -/

theorem Demo.gap_usual : Usual (Demo.gap.map PState.real) := by
  obtain ⟨A, B, L, hmap, hact, hv, ha, hp, hL, hlow, hup, hall⟩ := Demo.gap_move
  have hmod := Demo.gap_moderate
  have he : ∀ s ∈ Demo.gap.map PState.real, s.position.e = 0 := by
    intro s hs
    obtain ⟨q, hq, rfl⟩ := List.mem_map.1 hs
    simp only [Demo.gap, List.mem_cons, List.not_mem_nil, or_false] at hq
    rcases hq with rfl | rfl <;> exact Dbl.r_zero
  refine ⟨hmod.coord, ?_, hmod.length, ?_, hmod.count⟩
  · intro s hs
    rw [hmap] at hs
    obtain ⟨_, _, _, _, e5, e6, _⟩ := hall s hs
    rw [e5, e6]
    norm_num
  · intro pre A' B' post h hne
    have hl := hmod.length pre A' B' post h hne
    rw [he A' (by rw [h]; simp), he B' (by rw [h]; simp), _root_.sub_self, abs_zero]
    linarith

theorem Demo.gap_brief : Brief (Demo.gap.map PState.real) := by
  obtain ⟨A, B, L, hmap, hact, hv, ha, hp, hL, hlow, hup, hall⟩ := Demo.gap_move
  rw [hmap]
  constructor
  · intro s hs
    obtain ⟨_, _, _, _, e5, _⟩ := hall s hs
    rw [e5]
    norm_num
  · rw [hact]
    simp only [List.map_cons, List.map_nil, List.sum_cons, List.sum_nil, span, hp, hL, hv, ha]
    linarith

/-- The move of C99 with klipper: at 0.05 s there is no segment. -/
theorem Demo.gap_klipper : (match plan .klipper Demo.gap with
    | .ok bs => (match (getValues (unpack bs) "SImm" none (0.05 : Dbl) none).1 with
      | .error .typeError => (match endTime bs, (unpack bs).head? with
        | .ok T, some s => decide (s.tBegin.val ≤ (0.05 : Dbl).val ∧ (0.05 : Dbl).val < T.val)
        | _, _ => false)
      | _ => false)
    | .error _ => false) = true := by
  decide +kernel

/-- The hypotheses of C117 hold for it, and the gap is shorter than a microsecond. -/
example : ∃ (bs : List (Block Dbl)), plan .klipper Demo.gap = .ok bs ∧
    (getValues (unpack bs) "SImm" none (0.05 : Dbl) none).1 = .error .typeError ∧
    ∃ g ∈ unpack bs, ∃ g' ∈ unpack bs, g.tEnd.r ≤ (0.05 : Dbl).r ∧ (0.05 : Dbl).r < g'.tBegin.r ∧
      g'.tBegin.r ≤ g.tEnd.r + 1e-6 := by
  have hk := Demo.gap_klipper
  split at hk
  · rename_i bs hbs
    split at hk
    · rename_i hq
      split at hk
      · rename_i T s hT hs
        rw [decide_eq_true_eq] at hk
        obtain ⟨_, b, hb, g, hg, g', hg', k1, k2, k3, _⟩ := c117_query Demo.gap_regular Demo.gap_usual Demo.gap_brief hbs hT hs
          ((Rat.cast_le (K := ℝ)).2 hk.1) ((Rat.cast_lt (K := ℝ)).2 hk.2) hq
        refine ⟨bs, hbs, hq, g, hg, g', List.mem_flatMap.2 ⟨b, hb, hg'⟩, k1, k2, k3.trans ?_⟩
        obtain ⟨A, B, L, hmap, hact, hv, ha, hp, hL, hlow, hup, hall⟩ := Demo.gap_move
        have hst : b.stateB.real ∈ Demo.gap.map PState.real := by
          have hm := (plan_fits Demo.gap_regular Demo.gap_usual hbs).1
          have : (b.stateA.map PState.real, b.stateB.real) ∈ active none (Demo.gap.map PState.real) := by
            rw [← hm]
            exact List.mem_map_of_mem hb
          exact active_mem this
        rw [hmap] at hst
        obtain ⟨_, _, _, _, e5, e6, _⟩ := hall _ hst
        have e5' : b.stateB.speed.r = 50 := e5
        have e6' : b.stateB.pAcc.r = 1000 := e6
        rw [e5', e6']
        unfold lull
        have hsq : (31 : ℝ) ≤ √1000 := Real.le_sqrt_of_sq_le (by norm_num)
        have : 2.5e-5 / √1000 ≤ 2.5e-5 / (31 : ℝ) := by gcongr
        norm_num at this ⊢
        linarith
      · cases hk
    · cases hk
  · cases hk

end PyGCD
