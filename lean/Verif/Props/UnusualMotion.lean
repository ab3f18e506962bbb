import Verif.Spec.Journey
import Verif.Props.Closed
import Verif.Props.InverseTime
import Verif.Props.Itinerary
import Verif.Props.Results
import Verif.Props.Texts
import Verif.Props.UnusualPlots
import Verif.Props.Warnings

/-!
# Properties C34, C42, C68, C78, C98, C102, C104 and C106 for every program that can be planned

Here feedrates may be zero, and lines may both move and pause; the machine then is not where the program says.
`Demo.lossy` is such a program.
-/

set_option linter.unusedSectionVars false
set_option linter.unusedSimpArgs false

namespace PyGCD
open Vec4 Spec

variable {fw : Firmware} {states : List (PState ℝ)} {bs : List (Block ℝ)}

/-! ## C98 -/

theorem doings_anch {bs' : List (Block ℝ)} (h : List.Forall₂ (Does fw) bs' (tasks none none states)) :
    bs'.map (fun b => (b.stateA, b.stateB)) = doings states := by
  rw [doings, ← tasks_fst, List.map_map]
  generalize tasks none none states = xs at h
  induction h with
  | nil => rfl
  | cons hx _ ih =>
    rw [List.map_cons, List.map_cons, ih, hx.1.1, hx.1.2]
    rfl

/-- **C98**, also with feedrates of zero and with lines that move and pause: with default junction handling every answer of
`get_values` is the position and the velocity of the closed formulas, for what the machine does. -/
theorem c98_answers_sensible (hsens : Sensible states) (h : plan .default states = .ok bs) {own : String}
    {u : Option String} {f : ℝ} (hf : InUnit (u.getD own) f) {last : Option Nat} {t : ℝ} {v p : Vec4 ℝ}
    (hq : (getValues (unpack bs) own u t last).1 = .ok (v, p)) :
    ∃ p₀ v₀, restMotion (doings states) t = some (p₀, v₀) ∧ p = p₀.mul f ∧ v = v₀.mul f := by
  obtain ⟨s, i, g, w, q, h1, h2, h3, h4, h5, h6, _⟩ := getValues_inv hq
  have hg : g = f := by
    rw [hf.scaling] at h2
    cases h2
    rfl
  subst hg
  obtain ⟨m, hc⟩ := findSegment_sound h1
  obtain ⟨bs', a1, a2, a3, a4, a5, a6, a7⟩ := plan_anchored_opt hsens h
  rw [show unpack bs = unpack bs' from path_anch a1] at m
  have hact := doings_anch a3
  cases bs' with
  | nil => simp [unpack] at m
  | cons b bs' =>
    obtain ⟨_, r⟩ := rest_path (a6 fun _ _ _ => rfl) a2.chain b rfl s (List.mem_of_getElem? m)
    obtain ⟨p₀, v₀, r1, r2, r3⟩ := r t hc
    rw [h3] at r1
    rw [h4] at r2
    cases r1
    cases r2
    rw [(a2.first b rfl).1, sub_zero, hact] at r3
    exact ⟨_, _, r3, h6, h5⟩

/-- **C98**, also with feedrates of zero and with lines that move and pause: at every time from the start to before the end,
`get_values` reports what the closed formulas say. -/
theorem c98_motion_sensible (hsens : Sensible states) (h : plan .default states = .ok bs) {own : String}
    {u : Option String} {f : ℝ} (hf : InUnit (u.getD own) f) (last : Option Nat) {T : ℝ}
    (hT : EndTime (Spec.path bs) T) {t : ℝ} (h0 : 0 ≤ t) (h1 : t < T) :
    ∃ p v, restMotion (doings states) t = some (p, v) ∧
      (getValues (unpack bs) own u t last).1 = .ok (v.mul f, p.mul f) := by
  obtain ⟨s, _, v, p, _, _, _, h5⟩ := (c93_answers hsens h hT hf last [] t).1 h0 h1
  have h6 : (getValues (unpack bs) own u t last).1 = .ok (v.mul f, p.mul f) := h5
  obtain ⟨p₀, v₀, r1, r2, r3⟩ := c98_answers_sensible hsens h hf h6
  exact ⟨p₀, v₀, r1, by rw [h6, r2, r3]⟩

/-! ## C34 -/

/-- **C34, the start**, also with feedrates of zero and with lines that move and pause: at time 0 the position is the one of
the program before the first move that is carried out, whatever was asked before. Moves with feedrate zero before it shift
the initial position. -/
theorem c34_start_sensible (hsens : Sensible states) (h : plan fw states = .ok bs) {x : Step}
    (hx : (executed none none states).head? = some x) {own : String} {u : Option String} {f : ℝ}
    (hf : InUnit (u.getD own) f) (start : Option Nat) (history : List (ℝ × Option String)) :
    x.src = x.A.position ∧ ∃ v, (getValues (unpack bs) own u 0 (queryHistory (unpack bs) own history start)).1 =
      .ok (v, x.A.position.mul f) := by
  have hsrc : ∀ (l : List (PState ℝ)) (A : Option (PState ℝ)), (executed none A l).head? = some x → x.src = x.A.position := by
    intro l
    induction l with
    | nil =>
      intro A hA
      rw [executed] at hA
      cases hA
    | cons s l ih =>
      intro A hA
      cases A with
      | none =>
        rw [executed] at hA
        exact ih _ hA
      | some A =>
        rw [executed] at hA
        simp only [Option.getD_none] at hA
        by_cases h1 : s.pause ≠ none
        · rw [if_pos h1] at hA
          cases hA
          rfl
        · rw [if_neg h1] at hA
          by_cases h2 : Executes A s
          · rw [if_pos h2] at hA
            cases hA
            rfl
          · rw [if_neg h2] at hA
            exact ih _ hA
  have hs := hsrc _ _ hx
  refine ⟨hs, ?_⟩
  obtain ⟨bs', a1, hr, a3, -⟩ := plan_anchored_opt hsens h
  have hup : Spec.path bs = Spec.path bs' := path_anch a1
  have htl := hr.isTimeline
  rw [← tasks_fst] at hx
  generalize tasks none none states = xs at a3 hx
  cases a3 with
  | nil => cases hx
  | @cons b y tl xs hb hbs =>
    simp only [List.map_cons, List.head?_cons, Option.some.injEq] at hx
    have hg := hr.good b (by simp)
    obtain ⟨hb0, _, hbp⟩ := hr.first b rfl
    rcases hg with ⟨A, w, s0, s1, hm⟩ | ⟨A, q, hm⟩
    swap
    · rw [hm.hpause] at hbp
      cases hbp
    obtain ⟨s, s', g1, g2, g3, g4, g5, g6, g7, g8, g9, g10⟩ := hm.ends
    have hup' : Spec.path (b :: tl) = b.segments ++ Spec.path tl := by rw [Spec.path, List.flatMap_cons]; rfl
    have hh : (Spec.path (b :: tl)).head? = some s := by rw [hup', List.head?_append, g1]; rfl
    have hm0 : s ∈ Spec.path (b :: tl) := List.mem_of_head? hh
    obtain ⟨l, hl⟩ : ∃ l, (Spec.path (b :: tl)).getLast? = some l := by
      cases hl : (Spec.path (b :: tl)).getLast? with
      | none => rw [List.getLast?_eq_none_iff.1 hl] at hh; cases hh
      | some l => exact ⟨l, rfl⟩
    have h0 := htl.start s hh
    have hm1 : s' ∈ Spec.path (b :: tl) := by
      rw [hup']
      exact List.mem_append_left _ (List.mem_of_getLast? g2)
    have hpos : 0 < l.tEnd := by
      have hlt := hm.facts.2.2.2.2.2
      have hle := htl.part
      rw [show unpack (b :: tl) = Spec.path (b :: tl) from rfl] at hle
      cases hu : Spec.path (b :: tl) with
      | nil => rw [hu] at hh; cases hh
      | cons y' ys =>
        rw [hu] at hle hl hm1
        have := hle.le_last hl s' hm1
        linarith
    obtain ⟨z, hz, v, p, hc, hv, hp, hgv⟩ := (c93_answers hsens h ⟨l, by rw [hup]; exact hl, rfl⟩ hf start history 0).1
      (le_refl _) hpos
    rw [hup] at hz
    have := htl.part.position_unique z hz s hm0 hc ⟨h0.le, by rw [← h0]; exact htl.duration s hm0⟩
    rw [hp, ← h0, getPosition_begin (htl.duration s hm0), Except.ok.injEq] at this
    have hA := hm.hA
    rw [hb.1.1, Option.some.injEq] at hA
    refine ⟨v.mul f, ?_⟩
    rw [hgv, this, g4, ← hA, ← hs, hx]

/-- A move with feedrate zero before the first move: the machine begins where the zero feedrate move would have ended. -/
theorem Demo.lost_start : ∃ bs v, plan .default [Demo.s1, Demo.zeroFeed, Demo.afterZero] = .ok bs ∧
    Demo.s1.position = ⟨10, 0, 0, 1⟩ ∧
    (getValues (unpack bs) "SImm" none 0 none).1 = .ok (v, ⟨20, 0, 0, 1⟩) := by
  have hsens : Sensible [Demo.s1, Demo.zeroFeed, Demo.afterZero] := by
    have hall : ∀ s ∈ [Demo.s1, Demo.zeroFeed, Demo.afterZero], 0 ≤ s.speed ∧ 0 < s.pAcc ∧ 0 ≤ s.jerk := by
      intro s hs
      simp only [List.mem_cons, List.not_mem_nil, or_false] at hs
      rcases hs with rfl | rfl | rfl <;> norm_num [Demo.s1, Demo.zeroFeed, Demo.afterZero]
    exact ⟨fun s hs => (hall s hs).1, fun s hs => (hall s hs).2.1, fun s hs => (hall s hs).2.2⟩
  have hpf : PausesFollow [Demo.s1, Demo.zeroFeed, Demo.afterZero] := by
    intro pre s post h p hp
    have hs : s ∈ [Demo.s1, Demo.zeroFeed, Demo.afterZero] := by rw [h]; simp
    simp only [List.mem_cons, List.not_mem_nil, or_false] at hs
    rcases hs with rfl | rfl | rfl <;> cases hp
  obtain ⟨bs, h⟩ := (c86_plannable .default hsens).2 hpf
  have hx : (executed none none [Demo.s1, Demo.zeroFeed, Demo.afterZero]).head? =
      some ⟨Demo.zeroFeed, Demo.afterZero, ⟨20, 0, 0, 1⟩, ⟨30, 0, 0, 1⟩⟩ := by
    rw [executed_none, executed_skip rfl (by simpa using Demo.stands_zero),
      executed_run (src := ⟨20, 0, 0, 1⟩) (dst := ⟨30, 0, 0, 1⟩) Demo.runs_after rfl
        (by ext <;> norm_num [Demo.zeroFeed, Demo.afterZero, Vec4.add, Vec4.sub])]
    rfl
  obtain ⟨_, v, hv⟩ := c34_start_sensible hsens h hx (own := "SImm") (u := none) (f := 1) (Or.inr (Or.inl ⟨rfl, rfl⟩)) none []
  refine ⟨bs, v, h, rfl, ?_⟩
  have : (getValues (unpack bs) "SImm" none 0 none).1 = .ok (v, Demo.zeroFeed.position.mul 1) := hv
  rw [this]
  simp [Demo.zeroFeed, Vec4.mul]

/-! ## C42 -/

/-- **C42, the exact law**, also with feedrates of zero and with lines that move and pause: distances count from where the
machine is. -/
theorem c42_law_sensible (hsens : Sensible states) (h : plan fw states = .ok bs) {b : Block ℝ} (hb : b ∈ bs) :
    ∃ x ∈ executed none none states, b.stateA = some x.A ∧ b.stateB = x.B ∧ ∀ d, 0 < d → d ≤ (x.dst.sub x.src).norm3 →
      ∃ t s, b.inverseTimeAtPos d = .ok t ∧ s ∈ b.segments ∧ Covers s t ∧
        (s.posBegin.sub x.src).norm3 < d ∧ d ≤ (s.posEnd.sub x.src).norm3 ∧
        s.getPosition t = .ok (x.src.add ((x.dst.sub x.src).mul
          ((if s.velBegin.norm3 ≤ s.velEnd.norm3 then d else d - x.B.pAcc * (t - s.tBegin) ^ 2) /
            (x.dst.sub x.src).norm3))) ∧
        s.tBegin < t := by
  obtain ⟨b', e1, _, hg, x, hx, hc, e3, e4⟩ := block_anchored hsens h hb
  refine ⟨x, hx, hc.stateA, hc.stateB, fun d h0 h1 => ?_⟩
  have := hg.inverse_law e3 (L := (x.dst.sub x.src).norm3) (by rw [e4]) h0 h1
  rw [e4] at this
  unfold Block.inverseTimeAtPos at this ⊢
  rw [e1]
  exact this

/-! ## C102, C104, C106 -/

theorem TitleTells.of_segments {b b' : Block ℝ} (h : b.segments = b'.segments) (ht : TitleTells b') : TitleTells b := by
  unfold TitleTells Block.text at *
  rw [h]
  exact ht

/-- **C102**, what holds, also with feedrates of zero and with lines that move and pause. What is missing are moves with two
segments that do not both accelerate and brake, for which it is false (`c102_refuted`). -/
theorem c102_titles_sensible_partial (hsens : Sensible states) (h : plan fw states = .ok bs) : ∀ b ∈ bs, TitleTells b ∨
      (Titled "Triangular Planner Block".toList b.text ∧ ∃ s₁ s₂, b.segments = [s₁, s₂] ∧
        ((SpeedsUp s₁ ∧ Steady s₂) ∨ (Steady s₁ ∧ SlowsDown s₂))) := by
  intro b hb
  obtain ⟨b', e1, _, hg, _⟩ := block_anchored hsens h hb
  rcases good_titles hg with g | g
  · exact Or.inl (g.of_segments e1)
  · refine Or.inr ?_
    unfold Block.text at *
    rwa [e1]

/-- **C102** for default junction handling, also with feedrates of zero and with lines that move and pause. -/
theorem c102_default_sensible_partial (hsens : Sensible states) (h : plan .default states = .ok bs) :
    ∀ b ∈ bs, TitleTells b := by
  intro b hb
  obtain ⟨bs', a1, a2, a3, a4, a5, a6, a7⟩ := plan_anchored_opt hsens h
  obtain ⟨b', hb', ha⟩ := (forall₂_mem a1).1 b hb
  exact (rest_titles (a2.good b' hb') (a6 (fun _ _ _ => rfl) b' hb')).of_segments ha.segs

/-- **C104**, also with feedrates of zero and with lines that move and pause: printing a planned segment gives a text with
its begin and its end, and never an error. -/
theorem c104_segments_sensible (hsens : Sensible states) (h : plan fw states = .ok bs) (num : ℝ → List Char) :
    ∀ b ∈ bs, ∀ s ∈ b.segments, ∃ pre mid post,
      s.text num = .ok (pre ++ positionText num s.posBegin ++ mid ++ positionText num s.posEnd ++ post) := by
  intro b hb
  obtain ⟨b', e1, _, hg, x, hx, hc, e3, e4⟩ := block_anchored hsens h hb
  rw [e1]
  refine good_segment_text hg ?_ num
  rw [e4]
  rw [← tasks_fst] at hx
  obtain ⟨y, hy, rfl⟩ := List.mem_map.1 hx
  exact hsens.speed y.1.B (tasks_mem hy)

/-- **C106**, if a caller sets the attribute, also with feedrates of zero and with lines that move and pause. -/
theorem c106_error_sensible_partial (hsens : Sensible states) (h : plan fw states = .ok bs) :
    ∀ b ∈ bs, b.stateB.pause = none → 1e-8 < b.stateB.speed → ∀ s ∈ b.segments, ∀ r f,
      SpeedOf s f → ∃ r' e, s.calcResults (some r) b.stateB.speed = .ok r' ∧ getResult (some r') "segm_error" = .ok (some [e, e]) ∧
        |e - errorOnTheWay s f b.stateB.speed| ≤
          1e-8 * b.stateB.speed * (1 + 1 / b.stateB.pAcc) + 1e-24 / (3 * b.stateB.pAcc * b.stateB.speed) := by
  intro b hb hp hs
  obtain ⟨b', e1, e2, hg, x, hx, hc, e3, e4⟩ := block_anchored hsens h hb
  have k1 : b.stateB.speed = b'.stateB.speed := by rw [hc.stateB, e4]
  have k2 : b.stateB.pAcc = b'.stateB.pAcc := by rw [hc.stateB, e4]
  rw [k1, k2, e1]
  exact good_error hg (by rw [← e2]; exact hp) (by rw [← k1]; exact hs)

/-! ## C68 -/

/-- The times at which the blocks of a run end. -/
theorem SoundRun.times (hr : SoundRun bs) : ∃ τ : Nat → ℝ, τ 0 = 0 ∧ (∀ b ∈ bs.getLast?, τ bs.length = b.t1) ∧
    ∀ i b, bs[i]? = some b → b.t0 = τ i ∧ b.t1 = τ (i + 1) := by
  refine ⟨fun n => match n with | 0 => 0 | n + 1 => (bs[n]?.map Block.t1).getD 0, rfl, ?_, ?_⟩
  · intro b hb
    rw [List.getLast?_eq_getElem?] at hb
    cases hn : bs.length with
    | zero =>
      rw [List.length_eq_zero_iff.1 hn] at hb
      cases hb
    | succ n =>
      rw [hn, Nat.add_sub_cancel] at hb
      simp only [Option.mem_def.1 hb, Option.map_some, Option.getD_some]
  · intro i b hb
    refine ⟨?_, by simp [hb]⟩
    cases i with
    | zero => exact (hr.first b (by rw [List.head?_eq_getElem?]; exact hb)).1
    | succ i =>
      obtain ⟨hi, hb'⟩ := List.getElem?_eq_some_iff.1 hb
      have := List.isChain_iff_getElem.1 hr.chain i hi
      simp only [List.getElem?_eq_getElem (Nat.lt_of_succ_lt hi), Option.map_some, Option.getD_some]
      rw [← hb']
      exact this.2.2.2

/-- **C68**, also with feedrates of zero and with lines that move and pause: there are times, from `0` to the end of the
print, between which the machine goes straight from each place of its journey to the next one, or waits as long as it is
told. Whatever was asked before and in whichever unit, `get_values` gives these positions. -/
theorem c68_itinerary_sensible (hsens : Sensible states) (h : plan fw states = .ok bs) {T : ℝ}
    (hT : EndTime (Spec.path bs) T) :
    ∃ τ pos, Itinerary (journey states) τ T pos ∧ ∀ own u f, InUnit (Option.getD u own) f → ∀ start history t,
        (0 ≤ t → t < T → ∃ v p,
          (getValues (unpack bs) own u t (queryHistory (unpack bs) own history start)).1 = .ok (v, p)) ∧
        ∀ v p, (getValues (unpack bs) own u t (queryHistory (unpack bs) own history start)).1 = .ok (v, p) →
          p = (pos t).mul f := by
  obtain ⟨bs', a1, hr, a3, -⟩ := plan_anchored_opt hsens h
  have hup : unpack bs = unpack bs' := path_anch a1
  have hpart := hr.isTimeline.part
  obtain ⟨pos, hpos⟩ := hpart.gives
  obtain ⟨τ, h1, h2, h3⟩ := hr.times
  replace a3 : List.Forall₂ (fun b x => OfA b x) bs' (executed none none states) := by
    rw [← tasks_fst, List.forall₂_map_right_iff]
    exact a3.imp fun _ _ hx => hx.1
  have hTb : EndTime (Spec.path bs') T := by
    rw [← path_anch a1]
    exact hT
  have hne : bs' ≠ [] := by
    rintro rfl
    obtain ⟨s, hs, _⟩ := hTb
    cases hs
  obtain ⟨l, hl⟩ : ∃ l, bs'.getLast? = some l := by
    cases hl : bs'.getLast? with
    | none => exact absurd (List.getLast?_eq_none_iff.1 hl) hne
    | some l => exact ⟨l, rfl⟩
  have hgl := hr.good l (List.mem_of_getLast? hl)
  have hfin : τ bs'.length = T := by
    obtain ⟨_, _, s', _, _, e3, _, _, _, e7, _⟩ := hgl.facts
    obtain ⟨s, hs, rfl⟩ := hTb
    rw [getLast?_flatMap_segments hl hgl.ne_nil, e3] at hs
    cases hs
    rw [h2 l hl, e7]
  -- the places
  have hlen : (journey states).length = bs'.length + 1 := by
    unfold journey
    have := a3.length_eq
    generalize executed none none states = xs at a3 this ⊢
    cases xs with
    | nil => cases a3; exact absurd rfl hne
    | cons x xs => simp [this]
  have hto : ∀ i b, bs'[i]? = some b → (journey states)[i + 1]? = some (b.stateB.position, b.stateB.pause) := by
    intro i b hb
    unfold journey
    generalize executed none none states = xs at a3 ⊢
    cases xs with
    | nil => cases a3; exact absurd rfl hne
    | cons x xs =>
      obtain ⟨hi, hb'⟩ := List.getElem?_eq_some_iff.1 hb
      have hi' : i < (x :: xs).length := by rw [← a3.length_eq]; exact hi
      have := List.forall₂_iff_get.1 a3
      have := this.2 i hi hi'
      simp only [List.get_eq_getElem] at this
      rw [hb'] at this
      simp only [List.getElem?_cons_succ, List.getElem?_map]
      rw [List.getElem?_eq_getElem hi', Option.map_some, this.2]
  have hfrom : ∀ (i : ℕ) (b : Block ℝ), bs'[i]? = some b → ∃ (A : PState ℝ) (q : Option ℝ), b.stateA = some A ∧ (journey states)[i]? = some (A.position, q) := by
    intro i b hb
    cases i with
    | zero =>
      unfold journey
      generalize executed none none states = xs at a3 ⊢
      cases a3 with
      | nil => exact absurd rfl hne
      | cons hx _ =>
        cases hb
        exact ⟨_, _, hx.1, rfl⟩
    | succ i =>
      obtain ⟨hi, hb'⟩ := List.getElem?_eq_some_iff.1 hb
      have := (List.isChain_iff_getElem.1 hr.chain i hi).1
      rw [hb'] at this
      rw [Option.map_eq_some_iff] at this
      obtain ⟨A, e1, e2⟩ := this
      refine ⟨A, bs'[i].stateB.pause, e1, ?_⟩
      rw [hto i _ (List.getElem?_eq_getElem (Nat.lt_of_succ_lt hi)), e2]
  have key : ∀ {i : ℕ} {B : Vec4 ℝ × Option ℝ}, (journey states)[i + 1]? = some B →
      ∃ (b : Block ℝ) (A : PState ℝ) (q : Option ℝ), bs'[i]? = some b ∧ b.stateA = some A ∧
      (journey states)[i]? = some (A.position, q) ∧ B = (b.stateB.position, b.stateB.pause) := by
    intro i B hB
    have hi : i < bs'.length := by
      obtain ⟨hi, _⟩ := List.getElem?_eq_some_iff.1 hB
      omega
    obtain ⟨A, q, e1, e2⟩ := hfrom i _ (List.getElem?_eq_getElem hi)
    have := hto i _ (List.getElem?_eq_getElem hi)
    rw [hB, Option.some.injEq] at this
    exact ⟨_, A, q, List.getElem?_eq_getElem hi, e1, e2, this⟩
  refine ⟨τ, pos, ⟨h1, by rw [hlen]; exact hfin, ?_, ?_, ?_, ?_⟩, ?_⟩
  · intro i A B hA hB
    obtain ⟨b, A', q, e1, e2, e3, rfl⟩ := key hB
    rw [hA, Option.some.injEq] at e3
    subst e3
    obtain ⟨t0, t1⟩ := h3 i b e1
    have hb := List.mem_of_getElem? e1
    rw [← t0, ← t1]
    exact hr.block_straight hb (fun s hs => hpos s (List.mem_flatMap.2 ⟨b, hb, hs⟩)) e2
  · intro i A B hA hB hp _
    obtain ⟨b, A', q, e1, e2, e3, rfl⟩ := key hB
    obtain ⟨t0, t1⟩ := h3 i b e1
    rw [← t0, ← t1]
    rcases hr.good b (List.mem_of_getElem? e1) with ⟨A', u, s0, s1, hm⟩ | ⟨A', q, hm⟩
    · exact hm.facts.2.2.2.2.2
    · simp only at hp
      rw [hm.hpause] at hp
      cases hp
  · intro i B p hB hp
    obtain ⟨b, A', q, e1, e2, e3, rfl⟩ := key hB
    obtain ⟨t0, t1⟩ := h3 i b e1
    simp only at hp
    have hg := hr.good b (List.mem_of_getElem? e1)
    obtain ⟨_, x, x', _, f2, f3, f4, _, _, f7, _⟩ := hg.facts
    rcases hg with ⟨A', u, s0, s1, hm⟩ | ⟨A', q, hm⟩
    · rw [hm.hpause] at hp
      cases hp
    · obtain ⟨t, ht⟩ := hm.hseg
      rw [hm.hpause, Option.some.injEq] at hp
      rw [ht] at f2 f3
      cases f2
      rw [List.getLast?_singleton, Option.some.injEq] at f3
      subst f3
      simp only at f4 f7
      linarith
  · intro i A B hA hB hp hst
    obtain ⟨b, A', q, e1, e2, e3, rfl⟩ := key hB
    rw [hA, Option.some.injEq] at e3
    subst e3
    rcases hr.good b (List.mem_of_getElem? e1) with ⟨A'', u, s0, s1, hm⟩ | ⟨A'', q, hm⟩
    · have := hm.hA
      rw [e2, Option.some.injEq] at this
      subst this
      exact absurd hst hm.hne
    · simp only at hp
      rw [hm.hpause] at hp
      cases hp
  · intro own u f hf start history t
    constructor
    · intro t0 t1
      obtain ⟨_, _, v, p, _, _, _, e⟩ := (c93_answers hsens h hT hf start history t).1 t0 t1
      exact ⟨_, _, e⟩
    intro v p hv
    obtain ⟨s, i, f', w, q, a1, a2, a3, a4, a5, a6, _⟩ := getValues_inv hv
    obtain ⟨c1, c2⟩ := findSegment_sound a1
    rw [hup] at c1
    have := hpos s (List.mem_of_getElem? c1) t c2
    rw [a4, Except.ok.injEq] at this
    rw [hf.scaling, Except.ok.injEq] at a2
    rw [a6, this, a2]

/-! ## C78 -/

theorem forall₂_speeds {l l' : List (Block ℝ)} (h : List.Forall₂ Anch l l')
    (hs : l.map (fun c => c.stateB.speed) = l'.map fun c => c.stateB.speed) :
    List.Forall₂ (fun c c' => Anch c c' ∧ c.stateB.speed = c'.stateB.speed) l l' := by
  induction h with
  | nil => exact .nil
  | cons h _ ih =>
    rw [List.map_cons, List.map_cons, List.cons.injEq] at hs
    exact .cons ⟨h, hs.1⟩ (ih hs.2)

theorem AnchL.forall₂ {l l' : List (Block ℝ)} (h : AnchL l l') : List.Forall₂ Anch l l' := by
  induction h with
  | one h _ => exact .cons h .nil
  | cons h _ ih => exact .cons h ih

theorem Anch.quiet {c c' : Block ℝ} (h : Anch c c') (hs : c.stateB.speed = c'.stateB.speed) (hg : Good c')
    (h0 : 0 ≤ c'.stateB.speed) : c.warns = false := by
  have := hg.quiet h0
  unfold Block.warns at this ⊢
  rw [h.segs, hs]
  exact this

theorem correctFromW_quiet_anch : ∀ (tl tl' rp rp' : List (Block ℝ)) (b b' : Block ℝ), Zip rp' b' →
    (∀ c ∈ tl', Good c) → (b' :: tl').IsChain Link → AnchL (b :: rp) (b' :: rp') → List.Forall₂ Anch tl tl' →
    ((b :: rp).map fun c => c.stateB.speed) = (b' :: rp').map (fun c => c.stateB.speed) →
    (tl.map fun c => c.stateB.speed) = tl'.map (fun c => c.stateB.speed) →
    (∀ c ∈ b' :: rp', 0 ≤ c.stateB.speed) → (∀ c ∈ tl', 0 ≤ c.stateB.speed) →
    ∃ out w, correctFromW rp b tl = .ok (out, w) ∧ (∀ x ∈ w, x = false) ∧ tl.length + 1 ≤ w.length := by
  intro tl
  induction tl with
  | nil =>
    intro tl' rp rp' b b' hz _ _ ha _ hsp _ hs _
    refine ⟨rp.reverse ++ [b], [b.warns], ?_, ?_, by simp⟩
    · rw [correctFromW, selfCorrectionW.eq_def]
      rfl
    · intro x hx
      rw [List.mem_singleton.1 hx]
      rw [List.map_cons, List.map_cons, List.cons.injEq] at hsp
      exact ha.head.quiet hsp.1 (hz.good b' (by simp)) (hs b' (by simp))
  | cons nx tl ih =>
    intro tl' rp rp' b b' hz hg hch ha ht hsp hst hs hs'
    cases ht with
    | @cons _ nx' _ tl' hn ht =>
    obtain ⟨hl, hch'⟩ := List.isChain_cons_cons.1 hch
    have hnx := hg nx' (by simp)
    obtain ⟨q', c', δ, h1, h2, h3, h4⟩ := selfCorrection_spec rp' b' nx' hz hnx hl
    obtain ⟨r, c, c'', d, e1, q, e2, e3, e4⟩ := selfCorrection_anch rp rp' b b' nx nx' _ ha hn h1
    simp only [Prod.mk.injEq, Option.some.injEq] at e1
    obtain ⟨rfl, rfl, e1⟩ := e1
    have hz' : Zip (c' :: q') (nx'.timeshift δ) := h2.cons (hnx.timeshift δ) h3
    have hch'' : (nx'.timeshift δ :: tl').IsChain Link := by
      cases tl' with
      | nil => exact List.isChain_singleton _
      | cons y tl' =>
        rw [List.isChain_cons_cons] at hch' ⊢
        exact ⟨hch'.1.timeshift hnx δ, hch'.2⟩
    have k1 : ((c :: q).map fun c => c.stateB.speed) = (c' :: q').map (fun c => c.stateB.speed) := by
      have m1 := congrArg (List.map fun k => k.2.1.speed) e4
      have m2 := congrArg (List.map fun k => k.2.1.speed) h4
      rw [List.map_map, List.map_map] at m1 m2
      exact m1.trans (hsp.trans m2.symm)
    have k2 : ∀ x ∈ c' :: q', 0 ≤ x.stateB.speed := key_speed h4 hs
    rw [List.map_cons, List.map_cons, List.cons.injEq] at hst
    obtain ⟨out, w', o1, o2, o3⟩ := ih tl' (c :: q) (c' :: q') (nx.timeshift d) _ hz' (fun x hx => hg x (by simp [hx])) hch''
      (.cons (by rw [e1]; exact hn.timeshift d) e3) ht (by
        rw [List.map_cons, k1, List.map_cons (a := nx'.timeshift δ), List.cons.injEq]
        exact ⟨hst.1, rfl⟩) hst.2 (by
        intro x hx
        rcases List.mem_cons.1 hx with rfl | hx
        · exact hs' nx' (by simp)
        · exact k2 x hx) (fun x hx => hs' x (by simp [hx]))
    obtain ⟨w1, w2⟩ := selfCorrectionW_spec rp b (some nx)
    rcases hw : selfCorrectionW rp b (some nx) with e | ⟨r, w⟩
    · rw [hw, e2] at w1
      cases w1
    · rw [hw, e2] at w1
      simp only [Except.map, Except.ok.injEq] at w1
      obtain ⟨hpos, hw'⟩ := w2 _ _ hw
      subst w1
      refine ⟨out, w ++ w', ?_, ?_, ?_⟩
      · rw [correctFromW, hw]
        simp only [bind_ok, Option.getD_some, o1]
      · intro x hx
        rcases List.mem_append.1 hx with hx | hx
        · obtain ⟨y, hy, rfl⟩ := hw' x hx
          obtain ⟨y', hy', hyy⟩ := (forall₂_mem (forall₂_speeds e3.forall₂ k1)).1 y hy
          exact hyy.1.quiet hyy.2 (h2.good y' hy') (k2 y' hy')
        · exact o2 x hx
      · have := List.length_pos_iff.2 hpos
        simp only [List.length_cons, List.length_append]
        omega

/-- **C78, no warnings**, also with feedrates of zero and with lines that move and pause: every program that can be planned
is planned without printing that a segment "does not adhere to machine limits", and every block is checked. -/
theorem c78_quiet_sensible (fw : Firmware) (hsens : Sensible states) (hpf : PausesFollow states) :
    ∃ bs w, planW fw states = .ok (bs, w) ∧ plan fw states = .ok bs ∧ (∀ x ∈ w, x = false) ∧
      bs.length ≤ w.length := by
  have hns : ¬ Started ([] : List (PState ℝ)) := by
    rintro ⟨l, A, B, r, h, _⟩
    simp at h
  obtain ⟨bs₀, bs₀', g1, g2, g3, g4, g5, g6, g7, g8, g9, g10, g11, g12⟩ :=
    genBlocks_tracked fw hsens hpf states [] none none none rfl (.idle hns)
  simp only [Option.toList_none, List.nil_append, List.getLast?_nil] at g1 g4 g7 g8 g11
  have hp : (planW fw states).map Prod.fst = plan fw states := by
    unfold planW plan
    rw [g1]
    simp only [bind_ok]
    cases bs₀ with
    | nil => rfl
    | cons b tl => exact correctFromW_blocks tl [] b
  have hlen : ∀ bs, plan fw states = .ok bs → bs.length = bs₀.length := by
    intro bs h
    rw [(c87_carried_out hsens h).length_eq, ← g7.length_eq]
  cases g2 with
  | nil => exact ⟨[], [], by simp only [planW, g1, bind_ok, correctAllW], by simp only [plan, g1, bind_ok, correctAll],
      by simp, by simp⟩
  | @cons b b' tl tl' hb htl =>
    have hz : Zip [] b' := ⟨by simpa using (g3 b' (by simp)).1, List.isChain_singleton _, by
      intro f hf
      simp only [List.getLast?_singleton, Option.mem_def, Option.some.injEq] at hf
      subst hf
      exact g5 rfl b' (by simp)⟩
    have hsame : ∀ {l l' : List (Block ℝ)} {xs : List Step}, List.Forall₂ Of l xs → List.Forall₂ OfA l' xs →
        (l.map fun c => c.stateB.speed) = l'.map fun c => c.stateB.speed := by
      intro l
      induction l with
      | nil =>
        intro l' xs h h'
        cases h
        cases h'
        rfl
      | cons y l ih =>
        intro l' xs h h'
        cases h with
        | cons h1 h2 =>
        cases h' with
        | cons h3 h4 =>
        rw [List.map_cons, List.map_cons, ih h2 h4, h1.2.1, h3.2]
    have hs := hsame g7 g8
    rw [List.map_cons, List.map_cons, List.cons.injEq] at hs
    have hpos : ∀ c ∈ b' :: tl', 0 ≤ c.stateB.speed := by
      intro c hc
      obtain ⟨x, hx, hd⟩ := (forall₂_mem g11).1 c hc
      rw [hd.1.2]
      exact hsens.speed x.1.B (tasks_mem hx)
    obtain ⟨out, w, o1, o2, o3⟩ := correctFromW_quiet_anch tl tl' [] [] b b' hz (fun c hc => (g3 c (by simp [hc])).1) g4
      (.one hb (g6 rfl b rfl b' rfl)) htl (by rw [List.map_cons, List.map_cons, hs.1]) hs.2
      (by simpa using hpos b' (by simp)) (fun c hc => hpos c (by simp [hc]))
    have hW : planW fw states = .ok (out, w) := by simp only [planW, g1, bind_ok, correctAllW, o1]
    rw [hW] at hp
    refine ⟨out, w, hW, hp.symm, o2, ?_⟩
    rw [hlen out hp.symm]
    exact o3

/-- A program with a feedrate of zero and a line that moves and pauses: every block is checked, nothing is printed. -/
example (fw : Firmware) : ∃ bs w, planW fw Demo.lossy = .ok (bs, w) ∧ plan fw Demo.lossy = .ok bs ∧
    (∀ x ∈ w, x = false) ∧ bs.length ≤ w.length := c78_quiet_sensible fw Demo.lossy_sensible Demo.lossy_follow

/-! ## Example -/

/-- The hypotheses hold for a program with a feedrate of zero and a line that moves and pauses: the machine goes to
`(10, 0)` and to `(20, 0)`, where it waits for two seconds, although the program ends at `(30, 5)`. -/
theorem Demo.lossy_journey : journey Demo.lossy =
    [(⟨0, 0, 0, 0⟩, none), (⟨10, 0, 0, 1⟩, none), (⟨20, 0, 0, 1⟩, none), (⟨20, 0, 0, 1⟩, some 2)] := by
  unfold journey
  rw [Demo.lossy_executed]
  rfl

example (fw : Firmware) : ∃ bs T τ pos, plan fw Demo.lossy = .ok bs ∧ EndTime (Spec.path bs) T ∧
    Itinerary (journey Demo.lossy) τ T pos ∧ τ 3 = τ 2 + 2 := by
  obtain ⟨bs, h⟩ := (c86_plannable fw Demo.lossy_sensible).2 Demo.lossy_follow
  obtain ⟨T, hT⟩ : ∃ T, EndTime (Spec.path bs) T := by
    have hc := c87_carried_out Demo.lossy_sensible h
    rw [Demo.lossy_executed] at hc
    cases hs : (Spec.path bs).getLast? with
    | some s => exact ⟨_, s, hs, rfl⟩
    | none =>
      cases hc with
      | cons hx _ =>
        rw [List.getLast?_eq_none_iff, Spec.path, List.flatMap_cons, List.append_eq_nil_iff] at hs
        exact absurd hs.1 hx.segments_ne
  obtain ⟨τ, pos, hi, _⟩ := c68_itinerary_sensible Demo.lossy_sensible h hT
  exact ⟨bs, T, τ, pos, h, hT, hi, hi.wait 2 (⟨20, 0, 0, 1⟩, some 2) 2 (by rw [Demo.lossy_journey]; rfl) rfl⟩

end PyGCD
