import Verif.Proofs.Anchored
import Verif.Props.Stops
import Verif.Proofs.QueryLemmas

/-!
# Properties C86 and C87: programs with moves that are not carried out

Unlike the other properties of plans, these do not ask for a regular program: feedrates may be zero, a line may both
move and pause, pauses may come first or be negative. They ask only for `Spec.Sensible` settings.
-/

set_option linter.unusedSectionVars false
set_option linter.unusedSimpArgs false

namespace PyGCD
open Vec4 Spec

variable {fw : Firmware} {states : List (PState ℝ)} {bs : List (Block ℝ)}

/-! ## C86 -/

theorem not_started_nil : ¬ Started ([] : List (PState ℝ)) := by
  rintro ⟨l, A, B, r, h, _⟩
  simp at h

/-- If not every pause follows a move, there is a first one that does not. -/
theorem first_bad_pause : ∀ (states : List (PState ℝ)), ¬ PausesFollow states →
    ∃ pre s post p, states = pre ++ s :: post ∧ PausesFollow pre ∧ s.pause = some p ∧ (¬ Started pre ∨ p < 0) := by
  intro states
  induction states using List.reverseRecOn with
  | nil =>
    intro h
    exact absurd (fun pre s post h => by simp at h) h
  | append_singleton l s ih =>
    intro h
    by_cases hl : PausesFollow l
    · unfold PausesFollow at h
      push Not at h
      obtain ⟨pre, x, post, he, p, hp, hbad⟩ := h
      rcases List.eq_nil_or_concat post with rfl | ⟨post', y, rfl⟩
      · obtain ⟨h1, h2⟩ := List.append_inj' he rfl
        injection h2 with h2
        refine ⟨l, s, [], p, rfl, hl, by rw [h2]; exact hp, ?_⟩
        rw [h1]
        by_cases hp0 : 0 ≤ p
        · exact Or.inl (hbad hp0)
        · exact Or.inr (not_le.1 hp0)
      · exfalso
        rw [List.concat_eq_append] at he
        have he' : l ++ [s] = (pre ++ x :: post') ++ [y] := by rw [he]; simp
        obtain ⟨q1, q2⟩ := hl pre x post' (List.append_inj' he' rfl).1 p hp
        exact hbad q1 q2
    · obtain ⟨pre, x, post, p, h1, h2, h3, h4⟩ := ih hl
      exact ⟨pre, x, post ++ [s], p, by rw [h1]; simp, h2, h3, h4⟩

/-- **C86.** The first pause that comes before any move that is carried out raises an `AttributeError`; the first
negative pause after such a move raises a `ValueError`. -/
theorem c86_errors (fw : Firmware) {pre post : List (PState ℝ)} {s : PState ℝ} {p : ℝ}
    (hsens : Sensible (pre ++ s :: post)) (hpre : PausesFollow pre) (hp : s.pause = some p) :
    (¬ Started pre → plan fw (pre ++ s :: post) = .error .attributeError) ∧
      (Started pre → p < 0 → plan fw (pre ++ s :: post) = .error .valueError) := by
  obtain ⟨h1, h2⟩ := genBlocks_error fw hsens pre [] s post none none none rfl (.idle not_started_nil) hpre p hp
  rw [List.nil_append, List.getLast?_nil] at h1 h2
  unfold plan
  constructor
  · intro h
    rw [h1 h]
    rfl
  · intro h hp0
    rw [h2 h hp0]
    rfl

/-- **C86.** A program with sensible settings can be planned, whatever the firmware, if and only if every pause is not
negative and comes after a move that is carried out. -/
theorem c86_plannable (fw : Firmware) (hsens : Sensible states) :
    (∃ bs, plan fw states = .ok bs) ↔ PausesFollow states := by
  constructor
  · rintro ⟨bs, h⟩
    by_contra hbad
    obtain ⟨pre, s, post, p, rfl, h2, h3, h4⟩ := first_bad_pause states hbad
    obtain ⟨e1, e2⟩ := c86_errors fw hsens h2 h3
    by_cases hs : Started pre
    · rw [e2 hs (h4.resolve_left (not_not.2 hs))] at h
      cases h
    · rw [e1 hs] at h
      cases h
  · intro hpf
    obtain ⟨bs, _, h, _⟩ := plan_tracked fw hsens hpf
    exact ⟨bs, h⟩

/-- **C86.** No other exception leaves the planner: in particular no `RuntimeError`, no `NameError` and no
`IndexError`. -/
theorem c86_exceptions (fw : Firmware) (hsens : Sensible states) {e : PyErr} (h : plan fw states = .error e) :
    e = .attributeError ∨ e = .valueError := by
  by_cases hpf : PausesFollow states
  · obtain ⟨bs, hb⟩ := (c86_plannable fw hsens).2 hpf
    rw [hb] at h
    cases h
  · obtain ⟨pre, s, post, p, rfl, h2, h3, h4⟩ := first_bad_pause states hpf
    obtain ⟨e1, e2⟩ := c86_errors fw hsens h2 h3
    by_cases hs : Started pre
    · rw [e2 hs (h4.resolve_left (not_not.2 hs))] at h
      cases h
      exact Or.inr rfl
    · rw [e1 hs] at h
      cases h
      exact Or.inl rfl

/-- Regular programs are among them. -/
theorem regular_pausesFollow (hreg : Regular states) : Sensible states ∧ PausesFollow states := by
  refine ⟨⟨fun s hs => (hreg.speed s hs).le, hreg.acc, hreg.jerk⟩, ?_⟩
  intro pre s post he p hp
  have hmem : s ∈ states := by rw [he]; simp
  refine ⟨hreg.pause s hmem p hp, ?_⟩
  obtain ⟨x, hx, y, hy, hxy⟩ := hreg.moved pre s post he (by rw [hp]; simp)
  by_contra hns
  have key : ∀ (l r : List (PState ℝ)), pre = l ++ r → ∀ a ∈ l, ∀ b ∈ l, a.position = b.position := by
    intro l
    induction l using List.reverseRecOn with
    | nil => intro r _ a ha; cases ha
    | append_singleton l z ih =>
      intro r hr
      have ih := ih (z :: r) (by rw [hr]; simp)
      have hz : ∀ a ∈ l, a.position = z.position := by
        intro a ha
        obtain ⟨A, hA⟩ : ∃ A, l.getLast? = some A := by
          cases hd : l.getLast? with
          | none =>
            rw [List.getLast?_eq_none_iff] at hd
            rw [hd] at ha
            cases ha
          | some A => exact ⟨A, rfl⟩
        rw [ih a ha A (List.mem_of_getLast? hA)]
        obtain ⟨l', rfl⟩ := List.getLast?_eq_some_iff.1 hA
        have hst : states = (l' ++ [A]) ++ z :: (r ++ s :: post) := by rw [he, hr]; simp
        by_cases hpz : z.pause = none
        · by_contra hne
          apply hns
          refine ⟨l', A, z, r, by rw [hr]; simp, hpz, fun h => hne h.symm, hreg.speed z ?_⟩
          rw [hst]
          simp
        · obtain ⟨A', hA', h⟩ := hreg.stays _ z _ hst hpz
          rw [hA] at hA'
          cases hA'
          exact h.symm
      intro a ha b hb
      rcases List.mem_append.1 ha with ha | ha <;> rcases List.mem_append.1 hb with hb | hb
      · exact ih a ha b hb
      · rw [List.mem_singleton.1 hb]
        exact hz a ha
      · rw [List.mem_singleton.1 ha]
        exact (hz b hb).symm
      · rw [List.mem_singleton.1 ha, List.mem_singleton.1 hb]
  exact hxy (key pre [] (by simp) x hx y hy)

theorem Spec.Regular.feasible (hreg : Regular states) : Feasible states :=
  ⟨(regular_pausesFollow hreg).1, (regular_pausesFollow hreg).2⟩

/-! ## C87 -/

theorem carriesOut {b b' : Block ℝ} {x : Step} (h : Anch b b') (hg : Good b') (hb : Of b x) (hb' : OfA b' x) :
    CarriesOut b x := by
  obtain ⟨h1, h2, _⟩ := hb
  obtain ⟨h3, h4⟩ := hb'
  rcases hg with ⟨A, u, s0, s1, hm⟩ | ⟨A, p, hd⟩
  · have hA := hm.hA
    rw [h3] at hA
    injection hA with hA
    have hAp : A.position = x.src := by rw [← hA]
    have hBp : b'.stateB.position = x.dst := by rw [h4]
    have hpz : x.B.pause = none := by
      have := hm.hpause
      rw [h4] at this
      exact this
    refine ⟨h1, h2, by rw [hpz]; simp, fun _ => ⟨u, b'.t0, s0, b'.t1, s1, ?_⟩⟩
    obtain ⟨hu, hd, hpos, heo, _⟩ := hm.toHdr.unit
    rw [moveDistance_length, hAp, hBp] at hpos
    rw [hAp, hBp] at heo
    have hr := hm.hramp
    have hp := hm.hprof
    rw [hAp, hBp, ← h.segs] at hr
    rw [← h.segs] at hp
    rw [show b'.stateB.pAcc = x.B.pAcc by rw [h4], show b'.stateB.speed = x.B.speed by rw [h4]] at hr hp
    refine ⟨?_, hpos, by rw [h.segs]; exact hm.ne_nil, hr, hp⟩
    have : (moveDistance A b'.stateB).2 = decide ((x.dst.sub x.src).norm3 = 0) := by
      rw [Bool.eq_iff_iff, decide_eq_true_iff]
      exact heo
    rw [← this]
    exact hu
  · have hA := hd.hA
    rw [h3] at hA
    injection hA with hA
    have hAp : A.position = x.src := by rw [← hA]
    have hpz : x.B.pause = some p := by
      have := hd.hpause
      rw [h4] at this
      exact this
    refine ⟨h1, h2, ?_, fun hn => by rw [hn] at hpz; cases hpz⟩
    intro q hq
    rw [hpz] at hq
    cases hq
    obtain ⟨t, ht⟩ := hd.hseg
    rw [hAp] at ht
    exact ⟨t, by rw [h.segs, ht]⟩

theorem path_anch : ∀ {bs bs' : List (Block ℝ)}, List.Forall₂ Anch bs bs' → Spec.path bs = Spec.path bs' := by
  intro bs bs' h
  induction h with
  | nil => rfl
  | cons h _ ih =>
    unfold Spec.path at ih ⊢
    rw [List.flatMap_cons, List.flatMap_cons, ih, h.segs]

/-- A planned program has an anchored version. -/
theorem plan_anchored (hsens : Sensible states) (h : plan fw states = .ok bs) :
    ∃ bs', List.Forall₂ Anch bs bs' ∧ SoundRun bs' ∧ List.Forall₂ Of bs (executed none none states) ∧
      List.Forall₂ OfA bs' (executed none none states) ∧ (fw ≠ .marlinJerk → ∀ l ∈ bs'.getLast?, l.nOut = 0) ∧
      ((∀ (A : Option (PState ℝ)) B l, junctionVel fw A B l = 0) → ∀ b ∈ bs', b.AtRest) := by
  have hpf := (c86_plannable fw hsens).1 ⟨bs, h⟩
  obtain ⟨bs₁, bs', g1, g2, g3, g4, g5, g6, g7, g8, g9, _⟩ := plan_tracked fw hsens hpf
  rw [g1] at h
  cases h
  exact ⟨bs', g2, ⟨g3, g4, g5⟩, g6, g7, g8, g9⟩

/-- The anchored blocks of a plan, what they do and why they are not faster. -/
theorem plan_anchored_opt (hsens : Sensible states) (h : plan fw states = .ok bs) :
    ∃ bs', List.Forall₂ Anch bs bs' ∧ SoundRun bs' ∧ List.Forall₂ (Does fw) bs' (tasks none none states) ∧
      bs'.IsChain LinkO ∧ (∀ l ∈ bs'.getLast?, l.ExitR) ∧
      ((∀ (A : Option (PState ℝ)) B l, junctionVel fw A B l = 0) → ∀ b ∈ bs', b.AtRest) ∧
      (fw ≠ .marlinJerk → ∀ b ∈ bs', ∀ v ∈ b.feed, v = Vec4.zero) := by
  have hpf := (c86_plannable fw hsens).1 ⟨bs, h⟩
  obtain ⟨bs₁, bs', g1, g2, g3, g4, g5, g6, g7, g8, g9, g10, g11, g12, g13⟩ := plan_tracked fw hsens hpf
  rw [g1] at h
  cases h
  exact ⟨bs', g2, ⟨g3, g4, g5⟩, g10, g11, g12, g9, g13⟩

/-- **C87.** The blocks of a plan carry out, in order, exactly the moves with positive feedrate on lines without pause,
each from where the machine is and by as much as the program says, and the pauses. -/
theorem c87_carried_out (hsens : Sensible states) (h : plan fw states = .ok bs) :
    List.Forall₂ CarriesOut bs (executed none none states) := by
  obtain ⟨bs', h1, h2, h3, h4, h5⟩ := plan_anchored hsens h
  have hg := h2.good
  clear h2 h h5
  generalize executed none none states = xs at h3 h4 ⊢
  induction h1 generalizing xs with
  | nil =>
    cases h3
    exact .nil
  | cons ha _ ih =>
    cases h3 with
    | cons q1 q2 =>
    cases h4 with
    | cons r1 r2 =>
    exact .cons (carriesOut ha (hg _ (by simp)) q1 r1) (ih (fun c hc => hg c (by simp [hc])) _ q2 r2)

/-- **C87.** The motion has neither gaps nor jumps: it begins at time `0` at rest, every segment begins when and where
its predecessor ends, the travel speed changes by at most `1e-12` between segments, and the motion ends at rest unless
the firmware is `marlin_jerk`. -/
theorem c87_smooth (hsens : Sensible states) (h : plan fw states = .ok bs) :
    Timeline (Spec.path bs) ∧ ((Spec.path bs).IsChain fun s s' => |s.velEnd.norm3 - s'.velBegin.norm3| ≤ 1e-12) ∧
      (∀ s ∈ (Spec.path bs).head?, s.velBegin.norm3 = 0) ∧
      (fw ≠ .marlinJerk → ∀ s ∈ (Spec.path bs).getLast?, s.velEnd.norm3 = 0) := by
  obtain ⟨bs', h1, h2, _, _, h5, _⟩ := plan_anchored hsens h
  rw [path_anch h1]
  refine ⟨h2.isTimeline, h2.speed_continuous.1, h2.speed_continuous.2.2, ?_⟩
  intro hfw s hs
  cases hl : bs'.getLast? with
  | none =>
    rw [List.getLast?_eq_none_iff] at hl
    rw [hl] at hs
    cases hs
  | some l =>
    have hgl := h2.good l (List.mem_of_getLast? hl)
    have hs' : (Spec.path bs').getLast? = some s := hs
    rw [getLast?_flatMap_segments hl hgl.ne_nil] at hs'
    have := h5 hfw l hl
    unfold Block.nOut at this
    rw [hs'] at this
    simpa using this

theorem total_cons (v : Vec4 ℝ) (l : List (Vec4 ℝ)) : total (v :: l) = v.add (total l) := rfl

theorem executed_displaced : ∀ (rest : List (PState ℝ)) (h : Vec4 ℝ) (A L : PState ℝ),
    (A :: rest).getLast? = some L →
    (((executed (some h) (some A) rest).getLast?.map Step.dst).getD h) =
      (h.add (L.position.sub A.position)).sub (total (lostMoves true (some A) rest)) := by
  intro rest
  induction rest with
  | nil =>
    intro h A L hL
    cases hL
    rw [executed, lostMoves]
    ext <;> simp [total, Vec4.add, Vec4.sub, Vec4.zero]
  | cons s rest ih =>
    intro h A L hL
    have hL' : (s :: rest).getLast? = some L := by rw [List.getLast?_cons_cons] at hL; exact hL
    have step : ∀ x : Step, ((x :: executed (some x.dst) (some s) rest).getLast?.map Step.dst).getD h =
        (((executed (some x.dst) (some s) rest).getLast?.map Step.dst).getD x.dst) := by
      intro x
      cases hx : executed (some x.dst) (some s) rest with
      | nil => rfl
      | cons y l =>
        rw [List.getLast?_cons_cons]
        cases hz : (y :: l).getLast? with
        | none => simp at hz
        | some z => rfl
    by_cases hr : Executes A s
    · rw [executed_run hr rfl rfl, lostMoves, if_pos hr, Option.getD_some]
      refine (step ⟨A, s, h, h.add (s.position.sub A.position)⟩).trans ?_
      rw [ih _ s L hL']
      ext <;> simp only [Vec4.add, Vec4.sub] <;> ring
    · have hlost : lostMoves true (some A) (s :: rest) = s.position.sub A.position :: lostMoves true (some s) rest := by
        rw [lostMoves, if_neg hr, if_pos rfl]
      have hex : ((executed (some h) (some A) (s :: rest)).getLast?.map Step.dst).getD h =
          ((executed (some h) (some s) rest).getLast?.map Step.dst).getD h := by
        by_cases hp : s.pause = none
        · rw [executed_skip hp (by simpa using hr)]
        · rw [executed_pause hp]
          exact step ⟨A, s, h, h⟩
      rw [hex, hlost, total_cons, ih h s L hL']
      ext <;> simp only [Vec4.add, Vec4.sub] <;> ring

theorem executed_end : ∀ (rest done : List (PState ℝ)) (A L : PState ℝ), PausesFollow (done ++ rest) →
    done.getLast? = some A → ¬ Started done → (A :: rest).getLast? = some L →
    ∀ x ∈ (executed none (some A) rest).getLast?,
      x.dst = L.position.sub (total (lostMoves false (some A) rest)) := by
  intro rest
  induction rest with
  | nil =>
    intro done A L _ _ _ _ x hx
    rw [executed] at hx
    cases hx
  | cons s rest ih =>
    intro done A L hpf hA hns hL x hx
    have hL' : (s :: rest).getLast? = some L := by rw [List.getLast?_cons_cons] at hL; exact hL
    have hp : s.pause = none := by
      cases hp : s.pause with
      | none => rfl
      | some p => exact absurd (hpf done s rest rfl p hp).2 hns
    by_cases hr : Executes A s
    · rw [executed_run hr rfl rfl, Option.getD_none] at hx
      rw [lostMoves, if_pos hr]
      have hd := executed_displaced rest (A.position.add (s.position.sub A.position)) s L hL'
      have hdst : x.dst = ((executed (some (A.position.add (s.position.sub A.position))) (some s) rest).getLast?.map
          Step.dst).getD (A.position.add (s.position.sub A.position)) := by
        cases hy : executed (some (A.position.add (s.position.sub A.position))) (some s) rest with
        | nil =>
          rw [hy] at hx
          cases hx
          rfl
        | cons y l =>
          rw [hy, List.getLast?_cons_cons, Option.mem_def] at hx
          rw [hx]
          rfl
      rw [hdst, hd]
      ext <;> simp only [Vec4.add, Vec4.sub] <;> ring
    · rw [executed_skip hp (by simpa using hr)] at hx
      rw [lostMoves, if_neg hr, if_neg (by simp)]
      refine ih (done ++ [s]) s L (by simpa using hpf) (by simp) ?_ hL' x hx
      intro h
      rcases started_concat.1 h with h | ⟨A', hA', h⟩
      · exact hns h
      · rw [hA] at hA'
        cases hA'
        exact hr h

/-- **C87.** Where the machine ends up: at the last position of the program less the displacements of all moves that
were not carried out after the first one that was. -/
theorem c87_displaced (hsens : Sensible states) (h : plan fw states = .ok bs) {L : PState ℝ}
    (hL : states.getLast? = some L) :
    ∀ s ∈ (Spec.path bs).getLast?, s.posEnd = L.position.sub (total (lostMoves false none states)) := by
  have hpf := (c86_plannable fw hsens).1 ⟨bs, h⟩
  obtain ⟨bs', h1, h2, _, h4, h5, _⟩ := plan_anchored hsens h
  rw [path_anch h1]
  intro s hs
  cases hl : bs'.getLast? with
  | none =>
    rw [List.getLast?_eq_none_iff] at hl
    rw [hl] at hs
    cases hs
  | some l =>
    have hgl := h2.good l (List.mem_of_getLast? hl)
    have hs' : (Spec.path bs').getLast? = some s := hs
    rw [getLast?_flatMap_segments hl hgl.ne_nil] at hs'
    obtain ⟨_, _, s', _, _, e3, _, _, _, _, e8, _⟩ := hgl.facts
    rw [hs'] at e3
    cases e3
    rw [e8]
    obtain ⟨x, hx, hlx⟩ : ∃ x, (executed none none states).getLast? = some x ∧ OfA l x := by
      have hrev := List.forall₂_reverse_iff.2 h4
      rw [← List.head?_reverse] at hl
      rw [← List.head?_reverse]
      cases hb : bs'.reverse with
      | nil =>
        rw [hb] at hl
        cases hl
      | cons y ys =>
        rw [hb] at hl hrev
        cases hl
        cases hx : (executed none none states).reverse with
        | nil =>
          rw [hx] at hrev
          cases hrev
        | cons z zs =>
          rw [hx] at hrev
          cases hrev with
          | cons q _ => exact ⟨z, rfl, q⟩
    rw [hlx.2]
    cases states with
    | nil => cases hL
    | cons s0 rest =>
      rw [executed_none] at hx
      rw [lostMoves]
      refine executed_end rest [s0] s0 L hpf rfl ?_ hL x hx
      rintro ⟨l, A, B, r, h, _⟩
      have := congrArg List.length h
      simp at this
      omega

/-- **C87.** If every move is carried out, the machine ends at the last position of the program. -/
theorem c87_reached (hsens : Sensible states) (h : plan fw states = .ok bs) {L : PState ℝ}
    (hL : states.getLast? = some L) (hlost : lostMoves false none states = []) :
    ∀ s ∈ (Spec.path bs).getLast?, s.posEnd = L.position := by
  intro s hs
  rw [c87_displaced hsens h hL s hs, hlost]
  ext <;> simp [total, Vec4.sub, Vec4.zero]

/-- **C87.** The print time with default junction handling is the sum of the times of what is carried out. -/
theorem c87_print_time (hsens : Sensible states) (h : plan .default states = .ok bs) {t : ℝ}
    (ht : EndTime (Spec.path bs) t) : t = ((executed none none states).map stepTime).sum := by
  obtain ⟨bs', h1, h2, _, h4, h5, h6⟩ := plan_anchored hsens h
  rw [path_anch h1] at ht
  rw [← h2.endTime_sum ht]
  have hr := h6 fun _ _ _ => rfl
  clear h1 h2 h5 h6 ht h
  generalize executed none none states = xs at h4
  induction h4 with
  | nil => rfl
  | cons hx _ ih =>
    rw [List.map_cons, List.map_cons, List.sum_cons, List.sum_cons, ih (fun c hc => hr c (by simp [hc]))]
    congr 1
    rw [AtRest.time (hr _ (by simp)), hx.1, hx.2]
    unfold restTime stepTime
    cases hp : Step.B _ |>.pause <;> simp only [hp]

/-! ## Examples -/

namespace Demo

/-- A move with feedrate zero. -/
noncomputable def zeroFeed : PState ℝ := ⟨⟨20, 0, 0, 1⟩, 0, 100, 5, none, none⟩
/-- The move after it. -/
noncomputable def afterZero : PState ℝ := ⟨⟨30, 0, 0, 1⟩, 10, 100, 5, none, none⟩
/-- A move and a pause on one line. -/
noncomputable def moveAndPause : PState ℝ := ⟨⟨30, 5, 0, 1⟩, 10, 100, 5, some 2, none⟩
/-- A program with two moves that are not carried out. -/
noncomputable def lossy : List (PState ℝ) := [s0, s1, zeroFeed, afterZero, moveAndPause]

theorem lossy_sensible : Sensible lossy := by
  have hall : ∀ s ∈ lossy, 0 ≤ s.speed ∧ s.pAcc = 100 ∧ s.jerk = 5 := by
    intro s hs
    simp only [lossy, List.mem_cons, List.not_mem_nil, or_false] at hs
    rcases hs with rfl | rfl | rfl | rfl | rfl <;> simp [s0, s1, zeroFeed, afterZero, moveAndPause]
  refine ⟨fun s hs => (hall s hs).1, fun s hs => ?_, fun s hs => ?_⟩
  · rw [(hall s hs).2.1]; norm_num
  · rw [(hall s hs).2.2]; norm_num

theorem runs_s1 : Executes s0 s1 := ⟨rfl, fun h => by simpa [s0, s1] using congrArg Vec4.x h, by simp [s1]⟩

theorem runs_after : Executes zeroFeed afterZero :=
  ⟨rfl, fun h => by have := congrArg Vec4.x h; norm_num [zeroFeed, afterZero] at this, by simp [afterZero]⟩

theorem stands_zero : ¬ Executes s1 zeroFeed := fun h => lt_irrefl _ h.2.2

theorem stands_pause : ¬ Executes afterZero moveAndPause := fun h => by cases h.1

theorem lossy_follow : PausesFollow lossy := by
  intro pre s post h p hp
  unfold lossy at h
  rcases pre with _ | ⟨a, _ | ⟨b, _ | ⟨c, _ | ⟨d, _ | ⟨e, pre⟩⟩⟩⟩⟩ <;>
    simp only [List.nil_append, List.cons_append, List.cons.injEq, List.nil_eq, List.append_eq_nil_iff,
      reduceCtorEq, and_false] at h
  · rw [← h.1] at hp; cases hp
  · rw [← h.2.1] at hp; cases hp
  · rw [← h.2.2.1] at hp; cases hp
  · rw [← h.2.2.2.1] at hp; cases hp
  · obtain ⟨rfl, rfl, rfl, rfl, rfl, _⟩ := h
    cases hp
    exact ⟨by norm_num, [], s0, s1, [zeroFeed, afterZero], rfl, runs_s1⟩

/-- What the machine makes of it: two moves and a pause, and it is ten millimetres behind. -/
theorem lossy_executed : executed none none lossy =
    [⟨s0, s1, ⟨0, 0, 0, 0⟩, ⟨10, 0, 0, 1⟩⟩, ⟨zeroFeed, afterZero, ⟨10, 0, 0, 1⟩, ⟨20, 0, 0, 1⟩⟩,
      ⟨afterZero, moveAndPause, ⟨20, 0, 0, 1⟩, ⟨20, 0, 0, 1⟩⟩] := by
  unfold lossy
  rw [executed_none, executed_run (src := ⟨0, 0, 0, 0⟩) (dst := ⟨10, 0, 0, 1⟩) runs_s1 rfl
    (by ext <;> simp [s0, s1, Vec4.add, Vec4.sub]), executed_skip rfl (by simpa using stands_zero),
    executed_run (src := ⟨10, 0, 0, 1⟩) (dst := ⟨20, 0, 0, 1⟩) runs_after rfl
    (by ext <;> norm_num [zeroFeed, afterZero, Vec4.add, Vec4.sub]), executed_pause (by simp [moveAndPause])]
  rw [executed]

theorem lossy_lost : total (lostMoves false none lossy) = ⟨10, 5, 0, 0⟩ := by
  unfold lossy
  rw [lostMoves, lostMoves, if_pos runs_s1, lostMoves, if_neg stands_zero, if_pos rfl, lostMoves, if_pos runs_after,
    lostMoves, if_neg stands_pause, if_pos rfl, lostMoves]
  ext <;> norm_num [total, s1, zeroFeed, afterZero, moveAndPause, Vec4.add, Vec4.sub, Vec4.zero]

end Demo

/-- The example is planned by every firmware, with three blocks, and ends at x 20, y 0, although its last state is at
x 30, y 5. -/
example (fw : Firmware) : ∃ bs, plan fw Demo.lossy = .ok bs ∧ bs.length = 3 ∧
    ∀ s ∈ (Spec.path bs).getLast?, s.posEnd = ⟨20, 0, 0, 1⟩ := by
  obtain ⟨bs, h⟩ := (c86_plannable fw Demo.lossy_sensible).2 Demo.lossy_follow
  refine ⟨bs, h, ?_, ?_⟩
  · have := (c87_carried_out Demo.lossy_sensible h).length_eq
    rw [Demo.lossy_executed] at this
    exact this
  · intro s hs
    rw [c87_displaced Demo.lossy_sensible h (L := Demo.moveAndPause) rfl s hs, Demo.lossy_lost]
    ext <;> norm_num [Demo.moveAndPause, Vec4.sub]

/-- The print time of the example without junction speeds: 1.1 seconds for each move and 2 for the pause. -/
example {bs : List (Block ℝ)} {t : ℝ} (h : plan .default Demo.lossy = .ok bs) (ht : EndTime (Spec.path bs) t) :
    t = moveTime 100 10 10 0 0 + moveTime 100 10 10 0 0 + 2 := by
  rw [c87_print_time Demo.lossy_sensible h ht, Demo.lossy_executed]
  have e1 : moveLength (⟨0, 0, 0, 0⟩ : Vec4 ℝ) ⟨10, 0, 0, 1⟩ = 10 := by
    have hs : √(100 : ℝ) = 10 := by rw [show (100 : ℝ) = 10 ^ 2 by norm_num]; exact Real.sqrt_sq (by norm_num)
    norm_num [moveLength, Vec4.sub, Vec4.norm3, PyMath.sqrt, hs]
  have e2 : moveLength (⟨10, 0, 0, 1⟩ : Vec4 ℝ) ⟨20, 0, 0, 1⟩ = 10 := by
    have hs : √(100 : ℝ) = 10 := by rw [show (100 : ℝ) = 10 ^ 2 by norm_num]; exact Real.sqrt_sq (by norm_num)
    norm_num [moveLength, Vec4.sub, Vec4.norm3, PyMath.sqrt, hs]
  simp only [List.map_cons, List.map_nil, List.sum_cons, List.sum_nil, stepTime, Demo.s1, Demo.afterZero,
    Demo.moveAndPause, e1, e2]
  ring

/-- That every planned program ends at its last position. -/
def EndsAtLast : Prop := ∀ (fw : Firmware) (states : List (PState ℝ)) (bs : List (Block ℝ)), Sensible states →
  plan fw states = .ok bs → ∀ L ∈ states.getLast?, ∀ s ∈ (Spec.path bs).getLast?, s.posEnd = L.position

/-- **C87.** It does not hold without the hypothesis of `c87_reached`. -/
theorem c87_not_always : ¬ EndsAtLast := by
  intro hall
  obtain ⟨bs, h⟩ := (c86_plannable .default Demo.lossy_sensible).2 Demo.lossy_follow
  have h1 := hall _ _ _ Demo.lossy_sensible h Demo.moveAndPause rfl
  have h2 := c87_displaced Demo.lossy_sensible h (L := Demo.moveAndPause) rfl
  have hc := c87_carried_out Demo.lossy_sensible h
  rw [Demo.lossy_executed] at hc
  obtain ⟨s, hs⟩ : ∃ s, (Spec.path bs).getLast? = some s := by
    cases hl : (Spec.path bs).getLast? with
    | some s => exact ⟨s, rfl⟩
    | none =>
      exfalso
      rw [List.getLast?_eq_none_iff] at hl
      cases hc with
      | @cons b _ _ _ q _ =>
      obtain ⟨u, t, v, t', v', _, _, hne, _⟩ := q.move rfl
      unfold Spec.path at hl
      rw [List.flatMap_cons, List.append_eq_nil_iff] at hl
      exact hne hl.1
  have h3 := (h1 s hs).symm.trans (h2 s hs)
  rw [Demo.lossy_lost] at h3
  have := congrArg Vec4.x h3
  norm_num [Demo.moveAndPause, Vec4.sub] at this

/-- A pause before any move raises an `AttributeError`. -/
example (fw : Firmware) : plan fw [Demo.s1, Demo.s2, Demo.s3] = .error .attributeError := by
  have hs : Sensible ([Demo.s1] ++ Demo.s2 :: [Demo.s3]) := by
    have := (regular_pausesFollow Demo.regular).1
    refine ⟨fun s hs => this.speed s ?_, fun s hs => this.acc s ?_, fun s hs => this.jerk s ?_⟩ <;>
    · simp only [List.cons_append, List.nil_append, List.mem_cons, List.not_mem_nil, or_false] at hs
      rcases hs with rfl | rfl | rfl <;> simp [Demo.prog]
  refine (c86_errors fw hs (p := 2) ?_ rfl).1 ?_
  · intro pre s post h p hp
    rcases pre with _ | ⟨a, pre⟩
    · simp only [List.nil_append, List.cons.injEq] at h
      rw [← h.1] at hp
      cases hp
    · simp at h
  · rintro ⟨l, A, B, r, h, _⟩
    have := congrArg List.length h
    simp at this
    omega

end PyGCD
