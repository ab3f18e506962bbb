import Verif.Props.Shortest

/-!
# Property C71 for unusual programs: giving points on the way explicitly

Feedrates may be zero, and lines may both move and pause.
-/

set_option linter.unusedSectionVars false
set_option linter.unusedSimpArgs false

namespace PyGCD
open Vec4 Spec

variable {fw : Firmware} {states states' : List (PState ℝ)} {bs bs' : List (Block ℝ)} {A M B : PState ℝ}

theorem Spec.Timetable.swap {limit : Option (PState ℝ) → PState ℝ → List (PState ℝ) → ℝ} {x : Step}
    {behind behind' : List (PState ℝ)} {tl tl' : List (Step × List (PState ℝ))} {v T : ℝ}
    (h : Timetable limit v ((x, behind) :: tl) T) (htl : ∀ {v T}, Timetable limit v tl T → Timetable limit v tl' T)
    (hlim : x.B.pause = none → (x.dst.sub x.src).norm3 ≠ 0 → limit (some x.A) x.B behind ≤ limit (some x.A) x.B behind') :
    Timetable limit v ((x, behind') :: tl') T := by
  cases h with
  | pause hp ht h => exact .pause hp ht (htl h)
  | travel hp hne hd hl h => exact .travel hp hne hd (hl.trans (hlim hp hne)) (htl h)
  | filament hp h0 hne hd h => exact .filament hp h0 hne hd (htl h)

theorem tasks_first (here : Option (Vec4 ℝ)) (s : PState ℝ) (rest : List (PState ℝ)) :
    tasks here none (s :: rest) = tasks here (some s) rest := by rw [tasks]

theorem tasks_pausing (here : Option (Vec4 ℝ)) {s : PState ℝ} (A : PState ℝ) (rest : List (PState ℝ)) (hp : s.pause ≠ none) :
    tasks here (some A) (s :: rest) =
      (⟨A, s, here.getD A.position, here.getD A.position⟩, rest) :: tasks here (some s) rest := by
  rw [tasks]
  simp only [if_pos hp]

theorem tasks_moving (here : Option (Vec4 ℝ)) {A s : PState ℝ} (rest : List (PState ℝ)) (hx : Executes A s) :
    tasks here (some A) (s :: rest) =
      (⟨A, s, here.getD A.position, (here.getD A.position).add (s.position.sub A.position)⟩, rest) ::
        tasks (some ((here.getD A.position).add (s.position.sub A.position))) (some s) rest := by
  rw [tasks]
  simp only [if_neg (not_not.2 hx.1), if_pos hx]

theorem tasks_still (here : Option (Vec4 ℝ)) {A s : PState ℝ} (rest : List (PState ℝ)) (hp : s.pause = none)
    (hx : ¬ Executes A s) : tasks here (some A) (s :: rest) = tasks here (some s) rest := by
  rw [tasks]
  simp only [if_neg (not_not.2 hp), if_neg hx]

theorem Spec.Between.executes (h : Between A M B) :
    (Executes A B ↔ 0 < B.speed) ∧ (Executes A M ↔ 0 < B.speed) ∧ (Executes M B ↔ 0 < B.speed) := by
  obtain ⟨l1, l2, l3⟩ := h.lengths
  have key : ∀ {X Y : PState ℝ}, (Y.position.sub X.position).norm3 ≠ 0 → Y.pause = none → Y.speed = B.speed →
      (Executes X Y ↔ 0 < B.speed) := by
    intro X Y hne hp hs
    refine ⟨fun hx => hs ▸ hx.2.2, fun hx => ⟨hp, fun he => hne ?_, hs ▸ hx⟩⟩
    rw [he, Vec4.sub_self, norm3_zero]
  exact ⟨key h.travels h.pauseB rfl, key l1.ne' h.pause h.speed, key l2.ne' h.pauseB rfl⟩

/-- The steps of the cut move, before and after the cut. -/
theorem Spec.Between.tasks (h : Between A M B) (here : Option (Vec4 ℝ)) (post : List (PState ℝ)) :
    (¬ 0 < B.speed ∧ Spec.tasks here (some A) (M :: B :: post) = Spec.tasks here (some A) (B :: post)) ∨
    (0 < B.speed ∧ ∃ src mid dst tl, Spec.tasks here (some A) (B :: post) = (⟨A, B, src, dst⟩, post) :: tl ∧
      Spec.tasks here (some A) (M :: B :: post) = (⟨A, M, src, mid⟩, B :: post) :: (⟨M, B, mid, dst⟩, post) :: tl ∧
      dst.sub src = B.position.sub A.position ∧ mid.sub src = M.position.sub A.position ∧
      dst.sub mid = B.position.sub M.position) := by
  obtain ⟨e1, e2, e3⟩ := h.executes
  by_cases hs : 0 < B.speed
  · right
    have hsub : ∀ p q : Vec4 ℝ, (p.add q).sub p = q := by
      intro p q
      ext <;> simp [Vec4.add, Vec4.sub]
    have hd : ((here.getD A.position).add (M.position.sub A.position)).add (B.position.sub M.position) =
        (here.getD A.position).add (B.position.sub A.position) := by
      ext <;> simp only [Vec4.add, Vec4.sub] <;> ring
    refine ⟨hs, _, _, _, _, tasks_moving here post (e1.2 hs), ?_, hsub _ _, hsub _ _, ?_⟩
    · rw [tasks_moving here (B :: post) (e2.2 hs), tasks_moving (some _) post (e3.2 hs), Option.getD_some, hd]
    · rw [← hd, hsub]
  · left
    refine ⟨hs, ?_⟩
    rw [tasks_still here (B :: post) h.pause (mt e2.1 hs), tasks_still here post h.pauseB (mt e3.1 hs),
      tasks_still here post h.pauseB (mt e1.1 hs)]

/-- Whatever motion does the steps of the cut program also does those of the program. -/
theorem Spec.Timetable.join {pa : Option (PState ℝ)} (hc : CutAt pa states states') :
    (∀ s ∈ states, 0 < s.pAcc) → ∀ {here : Option (Vec4 ℝ)} {v T : ℝ}, Timetable (junctionVel fw) v (tasks here pa states') T →
    Timetable (junctionVel fw) v (tasks here pa states) T := by
  induction hc with
  | @here A M B post h =>
    intro hacc here v T hT
    rcases h.tasks here post with ⟨_, e⟩ | ⟨hs, src, mid, dst, tl, e1, e2, n1, n2, n3⟩
    · rwa [e] at hT
    · rw [e1]
      rw [e2] at hT
      obtain ⟨l1, l2, l3⟩ := h.lengths
      cases hT with
      | pause hp =>
        rw [h.pause] at hp
        cases hp
      | filament hp h0 =>
        rw [n2] at h0
        exact absurd h0 l1.ne'
      | travel hp hne hd hlim hT =>
        cases hT with
        | pause hp =>
          rw [h.pauseB] at hp
          cases hp
        | filament hp h0 =>
          rw [n3] at h0
          exact absurd h0 l2.ne'
        | travel hp' hne' hd' hlim' hT =>
          simp only at hd hd' hlim'
          rw [n2, h.acc, h.speed] at hd
          rw [n3] at hd'
          have := hd.append hd'
          rw [l3] at this
          rw [← _root_.add_assoc]
          rw [h.junction_end] at hlim'
          exact .travel h.pauseB (by rw [n1]; exact h.travels) (by rw [n1]; exact this) hlim' hT
  | @later pa s rest rest' h ih =>
    intro hacc here v T hT
    have hacc' : ∀ x ∈ rest, 0 < x.pAcc := fun x hx => hacc x (by simp [hx])
    cases pa with
    | none =>
      rw [tasks_first] at hT ⊢
      exact ih hacc' hT
    | some A =>
      by_cases hp : s.pause ≠ none
      · rw [tasks_pausing _ _ _ hp] at hT ⊢
        exact hT.swap (ih hacc') fun h0 => absurd h0 hp
      · rw [not_not] at hp
        by_cases hx : Executes A s
        · rw [tasks_moving _ _ hx] at hT ⊢
          exact hT.swap (ih hacc') fun _ _ => (h.junction (fw := fw) _ (hacc s (by simp)).le).1
        · rw [tasks_still _ _ hp hx] at hT ⊢
          exact ih hacc' hT

/-- Whatever motion does the steps of the program also does those of the cut program, where the firmware does not slow down
on a straight line. -/
theorem Spec.Timetable.cut {pa : Option (PState ℝ)} (hc : CutAt pa states states') :
    (∀ s ∈ states, 0 ≤ s.speed ∧ 0 < s.pAcc ∧ 0 ≤ s.jerk) →
    (fw = .marlinJd ∧ (∀ s ∈ states, 0 < s.jerk) ∨ fw = .marlinJerk ∨ fw = .mka) →
    ∀ {here : Option (Vec4 ℝ)} {v T : ℝ}, Timetable (junctionVel fw) v (tasks here pa states) T →
    Timetable (junctionVel fw) v (tasks here pa states') T := by
  induction hc with
  | @here A M B post h =>
    intro hsens hfw here v T hT
    rcases h.tasks here post with ⟨_, e⟩ | ⟨hs, src, mid, dst, tl, e1, e2, n1, n2, n3⟩
    · rwa [e]
    · rw [e2]
      rw [e1] at hT
      obtain ⟨l1, l2, l3⟩ := h.lengths
      obtain ⟨_, r2, r3⟩ := hsens B (by simp)
      cases hT with
      | pause hp =>
        rw [h.pauseB] at hp
        cases hp
      | filament hp h0 =>
        rw [n1] at h0
        exact absurd h0 h.travels
      | @travel _ _ _ _ v' t T hp hne hd hlim hT =>
        simp only at hd hlim
        rw [n1, ← l3] at hd
        obtain ⟨t₁, w, d1, d2⟩ := hd.cut l1.le l2.le
        have hw := d1.facts r2
        rw [show t + T = t₁ + (t - t₁ + T) by ring]
        refine .travel h.pause (by rw [n2]; exact l1.ne') (v' := w) (by rw [n2, h.acc, h.speed]; exact d1) ?_
          (.travel h.pauseB (by rw [n3]; exact l2.ne') (by rw [n3]; exact d2) (by rw [h.junction_end]; exact hlim) hT)
        simp only
        rw [h.junction_mid post hs r2 r3 (hfw.imp (fun q => ⟨q.1, q.2 B (by simp)⟩) id)]
        exact hw.2.2.2.1
  | @later pa s rest rest' h ih =>
    intro hsens hfw here v T hT
    have hsens' : ∀ x ∈ rest, 0 ≤ x.speed ∧ 0 < x.pAcc ∧ 0 ≤ x.jerk := fun x hx => hsens x (by simp [hx])
    have hfw' : fw = .marlinJd ∧ (∀ s ∈ rest, 0 < s.jerk) ∨ fw = .marlinJerk ∨ fw = .mka :=
      hfw.imp (fun q => ⟨q.1, fun x hx => q.2 x (by simp [hx])⟩) id
    have hk : fw ≠ .klipper := by
      rcases hfw with ⟨rfl, _⟩ | rfl | rfl <;> simp
    cases pa with
    | none =>
      rw [tasks_first] at hT ⊢
      exact ih hsens' hfw' hT
    | some A =>
      by_cases hp : s.pause ≠ none
      · rw [tasks_pausing _ _ _ hp] at hT ⊢
        exact hT.swap (ih hsens' hfw') fun h0 => absurd h0 hp
      · rw [not_not] at hp
        by_cases hx : Executes A s
        · rw [tasks_moving _ _ hx] at hT ⊢
          exact hT.swap (ih hsens' hfw') fun _ _ =>
            ((h.junction (fw := fw) _ (hsens s (by simp)).2.1.le).2 hk).ge
        · rw [tasks_still _ _ hp hx] at hT ⊢
          exact ih hsens' hfw' hT

theorem CutAt.tasks_travel {pa : Option (PState ℝ)} (hc : CutAt pa states states') : ∀ {here : Option (Vec4 ℝ)},
    (∀ x ∈ tasks here pa states, x.1.B.pause = none → (x.1.dst.sub x.1.src).norm3 ≠ 0) →
    ∀ x ∈ tasks here pa states', x.1.B.pause = none → (x.1.dst.sub x.1.src).norm3 ≠ 0 := by
  induction hc with
  | @here A M B post h =>
    intro here hT
    rcases h.tasks here post with ⟨_, e⟩ | ⟨hs, src, mid, dst, tl, e1, e2, n1, n2, n3⟩
    · rwa [e]
    · rw [e2]
      rw [e1] at hT
      obtain ⟨l1, l2, l3⟩ := h.lengths
      intro x hx hp
      simp only [List.mem_cons] at hx
      rcases hx with rfl | rfl | hx
      · simp only
        rw [n2]
        exact l1.ne'
      · simp only
        rw [n3]
        exact l2.ne'
      · exact hT x (by simp [hx]) hp
  | @later pa s rest rest' h ih =>
    intro here hT
    cases pa with
    | none =>
      rw [tasks_first] at hT ⊢
      exact ih hT
    | some A =>
      by_cases hp : s.pause ≠ none
      · rw [tasks_pausing _ _ _ hp] at hT ⊢
        intro x hx h0
        rcases List.mem_cons.1 hx with rfl | hx
        · exact absurd h0 hp
        · exact ih (fun y hy => hT y (by simp [hy])) x hx h0
      · rw [not_not] at hp
        by_cases hx : Executes A s
        · rw [tasks_moving _ _ hx] at hT ⊢
          intro x hx' h0
          rcases List.mem_cons.1 hx' with rfl | hx'
          · exact hT (_, rest) List.mem_cons_self h0
          · exact ih (fun y hy => hT y (by simp [hy])) x hx' h0
        · rw [tasks_still _ _ hp hx] at hT ⊢
          exact ih hT

theorem Spec.Cut.sensible (h : Cut states states') (hsens : Sensible states) : Sensible states' := by
  have key : ∀ s ∈ states', ∃ x ∈ states, s.speed = x.speed ∧ s.pAcc = x.pAcc ∧ s.jerk = x.jerk := by
    intro s hs
    rcases (h.at none).members.2 s hs with hx | ⟨A, B, hB, hx⟩
    · exact ⟨s, hx, rfl, rfl, rfl⟩
    · exact ⟨B, hB, hx.speed, hx.acc, hx.jerk⟩
  refine ⟨?_, ?_, ?_⟩ <;> intro s hs <;> obtain ⟨x, hx, e1, e2, e3⟩ := key s hs
  · rw [e1]
    exact hsens.speed x hx
  · rw [e2]
    exact hsens.acc x hx
  · rw [e3]
    exact hsens.jerk x hx

theorem slack_cut (h : Cut states states') (hacc : ∀ s ∈ states, 0 < s.pAcc) : slack states ≤ slack states' := by
  have h1 := (h.at none).sum hacc
  have h0 := sum_inv_nonneg hacc
  unfold slack
  rw [(h.at none).length]
  push_cast
  have hn : (0 : ℝ) ≤ states.length := Nat.cast_nonneg _
  have := mul_le_mul (show (states.length : ℝ) ≤ states.length + 1 by linarith) h1 h0 (by linarith)
  linarith

/-- What any number of cuts leaves as it is. -/
theorem Spec.Cuts.least {n : ℕ} (hc : Cuts n states states') (hsens : Sensible states) :
    Sensible states' ∧ slack states ≤ slack states' ∧ (TasksTravel states → TasksTravel states') ∧
      tasksTime (junctionVel fw) states ≤ tasksTime (junctionVel fw) states' ∧
      ((fw = .marlinJd ∧ (∀ s ∈ states, 0 < s.jerk) ∨ fw = .marlinJerk ∨ fw = .mka) →
        (fw = .marlinJd ∧ (∀ s ∈ states', 0 < s.jerk) ∨ fw = .marlinJerk ∨ fw = .mka) ∧
        tasksTime (junctionVel fw) states' = tasksTime (junctionVel fw) states) := by
  induction hc with
  | none => exact ⟨hsens, le_rfl, id, le_rfl, fun h => ⟨h, rfl⟩⟩
  | @more n _ states' states'' _ hc ih =>
    obtain ⟨h1, h2, h3, h4, h5⟩ := ih hsens
    have s2 := hc.sensible h1
    have m1 := c121_least fw h1
    have m2 := c121_least fw s2
    have le := m1.2 (Spec.Timetable.join (hc.at Option.none) h1.acc m2.1)
    refine ⟨s2, h2.trans (slack_cut hc h1.acc), fun h => (hc.at Option.none).tasks_travel (h3 h), h4.trans le, fun hfw => ?_⟩
    obtain ⟨g1, g2⟩ := h5 hfw
    have ge := m2.2 (Spec.Timetable.cut (hc.at Option.none) (fun s hs => ⟨h1.speed s hs, h1.acc s hs, h1.jerk s hs⟩) g1 m1.1)
    refine ⟨g1.imp (And.imp id fun h s hs => ?_) id, (le_antisymm ge le).trans g2⟩
    rcases (hc.at Option.none).members.2 s hs with hx | ⟨A, B, hB, hx⟩
    · exact h s hx
    · rw [hx.jerk]
      exact h B hB

/-- **C71**, also with feedrates of zero and with lines that move and pause: with no firmware does cutting travel moves make
the shortest possible time shorter, and with `marlin_jd` (jerk not zero), `marlin_jerk` and `MKA` this time stays the same. -/
theorem c71_least_partial {n : ℕ} (hsens : Sensible states) (hc : Cuts n states states') {m m' : ℝ}
    (hm : IsLeast {T | Timetable (junctionVel fw) 0 (tasks none none states) T} m)
    (hm' : IsLeast {T | Timetable (junctionVel fw) 0 (tasks none none states') T} m') :
    m ≤ m' ∧ ((fw = .marlinJd ∧ (∀ s ∈ states, 0 < s.jerk) ∨ fw = .marlinJerk ∨ fw = .mka) → m' = m) := by
  obtain ⟨h1, _, _, h4, h5⟩ := hc.least (fw := fw) hsens
  rw [hm.unique (c121_least fw hsens), hm'.unique (c121_least fw h1)]
  exact ⟨h4, fun h => (h5 h).2⟩

/-- **C71**, also with feedrates of zero and with lines that move and pause: with no firmware does any number of cuts of
travel moves make the print shorter. With `marlin_jerk` the moves must all travel. -/
theorem c71_not_shorter_sensible {n : ℕ} (hsens : Sensible states) (hc : Cuts n states states')
    (hfw : fw = .marlinJerk → TasksTravel states) {t t' : ℝ} (h : plan fw states = .ok bs) (ht : EndTime (Spec.path bs) t)
    (h' : plan fw states' = .ok bs') (ht' : EndTime (Spec.path bs') t') : t ≤ t' + slack states' := by
  obtain ⟨h1, _, h3, h4, _⟩ := hc.least (fw := fw) hsens
  have a1 := c118_fastest hsens h (c121_least fw hsens).1 ht
  have a2 := abs_le.1 (c119_print_time h1 (fun hx => h3 (hfw hx)) h' ht')
  linarith

/-- **C71**, also with feedrates of zero and with lines that move and pause: any number of cuts, for example of all moves
into short pieces, does not change the print time with `marlin_jd`, `marlin_jerk` and `MKA`, up to the planner's tolerance
of `1e-12` mm/s per junction. With `marlin_jd` the jerk must not be zero; with `marlin_jerk` the moves must all travel.
Missing: the other firmwares, see `c71_refuted`. -/
theorem c71_cuts_sensible_partial {n : ℕ} (hsens : Sensible states) (hc : Cuts n states states')
    (hfw : fw = .marlinJd ∧ (∀ s ∈ states, 0 < s.jerk) ∨ fw = .marlinJerk ∧ TasksTravel states ∨ fw = .mka)
    {t t' : ℝ} (h : plan fw states = .ok bs) (ht : EndTime (Spec.path bs) t)
    (h' : plan fw states' = .ok bs') (ht' : EndTime (Spec.path bs') t') : |t' - t| ≤ slack states' := by
  have hT : fw = .marlinJerk → TasksTravel states := by
    intro hx
    rcases hfw with ⟨rfl, _⟩ | ⟨_, h⟩ | rfl
    · cases hx
    · exact h
    · cases hx
  obtain ⟨h1, h2, _, _, h5⟩ := hc.least (fw := fw) hsens
  have e := (h5 (hfw.imp id (Or.imp And.left id))).2
  have a1 := abs_le.1 (c119_print_time hsens hT h ht)
  have a2 := c118_fastest h1 h' (c121_least fw h1).1 ht'
  have a3 := c71_not_shorter_sensible hsens hc hT h ht h' ht'
  rw [abs_le]
  constructor <;> linarith

theorem Spec.Between.stepTimes (hb : Between A M B) (post : List (PState ℝ)) {d : ℝ} (hd0 : B.speed ≤ 0 → d = 0)
    (hd : 0 < B.speed → d = moveTime B.pAcc B.speed (M.position.sub A.position).norm3 0 0 +
      moveTime B.pAcc B.speed (B.position.sub M.position).norm3 0 0 -
      moveTime B.pAcc B.speed (B.position.sub A.position).norm3 0 0) : ∀ (pre : List (PState ℝ))
    {here : Option (Vec4 ℝ)} {pa : Option (PState ℝ)},
    ((Spec.tasks here pa (pre ++ A :: M :: B :: post)).map fun x => stepTime x.1).sum =
      ((Spec.tasks here pa (pre ++ A :: B :: post)).map fun x => stepTime x.1).sum + d := by
  have move : ∀ {here : Option (Vec4 ℝ)}, ((Spec.tasks here (some A) (M :: B :: post)).map fun x => stepTime x.1).sum =
      ((Spec.tasks here (some A) (B :: post)).map fun x => stepTime x.1).sum + d := by
    intro here
    rcases hb.tasks here post with ⟨hs, e⟩ | ⟨hs, src, mid, dst, tl, e1, e2, n1, n2, n3⟩
    · rw [e, hd0 (not_lt.1 hs), _root_.add_zero]
    · obtain ⟨l1, l2, l3⟩ := hb.lengths
      rw [e1, e2, hd hs]
      simp only [List.map_cons, List.sum_cons, stepTime, hb.pause, hb.pauseB, hb.acc, hb.speed, moveLength, n1, n2, n3,
        if_neg l1.ne', if_neg l2.ne', if_neg hb.travels]
      ring
  have step : ∀ {here : Option (Vec4 ℝ)} {pa : Option (PState ℝ)} (s : PState ℝ) (l l' : List (PState ℝ)),
      (∀ {here : Option (Vec4 ℝ)}, ((Spec.tasks here (some s) l').map fun x => stepTime x.1).sum =
        ((Spec.tasks here (some s) l).map fun x => stepTime x.1).sum + d) →
      ((Spec.tasks here pa (s :: l')).map fun x => stepTime x.1).sum =
        ((Spec.tasks here pa (s :: l)).map fun x => stepTime x.1).sum + d := by
    intro here pa s l l' h
    cases pa with
    | none =>
      rw [tasks_first, tasks_first]
      exact h
    | some Y =>
      by_cases hp : s.pause ≠ none
      · rw [tasks_pausing _ _ _ hp, tasks_pausing _ _ _ hp]
        simp only [List.map_cons, List.sum_cons]
        rw [h, _root_.add_assoc]
      · rw [not_not] at hp
        by_cases hx : Executes Y s
        · rw [tasks_moving _ _ hx, tasks_moving _ _ hx]
          simp only [List.map_cons, List.sum_cons]
          rw [h, _root_.add_assoc]
        · rw [tasks_still _ _ hp hx, tasks_still _ _ hp hx]
          exact h
  intro pre
  induction pre with
  | nil => exact step A _ _ move
  | cons s pre ih => exact step s _ _ ih

/-- **C71**, also with feedrates of zero and with lines that move and pause: with default junction handling a cut costs
exactly the difference of the times from rest to rest, and nothing if the move is not carried out. -/
theorem c71_default_law_sensible {pre post : List (PState ℝ)} (hb : Between A M B)
    (hsens : Sensible (pre ++ A :: B :: post)) {t t' : ℝ}
    (h : plan .default (pre ++ A :: B :: post) = .ok bs) (ht : EndTime (Spec.path bs) t)
    (h' : plan .default (pre ++ A :: M :: B :: post) = .ok bs') (ht' : EndTime (Spec.path bs') t') :
    t' = t + if 0 < B.speed then moveTime B.pAcc B.speed (M.position.sub A.position).norm3 0 0 +
      moveTime B.pAcc B.speed (B.position.sub M.position).norm3 0 0 -
      moveTime B.pAcc B.speed (B.position.sub A.position).norm3 0 0 else 0 := by
  have hc : Cut (pre ++ A :: B :: post) (pre ++ A :: M :: B :: post) := ⟨pre, A, M, B, post, rfl, rfl, hb⟩
  rw [c87_print_time hsens h ht, c87_print_time (hc.sensible hsens) h' ht', ← tasks_fst, ← tasks_fst, List.map_map,
    List.map_map]
  exact hb.stepTimes post (fun hs => if_neg (not_lt.2 hs)) (fun hs => if_pos hs) pre

/-! ## Examples -/

theorem executed_started {A B : PState ℝ} (hx : Executes A B) (r : List (PState ℝ)) : ∀ (l : List (PState ℝ))
    {here : Option (Vec4 ℝ)} {pa : Option (PState ℝ)}, ∃ x ∈ tasks here pa (l ++ A :: B :: r), x.1.B.pause = none := by
  have move : ∀ {here : Option (Vec4 ℝ)}, ∃ x ∈ tasks here (some A) (B :: r), x.1.B.pause = none := by
    intro here
    rw [tasks_moving _ _ hx]
    exact ⟨_, List.mem_cons_self, hx.1⟩
  have step : ∀ {here : Option (Vec4 ℝ)} {pa : Option (PState ℝ)} (s : PState ℝ) (rest : List (PState ℝ)),
      (∀ {here : Option (Vec4 ℝ)}, ∃ x ∈ tasks here (some s) rest, x.1.B.pause = none) →
      ∃ x ∈ tasks here pa (s :: rest), x.1.B.pause = none := by
    intro here pa s rest h
    cases pa with
    | none =>
      rw [tasks_first]
      exact h
    | some Y =>
      by_cases hp : s.pause ≠ none
      · rw [tasks_pausing _ _ _ hp]
        obtain ⟨x, hx, h0⟩ := h (here := here)
        exact ⟨x, by simp [hx], h0⟩
      · rw [not_not] at hp
        by_cases hx : Executes Y s
        · rw [tasks_moving _ _ hx]
          exact ⟨_, List.mem_cons_self, hp⟩
        · rw [tasks_still _ _ hp hx]
          exact h
  intro l
  induction l with
  | nil => exact step A (B :: r) move
  | cons s l ih => exact step s (l ++ A :: B :: r) ih

/-- A program that moves and can be planned has an end time. -/
theorem exists_endTime_sensible (fw : Firmware) (hsens : Sensible states) (hf : PausesFollow states) (hst : Started states) :
    ∃ bs t, plan fw states = .ok bs ∧ EndTime (Spec.path bs) t := by
  obtain ⟨bs, h⟩ := (c86_plannable fw hsens).2 hf
  have hc := c87_carried_out hsens h
  cases hl : (Spec.path bs).getLast? with
  | some s => exact ⟨bs, s.tEnd, h, ⟨s, hl, rfl⟩⟩
  | none =>
    exfalso
    rw [List.getLast?_eq_none_iff] at hl
    obtain ⟨l, A, B, r, rfl, hx⟩ := hst
    obtain ⟨x, hx, hp⟩ := executed_started hx r l (here := none) (pa := none)
    have hx : x.1 ∈ executed none none (l ++ A :: B :: r) := by
      rw [← tasks_fst]
      exact List.mem_map_of_mem hx
    obtain ⟨i, hi, e⟩ := List.getElem_of_mem hx
    have hi' : i < bs.length := hc.length_eq ▸ hi
    have q := List.Forall₂.get hc hi' hi
    simp only [List.get_eq_getElem, e] at q
    obtain ⟨u, t, v, t', v', _, _, hne, _⟩ := q.move hp
    unfold Spec.path at hl
    rw [List.flatMap_eq_nil_iff] at hl
    exact hne (hl _ (List.getElem_mem hi'))

namespace Demo

/-- A point on the way of the first move. -/
noncomputable def midway : PState ℝ := ⟨⟨5, 0, 0, 0.5⟩, 10, 100, 5, none, none⟩

/-- A point on the way of the move with feedrate zero. -/
noncomputable def zeroMidway : PState ℝ := ⟨⟨15, 0, 0, 1⟩, 0, 100, 5, none, none⟩

/-- The unusual program with points on the way of its first move and of the move that is lost. -/
noncomputable def lossyCut : List (PState ℝ) := [s0, midway, s1, zeroMidway, zeroFeed, afterZero, moveAndPause]

theorem lossy_cuts : Cuts 2 lossy lossyCut := by
  refine .more (states' := [s0, midway, s1, zeroFeed, afterZero, moveAndPause]) (.more (.none _)
    ⟨[], s0, midway, s1, _, rfl, rfl, ?_⟩) ⟨[s0, midway], s1, zeroMidway, zeroFeed, _, rfl, rfl, ?_⟩
  · refine ⟨?_, ⟨0.5, by norm_num, by norm_num, ?_⟩, rfl, rfl, rfl, rfl, rfl⟩
    · intro h
      have := (norm3_eq_zero.1 h).1
      norm_num [s0, s1, Vec4.sub] at this
    · ext <;> norm_num [s0, s1, midway, Vec4.add, Vec4.sub, Vec4.mul]
  · refine ⟨?_, ⟨0.5, by norm_num, by norm_num, ?_⟩, rfl, rfl, rfl, rfl, rfl⟩
    · intro h
      have := (norm3_eq_zero.1 h).1
      norm_num [s1, zeroFeed, Vec4.sub] at this
    · ext <;> norm_num [s1, zeroFeed, zeroMidway, Vec4.add, Vec4.sub, Vec4.mul]

theorem lossy_started : Started lossy := ⟨[], s0, s1, _, rfl, runs_s1⟩

end Demo

theorem Spec.PausesFollow.append {P R : List (PState ℝ)} (hP : PausesFollow P) (hst : Started P)
    (hR : ∀ s ∈ R, ∀ p ∈ s.pause, 0 ≤ p) : PausesFollow (P ++ R) := by
  intro pre s post he p hp
  rcases List.append_eq_append_iff.1 he with ⟨l, rfl, h2⟩ | ⟨l, h1, h2⟩
  · obtain ⟨k, A, B, r, rfl, hx⟩ := hst
    exact ⟨hR s (by rw [h2]; simp) p hp, k, A, B, r ++ l, by simp, hx⟩
  · cases l with
    | nil =>
      rw [List.append_nil] at h1
      subst h1
      exact ⟨hR s (by rw [← List.nil_append R, ← h2]; simp) p hp, hst⟩
    | cons a l =>
      rw [List.cons_append, List.cons.injEq] at h2
      obtain ⟨rfl, rfl⟩ := h2
      exact hP pre s l h1 p hp

/-- The hypotheses of `c71_cuts_sensible_partial` hold for the unusual program. -/
example (hfw : fw = .marlinJd ∨ fw = .mka) : ∃ bs bs' t t', plan fw Demo.lossy = .ok bs ∧ EndTime (Spec.path bs) t ∧
    plan fw Demo.lossyCut = .ok bs' ∧ EndTime (Spec.path bs') t' ∧ |t' - t| ≤ 1e-11 := by
  have hs' := (Demo.lossy_cuts.least (fw := fw) Demo.lossy_sensible).1
  have hst : Started [Demo.s0, Demo.midway, Demo.s1] :=
    ⟨[], Demo.s0, Demo.midway, _, rfl, rfl, fun h => by simpa [Demo.s0, Demo.midway] using congrArg Vec4.x h,
      by simp [Demo.midway]⟩
  have hf : PausesFollow Demo.lossyCut := by
    refine Spec.PausesFollow.append (P := [Demo.s0, Demo.midway, Demo.s1]) ?_ hst ?_
    · intro pre s post h p hp
      have : s ∈ [Demo.s0, Demo.midway, Demo.s1] := by
        rw [h]
        simp
      simp only [List.mem_cons, List.not_mem_nil, or_false] at this
      rcases this with rfl | rfl | rfl <;> cases hp
    · intro s hs p hp
      simp only [List.mem_cons, List.not_mem_nil, or_false] at hs
      rcases hs with rfl | rfl | rfl | rfl <;> cases hp
      norm_num
  obtain ⟨bs, t, h, ht⟩ := exists_endTime_sensible fw Demo.lossy_sensible Demo.lossy_follow Demo.lossy_started
  obtain ⟨bs', t', h', ht'⟩ := exists_endTime_sensible fw hs' hf
    ⟨[], Demo.s0, Demo.midway, _, rfl, rfl, fun h => by simpa [Demo.s0, Demo.midway] using congrArg Vec4.x h,
      by simp [Demo.midway]⟩
  refine ⟨bs, bs', t, t', h, ht, h', ht', (c71_cuts_sensible_partial Demo.lossy_sensible Demo.lossy_cuts ?_ h ht h' ht').trans ?_⟩
  · rcases hfw with rfl | rfl
    · left
      refine ⟨rfl, ?_⟩
      intro s hs
      simp only [Demo.lossy, List.mem_cons, List.not_mem_nil, or_false] at hs
      rcases hs with rfl | rfl | rfl | rfl | rfl <;> norm_num [Demo.s0, Demo.s1, Demo.zeroFeed, Demo.afterZero, Demo.moveAndPause]
    · exact Or.inr (Or.inr rfl)
  · norm_num [slack, Demo.lossyCut, Demo.s0, Demo.s1, Demo.zeroFeed, Demo.afterZero, Demo.moveAndPause, Demo.midway,
      Demo.zeroMidway]

end PyGCD
