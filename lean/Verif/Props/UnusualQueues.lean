import Verif.Spec.UnusualQueues
import Verif.Props.UnusualCuts
import Verif.Props.Sequels

/-!
# Property C74 for unusual programs: print jobs one after the other

Feedrates may be zero, and lines may both move and pause.
-/

set_option linter.unusedSectionVars false
set_option linter.unusedSimpArgs false

namespace PyGCD
open Vec4 Spec

variable {fw : Firmware} {P Q R : List (PState ℝ)} {D : PState ℝ} {p : ℝ} {bs bs₁ bs₂ : List (Block ℝ)} {t t₁ t₂ : ℝ}

theorem sub_of_add (p q : Vec4 ℝ) : (p.add q).sub p = q := by
  ext <;> simp [Vec4.add, Vec4.sub]

/-- The place where a program is begun does not matter. -/
theorem Spec.Timetable.elsewhere {here here' pa : Option _} : ∀ {v T : ℝ},
    Timetable (junctionVel fw) v (tasks here pa P) T → Timetable (junctionVel fw) v (tasks here' pa P) T := by
  induction P generalizing here here' pa with
  | nil =>
    intro v T h
    rw [tasks] at h ⊢
    exact h
  | cons s P ih =>
    intro v T h
    cases pa with
    | none =>
      rw [tasks_first] at h ⊢
      exact ih h
    | some A =>
      by_cases hp : s.pause ≠ none
      · rw [tasks_pausing _ _ _ hp] at h ⊢
        cases h with
        | pause hp ht h => exact .pause hp ht (ih h)
        | travel h0 => exact absurd h0 hp
        | filament h0 => exact absurd h0 hp
      · rw [not_not] at hp
        by_cases hx : Executes A s
        · rw [tasks_moving _ _ hx] at h ⊢
          have d : ∀ p : Vec4 ℝ, (p.add (s.position.sub A.position)).e - p.e = (s.position.sub A.position).e := by
            intro p
            simp [Vec4.add]
          cases h with
          | pause h0 =>
            rw [hp] at h0
            cases h0
          | travel h0 hne hd hlim h =>
            simp only [sub_of_add] at hne hd
            exact .travel h0 (by simpa only [sub_of_add] using hne) (by simpa only [sub_of_add] using hd) hlim (ih h)
          | filament h0 hz hne hd h =>
            simp only [sub_of_add, d] at hz hd
            refine .filament h0 (by simpa only [sub_of_add] using hz) ?_ (by simpa only [d] using hd) (ih h)
            intro he
            apply hne
            have := d (here.getD A.position)
            have := d (here'.getD A.position)
            simp only at he ⊢
            linarith
        · rw [tasks_still _ _ hp hx] at h ⊢
          exact ih h

/-- After the last move of a program the machine stands still, but not with `marlin_jerk`. -/
theorem last_limit (hfw : fw ≠ .marlinJerk) (A : Option (PState ℝ)) {B : PState ℝ} (hj : 0 ≤ B.jerk)
    (hs : ∀ s ∈ P, 0 ≤ s.speed) {here : Option (Vec4 ℝ)} (h : tasks here (some B) P = []) : junctionVel fw A B P = 0 := by
  by_cases hm : ∃ s ∈ P, s.position ≠ B.position
  · obtain ⟨C, hC⟩ := exists_nextMove hm
    apply junctionVel_stop hfw A B P hj
    have hC0 : C.speed = 0 := by
      obtain ⟨pre, post, rfl, h1, h2⟩ := hC
      clear hm
      have key : ∀ (pre : List (PState ℝ)) {X : PState ℝ} {here : Option (Vec4 ℝ)}, X.position = B.position →
          (∀ s ∈ pre, s.position = B.position) → tasks here (some X) (pre ++ C :: post) = [] → ¬ 0 < C.speed := by
        intro pre
        induction pre with
        | nil =>
          intro X here hX _ h hC
          rw [List.nil_append] at h
          by_cases hp : C.pause ≠ none
          · rw [tasks_pausing _ _ _ hp] at h
            cases h
          · rw [not_not] at hp
            rw [tasks_moving _ _ ⟨hp, by rw [hX]; exact h2, hC⟩] at h
            cases h
        | cons s pre ih =>
          intro X here hX hpre h
          rw [List.cons_append] at h
          by_cases hp : s.pause ≠ none
          · rw [tasks_pausing _ _ _ hp] at h
            cases h
          · rw [not_not] at hp
            rw [tasks_still _ _ hp (fun hx => hx.2.1 (by rw [hX]; exact hpre s (by simp)))] at h
            exact ih (hpre s (by simp)) (fun x hx => hpre x (by simp [hx])) h
      exact le_antisymm (not_lt.1 (key pre rfl h1 h)) (hs C (by simp))
    rw [velNext_of_nextMove hC, connectState_norm3 B C hC0.ge, hC0]
    split <;> rfl
  · push Not at hm
    exact c62_stop hfw A hj (Or.inl hm)

theorem Spec.Sensible.tail {s : PState ℝ} (h : Sensible (s :: P)) : Sensible P where
  speed x hx := h.speed x (by simp [hx])
  acc x hx := h.acc x (by simp [hx])
  jerk x hx := h.jerk x (by simp [hx])

/-- A motion of `P` that ends at rest can be continued by a motion of `R` from rest. -/
theorem Spec.Timetable.then (hfw : fw ≠ .marlinJerk) (hsens : Sensible P) {pa here : Option _} : ∀ {v T T' : ℝ},
    Timetable (junctionVel fw) v (tasks here pa P) T → (tasks here pa P = [] → v = 0) →
    Timetable (junctionVel fw) 0 (tasks none (P.getLast?.or pa) R) T' →
    Timetable (junctionVel fw) v (tasks here pa (P ++ R)) (T + T') := by
  induction P generalizing here pa with
  | nil =>
    intro v T T' h h0 hR
    rw [tasks] at h h0
    rw [h0 rfl] at h ⊢
    cases h
    rw [_root_.zero_add]
    exact hR.elsewhere
  | cons s P ih =>
    intro v T T' h h0 hR
    rw [last_or] at hR
    have hsens' : Sensible P := hsens.tail
    rw [List.cons_append]
    cases pa with
    | none =>
      rw [tasks_first] at h h0 ⊢
      exact ih hsens' h h0 hR
    | some A =>
      by_cases hp : s.pause ≠ none
      · rw [tasks_pausing _ _ _ hp] at h ⊢
        cases h with
        | pause hp ht h =>
          rw [_root_.add_assoc]
          exact .pause hp ht (ih hsens' h (fun _ => rfl) hR)
        | travel h0 => exact absurd h0 hp
        | filament h0 => exact absurd h0 hp
      · rw [not_not] at hp
        by_cases hx : Executes A s
        · rw [tasks_moving _ _ hx] at h ⊢
          cases h with
          | pause h0 =>
            rw [hp] at h0
            cases h0
          | travel h0 hne hd hlim h =>
            simp only at hd hlim
            obtain ⟨_, _, f2, _⟩ := hd.facts (hsens.acc s (by simp))
            rw [_root_.add_assoc]
            refine .travel h0 hne hd ?_ (ih hsens' h ?_ hR)
            · simp only
              by_cases hm : ∃ x ∈ P, x.position ≠ s.position
              · rw [junctionVel_append _ hm]
                exact hlim
              · push Not at hm
                rw [c62_stop hfw (some A) (hsens.jerk s (by simp)) (Or.inl hm)] at hlim
                exact hlim.trans (c17_junction_speed fw _ _ _ (hsens.speed s (by simp)) (hsens.jerk s (by simp))).1
            · intro hnil
              rw [last_limit hfw _ (hsens.jerk s (by simp)) hsens'.speed hnil] at hlim
              exact le_antisymm hlim f2
          | filament h0 hz hne hd h =>
            rw [_root_.add_assoc]
            exact .filament h0 hz hne hd (ih hsens' h (fun _ => rfl) hR)
        · rw [tasks_still _ _ hp hx] at h h0 ⊢
          exact ih hsens' h h0 hR

/-- Before a pause the machine stands still. -/
theorem Spec.Timetable.stopped (hD : D.pause = some p) {pa : PState ℝ} {here : Option _} {v T : ℝ} :
    Timetable (junctionVel fw) v (tasks here (some pa) (P ++ D :: Q)) T →
    (∀ s ∈ P, s.position = pa.position) → v = 0 := by
  induction P generalizing pa here with
  | nil =>
    intro h _
    rw [List.nil_append, tasks_pausing _ _ _ (by rw [hD]; simp)] at h
    cases h with
    | pause => rfl
    | travel hp =>
      rw [hD] at hp
      cases hp
    | filament => rfl
  | cons s P ih =>
    intro h hall
    rw [List.cons_append] at h
    by_cases hp : s.pause ≠ none
    · rw [tasks_pausing _ _ _ hp] at h
      cases h with
      | pause => rfl
      | travel h0 => exact absurd h0 hp
      | filament => rfl
    · rw [not_not] at hp
      rw [tasks_still _ _ hp (fun hx => hx.2.1 (hall s (by simp)))] at h
      exact ih h (fun x hx => (hall x (by simp [hx])).trans (hall s (by simp)).symm)

/-- A motion of a program with a pause consists of a motion before and one after it. -/
theorem Spec.Timetable.split (hD : D.pause = some p) (hsens : Sensible P) {pa here : Option _} : ∀ {v T : ℝ},
    Timetable (junctionVel fw) v (tasks here pa (P ++ D :: Q)) T → (pa.isSome ∨ P ≠ []) →
    ∃ T₁ T₂, Timetable (junctionVel fw) v (tasks here pa P) T₁ ∧ Timetable (junctionVel fw) 0 (tasks none (some D) Q) T₂ ∧
      T₁ + p + T₂ ≤ T := by
  induction P generalizing here pa with
  | nil =>
    intro v T h hpa
    obtain ⟨A, rfl⟩ := Option.isSome_iff_exists.1 (hpa.resolve_right (by simp))
    rw [List.nil_append, tasks_pausing _ _ _ (by rw [hD]; simp)] at h
    cases h with
    | @pause _ _ _ p' t T hp ht h =>
      rw [hD] at hp
      cases hp
      exact ⟨0, T, by rw [tasks]; exact .done _, h.elsewhere, by linarith⟩
    | travel hp =>
      rw [hD] at hp
      cases hp
    | filament hp =>
      rw [hD] at hp
      cases hp
  | cons s P ih =>
    intro v T h hpa
    have hsens' : Sensible P := hsens.tail
    rw [List.cons_append] at h
    cases pa with
    | none =>
      rw [tasks_first] at h ⊢
      exact ih hsens' h (Or.inl rfl)
    | some A =>
      by_cases hp : s.pause ≠ none
      · rw [tasks_pausing _ _ _ hp] at h ⊢
        cases h with
        | pause hp ht h =>
          obtain ⟨T₁, T₂, h1, h2, h3⟩ := ih hsens' h (Or.inl rfl)
          exact ⟨_, T₂, .pause hp ht h1, h2, by linarith⟩
        | travel h0 => exact absurd h0 hp
        | filament h0 => exact absurd h0 hp
      · rw [not_not] at hp
        by_cases hx : Executes A s
        · rw [tasks_moving _ _ hx] at h ⊢
          cases h with
          | pause h0 =>
            rw [hp] at h0
            cases h0
          | travel h0 hne hd hlim h =>
            obtain ⟨T₁, T₂, h1, h2, h3⟩ := ih hsens' h (Or.inl rfl)
            refine ⟨_, T₂, .travel h0 hne hd ?_ h1, h2, by linarith⟩
            simp only at hlim ⊢
            by_cases hm : ∃ x ∈ P, x.position ≠ s.position
            · rwa [junctionVel_append _ hm] at hlim
            · push Not at hm
              rw [h.stopped hD hm]
              exact (c17_junction_speed fw _ _ _ (hsens.speed s (by simp)) (hsens.jerk s (by simp))).1
          | filament h0 hz hne hd h =>
            obtain ⟨T₁, T₂, h1, h2, h3⟩ := ih hsens' h (Or.inl rfl)
            exact ⟨_, T₂, .filament h0 hz hne hd h1, h2, by linarith⟩
        · rw [tasks_still _ _ hp hx] at h ⊢
          exact ih hsens' h (Or.inl rfl)

theorem Spec.Resumes.tasks (hq : Resumes Q D) (here : Option (Vec4 ℝ)) :
    Spec.tasks here (some D) Q = Spec.tasks here none Q := by
  obtain ⟨q, h1, h2, h3⟩ := hq
  cases Q with
  | nil => cases h1
  | cons a Q =>
    cases h1
    rw [tasks_first, tasks_still _ _ h3 (fun hx => hx.2.1 h2)]

theorem Spec.Sensible.append (hP : Sensible P) (hR : Sensible R) : Sensible (P ++ R) where
  speed s hs := (List.mem_append.1 hs).elim (hP.speed s) (hR.speed s)
  acc s hs := (List.mem_append.1 hs).elim (hP.acc s) (hR.acc s)
  jerk s hs := (List.mem_append.1 hs).elim (hP.jerk s) (hR.jerk s)

/-- **C74**, also with feedrates of zero and with lines that move and pause: the shortest time of two programs with a pause
in between is the pause and the shortest times of both. With `marlin_jerk`, which ends programs at speed, it may be more. -/
theorem c74_least {mP mQ m : ℝ} (hne : P ≠ []) (hP : Sensible P) (hD : D.pause = some p)
    (hq : Resumes Q D) (h₁ : IsLeast {T | Timetable (junctionVel fw) 0 (tasks none none P) T} mP)
    (h₂ : IsLeast {T | Timetable (junctionVel fw) 0 (tasks none none Q) T} mQ)
    (h : IsLeast {T | Timetable (junctionVel fw) 0 (tasks none none (P ++ D :: Q)) T} m) :
    mP + p + mQ ≤ m ∧ (fw ≠ .marlinJerk → m = mP + p + mQ) := by
  have le : mP + p + mQ ≤ m := by
    obtain ⟨T₁, T₂, g1, g2, g3⟩ := Spec.Timetable.split hD hP h.1 (Or.inr hne)
    rw [hq.tasks] at g2
    have := h₁.2 g1
    have := h₂.2 g2
    linarith
  refine ⟨le, fun hfw => le_antisymm (h.2 ?_) le⟩
  obtain ⟨A, hA⟩ := Option.ne_none_iff_exists'.1 (mt List.getLast?_eq_none_iff.1 hne)
  rw [_root_.add_assoc]
  refine Spec.Timetable.then hfw hP h₁.1 (fun _ => rfl) ?_
  rw [hA, Option.some_or, tasks_pausing _ _ _ (by rw [hD]; simp), hq.tasks]
  exact .pause hD le_rfl h₂.1

/-- **C74**, the same without a pause: running both without a stop takes at most as long. -/
theorem c74_append_least {mP mQ m : ℝ} (hfw : fw ≠ .marlinJerk) (hP : Sensible P) {A : PState ℝ} (hA : P.getLast? = some A)
    (hq : Resumes Q A) (h₁ : IsLeast {T | Timetable (junctionVel fw) 0 (tasks none none P) T} mP)
    (h₂ : IsLeast {T | Timetable (junctionVel fw) 0 (tasks none none Q) T} mQ)
    (h : IsLeast {T | Timetable (junctionVel fw) 0 (tasks none none (P ++ Q)) T} m) : m ≤ mP + mQ := by
  refine h.2 (Spec.Timetable.then hfw hP h₁.1 (fun _ => rfl) ?_)
  rw [hA, Option.some_or, hq.tasks]
  exact h₂.1

theorem slack_join (hP : Sensible P) (hR : Sensible R) : slack P + slack R ≤ slack (P ++ R) := by
  unfold slack
  rw [List.length_append, List.map_append, List.sum_append]
  push_cast
  have h1 := sum_inv_nonneg hP.acc
  have h2 := sum_inv_nonneg hR.acc
  generalize (P.map fun s => 1 / s.pAcc).sum = S at *
  generalize (R.map fun s => 1 / s.pAcc).sum = S' at *
  have h3 := mul_nonneg (Nat.cast_nonneg (α := ℝ) P.length) h2
  have h4 := mul_nonneg (Nat.cast_nonneg (α := ℝ) R.length) h1
  nlinarith

theorem slack_sensible (hP : Sensible P) : 0 ≤ slack P := by
  have := mul_nonneg (Nat.cast_nonneg (α := ℝ) P.length) (sum_inv_nonneg hP.acc)
  unfold slack
  linarith

/-- **C74**, without a pause, also with feedrates of zero and with lines that move and pause. -/
theorem c74_append_sensible (hfw : fw ≠ .marlinJerk) (hP : Sensible P) (hQ : Sensible Q) {A : PState ℝ}
    (hA : P.getLast? = some A) (hq : Resumes Q A)
    (h₁ : plan fw P = .ok bs₁) (ht₁ : EndTime (Spec.path bs₁) t₁) (h₂ : plan fw Q = .ok bs₂)
    (ht₂ : EndTime (Spec.path bs₂) t₂) (h : plan fw (P ++ Q) = .ok bs) (ht : EndTime (Spec.path bs) t) :
    t ≤ t₁ + t₂ + slack (P ++ Q) := by
  have m1 := c121_least fw hP
  have m2 := c121_least fw hQ
  have m := c121_least fw (hP.append hQ)
  have a := c74_append_least hfw hP hA hq m1 m2 m
  have b := c118_fastest (hP.append hQ) h m.1 ht
  have b1 := abs_le.1 (c119_print_time hP (fun hx => absurd hx hfw) h₁ ht₁)
  have b2 := abs_le.1 (c119_print_time hQ (fun hx => absurd hx hfw) h₂ ht₂)
  have := slack_join hP hQ
  linarith

theorem Spec.Jobs.sensible {jobs : List (List (PState ℝ))} {prog : List (PState ℝ)} {w : ℝ} (h : Jobs jobs prog w) :
    Sensible prog ∧ (∀ P ∈ jobs, Sensible P) ∧ (jobs.map slack).sum ≤ slack prog := by
  induction h with
  | one _ hP => exact ⟨hP, by simpa using hP, by simp⟩
  | @more jobs prog Q D w p _ hD hs hQ hq ih =>
    obtain ⟨h1, h2, h3⟩ := ih
    have hDQ : Sensible (D :: Q) := hs.append hQ
    refine ⟨h1.append hDQ, ?_, ?_⟩
    · intro P hP
      rcases List.mem_append.1 hP with hP | hP
      · exact h2 P hP
      · rw [List.mem_singleton.1 hP]
        exact hQ
    · rw [List.map_append, List.sum_append, List.map_singleton, List.sum_singleton]
      have a := slack_join h1 hDQ
      have b := slack_join hs hQ
      have c := slack_sensible hs
      rw [List.singleton_append] at b
      linarith

theorem Spec.Jobs.least {jobs : List (List (PState ℝ))} {prog : List (PState ℝ)} {w : ℝ} (h : Jobs jobs prog w) :
    prog ≠ [] ∧
      (jobs.map (tasksTime (junctionVel fw))).sum + w ≤ tasksTime (junctionVel fw) prog ∧
      (fw ≠ .marlinJerk → tasksTime (junctionVel fw) prog = (jobs.map (tasksTime (junctionVel fw))).sum + w) := by
  induction h with
  | @one P hne hP => exact ⟨hne, by simp, fun _ => by simp⟩
  | @more jobs prog Q D w p hj hD hs hQ hq ih =>
    obtain ⟨h1, h2, h3⟩ := ih
    have hsens := hj.sensible.1
    have := c74_least h1 hsens hD hq (c121_least fw hsens) (c121_least fw hQ) (c121_least fw (hsens.append (hs.append hQ)))
    rw [List.map_append, List.sum_append, List.map_singleton, List.sum_singleton]
    refine ⟨by simp, by linarith, fun hfw => ?_⟩
    have e1 := h3 hfw
    have e2 := this.2 hfw
    linarith

theorem jobs_time_le {jobs : List (List (PState ℝ))} {ts : List ℝ} (hs : ∀ P ∈ jobs, Sensible P)
    (hts : List.Forall₂ (fun P t => ∃ bs, plan fw P = .ok bs ∧ EndTime (Spec.path bs) t) jobs ts) :
    ts.sum ≤ (jobs.map (tasksTime (junctionVel fw))).sum := by
  induction hts with
  | nil => simp
  | @cons P t jobs ts hP _ ih =>
    have i1 := ih (fun P hP => hs P (by simp [hP]))
    obtain ⟨bs, h, ht⟩ := hP
    have hP := hs P (by simp)
    have b' := c118_fastest hP h (c121_least fw hP).1 ht
    simp only [List.map_cons, List.sum_cons]
    linarith

theorem jobs_time_ge (hfw : fw ≠ .marlinJerk) {jobs : List (List (PState ℝ))} {ts : List ℝ} (hs : ∀ P ∈ jobs, Sensible P)
    (hts : List.Forall₂ (fun P t => ∃ bs, plan fw P = .ok bs ∧ EndTime (Spec.path bs) t) jobs ts) :
    (jobs.map (tasksTime (junctionVel fw))).sum ≤ ts.sum + (jobs.map slack).sum := by
  induction hts with
  | nil => simp
  | @cons P t jobs ts hP _ ih =>
    have i1 := ih (fun P hP => hs P (by simp [hP]))
    obtain ⟨bs, h, ht⟩ := hP
    have b := abs_le.1 (c119_print_time (hs P (by simp)) (fun hx => absurd hx hfw) h ht)
    simp only [List.map_cons, List.sum_cons]
    linarith

/-- **C74**, a queue of jobs, also with feedrates of zero and with lines that move and pause: any number of print jobs with
pauses in between takes as long as the jobs on their own and the pauses, up to the planner's tolerance. -/
theorem c74_queue_sensible (hfw : fw ≠ .marlinJerk) {jobs : List (List (PState ℝ))} {prog : List (PState ℝ)} {w : ℝ}
    (hj : Jobs jobs prog w) {ts : List ℝ}
    (hts : List.Forall₂ (fun P t => ∃ bs, plan fw P = .ok bs ∧ EndTime (Spec.path bs) t) jobs ts)
    (h : plan fw prog = .ok bs) (ht : EndTime (Spec.path bs) t) : |t - (ts.sum + w)| ≤ slack prog := by
  obtain ⟨s1, s2, s3⟩ := hj.sensible
  obtain ⟨_, _, e⟩ := hj.least (fw := fw)
  have e := e hfw
  have b := abs_le.1 (c119_print_time s1 (fun hx => absurd hx hfw) h ht)
  have b' := c118_fastest s1 h (c121_least fw s1).1 ht
  have key1 := jobs_time_le s2 hts
  have key2 := jobs_time_ge hfw s2 hts
  rw [abs_le]
  constructor <;> linarith

/-- **C74**, waiting never makes the parts longer, with any firmware; with `marlin_jerk` the moves must all travel. -/
theorem c74_queue_ge_sensible {jobs : List (List (PState ℝ))} {prog : List (PState ℝ)} {w : ℝ}
    (hj : Jobs jobs prog w) (hfw : fw = .marlinJerk → TasksTravel prog) {ts : List ℝ}
    (hts : List.Forall₂ (fun P t => ∃ bs, plan fw P = .ok bs ∧ EndTime (Spec.path bs) t) jobs ts)
    (h : plan fw prog = .ok bs) (ht : EndTime (Spec.path bs) t) : ts.sum + w ≤ t + slack prog := by
  obtain ⟨s1, s2, s3⟩ := hj.sensible
  obtain ⟨_, e, _⟩ := hj.least (fw := fw)
  have b := abs_le.1 (c119_print_time s1 hfw h ht)
  have key := jobs_time_le s2 hts
  linarith

/-! ## An example -/

namespace Demo

/-- The unusual program, then a line that asks for a move back to the origin and a pause of two seconds, then a move. -/
theorem lossy_jobs : Jobs [lossy, [at2 0 0, at2 10 0]]
    (lossy ++ { at2 0 0 with pause := some 2 } :: [at2 0 0, at2 10 0]) (0 + 2) := by
  refine .more (jobs := [lossy]) (.one (by simp [lossy]) lossy_sensible) rfl ?_ ?_ ⟨_, rfl, rfl, rfl⟩
  · constructor <;> intro s hs <;> simp only [List.mem_singleton] at hs <;> subst hs <;> norm_num [at2]
  · constructor <;> intro s hs <;> simp only [List.mem_cons, List.not_mem_nil, or_false] at hs <;>
      rcases hs with rfl | rfl <;> norm_num [at2]

/-- The hypotheses of `c74_queue_sensible` hold for it. -/
example (hfw : fw ≠ .marlinJerk) : ∃ t t₁ t₂ bs bs₁ bs₂, plan fw lossy = .ok bs₁ ∧
    EndTime (Spec.path bs₁) t₁ ∧ plan fw [at2 0 0, at2 10 0] = .ok bs₂ ∧ EndTime (Spec.path bs₂) t₂ ∧
    plan fw (lossy ++ { at2 0 0 with pause := some 2 } :: [at2 0 0, at2 10 0]) = .ok bs ∧
    EndTime (Spec.path bs) t ∧ |t - (t₁ + t₂ + 2)| ≤ 1e-10 := by
  have hsens := lossy_jobs.sensible.1
  obtain ⟨bs, t, h, ht⟩ := exists_endTime_sensible fw hsens (lossy_follow.append lossy_started (by
    intro s hs p hp
    simp only [List.mem_cons, List.not_mem_nil, or_false] at hs
    rcases hs with rfl | rfl | rfl <;> cases hp
    norm_num)) ⟨[], s0, s1, _, rfl, runs_s1⟩
  obtain ⟨bs₁, t₁, h₁, ht₁⟩ := exists_endTime_sensible fw lossy_sensible lossy_follow lossy_started
  obtain ⟨bs₂, t₂, h₂, ht₂⟩ := exists_endTime fw (two_regular 0 0 10 0) (two_active (Or.inl (by norm_num)))
  refine ⟨t, t₁, t₂, bs, bs₁, bs₂, h₁, ht₁, h₂, ht₂, h, ht, ?_⟩
  have := c74_queue_sensible hfw lossy_jobs (.cons ⟨bs₁, h₁, ht₁⟩ (.cons ⟨bs₂, h₂, ht₂⟩ .nil)) h ht
  rw [show [t₁, t₂].sum + (0 + 2) = t₁ + t₂ + 2 by simp] at this
  refine this.trans ?_
  norm_num [slack, at2, lossy, s0, s1, zeroFeed, afterZero, moveAndPause]

end Demo

end PyGCD
