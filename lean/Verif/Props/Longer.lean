import Verif.Props.UnusualQueues

/-!
# Property C126: programs that go on
-/

set_option linter.unusedSectionVars false
set_option linter.unusedSimpArgs false

namespace PyGCD
open Vec4 Spec

variable {fw : Firmware} {P R : List (PState ℝ)} {bs bs' : List (Block ℝ)} {a : ℝ}

/-- A drive that ends slower, if that is possible on its length. -/
theorem Spec.Drive.endSlower {vT d v v' w T : ℝ} (ha : 0 < a) (hd0 : 0 < d) (hvT : 0 < vT) (h : Drive a vT d v v' T)
    (hw : 0 ≤ w) (hw' : w ≤ v') (hv : v ^ 2 ≤ w ^ 2 + 2 * a * d) :
    ∃ T', Drive a vT d v w T' ∧ T' ≤ T + (v' - w) / a := by
  obtain ⟨f1, f2, f3, f4, f5, f6⟩ := h.facts ha
  have hww := (sq_le_sq₀ hw f3).2 hw'
  obtain ⟨ta, tc, td, vp, ph, hle⟩ := phases_exist ha hvT hd0 f1 f2 hw (hw'.trans f4) (by linarith) hv
  obtain ⟨D, hD, hx⟩ := h.extend ha f1 le_rfl hw hw'
  refine ⟨_, ph.drive ha f1 hw hle, ?_⟩
  have := ph.fastest_far ha hvT f1 le_rfl le_rfl hD hx
  rwa [_root_.sub_self, zero_div, _root_.zero_add] at this

/-- Full braking. -/
theorem brake_drive {vT d v w : ℝ} (ha : 0 < a) (hw : 0 ≤ w) (hwv : w ≤ v) (hv : v ≤ vT) (h : v ^ 2 = w ^ 2 + 2 * a * d) :
    Drive a vT d v w ((v - w) / a) := by
  have := drive_one (a := a) (vT := vT) (v := v) (v' := w) (T := (v - w) / a) (k := -a) ⟨by linarith, hv⟩ ⟨hw, by linarith⟩
    (div_nonneg (by linarith) ha.le) (by rw [abs_neg, abs_of_pos ha]) (by field_simp; ring)
  have e : (v + w) / 2 * ((v - w) / a) = d := by
    field_simp
    nlinarith
  rwa [e] at this

/-- Speeds change as fast as the acceleration says. -/
theorem Spec.Drive.brakes {vT d v v' T : ℝ} (h : Drive a vT d v v' T) : v - v' ≤ a * T := by
  obtain ⟨hT, x, w, hx, hL, hb, x0, xT, w0, wT⟩ := h
  have := hL T ⟨hT, le_rfl⟩ 0 ⟨le_rfl, hT⟩
  rw [w0, wT, zero_sub, abs_neg, abs_of_nonneg hT] at this
  exact (le_abs_self _).trans this

/-- Coming to rest takes time. -/
theorem Spec.Timetable.brakes (hfw : fw ≠ .marlinJerk) (hsens : Sensible R) (ha : 0 < a) (hacc : ∀ s ∈ R, s.pAcc ≤ a)
    (hpause : ∀ s ∈ R, ∀ p ∈ s.pause, 0 ≤ p) {pa here : Option _} : ∀ {v T : ℝ},
    Timetable (junctionVel fw) v (tasks here pa R) T → (tasks here pa R = [] → v = 0) → 0 ≤ T ∧ v ≤ a * T := by
  induction R generalizing here pa with
  | nil =>
    intro v T h h0
    rw [tasks] at h h0
    rw [h0 rfl] at h ⊢
    cases h
    simp
  | cons s R ih =>
    intro v T h h0
    replace ih := @ih hsens.tail (fun x hx => hacc x (by simp [hx])) (fun x hx => hpause x (by simp [hx]))
    cases pa with
    | none =>
      rw [tasks_first] at h h0
      exact ih h h0
    | some A =>
      by_cases hp : s.pause ≠ none
      · rw [tasks_pausing _ _ _ hp] at h
        cases h with
        | pause hp ht h =>
          have h1 := ih h (fun _ => rfl)
          have h2 := hpause s (by simp) _ hp
          exact ⟨by linarith, mul_nonneg ha.le (by linarith)⟩
        | travel h0 => exact absurd h0 hp
        | filament h0 => exact absurd h0 hp
      · rw [not_not] at hp
        by_cases hx : Executes A s
        · rw [tasks_moving _ _ hx] at h
          cases h with
          | pause h0 =>
            rw [hp] at h0
            cases h0
          | travel _ hne hd hlim h =>
            simp only at hd hlim
            obtain ⟨_, _, f2, _⟩ := hd.facts (hsens.acc s (by simp))
            have h1 := ih h (fun hnil => by
              rw [last_limit hfw _ (hsens.jerk s (by simp)) hsens.tail.speed hnil] at hlim
              exact le_antisymm hlim f2)
            have h2 := hd.brakes
            have h3 := mul_le_mul_of_nonneg_right (hacc s (by simp)) hd.1
            exact ⟨by linarith [hd.1], by linarith⟩
          | filament _ hz hne hd h =>
            have h1 := ih h (fun _ => rfl)
            exact ⟨by linarith [hd.1], mul_nonneg ha.le (by linarith [hd.1])⟩
        · rw [tasks_still _ _ hp hx] at h h0
          exact ih h h0

/-- The square of the speed from which the machine can stop before the end of the moves or the next standstill. -/
noncomputable def stopSq (a : ℝ) : List (Step × List (PState ℝ)) → ℝ
  | [] => 0
  | x :: ts => open Classical in
    if x.1.B.pause = none ∧ (x.1.dst.sub x.1.src).norm3 ≠ 0 then stopSq a ts + 2 * a * (x.1.dst.sub x.1.src).norm3 else 0

theorem stopSq_nonneg (ha : 0 < a) : ∀ ts, 0 ≤ stopSq a ts
  | [] => le_rfl
  | x :: ts => by
    rw [stopSq]
    split
    · have := mul_nonneg ha.le (norm3_nonneg (x.1.dst.sub x.1.src))
      linarith [stopSq_nonneg ha ts]
    · exact le_rfl

theorem stopSq_pause {x : Step × List (PState ℝ)} (h : x.1.B.pause ≠ none) (ts) : stopSq a (x :: ts) = 0 := by
  rw [stopSq, if_neg (fun hc => h hc.1)]

theorem stopSq_filament {x : Step × List (PState ℝ)} (h : (x.1.dst.sub x.1.src).norm3 = 0) (ts) : stopSq a (x :: ts) = 0 := by
  rw [stopSq, if_neg (fun hc => hc.2 h)]

theorem stopSq_travel {x : Step × List (PState ℝ)} (h : x.1.B.pause = none) (h' : (x.1.dst.sub x.1.src).norm3 ≠ 0) (ts) :
    stopSq a (x :: ts) = stopSq a ts + 2 * a * (x.1.dst.sub x.1.src).norm3 := by
  rw [stopSq, if_pos ⟨h, h'⟩]

theorem stopSq_still : ∀ {P : List (PState ℝ)} {A : PState ℝ} {here : Option (Vec4 ℝ)}, (∀ s ∈ P, s.position = A.position) →
    stopSq a (tasks here (some A) P) = 0
  | [], A, here, _ => by rw [tasks, stopSq]
  | s :: P, A, here, h => by
    by_cases hp : s.pause ≠ none
    · rw [tasks_pausing _ _ _ hp, stopSq_pause hp]
    · rw [not_not] at hp
      rw [tasks_still _ _ hp (fun hx => hx.2.1 (h s (by simp)))]
      exact stopSq_still fun x hx => (h x (by simp [hx])).trans (h s (by simp)).symm

/-- A motion of a program that goes on can be shortened to one that stops earlier. -/
theorem Spec.Timetable.shortened (hfw : fw ≠ .marlinJerk) (ha : 0 < a) (hP : Sensible P) (hR : Sensible R)
    (hPa : ∀ s ∈ P, s.pAcc = a) (hRa : ∀ s ∈ R, s.pAcc ≤ a) (hpause : ∀ s ∈ R, ∀ p ∈ s.pause, 0 ≤ p) {pa here : Option _} :
    ∀ {v T : ℝ}, Timetable (junctionVel fw) v (tasks here pa (P ++ R)) T → (tasks here pa (P ++ R) = [] → v = 0) → 0 ≤ v →
    ∃ T', Timetable (junctionVel fw) (min v √(stopSq a (tasks here pa P))) (tasks here pa P) T' ∧
      T' + (v - min v √(stopSq a (tasks here pa P))) / a ≤ T := by
  induction P generalizing here pa with
  | nil =>
    intro v T h h0 hv
    rw [List.nil_append] at h h0
    have := h.brakes hfw hR ha hRa hpause h0
    rw [tasks, stopSq, Real.sqrt_zero, min_eq_right hv]
    refine ⟨0, .done _, ?_⟩
    rw [_root_.zero_add, sub_zero, div_le_iff₀ ha]
    linarith
  | cons s P ih =>
    intro v T h h0 hv
    replace ih := @ih hP.tail (fun x hx => hPa x (by simp [hx]))
    rw [List.cons_append] at h h0
    cases pa with
    | none =>
      rw [tasks_first] at h h0 ⊢
      exact ih h h0 hv
    | some A =>
      by_cases hp : s.pause ≠ none
      · rw [tasks_pausing _ _ _ hp] at h ⊢
        rw [stopSq_pause hp, Real.sqrt_zero, min_eq_right hv]
        cases h with
        | pause hp ht h =>
          obtain ⟨T', h1, h2⟩ := ih h (fun _ => rfl) le_rfl
          rw [min_eq_left (Real.sqrt_nonneg _)] at h1 h2
          refine ⟨_, .pause hp ht h1, ?_⟩
          linarith
        | travel h0 => exact absurd h0 hp
        | filament h0 => exact absurd h0 hp
      · rw [not_not] at hp
        by_cases hx : Executes A s
        · rw [tasks_moving _ _ hx] at h ⊢
          cases h with
          | pause h0 =>
            rw [hp] at h0
            cases h0
          | @travel _ _ _ _ v' t T h0 hne hd hlim h =>
            simp only at hd hlim hne
            have hd0 : 0 < (((here.getD A.position).add (s.position.sub A.position)).sub (here.getD A.position)).norm3 :=
              lt_of_le_of_ne (norm3_nonneg _) (Ne.symm hne)
            obtain ⟨f1, f2, f3, f4, f5, f6⟩ := hd.facts (hP.acc s (by simp))
            obtain ⟨T', h1, h2⟩ := ih h (fun hnil => by
              rw [last_limit hfw _ (hP.jerk s (by simp)) (hP.tail.append hR).speed hnil] at hlim
              exact le_antisymm hlim f3) f3
            rw [stopSq_travel hp hne]
            simp only
            have hlim' : ∀ w, w ≤ min v' √(stopSq a (tasks (some ((here.getD A.position).add (s.position.sub A.position)))
                (some s) P)) → w ≤ junctionVel fw (some A) s P := by
              intro w hw
              by_cases hm : ∃ x ∈ P, x.position ≠ s.position
              · rw [junctionVel_append _ hm] at hlim
                exact (hw.trans (min_le_left _ _)).trans hlim
              · push Not at hm
                rw [stopSq_still hm, Real.sqrt_zero] at hw
                exact (hw.trans (min_le_right _ _)).trans
                  (c17_junction_speed fw _ _ _ (hP.speed s (by simp)) (hP.jerk s (by simp))).1
            have q := stopSq_nonneg ha (tasks (some ((here.getD A.position).add (s.position.sub A.position))) (some s) P)
            generalize stopSq a (tasks (some ((here.getD A.position).add (s.position.sub A.position))) (some s) P) = S at *
            generalize hdd : (((here.getD A.position).add (s.position.sub A.position)).sub (here.getD A.position)).norm3 = d at *
            have hacc := hPa s (by simp)
            rw [hacc] at hd f5 f6
            have hsS : √S ^ 2 = S := Real.sq_sqrt q
            have hV : √(S + 2 * a * d) ^ 2 = S + 2 * a * d := Real.sq_sqrt (by positivity)
            have hS0 := Real.sqrt_nonneg S
            have hV0 := Real.sqrt_nonneg (S + 2 * a * d)
            have build : ∀ {w w' t' : ℝ}, Drive a s.speed d w w' t' → w' = min v' √S →
                Timetable (junctionVel fw) w ((⟨A, s, here.getD A.position,
                  (here.getD A.position).add (s.position.sub A.position)⟩, P) ::
                    tasks (some ((here.getD A.position).add (s.position.sub A.position))) (some s) P) (t' + T') := by
              intro w w' t' hw e
              subst e
              refine .travel h0 (by simp only; rw [hdd]; exact hne) ?_ (hlim' _ le_rfl) h1
              simp only
              rw [hdd, hacc]
              exact hw
            rcases le_or_gt v' √S with hc | hc
            · rw [min_eq_left hc] at h2 build
              have hvV : v ≤ √(S + 2 * a * d) := by
                refine Real.le_sqrt_of_sq_le ?_
                have := (sq_le_sq₀ f3 hS0).2 hc
                linarith
              rw [min_eq_left hvV]
              refine ⟨_, build hd rfl, ?_⟩
              rw [_root_.sub_self, zero_div] at h2 ⊢
              linarith
            · rw [min_eq_right hc.le] at h2 build
              rcases le_or_gt v √(S + 2 * a * d) with hvV | hvV
              · rw [min_eq_left hvV]
                obtain ⟨t', g1, g2⟩ := hd.endSlower ha hd0 hx.2.2 hS0 hc.le (by
                  have := (sq_le_sq₀ f1 hV0).2 hvV
                  linarith)
                refine ⟨_, build g1 rfl, ?_⟩
                rw [_root_.sub_self, zero_div]
                linarith
              · rw [min_eq_right hvV.le]
                refine ⟨_, build (brake_drive ha hS0 (Real.sqrt_le_sqrt (by nlinarith)) (by linarith)
                  (by linarith)) rfl, ?_⟩
                have g1 := hd.brakes
                have g2 : (v - v') / a ≤ t := by
                  rw [div_le_iff₀ ha]
                  linarith
                have e : ∀ x y : ℝ, (x - y) / a = x / a - y / a := fun x y => sub_div x y a
                simp only [e] at h2 g2 ⊢
                linarith
          | filament h0 hz hne hd h =>
            simp only at hz
            rw [stopSq_filament hz, Real.sqrt_zero, min_self]
            obtain ⟨T', h1, h2⟩ := ih h (fun _ => rfl) le_rfl
            rw [min_eq_left (Real.sqrt_nonneg _)] at h1 h2
            refine ⟨_, .filament h0 hz hne hd h1, ?_⟩
            linarith
        · rw [tasks_still _ _ hp hx] at h h0 ⊢
          exact ih h h0 hv

/-- **C126, the shortest times.** -/
theorem c126_least {mP m : ℝ} (hfw : fw ≠ .marlinJerk) (ha : 0 < a) (hP : Sensible P) (hR : Sensible R)
    (hPa : ∀ s ∈ P, s.pAcc = a) (hRa : ∀ s ∈ R, s.pAcc ≤ a) (hpause : ∀ s ∈ R, ∀ p ∈ s.pause, 0 ≤ p)
    (h₁ : IsLeast {T | Timetable (junctionVel fw) 0 (tasks none none P) T} mP)
    (h : IsLeast {T | Timetable (junctionVel fw) 0 (tasks none none (P ++ R)) T} m) : mP ≤ m := by
  obtain ⟨T', h1, h2⟩ := Spec.Timetable.shortened hfw ha hP hR hPa hRa hpause h.1 (fun _ => rfl) le_rfl
  rw [min_eq_left (Real.sqrt_nonneg _)] at h1 h2
  rw [_root_.sub_self, zero_div, _root_.add_zero] at h2
  exact (h₁.2 h1).trans h2

/-- **C126.** A program that goes on does not take less time, up to the planner's tolerance, if all its accelerations are
equal, or those of the added part lower. -/
theorem c126_longer (hfw : fw ≠ .marlinJerk) (ha : 0 < a) (hs : Sensible (P ++ R)) (hPa : ∀ s ∈ P, s.pAcc = a)
    (hRa : ∀ s ∈ R, s.pAcc ≤ a) {t t' : ℝ} (h : plan fw P = .ok bs) (ht : EndTime (Spec.path bs) t)
    (h' : plan fw (P ++ R) = .ok bs') (ht' : EndTime (Spec.path bs') t') : t ≤ t' + slack (P ++ R) := by
  have hP : Sensible P := ⟨fun s hx => hs.speed s (by simp [hx]), fun s hx => hs.acc s (by simp [hx]),
    fun s hx => hs.jerk s (by simp [hx])⟩
  have hR : Sensible R := ⟨fun s hx => hs.speed s (by simp [hx]), fun s hx => hs.acc s (by simp [hx]),
    fun s hx => hs.jerk s (by simp [hx])⟩
  have hf := (c86_plannable fw hs).1 ⟨bs', h'⟩
  obtain ⟨m, hm, h1, _⟩ := c121_print_time hP h ht
  obtain ⟨m', hm', _, h2⟩ := c121_print_time hs h' ht'
  have := c126_least hfw ha hP hR hPa hRa (by
    intro s hx p hp
    obtain ⟨l1, l2, rfl⟩ := List.append_of_mem hx
    exact (hf (P ++ l1) s l2 (by simp) p hp).1) hm hm'
  linarith [h2 fun hx => absurd hx hfw]

/-! ## What is there already is done no later -/

theorem limit_append (hfw : fw ≠ .marlinJerk) {A s : PState ℝ} (hs : 0 ≤ s.speed) (hj : 0 ≤ s.jerk) {v : ℝ}
    (h : v ≤ junctionVel fw (some A) s P) : v ≤ junctionVel fw (some A) s (P ++ R) := by
  by_cases hm : ∃ x ∈ P, x.position ≠ s.position
  · rwa [junctionVel_append _ hm]
  · push Not at hm
    rw [c62_stop hfw (some A) hj (Or.inl hm)] at h
    exact h.trans (c17_junction_speed fw _ _ _ hs hj).1

theorem block_pause {b : Block ℝ} {x : Step × List (PState ℝ)} {p : ℝ} (hg : Good b) (ha : Does fw b x)
    (hp : x.1.B.pause = some p) : b.t1 - b.t0 = p := by
  have hp' : b.stateB.pause = some p := by rw [ha.1.2]; exact hp
  rcases hg with ⟨A', u, s0, s1, hm⟩ | ⟨A', q, hd⟩
  · have := hm.hpause
    rw [hp'] at this
    cases this
  · have := hd.hpause
    rw [hp'] at this
    cases this
    obtain ⟨t, ht⟩ := hd.hseg
    simp [Block.t0, Block.t1, ht]

theorem block_filament {b : Block ℝ} {x : Step × List (PState ℝ)} {t : ℝ} (hg : Good b) (ha : Does fw b x)
    (hp : x.1.B.pause = none) (h0 : (x.1.dst.sub x.1.src).norm3 = 0)
    (hd : Drive x.1.B.pAcc x.1.B.speed |(x.1.dst.sub x.1.src).e| 0 0 t) : b.t1 - b.t0 ≤ t := by
  obtain ⟨⟨a1, a2⟩, _⟩ := ha
  rcases hg with ⟨A', u, s0, s1, hm⟩ | ⟨A', q, hd'⟩
  · have hA := hm.hA
    rw [a1] at hA
    cases hA
    have hma := hm.ha
    have hms := hm.hs
    obtain ⟨g1, g2, g3, g4, _⟩ := hm.toHdr.unit
    obtain ⟨ta, tc, td, vp, ph, _⟩ := profile_phases g1 hm.hramp hm.hprof g3
    obtain ⟨f1, f2, f3, f4, _⟩ := hm.facts
    rw [moveDistance_length, a2] at ph
    rw [a2] at hma hms
    unfold moveLength at ph
    rw [if_pos h0] at ph
    exact ph.fastest hma hms f1 f1 f3 hd
  · have := hd'.hpause
    rw [a2] at this
    exact absurd this (by simp [hp])

theorem block_travel {b : Block ℝ} {tl : List (Block ℝ)} {x : Step} {behind : List (PState ℝ)}
    {ts : List (Step × List (PState ℝ))} {v v' t T : ℝ} (hg : Good b) (ha : Does fw b (x, behind))
    (hp : x.B.pause = none) (hne : (x.dst.sub x.src).norm3 ≠ 0)
    (hd : Drive x.B.pAcc x.B.speed (x.dst.sub x.src).norm3 v v' t) (hlim : v' ≤ junctionVel fw (some x.A) x.B behind)
    (hrest : Timetable (junctionVel fw) v' ts T) (ho : OptT fw ts tl) (hl : ∀ c ∈ tl.head?, LinkT b c ∧ LinkO b c)
    (hn : tl = [] → b.ExitR) (hv : v ≤ b.nIn) : (∀ c ∈ tl.head?, v' ≤ c.nIn) ∧ b.t1 - b.t0 ≤ t := by
  obtain ⟨hB', u, s0, s1, hm, hu1, hin, hout, hj, hdist⟩ := travel_does hg ha hp hne
  have hp' : b.stateB.pause = none := by rw [hB']; exact hp
  have hacc : x.B.pAcc = b.stateB.pAcc := by rw [hB']
  have hsp : x.B.speed = b.stateB.speed := by rw [hB']
  rw [← hdist, hacc, hsp] at hd
  obtain ⟨f0, f1, f2, _, f3, f4⟩ := hd.facts hm.ha
  obtain ⟨k1, k2, k3, k4, k5, k6⟩ := hm.facts
  obtain ⟨hu, hd0, hB, _⟩ := hm.toHdr.unit
  have hv0 : v ≤ s0 := by rwa [← hin]
  have hentry : ∀ c ∈ tl.head?, c.EntryR → v' ≤ c.nIn := fun c hc hE => entry_bound_tasks hrest ho c hc hE
  have hv' : v' ≤ s1 := by
    have hexit : b.ExitR → v' ≤ s1 := by
      rintro (⟨A', p, hd'⟩ | ⟨A', u', q0, q1, hm', hc'⟩)
      · rw [hd'.hpause] at hp'
        cases hp'
      · obtain ⟨rfl, rfl, rfl, rfl⟩ := hm.unique hm'
        rcases hc' with hc' | hc'
        · rw [hj] at hc'
          injection hc' with hc'
          rw [← mul_inj hu hc']
          exact hlim
        · refine (sq_le_sq₀ f2 k3).1 ?_
          have := (sq_le_sq₀ f0 k1).2 hv0
          linarith
    cases htl : tl with
    | nil => exact hexit (hn htl)
    | cons c tl' =>
      have hc : c ∈ tl.head? := by rw [htl]; rfl
      obtain ⟨l1, l2⟩ := hl c hc
      rcases l2.2 with l | l
      · exact hexit l
      · rw [← hout]
        exact le_trans (hentry c hc l) l1.2.1
  refine ⟨?_, ?_⟩
  · intro c hc
    obtain ⟨l1, l2⟩ := hl c hc
    rcases l2.1 with l | l
    · rw [l, hout]
      exact hv'
    · exact hentry c hc l
  · obtain ⟨ta, tc, td, vp, ph, _⟩ := profile_phases hu hm.hramp hm.hprof hB
    exact ph.fastest hm.ha hm.hs k1 hv0 hv' hd

/-- The blocks of the first part of a program are as fast as any motion of that part from rest to rest. -/
theorem part_bound (hfw : fw ≠ .marlinJerk) (hP : Sensible P) {pa here : Option _} {T' : ℝ} :
    ∀ {v T : ℝ} {bs : List (Block ℝ)}, Timetable (junctionVel fw) v (tasks here pa P) T → (tasks here pa P = [] → v = 0) →
    Timetable (junctionVel fw) 0 (tasks none (P.getLast?.or pa) R) T' → OptT fw (tasks here pa (P ++ R)) bs →
    (∀ b ∈ bs.head?, v ≤ b.nIn) → ((bs.take (tasks here pa P).length).map fun b => b.t1 - b.t0).sum ≤ T := by
  induction P generalizing here pa with
  | nil =>
    intro v T bs h h0 hR ho hv
    rw [tasks] at h ⊢
    cases h
    simp
  | cons s P ih =>
    intro v T bs h h0 hR ho hv
    replace ih := @ih hP.tail
    rw [last_or] at hR
    rw [List.cons_append] at ho
    have start : ∀ {bs : List (Block ℝ)} {ts : List (Step × List (PState ℝ))}, OptT fw ts bs → ∀ c ∈ bs.head?, 0 ≤ c.nIn := by
      intro bs ts ho c hc
      obtain ⟨_, _, _, _, _, _, _, _, _, _, _, _, h11, _⟩ := (ho.good c (List.mem_of_mem_head? hc)).facts
      exact h11
    cases pa with
    | none =>
      rw [tasks_first] at h h0 ho ⊢
      exact ih h h0 hR ho hv
    | some A =>
      by_cases hp : s.pause ≠ none
      · rw [tasks_pausing _ _ _ hp] at h ho ⊢
        obtain ⟨b, tl, rfl, hg, hdo, ho', hl, hn⟩ := ho.step
        rw [List.length_cons, List.take_succ_cons, List.map_cons, List.sum_cons]
        cases h with
        | pause hp ht h =>
          have h1 := ih h (fun _ => rfl) hR ho' (start ho')
          linarith [block_pause hg hdo hp]
        | travel h0 => exact absurd h0 hp
        | filament h0 => exact absurd h0 hp
      · rw [not_not] at hp
        by_cases hx : Executes A s
        · rw [tasks_moving _ _ hx] at h ho ⊢
          obtain ⟨b, tl, rfl, hg, hdo, ho', hl, hn⟩ := ho.step
          rw [List.length_cons, List.take_succ_cons, List.map_cons, List.sum_cons]
          cases h with
          | pause h0 =>
            rw [hp] at h0
            cases h0
          | @travel _ _ _ _ v' _ _ h0 hne hd hlim h =>
            simp only at hd hlim
            obtain ⟨_, _, f2, _⟩ := hd.facts (hP.acc s (by simp))
            have hnil : tasks (some ((here.getD A.position).add (s.position.sub A.position))) (some s) P = [] → v' = 0 := by
              intro hnil
              rw [last_limit hfw _ (hP.jerk s (by simp)) hP.tail.speed hnil] at hlim
              exact le_antisymm hlim f2
            have hlim' := limit_append (R := R) hfw (hP.speed s (by simp)) (hP.jerk s (by simp)) hlim
            obtain ⟨h1, h2⟩ := block_travel hg hdo h0 hne hd hlim' (h.then hfw hP.tail hnil hR) ho' hl hn (hv b rfl)
            linarith [ih h hnil hR ho' h1]
          | filament h0 hz hne hd h =>
            have h1 := ih h (fun _ => rfl) hR ho' (start ho')
            linarith [block_filament hg hdo h0 hz hd]
        · rw [tasks_still _ _ hp hx] at h h0 ho ⊢
          exact ih h h0 hR ho hv

theorem tasks_parts : ∀ (P R : List (PState ℝ)) (here : Option (Vec4 ℝ)) (pa : Option (PState ℝ)),
    ∃ ts here', tasks here pa (P ++ R) = ts ++ tasks here' (P.getLast?.or pa) R ∧ ts.length = (tasks here pa P).length
  | [], R, here, pa => ⟨[], here, by simp, by simp [tasks]⟩
  | s :: P, R, here, pa => by
    rw [last_or, List.cons_append]
    cases pa with
    | none =>
      rw [tasks_first, tasks_first]
      exact tasks_parts P R here (some s)
    | some A =>
      by_cases hp : s.pause ≠ none
      · rw [tasks_pausing _ _ _ hp, tasks_pausing _ _ _ hp]
        obtain ⟨ts, here', h1, h2⟩ := tasks_parts P R here (some s)
        exact ⟨_ :: ts, here', by rw [h1]; rfl, by simp [h2]⟩
      · rw [not_not] at hp
        by_cases hx : Executes A s
        · rw [tasks_moving _ _ hx, tasks_moving _ _ hx]
          obtain ⟨ts, here', h1, h2⟩ := tasks_parts P R (some ((here.getD A.position).add (s.position.sub A.position))) (some s)
          exact ⟨_ :: ts, here', by rw [h1]; rfl, by simp [h2]⟩
        · rw [tasks_still _ _ hp hx, tasks_still _ _ hp hx]
          exact tasks_parts P R here (some s)

/-- The rest of a program can be done from rest. -/
theorem rest_timetable (hs : Sensible (P ++ R)) (hf : PausesFollow (P ++ R)) :
    ∃ T, Timetable (junctionVel fw) 0 (tasks none (P.getLast?.or none) R) T := by
  obtain ⟨bs, h⟩ := (c86_plannable .default hs).2 hf
  obtain ⟨bs', _, _, h3, _, _, h6, _⟩ := plan_anchored_opt hs h
  obtain ⟨ts, here', e, _⟩ := tasks_parts P R none none
  rw [e] at h3
  have hd := List.forall₂_drop_append _ _ _ h3
  refine ⟨_, (timetable_of_rest ?_ hd ?_).elsewhere⟩
  · intro x hx
    obtain ⟨pre, hpre⟩ := tasks_behind _ _ _ x (e ▸ List.mem_append_right ts hx)
    rw [Option.toList_none, List.nil_append] at hpre
    have hxB : x.1.B ∈ P ++ R := by rw [hpre]; simp
    exact (c17_junction_speed fw _ _ _ (hs.speed _ hxB) (hs.jerk _ hxB)).1
  · intro b hb
    exact h6 (fun _ _ _ => by simp [junctionVel]) b (List.mem_of_mem_drop hb)

/-- **C126, the part that was there.** What the program did before is done no later when the program goes on. -/
theorem c126_part (hfw : fw ≠ .marlinJerk) (hs : Sensible (P ++ R)) {t : ℝ}
    (h : plan fw P = .ok bs) (ht : EndTime (Spec.path bs) t) (h' : plan fw (P ++ R) = .ok bs') :
    ∃ t', EndTime (Spec.path (bs'.take bs.length)) t' ∧ t' ≤ t + slack P := by
  have hP : Sensible P := ⟨fun s hx => hs.speed s (by simp [hx]), fun s hx => hs.acc s (by simp [hx]),
    fun s hx => hs.jerk s (by simp [hx])⟩
  obtain ⟨m, hm, _, h2⟩ := c121_print_time hP h ht
  obtain ⟨T', hR⟩ := rest_timetable (fw := fw) hs ((c86_plannable fw hs).1 ⟨bs', h'⟩)
  obtain ⟨cs, g1, _, g3, _⟩ := plan_anchored_opt hP h
  obtain ⟨cs', k1, k2, k3, k4, k5, _⟩ := plan_anchored_opt hs h'
  have hlen : bs.length = (tasks none none P).length := g1.length_eq.trans g3.length_eq
  have k6 : SoundRun (cs'.take bs.length) := ⟨fun b hb => k2.good b (List.mem_of_mem_take hb), k2.chain.take _, fun b hb => by
    rw [List.head?_take] at hb
    split at hb
    · cases hb
    · exact k2.first b hb⟩
  have hne : (Spec.path (cs'.take bs.length)).getLast? ≠ none := by
    obtain ⟨ts, here', e, hts⟩ := tasks_parts P R none none
    have k7 := k3.length_eq
    rw [e, List.length_append, hts, ← hlen] at k7
    cases bs with
    | nil =>
      obtain ⟨s, hs, _⟩ := ht
      cases hs
    | cons b bs =>
      cases cs' with
      | nil =>
        simp only [List.length_nil, List.length_cons] at k7
        omega
      | cons c cs' =>
        have hc : c.segments ≠ [] := by
          rcases k2.good c (by simp) with ⟨A', u, s0, s1, hm⟩ | ⟨A', q, hd⟩
          · exact hm.ne_nil
          · obtain ⟨t, ht⟩ := hd.hseg
            simp [ht]
        simp [Spec.path, hc]
  obtain ⟨l, hl⟩ := Option.ne_none_iff_exists'.1 hne
  have ht' : EndTime (Spec.path (cs'.take bs.length)) l.tEnd := ⟨l, hl, rfl⟩
  refine ⟨l.tEnd, by rwa [path_anch (List.forall₂_take _ k1)], ?_⟩
  rw [← k6.endTime_sum ht', hlen]
  have := part_bound hfw hP hm.1 (fun _ => rfl) hR ⟨k3, k2.good, k2.chain, k4, k5⟩ (fun b hb => by rw [(k2.first b hb).2.1])
  linarith [h2 fun hx => absurd hx hfw]

/-! ## Adding a move can make a print shorter -/

/-- A place on a line, reached with 10 mm/s and the given acceleration. -/
noncomputable def Demo.lineTo (x a : ℝ) : PState ℝ := ⟨⟨x, 0, 0, 0⟩, 10, a, 20, none, none⟩

theorem Demo.lineTo_norm {x x' a a' d : ℝ} (hd : 0 ≤ d) (h : x' = x + d) :
    ((Demo.lineTo x' a').position.sub (Demo.lineTo x a).position).norm3 = d := by
  unfold norm3
  rw [sqrt_real]
  simp only [Demo.lineTo, Vec4.sub, h]
  rw [show (x + d - x) * (x + d - x) + (0 - 0) * (0 - 0) + (0 - 0) * (0 - 0) = d ^ 2 by ring]
  exact Real.sqrt_sq hd

theorem Demo.lineTo_runs {x x' a a' : ℝ} (h : x' ≠ x) : Executes (Demo.lineTo x a) (Demo.lineTo x' a') :=
  ⟨rfl, fun e => h (congrArg Vec4.x e), by norm_num [Demo.lineTo]⟩

theorem Demo.lineTo_sensible {l : List (ℝ × ℝ)} (h : ∀ x ∈ l, 0 < x.2) : Sensible (l.map fun x => Demo.lineTo x.1 x.2) := by
  refine ⟨?_, ?_, ?_⟩ <;> intro s hs <;> obtain ⟨x, hx, rfl⟩ := List.mem_map.1 hs
  · norm_num [Demo.lineTo]
  · exact h x hx
  · norm_num [Demo.lineTo]

theorem Demo.lineTo_follow (l : List (ℝ × ℝ)) : PausesFollow (l.map fun x => Demo.lineTo x.1 x.2) := by
  intro pre s post he p hp
  have hm : s ∈ l.map fun x => Demo.lineTo x.1 x.2 := by rw [he]; simp
  obtain ⟨x, hx, rfl⟩ := List.mem_map.1 hm
  cases hp

/-- A move of 10 mm, and a move of 0.01 mm with hundred times the acceleration. -/
noncomputable def Demo.stub : List (PState ℝ) := [Demo.lineTo 0 100, Demo.lineTo 10 100]

theorem Demo.add_back (p q : Vec4 ℝ) : p.add (q.sub p) = q := by
  ext <;> simp [Vec4.add, Vec4.sub]

/-- **C126** does not hold for all accelerations: with a further move the print takes less time. -/
theorem c126_shorter : ∃ bs bs' t t', plan .mka Demo.stub = .ok bs ∧ EndTime (Spec.path bs) t ∧
    plan .mka (Demo.stub ++ [Demo.lineTo 10.01 10000]) = .ok bs' ∧ EndTime (Spec.path bs') t' ∧ t' + 0.04 ≤ t := by
  have hs : Sensible Demo.stub := Demo.lineTo_sensible (l := [(0, 100), (10, 100)]) (by
    intro x hx
    simp only [List.mem_cons, List.not_mem_nil, or_false] at hx
    rcases hx with rfl | rfl <;> norm_num)
  have hs' : Sensible (Demo.stub ++ [Demo.lineTo 10.01 10000]) :=
    Demo.lineTo_sensible (l := [(0, 100), (10, 100), (10.01, 10000)]) (by
      intro x hx
      simp only [List.mem_cons, List.not_mem_nil, or_false] at hx
      rcases hx with rfl | rfl | rfl <;> norm_num)
  have x1 : Executes (Demo.lineTo 0 100) (Demo.lineTo 10 100) := Demo.lineTo_runs (by norm_num)
  have x2 : Executes (Demo.lineTo 10 100) (Demo.lineTo 10.01 10000) := Demo.lineTo_runs (by norm_num)
  obtain ⟨bs, t, h, ht⟩ := exists_endTime_sensible .mka hs (Demo.lineTo_follow [(0, 100), (10, 100)]) ⟨[], _, _, _, rfl, x1⟩
  obtain ⟨bs', t', h', ht'⟩ := exists_endTime_sensible .mka hs' (Demo.lineTo_follow [(0, 100), (10, 100), (10.01, 10000)])
    ⟨[], _, _, _, rfl, x1⟩
  refine ⟨bs, bs', t, t', h, ht, h', ht', ?_⟩
  have n1 := Demo.lineTo_norm (x := 0) (x' := 10) (a := 100) (a' := 100) (d := 10) (by norm_num) (by norm_num)
  have n2 := Demo.lineTo_norm (x := 10) (x' := 10.01) (a := 100) (a' := 10000) (d := 0.01) (by norm_num) (by norm_num)
  have lo : t' ≤ 1.0515 := by
    have hT : Timetable (junctionVel .mka) 0 (tasks none none (Demo.stub ++ [Demo.lineTo 10.01 10000]))
        (1.05 + (0.0015 + 0)) := by
      simp only [Demo.stub, List.cons_append, List.nil_append]
      rw [tasks_first, tasks_moving _ _ x1, tasks_moving _ _ x2, tasks]
      simp only [Option.getD_none, Option.getD_some, Demo.add_back]
      have d : Drive 100 10 10 0 10 1.05 :=
        Phases.drive (ta := 0.1) (tc := 0.95) (td := 0) (vp := 10) (by norm_num)
          ⟨by norm_num, by norm_num, by norm_num, by norm_num, by norm_num, by norm_num, by norm_num, by norm_num⟩
          (by norm_num) (by norm_num) (by norm_num)
      have d' : Drive 10000 10 0.01 10 0 0.0015 :=
        Phases.drive (ta := 0) (tc := 0.0005) (td := 0.001) (vp := 10) (by norm_num)
          ⟨by norm_num, by norm_num, by norm_num, by norm_num, by norm_num, by norm_num, by norm_num, by norm_num⟩
          (by norm_num) (by norm_num) (by norm_num)
      refine .travel (v' := 10) rfl (by simp only [n1]; norm_num) (by simp only [n1]; exact d) ?_
        (.travel (v' := 0) rfl (by simp only [n2]; norm_num) (by simp only [n2]; exact d') ?_ (.done _))
      · simp only
        have hn : NextMove (Demo.lineTo 10 100) [Demo.lineTo 10.01 10000] (Demo.lineTo 10.01 10000) :=
          ⟨[], [], rfl, by simp, x2.2.1⟩
        rw [c61_mka_law (u := ⟨1, 0, 0, 0⟩) (w := ⟨1, 0, 0, 0⟩) hn (by rw [n1]; norm_num)
          (by rw [n2]; norm_num) (by norm_num [Demo.lineTo]) (by norm_num [Demo.lineTo]) (by norm_num [Demo.lineTo])
          (by rw [n1]; ext <;> norm_num [Demo.lineTo, Vec4.add, Vec4.mul])
          (by rw [n2]; ext <;> norm_num [Demo.lineTo, Vec4.add, Vec4.mul])]
        norm_num [Spec.mka, cap, axisJump, Demo.lineTo]
      · exact (c17_junction_speed .mka _ _ _ (by norm_num [Demo.lineTo]) (by norm_num [Demo.lineTo])).1
    have := c118_fastest hs' h' hT ht'
    norm_num at this ⊢
    linarith
  have hi : 1.1 ≤ t + slack Demo.stub := by
    obtain ⟨m, hm, _, h2⟩ := c121_print_time hs h ht
    refine le_trans ?_ (h2 (by simp))
    have hT : Timetable _ _ _ _ := hm.1
    simp only [Demo.stub] at hT
    rw [tasks_first, tasks_moving _ _ x1, tasks] at hT
    simp only [Option.getD_none, Demo.add_back] at hT
    cases hT with
    | pause hp => cases hp
    | filament _ h0 =>
      simp only [n1] at h0
      norm_num at h0
    | @travel _ _ _ _ v' a T _ _ hd hlim htl =>
      simp only [n1] at hd
      cases htl
      have h0 : v' ≤ 0 := by
        simp only at hlim
        exact hlim.trans (c62_stop (by simp) _ (by norm_num [Demo.lineTo]) (Or.inl (by simp))).le
      have hd : Drive 100 10 10 0 v' a := hd
      have ha0 := hd.1
      by_contra hlt
      push Not at hlt
      rw [_root_.add_zero] at hlt
      by_cases hb : a ≤ 0.2
      · have := hd.bound (m := 0) (n := a) le_rfl ha0 le_rfl
        norm_num at hb this
        linarith
      · push Not at hb
        have := hd.bound (m := 0.1) (n := a - 0.1) (by norm_num) (by norm_num at hb ⊢; linarith) (by norm_num)
        norm_num at hb this hlt
        nlinarith
  have sl : slack Demo.stub ≤ 0.001 := by
    norm_num [slack, Demo.stub, Demo.lineTo]
  norm_num at lo hi sl ⊢
  linarith

/-- A program of one move that goes on with a further move of the same acceleration meets the hypotheses. -/
example : ∃ bs bs' t t' t'', plan .klipper Demo.stub = .ok bs ∧ EndTime (Spec.path bs) t ∧
    plan .klipper (Demo.stub ++ [Demo.lineTo 20 100]) = .ok bs' ∧ EndTime (Spec.path bs') t' ∧
    EndTime (Spec.path (bs'.take bs.length)) t'' ∧ t ≤ t' + slack (Demo.stub ++ [Demo.lineTo 20 100]) ∧
    t'' ≤ t + slack Demo.stub := by
  have hs' : Sensible (Demo.stub ++ [Demo.lineTo 20 100]) :=
    Demo.lineTo_sensible (l := [(0, 100), (10, 100), (20, 100)]) (by
      intro x hx
      simp only [List.mem_cons, List.not_mem_nil, or_false] at hx
      rcases hx with rfl | rfl | rfl <;> norm_num)
  have hs : Sensible Demo.stub := ⟨fun s hx => hs'.speed s (by simp [hx]), fun s hx => hs'.acc s (by simp [hx]),
    fun s hx => hs'.jerk s (by simp [hx])⟩
  have x1 : Executes (Demo.lineTo 0 100) (Demo.lineTo 10 100) := Demo.lineTo_runs (by norm_num)
  obtain ⟨bs, t, h, ht⟩ := exists_endTime_sensible .klipper hs (Demo.lineTo_follow [(0, 100), (10, 100)])
    ⟨[], _, _, _, rfl, x1⟩
  obtain ⟨bs', t', h', ht'⟩ := exists_endTime_sensible .klipper hs' (Demo.lineTo_follow [(0, 100), (10, 100), (20, 100)])
    ⟨[], _, _, _, rfl, x1⟩
  obtain ⟨t'', ht'', hle⟩ := c126_part (by simp) hs' h ht h'
  exact ⟨bs, bs', t, t', t'', h, ht, h', ht', ht'',
    c126_longer (a := 100) (by simp) (by norm_num) hs' (by simp [Demo.stub, Demo.lineTo]) (by simp [Demo.lineTo]) h ht h' ht',
    hle⟩

end PyGCD
