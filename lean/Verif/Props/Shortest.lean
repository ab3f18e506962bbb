import Verif.Proofs.Shortest
import Verif.Props.Scaling
import Verif.Props.Placement

/-!
# Property C121: the print takes as long as the fastest motion within the limits

From this, what C66, C70 and C72 say is shown for programs whose feedrates may be zero and whose lines may both move and
pause.
-/

set_option linter.unusedSectionVars false
set_option linter.unusedSimpArgs false

namespace PyGCD
open Vec4 Spec

variable {fw : Firmware} {states states' : List (PState ℝ)} {bs bs' : List (Block ℝ)} {k r : ℝ}

/-! ## C121 -/

theorem tasks_executes : ∀ (states : List (PState ℝ)) (here : Option (Vec4 ℝ)) (A : Option (PState ℝ)),
    ∀ x ∈ tasks here A states, x.1.B.pause = none → Executes x.1.A x.1.B
  | [], here, A, x, hx, _ => by rw [tasks] at hx; cases hx
  | s :: rest, here, none, x, hx, h => by
    rw [tasks] at hx
    exact tasks_executes rest here (some s) x hx h
  | s :: rest, here, some A, x, hx, h => by
    rw [tasks] at hx
    by_cases hp : s.pause ≠ none
    · simp only [if_pos hp, List.mem_cons] at hx
      rcases hx with rfl | hx
      · exact absurd h hp
      · exact tasks_executes rest _ _ x hx h
    · by_cases hr : Executes A s
      · simp only [if_neg hp, if_pos hr, List.mem_cons] at hx
        rcases hx with rfl | hx
        · exact hr
        · exact tasks_executes rest _ _ x hx h
      · simp only [if_neg hp, if_neg hr] at hx
        exact tasks_executes rest _ _ x hx h

theorem tasks_ok (fw : Firmware) (hsens : Sensible states) : ∀ x ∈ tasks none none states, StepOk (junctionVel fw) x := by
  intro x hx
  have hB := tasks_mem hx
  have hj := c17_junction_speed fw (some x.1.A) x.1.B x.2 (hsens.speed _ hB) (hsens.jerk _ hB)
  have hex := tasks_executes states none none x hx
  refine ⟨hsens.acc _ hB, fun hp => (hex hp).2.2, ?_, hj.1, fun _ => hj.2⟩
  intro hp he
  have h1 := tasks_shift states none none x hx hp
  rw [he] at h1
  refine (hex hp).2.1 ?_
  have h2 : x.1.B.position.sub x.1.A.position = Vec4.zero := by
    rw [← h1]
    ext <;> simp [Vec4.sub, Vec4.zero]
  have hx := congrArg Vec4.x h2
  have hy := congrArg Vec4.y h2
  have hz := congrArg Vec4.z h2
  have hE := congrArg Vec4.e h2
  simp only [Vec4.sub, Vec4.zero] at hx hy hz hE
  ext
  · exact sub_eq_zero.1 hx
  · exact sub_eq_zero.1 hy
  · exact sub_eq_zero.1 hz
  · exact sub_eq_zero.1 hE

/-- **C121, the closed formula.** The time that the closed formula gives is the shortest of the times of all motions that do
the steps of the program from rest, within its feedrates, accelerations and junction speeds. -/
theorem c121_least (fw : Firmware) (hsens : Sensible states) :
    IsLeast {T | Timetable (junctionVel fw) 0 (tasks none none states) T} (tasksTime (junctionVel fw) states) :=
  timeOf_isLeast (tasks_ok fw hsens)

/-- **C121.** The print takes as long as the fastest motion that does the steps of the program from rest, within its
feedrates, accelerations and junction speeds: not longer at all, and shorter only by the planner's tolerance of `1e-12`
mm/s per junction. With `marlin_jerk` every move has to travel for the latter. -/
theorem c121_print_time (hsens : Sensible states) (h : plan fw states = .ok bs) {t : ℝ} (ht : EndTime (Spec.path bs) t) :
    ∃ m, IsLeast {T | Timetable (junctionVel fw) 0 (tasks none none states) T} m ∧ t ≤ m ∧
      ((fw = .marlinJerk → TasksTravel states) → m ≤ t + slack states) := by
  have hm := c121_least fw hsens
  refine ⟨_, hm, c118_fastest hsens h hm.1 ht, fun hfw => ?_⟩
  have := abs_le.1 (c119_print_time hsens hfw h ht)
  linarith

/-! ## C66 -/

/-- The step `x'` asks for the same as `x`, within limits that are not lower. -/
structure Easier (limit : Option (PState ℝ) → PState ℝ → List (PState ℝ) → ℝ) (x x' : Step × List (PState ℝ)) : Prop where
  pause : x'.1.B.pause = x.1.B.pause
  src : x'.1.src = x.1.src
  dst : x'.1.dst = x.1.dst
  acc : x.1.B.pAcc ≤ x'.1.B.pAcc
  speed : x.1.B.speed ≤ x'.1.B.speed
  lim : x.1.B.pause = none → (x.1.dst.sub x.1.src).norm3 ≠ 0 →
    limit (some x.1.A) x.1.B x.2 ≤ limit (some x'.1.A) x'.1.B x'.2

theorem Spec.Timetable.easier {limit : Option (PState ℝ) → PState ℝ → List (PState ℝ) → ℝ} {v T : ℝ}
    {xs : List (Step × List (PState ℝ))} (h : Timetable limit v xs T) :
    ∀ {xs' : List (Step × List (PState ℝ))}, List.Forall₂ (Easier limit) xs xs' → Timetable limit v xs' T := by
  induction h with
  | done v =>
    intro xs' h
    cases h
    exact .done _
  | pause hp ht _ ih =>
    intro xs' h
    cases h with
    | cons h1 h2 => exact .pause (h1.pause.trans hp) ht (ih h2)
  | @travel x behind tl v v' t T hp hne hd hlim _ ih =>
    intro xs' h
    cases h with
    | @cons _ x' _ _ h1 h2 =>
      have e := h1.lim hp hne
      have h3 := h1.src
      have h4 := h1.dst
      obtain ⟨x', b'⟩ := x'
      simp only at h3 h4 e
      refine .travel (h1.pause.trans hp) (by rw [h3, h4]; exact hne) ?_ (hlim.trans e) (ih h2)
      rw [h3, h4]
      exact hd.raise h1.acc h1.speed
  | @filament x behind tl t T hp h0 hne hd _ ih =>
    intro xs' h
    cases h with
    | @cons _ x' _ _ h1 h2 =>
      have h3 := h1.src
      have h4 := h1.dst
      obtain ⟨x', b'⟩ := x'
      simp only at h3 h4
      refine .filament (h1.pause.trans hp) (by rw [h3, h4]; exact h0) (by rw [h3, h4]; exact hne) ?_ (ih h2)
      rw [h3, h4]
      exact hd.raise h1.acc h1.speed

/-- The limits are raised, and a feedrate of zero stays zero. -/
def RaisedOn (fw : Firmware) (s s' : PState ℝ) : Prop := Raised fw s s' ∧ (0 < s'.speed → 0 < s.speed)

theorem tasks_raised : ∀ {states states' : List (PState ℝ)}, List.Forall₂ (RaisedOn fw) states states' →
    ∀ {here : Option (Vec4 ℝ)} {A A' : Option (PState ℝ)}, Option.Rel (RaisedOn fw) A A' →
    (∀ s ∈ states, 0 ≤ s.speed ∧ 0 < s.pAcc ∧ 0 ≤ s.jerk) →
    List.Forall₂ (Easier (junctionVel fw)) (tasks here A states) (tasks here A' states') := by
  intro states states' h
  induction h with
  | nil =>
    intro here A A' _ _
    rw [tasks, tasks]
    exact .nil
  | @cons s s' l l' hs hl ih =>
    intro here A A' hA hsens
    have hsens' : ∀ s ∈ l, 0 ≤ s.speed ∧ 0 < s.pAcc ∧ 0 ≤ s.jerk := fun x hx => hsens x (by simp [hx])
    obtain ⟨r1, r2, r3⟩ := hsens s (by simp)
    cases hA with
    | none =>
      rw [tasks, tasks]
      exact ih (.some hs) hsens'
    | @some A A' hA =>
      rw [tasks, tasks]
      simp only
      have e1 : s'.pause = s.pause := hs.1.pause
      have e2 : s'.position = s.position := hs.1.position
      have e3 : A'.position = A.position := hA.1.position
      rw [e1, e2, e3]
      by_cases hp : s.pause ≠ none
      · rw [if_pos hp, if_pos hp]
        refine .cons ⟨e1, rfl, rfl, hs.1.acc, hs.1.speed, fun h => absurd h hp⟩ (ih (.some hs) hsens')
      · rw [if_neg hp, if_neg hp]
        have he : Executes A' s' ↔ Executes A s := by
          unfold Executes
          rw [e1, e2, e3]
          exact and_congr_right fun _ => and_congr_right fun _ => ⟨hs.2, fun h => h.trans_le hs.1.speed⟩
        by_cases hx : Executes A s
        · rw [if_pos hx, if_pos (he.2 hx)]
          refine .cons ⟨e1, rfl, rfl, hs.1.acc, hs.1.speed, fun _ hn => ?_⟩ (ih (.some hs) hsens')
          have hn' : (s.position.sub A.position).norm3 ≠ 0 := by
            intro h0
            apply hn
            have : ((here.getD A.position).add (s.position.sub A.position)).sub (here.getD A.position) =
                s.position.sub A.position := by
              ext <;> simp [Vec4.add, Vec4.sub]
            simp only [this]
            exact h0
          exact junctionVel_mono hA.1 hs.1 (hl.imp fun _ _ h => h.1) hn' hx.2.2 r2 r3 fun C hC => (hsens' C hC).1
        · rw [if_neg hx, if_neg (mt he.1 hx)]
          exact ih (.some hs) hsens'

theorem Spec.Sensible.raised (hsens : Sensible states) (hR : List.Forall₂ (RaisedOn fw) states states') :
    Sensible states' := by
  have key : ∀ s' ∈ states', ∃ s ∈ states, Raised fw s s' := by
    intro s' hs'
    obtain ⟨s, hs, h⟩ := forall₂_mem_right hR s' hs'
    exact ⟨s, hs, h.1⟩
  refine ⟨?_, ?_, ?_⟩ <;> intro s' hs' <;> obtain ⟨s, hs, h⟩ := key s' hs'
  · exact (hsens.speed s hs).trans h.speed
  · exact (hsens.acc s hs).trans_le h.acc
  · exact (hsens.jerk s hs).trans h.jerk

/-- **C66**, also with feedrates of zero, which stay zero, and with lines that move and pause: on a machine with higher
limits the print takes no longer than any motion within the old limits. -/
theorem c66_any_motion_sensible (hsens : Sensible states)
    (hR : List.Forall₂ (fun s s' => Raised fw s s' ∧ (0 < s'.speed → 0 < s.speed)) states states') {T t' : ℝ}
    (hS : Timetable (junctionVel fw) 0 (tasks none none states) T) (h' : plan fw states' = .ok bs')
    (ht' : EndTime (Spec.path bs') t') : t' ≤ T :=
  c118_fastest (Spec.Sensible.raised hsens hR) h'
    (hS.easier (tasks_raised hR .none fun s hs => ⟨hsens.speed s hs, hsens.acc s hs, hsens.jerk s hs⟩)) ht'

/-- **C66**, also with feedrates of zero, which stay zero, and with lines that move and pause: raising accelerations,
jerks and feedrates (for `marlin_jerk` and `MKA`: accelerations and jerks) does not make the print longer, up to the
planner's tolerance. With `marlin_jerk` the moves must all travel. -/
theorem c66_raised_limits_sensible (hsens : Sensible states)
    (hR : List.Forall₂ (fun s s' => Raised fw s s' ∧ (0 < s'.speed → 0 < s.speed)) states states') {t t' : ℝ}
    (hfw : fw = .marlinJerk → TasksTravel states)
    (h : plan fw states = .ok bs) (ht : EndTime (Spec.path bs) t)
    (h' : plan fw states' = .ok bs') (ht' : EndTime (Spec.path bs') t') : t' ≤ t + slack states := by
  obtain ⟨m, hm, _, h2⟩ := c121_print_time hsens h ht
  exact (c66_any_motion_sensible hsens hR hm.1 h' ht').trans (h2 hfw)

/-! ## C70 -/

theorem Sym.pausesFollow {g L : Vec4 ℝ → Vec4 ℝ} (h : Sym g L) (hf : PausesFollow states) :
    PausesFollow (states.map (placed g)) := by
  intro pre s post he p hp
  obtain ⟨l1, l2, rfl, rfl, e3⟩ := List.map_eq_append_iff.1 he
  obtain ⟨s', l3, rfl, rfl, rfl⟩ := List.map_eq_cons_iff.1 e3
  obtain ⟨h0, l, A, B, r, rfl, hx⟩ := hf l1 s' l3 rfl p hp
  refine ⟨h0, l.map (placed g), placed g A, placed g B, r.map (placed g), by simp, hx.1, ?_, hx.2.2⟩
  exact fun e => hx.2.1 (h.inj.1 e)

theorem Sym.plan_sensible {g L : Vec4 ℝ → Vec4 ℝ} (h : Sym g L) (hfw : fw ≠ .mka ∨ L = id) (hsens : Sensible states)
    (hp : plan fw states = .ok bs) : plan fw (states.map (placed g)) = .ok (bs.map (placedBlock g L)) := by
  have all : ∀ P : PState ℝ → Prop, (∀ s, P s → P (placed g s)) → (∀ s ∈ states, P s) →
      ∀ s ∈ states.map (placed g), P s := by
    intro P hP hs s hm
    obtain ⟨s', h1, rfl⟩ := List.mem_map.1 hm
    exact hP _ (hs _ h1)
  have hsens' : Sensible (states.map (placed g)) :=
    ⟨all _ (fun s hs => hs) hsens.speed, all _ (fun s hs => hs) hsens.acc, all _ (fun s hs => hs) hsens.jerk⟩
  obtain ⟨bs', h'⟩ := (c86_plannable fw hsens').2 (h.pausesFollow ((c86_plannable fw hsens).1 ⟨bs, hp⟩))
  rw [h', h.plan_placed fw hfw states bs bs' hp h']

/-- **C70**, also with feedrates of zero and with lines that move and pause: shifting a part. With every firmware the print
takes as long, and to every query, whatever was asked before, the answer is the same error or the shifted position and the
same velocity. -/
theorem c70_shift_sensible (c : Vec4 ℝ) (hsens : Sensible states) (hp : plan fw states = .ok bs) :
    ∃ bs', plan fw (states.map (placed fun p => p.add c)) = .ok bs' ∧ bs'.length = bs.length ∧
      (∀ T, EndTime (Spec.path bs') T ↔ EndTime (Spec.path bs) T) ∧
      ∀ own u f, InUnit (u.getD own) f → ∀ t history,
        ShiftedAnswer (c.mul f) (getValues (Spec.path bs) own u t (queryHistory (Spec.path bs) own history none)).1
          (getValues (Spec.path bs') own u t (queryHistory (Spec.path bs') own history none)).1 :=
  shift_of_plan c ((sym_shift c).plan_sensible (Or.inr rfl) hsens hp)

/-- **C70**, for all firmwares but `MKA`, also with feedrates of zero and with lines that move and pause: shifting, turning
or mirroring a part. The print takes as long, and to every query, whatever was asked before, the answer is the same error or
the corresponding position with the same travel speed and the same flow of filament. Missing: with `MKA` it is false, see
`c70_refuted`. -/
theorem c70_rigid_sensible_partial {g : Vec4 ℝ → Vec4 ℝ} (hg : Rigid g) (hfw : fw ≠ .mka) (hsens : Sensible states)
    (hp : plan fw states = .ok bs) :
    ∃ bs', plan fw (states.map (placed g)) = .ok bs' ∧ bs'.length = bs.length ∧
      (∀ T, EndTime (Spec.path bs') T ↔ EndTime (Spec.path bs) T) ∧
      ∀ own u f, InUnit (u.getD own) f → ∀ t history,
        PlacedAnswer g f (getValues (Spec.path bs) own u t (queryHistory (Spec.path bs) own history none)).1
          (getValues (Spec.path bs') own u t (queryHistory (Spec.path bs') own history none)).1 :=
  rigid_of_plan hg (hg.sym.plan_sensible (Or.inl hfw) hsens hp)

/-! ## C72 -/

/-- A step with all lengths `k` times as large and everything `r` times as fast. -/
noncomputable def scaledStep (k r : ℝ) (x : Step × List (PState ℝ)) : Step × List (PState ℝ) :=
  (⟨scaled k r x.1.A, scaled k r x.1.B, x.1.src.mul k, x.1.dst.mul k⟩, x.2.map (scaled k r))

theorem tasks_scaled (hk : 0 < k) (hr : 0 < r) : ∀ (states : List (PState ℝ)) (here : Option (Vec4 ℝ)) (A : Option (PState ℝ)),
    tasks (here.map (·.mul k)) (A.map (scaled k r)) (states.map (scaled k r)) =
      (tasks here A states).map (scaledStep k r)
  | [], here, A => by
    rw [List.map_nil, tasks, tasks]
    rfl
  | s :: rest, here, none => by
    rw [List.map_cons, Option.map_none, tasks, tasks]
    exact tasks_scaled hk hr rest here (some s)
  | s :: rest, here, some A => by
    rw [List.map_cons, Option.map_some, tasks, tasks]
    simp only
    have e0 : (here.map (·.mul k)).getD (scaled k r A).position = (here.getD A.position).mul k := by
      cases here <;> rfl
    have e1 : (scaled k r s).pause ≠ none ↔ s.pause ≠ none := by simp [scaled]
    have e2 : Executes (scaled k r A) (scaled k r s) ↔ Executes A s := by
      unfold Executes
      refine and_congr (by simp [scaled]) (and_congr (not_congr (mul_inj_pos hk)) ?_)
      exact mul_pos_iff_of_pos_right (mul_pos hk hr)
    rw [e0]
    by_cases hp : s.pause ≠ none
    · rw [if_pos hp, if_pos (e1.2 hp), List.map_cons]
      congr 1
      exact tasks_scaled hk hr rest here (some s)
    · rw [if_neg hp, if_neg (mt e1.1 hp)]
      by_cases hx : Executes A s
      · rw [if_pos hx, if_pos (e2.2 hx), List.map_cons]
        have e3 : ((here.getD A.position).mul k).add ((scaled k r s).position.sub (scaled k r A).position) =
            ((here.getD A.position).add (s.position.sub A.position)).mul k := by
          ext <;> simp only [scaled, Vec4.add, Vec4.sub, Vec4.mul] <;> ring
        rw [e3]
        congr 1
        exact tasks_scaled hk hr rest (some _) (some s)
      · rw [if_neg hx, if_neg (mt e2.1 hx)]
        exact tasks_scaled hk hr rest here (some s)

theorem Spec.Timetable.scaled (hk : 0 < k) (hr : 0 < r) {v T : ℝ} {xs : List (Step × List (PState ℝ))}
    (h : Timetable (junctionVel fw) v xs T)
    (hs : ∀ x ∈ xs, 0 ≤ x.1.B.speed ∧ 0 < x.1.B.pAcc ∧ 0 ≤ x.1.B.jerk) :
    Timetable (junctionVel fw) (v * (k * r)) (xs.map (scaledStep k r)) (T / r) := by
  have hc : 0 < k * r := mul_pos hk hr
  have hdist : ∀ p q : Vec4 ℝ, ((p.mul k).sub (q.mul k)).norm3 = (p.sub q).norm3 * k := by
    intro p q
    rw [scaled_sub, norm3_mul, abs_of_pos hk]
  induction h with
  | done v => simpa using .done _
  | @pause x behind tl p t T hp ht _ ih =>
    rw [add_div, MulZeroClass.zero_mul]
    have ih := ih fun y hy => hs y (by simp [hy])
    rw [MulZeroClass.zero_mul] at ih
    exact .pause (p := p / r) (by simp [Spec.scaled, hp]) (div_le_div_of_nonneg_right ht hr.le) ih
  | @travel x behind tl v v' t T hp hne hd hlim _ ih =>
    obtain ⟨r1, r2, r3⟩ := hs _ List.mem_cons_self
    rw [add_div]
    refine .travel (v' := v' * (k * r)) (by simp [Spec.scaled, hp]) ?_ ?_ ?_ (ih fun y hy => hs y (by simp [hy]))
    · rw [hdist]
      exact mul_ne_zero hne hk.ne'
    · rw [hdist]
      exact hd.scaled hk hr
    · have := junctionVel_scaled (fw := fw) hk hr (some x.A) x.B behind r1 r2 r3
      rw [Option.map_some] at this
      rw [this]
      exact mul_le_mul_of_nonneg_right hlim hc.le
  | @filament x behind tl t T hp h0 hne hd _ ih =>
    rw [add_div, MulZeroClass.zero_mul]
    have ih := ih fun y hy => hs y (by simp [hy])
    rw [MulZeroClass.zero_mul] at ih
    refine .filament (by simp [Spec.scaled, hp]) (by rw [hdist, h0, MulZeroClass.zero_mul]) ?_ ?_ ih
    · intro he
      exact hne (mul_right_cancel₀ hk.ne' he)
    · have := hd.scaled hk hr
      rw [MulZeroClass.zero_mul] at this
      have e : |(x.dst.mul k).e - (x.src.mul k).e| = |x.dst.e - x.src.e| * k := by
        simp only [Vec4.mul]
        rw [← sub_mul, abs_mul, abs_of_pos hk]
      rw [e]
      exact this

theorem Spec.Sensible.scaled (hsens : Sensible states) (hk : 0 < k) (hr : 0 < r) : Sensible (states.map (Spec.scaled k r)) where
  speed s hs := by
    obtain ⟨s, hs', rfl⟩ := List.mem_map.1 hs
    exact mul_nonneg (hsens.speed s hs') (mul_pos hk hr).le
  acc s hs := by
    obtain ⟨s, hs', rfl⟩ := List.mem_map.1 hs
    exact mul_pos (hsens.acc s hs') (mul_pos hk (pow_pos hr 2))
  jerk s hs := by
    obtain ⟨s, hs', rfl⟩ := List.mem_map.1 hs
    exact mul_nonneg (hsens.jerk s hs') (mul_pos hk hr).le

theorem Spec.TasksTravel.scaled (h : TasksTravel states) (hk : 0 < k) (hr : 0 < r) :
    TasksTravel (states.map (Spec.scaled k r)) := by
  intro x hx hp
  have := tasks_scaled (r := r) hk hr states none none
  simp only [Option.map_none] at this
  rw [this] at hx
  obtain ⟨y, hy, rfl⟩ := List.mem_map.1 hx
  have h1 := h y hy (by simpa [scaledStep, Spec.scaled] using hp)
  simp only [scaledStep, scaled_sub, norm3_mul]
  exact mul_ne_zero h1 (abs_pos.2 hk.ne').ne'

theorem least_scaled_le (hsens : Sensible states) (hk : 0 < k) (hr : 0 < r) {m m' : ℝ}
    (hm : IsLeast {T | Timetable (junctionVel fw) 0 (tasks none none states) T} m)
    (hm' : IsLeast {T | Timetable (junctionVel fw) 0 (tasks none none (states.map (scaled k r))) T} m') : m' ≤ m / r := by
  refine hm'.2 ?_
  have h1 := Spec.Timetable.scaled (k := k) (r := r) hk hr hm.1 fun x hx =>
    ⟨hsens.speed _ (tasks_mem hx), hsens.acc _ (tasks_mem hx), hsens.jerk _ (tasks_mem hx)⟩
  have := tasks_scaled (r := r) hk hr states none none
  simp only [Option.map_none] at this
  rw [MulZeroClass.zero_mul, ← this] at h1
  exact h1

/-- **C72**, also with feedrates of zero and with lines that move and pause: if all lengths are multiplied by `k` and
everything happens `r` times as fast, the shortest possible time becomes exactly `1 / r` of what it was. -/
theorem c72_least (hsens : Sensible states) (hk : 0 < k) (hr : 0 < r) {m : ℝ}
    (hm : IsLeast {T | Timetable (junctionVel fw) 0 (tasks none none states) T} m) :
    IsLeast {T | Timetable (junctionVel fw) 0 (tasks none none (states.map (scaled k r))) T} (m / r) := by
  have hm' := c121_least fw (hsens.scaled hk hr)
  have h1 := least_scaled_le hsens hk hr hm hm'
  have h2 := least_scaled_le (k := k⁻¹) (r := r⁻¹) (hsens.scaled hk hr) (inv_pos.2 hk) (inv_pos.2 hr) hm'
    (by rw [map_scaled_scaled hk hr]; exact hm)
  rw [div_inv_eq_mul] at h2
  have h3 := (div_le_iff₀ hr).2 h2
  rw [le_antisymm h3 h1]
  exact hm'

/-- **C72**, also with feedrates of zero and with lines that move and pause: if all lengths are multiplied by `k` and
everything happens `r` times as fast, the print takes `1 / r` of the time, up to the planner's tolerance of `1e-12` mm/s per
junction. With `marlin_jerk` the moves must all travel. -/
theorem c72_scaled_sensible (hsens : Sensible states) (hk : 0 < k) (hr : 0 < r) (hfw : fw = .marlinJerk → TasksTravel states)
    {t t' : ℝ} (h : plan fw states = .ok bs) (ht : EndTime (Spec.path bs) t)
    (h' : plan fw (states.map (scaled k r)) = .ok bs') (ht' : EndTime (Spec.path bs') t') :
    t' ≤ t / r + slack states / r ∧ t / r ≤ t' + slack (states.map (scaled k r)) := by
  obtain ⟨m, hm, h1, h2⟩ := c121_print_time hsens h ht
  obtain ⟨m', hm', h1', h2'⟩ := c121_print_time (hsens.scaled hk hr) h' ht'
  have e := (c72_least hsens hk hr hm).unique hm'
  have h3 := h2 hfw
  have h4 := h2' fun hx => Spec.TasksTravel.scaled (hfw hx) hk hr
  rw [← add_div]
  constructor
  · rw [← e] at h1'
    exact h1'.trans (div_le_div_of_nonneg_right h3 hr.le)
  · rw [← e] at h4
    exact (div_le_div_of_nonneg_right h1 hr.le).trans h4

/-! ## Examples -/

/-- With the default junction handling, nothing does the steps of the example faster than in 4.2 seconds, and something does
them in 4.2 seconds. -/
example : IsLeast {T | Timetable (junctionVel .default) 0 (tasks none none Demo.lossy) T} 4.2 := by
  have := c121_least .default Demo.lossy_sensible
  rwa [Demo.lossy_time] at this

/-- The example with twice the acceleration meets the conditions for raised limits. -/
example : List.Forall₂ (fun s s' => Raised fw s s' ∧ (0 < s'.speed → 0 < s.speed)) Demo.lossy
    (Demo.lossy.map fun s => { s with pAcc := s.pAcc * 2 }) := by
  rw [List.forall₂_map_right_iff, List.forall₂_same]
  intro s hs
  have := Demo.lossy_sensible.acc s hs
  exact ⟨⟨rfl, rfl, by simp only; linarith, le_rfl, le_rfl, fun _ => rfl, fun _ h => h⟩, id⟩

/-- The example in inches: the shortest time is the same. -/
example : IsLeast {T | Timetable (junctionVel .default) 0 (tasks none none (Demo.lossy.map (scaled (1 / 25.4) 1))) T} 4.2 := by
  have := c121_least .default Demo.lossy_sensible
  rw [Demo.lossy_time] at this
  have := c72_least (k := 1 / 25.4) (r := 1) Demo.lossy_sensible (by norm_num) (by norm_num) this
  rwa [div_one] at this

/-- The example, shifted, can be planned and takes as long. -/
example (c : Vec4 ℝ) : ∃ bs bs', plan fw Demo.lossy = .ok bs ∧ plan fw (Demo.lossy.map (placed fun p => p.add c)) = .ok bs' ∧
    ∀ T, EndTime (Spec.path bs') T ↔ EndTime (Spec.path bs) T := by
  obtain ⟨bs, h⟩ := (c86_plannable fw Demo.lossy_sensible).2 Demo.lossy_follow
  obtain ⟨bs', h1, _, h2, _⟩ := c70_shift_sensible c Demo.lossy_sensible h
  exact ⟨bs, bs', h, h1, h2⟩

end PyGCD
