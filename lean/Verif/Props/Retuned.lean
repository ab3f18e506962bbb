import Verif.Spec.Retuned
import Verif.Props.Waits
import Verif.Props.Tuning

/-!
# Property C132: G-code files with other sizes and settings
-/

set_option linter.unusedSectionVars false
set_option linter.unusedSimpArgs false

namespace PyGCD
open Vec4 Spec

variable {pf : List Char → Option ℝ} {d d' : Dict (SVal ℝ)} {q q' : Printer} {ls ls' : List Line} {content content' : List Char}
  {bs bs' : List (Block ℝ)} {fw : Firmware} {c f g j r : ℝ}

theorem thinned_refl : ∀ (p : Option (Vec4 ℝ)) (l : List (PState ℝ)), Thinned p l l
  | _, [] => .nil _
  | _, s :: l => .keep ⟨rfl, rfl, rfl, rfl, rfl⟩ (thinned_refl (some s.position) l)

theorem program_tuned (p : Vec4 ℝ) (l : List Doing) :
    Thinned none (program (p.mul c) (l.map (Doing.tuned c f g j))) ((program p l).map (tuned c f g j)) := by
  unfold program
  rw [List.map_cons, List.map_map, List.map_map]
  exact .first rfl rfl rfl (thinned_refl _ _)

theorem simulate_retuned (hpf : FloatLike pf) (hd' : SetupAccepted d') (hq' : PrinterOf d' q')
    (hfw : firmwareOf d' = firmwareOf d) (hp' : ∀ l ∈ ls', l.Plain pf) (hc' : FileOf ls' content')
    (h0 : q'.point = q.point.mul c) (hR : q'.doings pf ls' = (q.doings pf ls).map (Doing.tuned c f g j)) :
    (simulateFile pf d' content').map (List.map fun b => (b.segments, b.isExtruding)) =
      (simulate (firmwareOf d) ((program q.point (q.doings pf ls)).map (tuned c f g j))).map
        (List.map fun b => (b.segments, b.isExtruding)) := by
  rw [simulate_program hpf hd' hq' hp' hc', h0, hR, hfw]
  exact c128_idle (program_tuned _ _)

theorem retuned_planned (hpf : FloatLike pf) (hd' : SetupAccepted d') (hq' : PrinterOf d' q')
    (hfw : firmwareOf d' = firmwareOf d) (hp' : ∀ l ∈ ls', l.Plain pf) (hc' : FileOf ls' content')
    (h0 : q'.point = q.point.mul c) (hR : q'.doings pf ls' = (q.doings pf ls).map (Doing.tuned c f g j))
    (h' : simulateFile pf d' content' = .ok bs') :
    ∃ cs, plan (firmwareOf d) ((program q.point (q.doings pf ls)).map (tuned c f g j)) = .ok cs ∧
      Spec.path cs = Spec.path bs' := by
  have hs := simulate_retuned hpf hd' hq' hfw hp' hc' h0 hR
  rw [h'] at hs
  unfold simulate at hs
  simp only [bind] at hs
  cases hpl : plan (firmwareOf d) ((program q.point (q.doings pf ls)).map (tuned c f g j)) with
  | error e =>
    rw [hpl] at hs
    cases hs
  | ok cs =>
    rw [hpl] at hs
    simp only [Except.bind] at hs
    cases he : endTime cs with
    | error e =>
      rw [he] at hs
      cases hs
    | ok t =>
      rw [he] at hs
      simp only [Except.map, Except.ok.injEq] at hs
      exact ⟨cs, rfl, (path_of_segments hs).symm⟩

theorem pauseTime_program (p : Vec4 ℝ) (l : List Doing) : pauseTime (program p l) = waited l := by
  simp [pauseTime, program, waited, Doing.state, Function.comp_def]

theorem slack_tuned_le {states : List (PState ℝ)} (hs : Sensible states) (hg : 1 ≤ g) :
    slack (states.map (tuned 1 1 g 1)) ≤ slack states := by
  unfold slack
  rw [List.length_map, List.map_map]
  refine mul_le_mul_of_nonneg_left (List.sum_le_sum fun s h => ?_) (by positivity)
  have ha := hs.acc s h
  exact one_div_le_one_div_of_le ha (le_mul_of_one_le_right ha.le hg)

section
variable (hpf : FloatLike pf) (hd : SetupAccepted d) (hd' : SetupAccepted d') (hq : PrinterOf d q)
  (hq' : PrinterOf d' q') (hfw : firmwareOf d' = firmwareOf d) (hp : ∀ l ∈ ls, l.Plain pf) (hp' : ∀ l ∈ ls', l.Plain pf)
  (hw : Decent pf q ls) (hc : FileOf ls content) (hc' : FileOf ls' content')

include hpf hd hd' hq hq' hfw hp hp' hw hc hc'

/-- **C132.** If the second file makes its printer do the same with other factors for places, feedrates, accelerations and
jerks, it is simulated as well. -/
theorem c132_simulated (h0 : q'.point = q.point.mul c) (hR : q'.doings pf ls' = (q.doings pf ls).map (Doing.tuned c f g j))
    (c0 : 0 < c) (f0 : 0 < f) (g0 : 0 < g) (j0 : 0 < j) (h : simulateFile pf d content = .ok bs) :
    ∃ bs' t', simulateFile pf d' content' = .ok bs' ∧ EndTime (Spec.path bs') t' := by
  obtain ⟨T, hT⟩ := simulated_end h hpf hd hq hp hw hc
  obtain ⟨cs, k1, k2⟩ := program_planned hpf hd hq hp hc h
  have hs := program_sensible hw q.point
  have hs' := hs.tuned (c := c) f0.le g0 j0.le
  rw [← k2] at hT
  have hst : Started (program q.point (q.doings pf ls)) := by
    by_contra hn
    obtain ⟨s, hx, _⟩ := hT
    rw [(plan_empty_iff hs k1).2 hn] at hx
    simp [Spec.path] at hx
  obtain ⟨pre, A, B, post, e, hx⟩ := hst
  have hst' : Started ((program q.point (q.doings pf ls)).map (tuned c f g j)) :=
    ⟨pre.map (tuned c f g j), tuned c f g j A, tuned c f g j B, post.map (tuned c f g j), by rw [e]; simp, hx.tuned c0 f0⟩
  obtain ⟨cs', t', g1, g2⟩ := exists_endTime_sensible (firmwareOf d) hs'
    (((c86_plannable _ hs).1 ⟨cs, k1⟩).tuned c0 f0) hst'
  have g3 := simulate_of_endTime hs' g1 g2
  have g4 := simulate_retuned hpf hd' hq' hfw hp' hc' h0 hR
  rw [g3] at g4
  cases hf : simulateFile pf d' content' with
  | error e =>
    rw [hf] at g4
    cases g4
  | ok bs' =>
    rw [hf] at g4
    simp only [Except.map, Except.ok.injEq] at g4
    exact ⟨bs', t', rfl, by rw [path_of_segments g4]; exact g2⟩

/-- **C132.** If the factors leave room for a motion that is `r` times as fast, the print, apart from the waits, takes at most
`1 / r` of the time, up to the planner's tolerance. -/
theorem c132_tuned (h0 : q'.point = q.point.mul c) (hR : q'.doings pf ls' = (q.doings pf ls).map (Doing.tuned c f g j))
    (hroom : Room (firmwareOf d) c f g j r) (hT : firmwareOf d = .marlinJerk → AllTravel q.point (q.doings pf ls)) {t t' : ℝ}
    (h : simulateFile pf d content = .ok bs) (ht : EndTime (Spec.path bs) t)
    (h' : simulateFile pf d' content' = .ok bs') (ht' : EndTime (Spec.path bs') t') :
    t' - waited (q.doings pf ls) ≤ (t + doingsSlack (q.doings pf ls) - waited (q.doings pf ls)) / r := by
  obtain ⟨cs, k1, k2⟩ := program_planned hpf hd hq hp hc h
  obtain ⟨cs', k1', k2'⟩ := retuned_planned hpf hd' hq' hfw hp' hc' h0 hR h'
  rw [← k2] at ht
  rw [← k2'] at ht'
  rw [← slack_program q.point, ← pauseTime_program q.point]
  exact c124_tuned (program_sensible hw q.point) hroom (fun hx => program_travels (hT hx)) k1 ht k1' ht'

/-- **C132, size.** A part that is `c ≥ 1` times as large takes at least `√c` and at most `c` times as long, apart from the waits
and up to the planner's tolerance. -/
theorem c132_size (h0 : q'.point = q.point.mul c) (hR : q'.doings pf ls' = (q.doings pf ls).map (Doing.tuned c 1 1 1))
    (c1 : 1 ≤ c) (hT : firmwareOf d = .marlinJerk → AllTravel q.point (q.doings pf ls)) {t t' : ℝ}
    (h : simulateFile pf d content = .ok bs) (ht : EndTime (Spec.path bs) t)
    (h' : simulateFile pf d' content' = .ok bs') (ht' : EndTime (Spec.path bs') t') :
    √c * (t - waited (q.doings pf ls)) ≤ t' - waited (q.doings pf ls) + doingsSlack (q.doings pf ls) ∧
      t' - waited (q.doings pf ls) ≤ c * (t - waited (q.doings pf ls) + doingsSlack (q.doings pf ls)) := by
  obtain ⟨cs, k1, k2⟩ := program_planned hpf hd hq hp hc h
  obtain ⟨cs', k1', k2'⟩ := retuned_planned hpf hd' hq' hfw hp' hc' h0 hR h'
  rw [← k2] at ht
  rw [← k2'] at ht'
  rw [← slack_program q.point, ← pauseTime_program q.point]
  exact c124_size (program_sensible hw q.point) c1 (fun hx => program_travels (hT hx)) k1 ht k1' ht'

/-- **C132, feedrates.** Feedrates `f ≥ 1` times as high make a print at most `f` times as fast, apart from the waits and up to
the planner's tolerance; except with `MKA` they do not make it slower. -/
theorem c132_feedrates (h0 : q'.point = q.point) (hR : q'.doings pf ls' = (q.doings pf ls).map (Doing.tuned 1 f 1 1))
    (f1 : 1 ≤ f) (hT : firmwareOf d = .marlinJerk → AllTravel q.point (q.doings pf ls)) {t t' : ℝ}
    (h : simulateFile pf d content = .ok bs) (ht : EndTime (Spec.path bs) t)
    (h' : simulateFile pf d' content' = .ok bs') (ht' : EndTime (Spec.path bs') t') :
    (t - waited (q.doings pf ls)) / f ≤ t' - waited (q.doings pf ls) + doingsSlack (q.doings pf ls) ∧
      (firmwareOf d ≠ .mka → t' ≤ t + doingsSlack (q.doings pf ls)) := by
  obtain ⟨cs, k1, k2⟩ := program_planned hpf hd hq hp hc h
  obtain ⟨cs', k1', k2'⟩ := retuned_planned hpf hd' hq' hfw hp' hc' (by rw [h0, Vec4.mul_one]) hR h'
  rw [← k2] at ht
  rw [← k2'] at ht'
  rw [← slack_program q.point, ← pauseTime_program q.point]
  exact c124_feedrates (program_sensible hw q.point) f1 (fun hx => program_travels (hT hx)) k1 ht k1' ht'

/-- **C132, accelerations.** Accelerations `g ≥ 1` times as high make a print at most `√g` times as fast, apart from the waits,
and not slower, up to the planner's tolerance. -/
theorem c132_accelerations (h0 : q'.point = q.point) (hR : q'.doings pf ls' = (q.doings pf ls).map (Doing.tuned 1 1 g 1))
    (g1 : 1 ≤ g) (hT : firmwareOf d = .marlinJerk → AllTravel q.point (q.doings pf ls)) {t t' : ℝ}
    (h : simulateFile pf d content = .ok bs) (ht : EndTime (Spec.path bs) t)
    (h' : simulateFile pf d' content' = .ok bs') (ht' : EndTime (Spec.path bs') t') :
    (t - waited (q.doings pf ls)) / √g ≤ t' - waited (q.doings pf ls) + doingsSlack (q.doings pf ls) ∧
      t' ≤ t + doingsSlack (q.doings pf ls) := by
  obtain ⟨cs, k1, k2⟩ := program_planned hpf hd hq hp hc h
  obtain ⟨cs', k1', k2'⟩ := retuned_planned hpf hd' hq' hfw hp' hc' (by rw [h0, Vec4.mul_one]) hR h'
  rw [← k2] at ht
  rw [← k2'] at ht'
  rw [← slack_program q.point, ← pauseTime_program q.point]
  have hs := program_sensible hw q.point
  obtain ⟨e1, e2⟩ := c124_accelerations hs g1 (fun hx => program_travels (hT hx)) k1 ht k1' ht'
  exact ⟨e1.trans (by linarith [slack_tuned_le hs g1]), e2⟩

/-- **C132, jerk.** Jerk settings `j ≥ 1` times as high do not make a print slower, up to the planner's tolerance, and except with
`MKA` at most `j` times as fast, apart from the waits. -/
theorem c132_jerk (h0 : q'.point = q.point) (hR : q'.doings pf ls' = (q.doings pf ls).map (Doing.tuned 1 1 1 j))
    (j1 : 1 ≤ j) (hT : firmwareOf d = .marlinJerk → AllTravel q.point (q.doings pf ls)) {t t' : ℝ}
    (h : simulateFile pf d content = .ok bs) (ht : EndTime (Spec.path bs) t)
    (h' : simulateFile pf d' content' = .ok bs') (ht' : EndTime (Spec.path bs') t') :
    (firmwareOf d ≠ .mka → (t - waited (q.doings pf ls)) / j ≤ t' - waited (q.doings pf ls) + doingsSlack (q.doings pf ls)) ∧
      t' ≤ t + doingsSlack (q.doings pf ls) := by
  obtain ⟨cs, k1, k2⟩ := program_planned hpf hd hq hp hc h
  obtain ⟨cs', k1', k2'⟩ := retuned_planned hpf hd' hq' hfw hp' hc' (by rw [h0, Vec4.mul_one]) hR h'
  rw [← k2] at ht
  rw [← k2'] at ht'
  rw [← slack_program q.point, ← pauseTime_program q.point]
  exact c124_jerk (program_sensible hw q.point) j1 (fun hx => program_travels (hT hx)) k1 ht k1' ht'

end

/-! ## Examples -/

/-- Twice the size with twice the feedrates, accelerations and jerks leaves room for the same time. -/
example : Room .mka 2 2 2 2 1 := ⟨by norm_num, by norm_num, by norm_num, by norm_num, by norm_num, fun _ => by norm_num⟩

theorem Demo.whole_retuned : (Demo.printerAt 20 2 35 800 10).doings Demo.num Demo.whole =
    ((Demo.printerAt 20 2 35 200 10).doings Demo.num Demo.whole).map (Doing.tuned 1 1 4 1) := by
  rw [Demo.whole_doings]
  simp [Printer.doings, Demo.whole, Line.wait, Line.value, Demo.num, Printer.exec, Demo.printerAt, Printer.point,
    letter, Printer.abs, Doing.tuned, Vec4.mul]
  norm_num

/-- `c132_simulated`, `c132_accelerations`: a file that is simulated with 200 mm/s² and with 800 mm/s². -/
example : ∃ bs bs' t t', simulateFile Demo.num (Demo.setupAt 20 2 35 200 10 "klipper") "G1 X0 F10\n".toList = .ok bs ∧
    EndTime (Spec.path bs) t ∧
    simulateFile Demo.num (Demo.setupAt 20 2 35 800 10 "klipper") "G1 X0 F10\n".toList = .ok bs' ∧ EndTime (Spec.path bs') t' ∧
    t / 2 ≤ t' + 1e-9 ∧ t' ≤ t + 1e-9 := by
  have hf : ∀ x y v a j, firmwareOf (Demo.setupAt x y v a j "klipper") = .klipper := fun _ _ _ _ _ => rfl
  have hw : Decent Demo.num (Demo.printerAt 20 2 35 200 10) Demo.whole :=
    ⟨by norm_num [Demo.printerAt], by simp [Demo.whole, Line.value, Demo.num], by simp [Demo.whole], by simp [Demo.whole]⟩
  obtain ⟨bs, t, _, _, h, ht, _⟩ := c69_simulated_as_written Demo.num_floatLike (Demo.at_accepted 20 2 35 200 10 "klipper")
    (Demo.at_printer ..) Demo.whole_lines Demo.whole_workable Demo.whole_file
  have h0 : (Demo.printerAt 20 2 35 800 10).point = (Demo.printerAt 20 2 35 200 10).point := rfl
  obtain ⟨bs', t', h', ht'⟩ := c132_simulated Demo.num_floatLike (Demo.at_accepted 20 2 35 200 10 "klipper")
    (Demo.at_accepted 20 2 35 800 10 "klipper") (Demo.at_printer ..) (Demo.at_printer ..) (by rw [hf, hf]) Demo.whole_lines
    Demo.whole_lines hw Demo.whole_file Demo.whole_file (by rw [h0, Vec4.mul_one]) Demo.whole_retuned one_pos one_pos
    (by norm_num) one_pos h
  have key := c132_accelerations Demo.num_floatLike (Demo.at_accepted 20 2 35 200 10 "klipper")
    (Demo.at_accepted 20 2 35 800 10 "klipper") (Demo.at_printer ..) (Demo.at_printer ..) (by rw [hf, hf]) Demo.whole_lines
    Demo.whole_lines hw Demo.whole_file Demo.whole_file h0 Demo.whole_retuned (by norm_num) (fun hx => by rw [hf] at hx; cases hx)
    h ht h' ht'
  rw [show (4 : ℝ) = 2 ^ 2 by norm_num, Real.sqrt_sq (by norm_num), Demo.whole_doings] at key
  refine ⟨bs, bs', t, t', h, ht, h', ht', ?_⟩
  norm_num [waited, doingsSlack] at key ⊢
  constructor <;> linarith [key.1, key.2]

end PyGCD
