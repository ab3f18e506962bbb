import Verif.Props.PlotVel
import Verif.Props.TaskSpeeds
import Verif.Props.SensibleMotion

/-!
# Property C120: the plots of every program that can be planned

`Props/Plot2d` and `Props/PlotVel` show C75 and C76 for regular programs. Here feedrates may be zero, and lines may both
move and pause; the drawings show where the machine goes, which is then not where the program wants it. `Demo.lossy` is such
a program.
-/

set_option linter.unusedSectionVars false
set_option linter.unusedSimpArgs false

namespace PyGCD
open Vec4 Spec

variable {fw : Firmware} {states : List (PState ℝ)} {bs : List (Block ℝ)} {res : ℝ}

/-! ## Drawings depend on segments and junction speeds -/

theorem forall₂_lasts {α β : Type} {R : α → β → Prop} {l : List α} {l' : List β} (h : List.Forall₂ R l l') :
    Option.Rel R l.getLast? l'.getLast? := by
  induction h with
  | nil => exact .none
  | @cons a b l l' h1 h2 ih =>
    rw [List.getLast?_cons, List.getLast?_cons]
    cases hl : l.getLast? <;> cases hl' : l'.getLast? <;> rw [hl, hl'] at ih
    · exact .some h1
    · cases ih
    · cases ih
    · cases ih with
      | some h => exact .some h

theorem blockEnds_anch {bs bs' : List (Block ℝ)} (h : List.Forall₂ Anch bs bs') : blockEnds bs = blockEnds bs' := by
  induction h with
  | nil => rfl
  | cons h _ ih => rw [blockEnds, blockEnds, h.segs, ih]

theorem plot2d_anch {bs bs' : List (Block ℝ)} (h : List.Forall₂ Anch bs bs') (colvar : String) (showPoints : Bool) :
    plot2d colvar showPoints res bs = plot2d colvar showPoints res bs' := by
  have he : bs.isEmpty = bs'.isEmpty := by cases h <;> rfl
  unfold plot2d
  rw [show unpack bs = unpack bs' from path_anch h, he, blockEnds_anch h]

theorem blockMarks_anch (axes : List (Vec4 ℝ → ℝ)) (sb ss sj : Bool) {bs bs' : List (Block ℝ)}
    (h : List.Forall₂ Anch bs bs') : blockMarks axes sb ss sj bs = blockMarks axes sb ss sj bs' := by
  induction h with
  | nil => rfl
  | cons h _ ih => rw [blockMarks, blockMarks, h.segs, h.jd, ih]

theorem endTime_anch {bs bs' : List (Block ℝ)} (h : List.Forall₂ Anch bs bs') : endTime bs = endTime bs' := by
  unfold endTime
  have := forall₂_lasts h
  cases hb : bs.getLast? <;> cases hb' : bs'.getLast? <;> simp only [hb, hb'] at this ⊢
  · cases this
  · cases this
  · cases this with
    | some h => simp only [h.lastSeg]

theorem plotVel_anch {bs bs' : List (Block ℝ)} (h : List.Forall₂ Anch bs bs') (axis : List String) (steps : TimeSteps)
    (sb ss sj : Bool) : plotVel axis steps sb ss sj bs = plotVel axis steps sb ss sj bs' := by
  have ht : plotTimes bs steps = plotTimes bs' steps := by
    unfold plotTimes
    rw [show unpack bs = unpack bs' from path_anch h, endTime_anch h]
  unfold plotVel
  rw [ht, show unpack bs = unpack bs' from path_anch h]
  simp only [blockMarks_anch _ sb ss sj h]

/-! ## The plan of a program -/

theorem Does.mark {b : Block ℝ} {x : Step × List (PState ℝ)} (hd : Does fw b x) (hg : Good b) (hs : 0 ≤ x.1.B.speed)
    (hj : 0 ≤ x.1.B.jerk) : ∃ s j, b.segments.getLast? = some s ∧ b.jd = some j ∧ Mark b (s.tEnd, j) := by
  obtain ⟨⟨a1, a2⟩, a3, a4⟩ := hd
  have espd : b.stateB.speed = x.1.B.speed := by rw [a2]
  rcases hg with ⟨A, u, s0, s1, hm⟩ | ⟨A, q, hm⟩
  · obtain ⟨s, s', g1, g2, g3, g4, g5, g6, g7, g8, g9, g10⟩ := hm.ends
    obtain ⟨j, hj1, hle⟩ := hm.hjd
    obtain ⟨f1, f2, f3, f4, _⟩ := hm.facts
    have hp : x.1.B.pause = none := by
      have := hm.hpause
      rwa [a2] at this
    obtain ⟨u', hu', hj'⟩ := a3 hp
    rw [hm.hdir] at hu'
    cases hu'
    rw [hj1, Option.some.injEq] at hj'
    have hjj : j = junctionVel fw (some x.1.A) x.1.B x.2 :=
      unit_cancel hm.toHdr.unit.1 (p := Vec4.zero) (by rw [hj'])
    have hjb := c17_junction_speed fw (some x.1.A) x.1.B x.2 hs hj
    rw [← hjj] at hjb
    refine ⟨s', u.mul j, g2, hj1, ⟨s', g2, rfl, ?_⟩, ?_⟩
    · rcases hjb.1.eq_or_lt with h0 | h0
      · refine ⟨0, le_refl _, zero_le_one, ?_⟩
        rw [g8, show s1 = 0 by linarith]
        simp [Vec4.mul]
      · refine ⟨s1 / j, div_nonneg f3 hjb.1, (div_le_one h0).2 hle, ?_⟩
        rw [g8]
        ext <;> simp only [Vec4.mul] <;> field_simp
    · simp only
      rw [norm3_mul, abs_of_nonneg hjb.1, hm.toHdr.unit.1.norms.1, espd]
      split
      · simpa using hs
      · simpa using hjb.2
  · obtain ⟨t, ht⟩ := hm.hseg
    have hp : x.1.B.pause ≠ none := by
      have := hm.hpause
      rw [a2] at this
      simp only at this
      rw [this]
      simp
    refine ⟨_, _, by rw [ht]; rfl, a4 hp, ⟨_, by rw [ht]; rfl, rfl, 0, le_refl _, zero_le_one, ?_⟩, ?_⟩
    · ext <;> simp [Vec4.mul, Vec4.zero]
    · simp only [norm3_zero]
      rw [espd]
      exact hs

/-- The run of a program from where the machine is. -/
theorem sensible_run (hsens : Sensible states) (h : plan fw states = .ok bs) (hex : executed none none states ≠ []) :
    ∃ bs', List.Forall₂ Anch bs bs' ∧ Plots bs' ∧ List.Forall₂ (Does fw) bs' (tasks none none states) ∧
      (fw ≠ .marlinJerk → ∀ b ∈ bs', ∀ v ∈ b.feed, v = Vec4.zero) ∧ (fw = .default → ∀ b ∈ bs', b.AtRest) ∧
      List.Forall₂ (fun b b' => b.stateB.speed = b'.stateB.speed ∧ b.stateB.pause = b'.stateB.pause) bs bs' := by
  obtain ⟨bs', h1, h2, h3, h4, h5, h6, h7⟩ := plan_anchored_opt hsens h
  have hc := c87_carried_out hsens h
  refine ⟨bs', h1, ⟨h2, ?_, ?_⟩, h3, h7, ?_, ?_⟩
  · intro b hb
    obtain ⟨x, hx, hd⟩ := (forall₂_mem h3).1 b hb
    have hB := tasks_mem hx
    exact hd.mark (h2.good b hb) (hsens.speed _ hB) (hsens.jerk _ hB)
  · rw [← path_anch h1]
    intro hp
    generalize executed none none states = xs at hc hex
    cases hc with
    | nil => exact hex rfl
    | cons hx _ =>
      rw [Spec.path, List.flatMap_cons, List.append_eq_nil_iff] at hp
      exact hx.segments_ne hp.1
  · rintro rfl
    exact h6 fun _ _ _ => rfl
  · rw [← tasks_fst, List.forall₂_map_right_iff] at hc
    clear h1 h2 h4 h5 h6 h7 hex h
    generalize tasks none none states = xs at hc h3
    induction hc generalizing bs' with
    | nil => cases h3; exact .nil
    | cons hx _ ih =>
      cases h3 with
      | cons hd h3 =>
        refine .cons ?_ (ih _ h3)
        rw [hx.stateB, hd.1.2]
        exact ⟨rfl, rfl⟩

/-! ## C120: the drawing of the path -/

/-- **C120, only where the machine goes.** Every point drawn is passed by the motion. -/
theorem c120_only (hsens : Sensible states) (h : plan fw states = .ok bs) (hex : executed none none states ≠ [])
    (hres : 0 < res) :
    ∃ d, plot2d "Velocity" false res bs = .ok d ∧ ∀ q, Drawn d.lines q → Passed (Spec.path bs) q := by
  obtain ⟨bs', h1, h2, _⟩ := sensible_run hsens h hex
  rw [plot2d_anch h1, path_anch h1]
  exact drawn_only h2.sound h2.ne hres

/-- **C120, all but the last segment is drawn.** For every firmware. -/
theorem c120_before_last (hsens : Sensible states) (h : plan fw states = .ok bs) (hex : executed none none states ≠ []) :
    ∃ d, plot2d "Velocity" false res bs = .ok d ∧ ∀ q, Passed (Spec.path bs).dropLast q → Drawn d.lines q := by
  obtain ⟨bs', h1, h2, _⟩ := sensible_run hsens h hex
  rw [plot2d_anch h1, path_anch h1]
  exact drawn_before_last h2.sound h2.ne

theorem path_two_sensible (hsens : Sensible states) {bs' : List (Block ℝ)} (hP : Plots bs')
    (hd : List.Forall₂ (Does fw) bs' (tasks none none states))
    (hfeed : ∀ b ∈ bs', ∀ v ∈ b.feed, v = Vec4.zero)
    (hstop : ∀ l ∈ bs'.getLast?, ∀ s ∈ l.segments.getLast?, s.velEnd.norm3 = 0) : (Spec.path bs').dropLast ≠ [] := by
  intro hdl
  obtain ⟨hg, _, hf⟩ := hP.sound
  obtain ⟨s, hs⟩ : ∃ s, Spec.path bs' = [s] := by
    match hp : Spec.path bs' with
    | [] => exact absurd hp hP.ne
    | [s] => exact ⟨s, rfl⟩
    | x :: y :: r =>
      rw [hp] at hdl
      simp at hdl
  obtain ⟨b, hb⟩ : ∃ b, bs' = [b] := by
    cases bs' with
    | nil => simp [Spec.path] at hs
    | cons b tl =>
      cases tl with
      | nil => exact ⟨b, rfl⟩
      | cons c tl =>
        have n1 := List.length_pos_of_ne_nil (hg b (by simp)).ne_nil
        have n2 := List.length_pos_of_ne_nil (hg c (by simp)).ne_nil
        have := congrArg List.length hs
        simp only [Spec.path, List.flatMap_cons, List.length_append, List.length_singleton] at this
        omega
  subst hb
  have hseg : b.segments = [s] := by simpa [Spec.path] using hs
  obtain ⟨f1, f2, f3⟩ := hf b rfl
  have f4 := hstop b rfl s (by rw [hseg]; rfl)
  rcases hg b (by simp) with ⟨A, u, s0, s1, hm⟩ | ⟨A, q, hm⟩
  · obtain ⟨x, x', e1, e2, _, _, e5, _, _, e8, e9, e10⟩ := hm.ends
    obtain ⟨g1, g2, g3, g4, g5, _⟩ := hm.facts
    obtain ⟨L, _, _, hL⟩ := hm.hramp.mem
    rw [hseg] at e1 e2 hL
    simp only [List.head?_cons, List.getLast?_singleton, Option.some.injEq] at e1 e2
    subst e1 e2
    obtain ⟨w, w₁, l, l₁, g⟩ := hL s (by simp)
    have hu := hm.toHdr.unit.1
    have hw : w = s0 := by
      have := e5
      rw [g.hvb] at this
      exact unit_cancel hu (p := Vec4.zero) (by rw [this])
    have hw₁ : w₁ = s1 := by
      have := e8
      rw [g.hve] at this
      exact unit_cancel hu (p := Vec4.zero) (by rw [this])
    have hpos := g.hpos
    rw [hw, hw₁] at hpos
    cases he : (moveDistance A b.stateB).2 with
    | false =>
      have hn := hu.norms.1
      rw [he, if_neg (by simp)] at hn
      rw [e9, hn, one_mul] at f2
      rw [e8, norm3_mul, hn, one_mul, abs_of_nonneg g3] at f4
      linarith
    | true =>
      have hn := hu.norms.1
      rw [he, if_pos rfl] at hn
      have hfd := hfeed b (by simp) s.velBegin (by
        rw [Block.feed, hm.hdir, Option.map_some, hn, if_pos rfl, hseg]
        rfl)
      have h0 : s0 = 0 := by
        rw [e5] at hfd
        exact unit_cancel hu (p := Vec4.zero) (by rw [hfd, Vec4.mul_zero])
      obtain ⟨j, hj1, hj2⟩ := hm.hjd
      obtain ⟨x, hx, ⟨a1, a2⟩, a3, _⟩ := (forall₂_mem hd).1 b (by simp)
      have hp : x.1.B.pause = none := by rw [a2] at f3; exact f3
      obtain ⟨u', hu1, hu2⟩ := a3 hp
      rw [hm.hdir] at hu1
      cases hu1
      have hB := tasks_mem hx
      have hA := hm.hA
      rw [a1] at hA
      cases hA
      have hz : (b.stateB.position.sub x.1.src).norm3 = 0 := hm.toHdr.unit.2.2.2.1.1 he
      rw [a2] at hz
      simp only at hz
      rw [tasks_shift states none none x hx hp] at hz
      have hjv := c62_filament_stop fw x.2 (hsens.speed _ hB) (hsens.jerk _ hB) hz
      rw [hjv, hj1, Option.some.injEq] at hu2
      have : j = 0 := unit_cancel hu (p := Vec4.zero) (by rw [hu2])
      linarith
  · rw [hm.hpause] at f3
    cases f3

/-- **C120, the drawing is the path.** For every firmware but `marlin_jerk`, where the last
segment can be left out (`c75_refuted`). -/
theorem c120_drawn (hfw : fw ≠ .marlinJerk) (hsens : Sensible states) (h : plan fw states = .ok bs)
    (hex : executed none none states ≠ []) (hres : 0 < res) :
    ∃ d, plot2d "Velocity" false res bs = .ok d ∧ ∀ q, Drawn d.lines q ↔ Passed (Spec.path bs) q := by
  obtain ⟨bs', h1, h2, h3, h4, _⟩ := sensible_run hsens h hex
  have hstop := c18_last_stop_sensible_partial hfw hsens h
  rw [plot2d_anch h1, path_anch h1]
  have hstop' : ∀ l ∈ bs'.getLast?, ∀ s ∈ l.segments.getLast?, s.velEnd.norm3 = 0 := by
    intro l hl s hs
    have hq := forall₂_lasts h1
    rw [hl] at hq
    cases hb : bs.getLast? with
    | none => rw [hb] at hq; cases hq
    | some b =>
      rw [hb] at hq
      cases hq with
      | some hq => exact hstop b hb s (by rw [hq.segs]; exact hs)
  exact drawn_exact h2.sound h2.ne hres (path_two_sensible hsens h2 h3 (h4 hfw) hstop') hstop'

/-- **C120, the colours.** Each line has the colour of a speed at its begin, and no speed much above it. -/
theorem c120_colours (hsens : Sensible states) (h : plan fw states = .ok bs) (hex : executed none none states ≠ [])
    (hres : 0 < res) :
    ∃ d, plot2d "Velocity" false res bs = .ok d ∧ d.colours.length = d.lines.length + 1 ∧
      ∀ (i : ℕ) (l : Stroke) (c : ℝ), d.lines[i]? = some l → d.colours[i]? = some c →
        ∃ s ∈ Spec.path bs, ∃ t v, Over s t l.1 v ∧ c ≤ v + 1e-12 ∧
          v - |s.velEnd.norm3 - s.velBegin.norm3| / 4 ≤ c := by
  obtain ⟨bs', h1, h2, _⟩ := sensible_run hsens h hex
  rw [plot2d_anch h1, path_anch h1]
  exact drawn_colours h2.sound h2.ne hres

/-- **C120, the resolution.** The lines are joined, and none along which the colour changes is longer than asked for. -/
theorem c120_resolution (hsens : Sensible states) (h : plan fw states = .ok bs) (hex : executed none none states ≠ [])
    (hres : 0 < res) :
    ∃ d, plot2d "Velocity" false res bs = .ok d ∧ (d.lines.IsChain fun l l' => l.2 = l'.1) ∧
      ∀ (i : ℕ) (l : Stroke) (c c' : ℝ), d.lines[i]? = some l → d.colours[i]? = some c →
        d.colours[i + 1]? = some c' → c ≠ c' → l.length ≤ res := by
  obtain ⟨bs', h1, h2, _⟩ := sensible_run hsens h hex
  rw [plot2d_anch h1]
  exact drawn_resolution h2.sound h2.ne hres

/-- **C120, the other variants.** With another colour variable the lines are the straight ways from segment to segment, and
the markers stand where the machine is at the end of each step; with the colour variable `"Velocity"` the markers raise
`AttributeError`; if the machine does nothing the plot raises `IndexError`. -/
theorem c120_variants (hsens : Sensible states) (h : plan fw states = .ok bs) :
    (executed none none states = [] → ∀ colvar showPoints, plot2d colvar showPoints res bs = .error .indexError) ∧
    (executed none none states ≠ [] → plot2d "Velocity" true res bs = .error .attributeError ∧
      ∀ colvar, colvar ≠ "Velocity" → ∀ showPoints, plot2d colvar showPoints res bs = .ok
        ⟨(Spec.path bs).map (fun s => ((s.posBegin.x, s.posBegin.y), (s.posEnd.x, s.posEnd.y))), [],
          if showPoints then (executed none none states).map (fun x => (x.dst.x, x.dst.y)) else []⟩) := by
  constructor
  · intro he colvar showPoints
    obtain ⟨rfl, _⟩ := (endTime_sensible hsens h).1 he
    rfl
  · intro hex
    obtain ⟨bs', h1, h2, h3, h4⟩ := sensible_run hsens h hex
    obtain ⟨v1, v2⟩ := (drawn_variants (res := res) h2.sound).2 h2.ne
    have hm : bs'.map (fun b => (b.stateB.position.x, b.stateB.position.y)) =
        (executed none none states).map (fun x => (x.dst.x, x.dst.y)) := by
      rw [← tasks_fst, List.map_map]
      clear h1 h2 h4 v1 v2 hex
      generalize tasks none none states = xs at h3
      induction h3 with
      | nil => rfl
      | cons hd _ ih =>
        rw [List.map_cons, List.map_cons, ih, hd.1.2]
        rfl
    rw [plot2d_anch h1, path_anch h1, ← hm]
    refine ⟨v1, ?_⟩
    intro colvar hc showPoints
    rw [plot2d_anch h1]
    exact v2 colvar hc showPoints

/-! ## C120: the curves over time -/

/-- **C120, the speed curve.** -/
theorem c120_speed (hsens : Sensible states) (h : plan fw states = .ok bs) (hex : executed none none states ≠ [])
    {axis : List String} (hax : Axes axis) (sb ss sj : Bool) :
    ∃ d, plotVel axis .constrained sb ss sj bs = .ok d ∧
      (∀ T, EndTime (Spec.path bs) T → ∀ t, 0 ≤ t → t ≤ T → ∃ y, Plotted (d.times.zip d.abs) (t, y)) ∧
      ∀ t y, Plotted (d.times.zip d.abs) (t, y) → ∀ s ∈ Spec.path bs, ∀ v, s.getVelocity t = .ok v →
        |y - v.norm3| ≤ 1e-12 := by
  obtain ⟨bs', h1, h2, _⟩ := sensible_run hsens h hex
  rw [plotVel_anch h1, path_anch h1]
  exact plots_speed h2 hax sb ss sj

/-- **C120, the position curves.** -/
theorem c120_position (hsens : Sensible states) (h : plan fw states = .ok bs) (hex : executed none none states ≠ [])
    {axis : List String} (hax : Axes axis) (sb ss sj : Bool) :
    ∃ d, plotVel axis .constrained sb ss sj bs = .ok d ∧ d.pos.length = axis.length ∧
      ∀ (k : ℕ) a f ys, axis[k]? = some a → AxisOf a f → d.pos[k]? = some ys →
        ∀ t y, Plotted (d.times.zip ys) (t, y) → ∀ s ∈ Spec.path bs, ∀ p, s.getPosition t = .ok p →
          |y - f p| ≤ |f s.velEnd - f s.velBegin| * (s.tEnd - s.tBegin) / 8 ∧
          (t = s.tBegin ∨ t = s.tEnd → y = f p) := by
  obtain ⟨bs', h1, h2, _⟩ := sensible_run hsens h hex
  rw [plotVel_anch h1, path_anch h1]
  exact plots_position h2 hax sb ss sj

/-- **C120, the marks.** The lines stand at the ends of blocks and segments, the crosses at the junction velocities. -/
theorem c120_marks (hsens : Sensible states) (h : plan fw states = .ok bs) (hex : executed none none states ≠ [])
    {axis : List String} (hax : Axes axis) (sb ss sj : Bool) :
    ∃ d js fs, plotVel axis .constrained sb ss sj bs = .ok d ∧ List.Forall₂ Mark bs js ∧
      List.Forall₂ AxisOf axis fs ∧ (d.blockLines = if sb then js.map Prod.fst else []) ∧
      (d.segmentLines = if ss then (Spec.path bs).map Segment.tEnd else []) ∧
      d.crosses = if sj then js.flatMap (fun tj => (tj.1, tj.2.norm3) :: fs.map fun f => (tj.1, f tj.2)) else [] := by
  obtain ⟨bs', h1, h2, h3, h4, h5, h6⟩ := sensible_run hsens h hex
  rw [plotVel_anch h1, path_anch h1]
  obtain ⟨d, js, fs, p1, p2, p3⟩ := plots_marks h2 hax sb ss sj
  refine ⟨d, js, fs, p1, ?_, p3⟩
  clear p1 p3 h2 h3 h4 h5 hex h
  induction h1 generalizing js with
  | nil => cases p2; exact .nil
  | cons ha _ ih =>
    cases p2 with
    | cons hm p2 =>
      cases h6 with
      | cons hs h6 =>
        refine .cons ⟨?_, ?_⟩ (ih h6 _ p2)
        · rw [ha.segs]
          exact hm.time
        · rw [hs.1]
          exact hm.feed

/-- **C120, the velocity curves of the axes.** The drawn velocity is the true one at all times if the firmware has no
junction handling; motion that turns at speed is drawn wrongly (`c76_refuted`). -/
theorem c120_default (hsens : Sensible states) (h : plan .default states = .ok bs)
    (hex : executed none none states ≠ []) {axis : List String} (hax : Axes axis) (sb ss sj : Bool) :
    ∃ d, plotVel axis .constrained sb ss sj bs = .ok d ∧ d.vel.length = axis.length ∧
      ∀ (k : ℕ) a f ys, axis[k]? = some a → AxisOf a f → d.vel[k]? = some ys →
        ∀ t y, Plotted (d.times.zip ys) (t, y) → ∀ s ∈ Spec.path bs, ∀ v, s.getVelocity t = .ok v → y = f v := by
  obtain ⟨bs', h1, h2, _, _, h5, _⟩ := sensible_run hsens h hex
  rw [plotVel_anch h1, path_anch h1]
  exact plots_rest h2 (h5 rfl) hax sb ss sj

/-- **C120, the velocity curves of the axes.** For every firmware, if no pause takes zero seconds: inside a segment the drawn
velocity differs from the true one by the jump at the begin of the segment, times the part of the segment that is left. -/
theorem c120_velocity (hsens : Sensible states) (h : plan fw states = .ok bs) (hex : executed none none states ≠ [])
    (hz : ∀ x ∈ executed none none states, x.B.pause ≠ some 0) {axis : List String} (hax : Axes axis) (sb ss sj : Bool) :
    ∃ d, plotVel axis .constrained sb ss sj bs = .ok d ∧ d.vel.length = axis.length ∧
      ∀ (k : ℕ) a f ys, axis[k]? = some a → AxisOf a f → d.vel[k]? = some ys →
        ∀ t y, Plotted (d.times.zip ys) (t, y) → ∀ i s v, (Spec.path bs)[i]? = some s → s.tBegin < t → t < s.tEnd →
          s.getVelocity t = .ok v →
          (i = 0 → y = f v) ∧ ∀ s', (Spec.path bs)[i - 1]? = some s' → i ≠ 0 →
            y - f v = (f s'.velEnd - f s.velBegin) * ((s.tEnd - t) / (s.tEnd - s.tBegin)) := by
  obtain ⟨bs', h1, h2, h3, _⟩ := sensible_run hsens h hex
  rw [plotVel_anch h1, path_anch h1]
  refine plots_velocity h2 ?_ hax sb ss sj
  intro b hb
  obtain ⟨x, hx, hd⟩ := (forall₂_mem h3).1 b hb
  have := hz x.1 (by rw [← tasks_fst]; exact List.mem_map_of_mem hx)
  rw [hd.1.2]
  exact this

/-- **C120, evenly spaced samples.** -/
theorem c120_steps (hsens : Sensible states) (h : plan fw states = .ok bs) {T : ℝ} (hT : EndTime (Spec.path bs) T)
    {axis : List String} (hax : Axes axis) (sb ss sj : Bool) (n : ℕ) :
    ∃ d, ∃ vals : List (Vec4 ℝ × Vec4 ℝ), plotVel axis (.number n) sb ss sj bs = .ok d ∧
      d.times = (List.range n).map (fun i : ℕ => i * (T / n)) ∧ d.abs = vals.map (fun vp => Vec4.norm3 vp.1) ∧
      (∃ fs, List.Forall₂ AxisOf axis fs ∧ d.vel = fs.map (fun f => vals.map fun vp => f vp.1) ∧
        d.pos = fs.map fun f => vals.map fun vp => f vp.2) ∧
      List.Forall₂ (fun t vp => ∃ s ∈ Spec.path bs, Covers s t ∧ s.getVelocity t = .ok vp.1 ∧
        s.getPosition t = .ok vp.2) d.times vals := by
  have hex : executed none none states ≠ [] := by
    intro he
    obtain ⟨rfl, _⟩ := (endTime_sensible hsens h).1 he
    obtain ⟨s, hs, _⟩ := hT
    cases hs
  obtain ⟨bs', h1, h2, _⟩ := sensible_run hsens h hex
  rw [path_anch h1] at hT
  rw [plotVel_anch h1, path_anch h1]
  exact plots_steps h2 hT hax sb ss sj n

/-- **C120, wrong arguments.** -/
theorem c120_errors (hsens : Sensible states) (h : plan fw states = .ok bs) (hex : executed none none states ≠ [])
    (sb ss sj : Bool) :
    (∀ axis n, n < 0 → plotVel axis (.number n) sb ss sj bs = .error .valueError) ∧
      (∀ axis, plotVel axis .other sb ss sj bs = .error .valueError) ∧
      (∀ axis, ¬ (∀ a ∈ axis, a = "x" ∨ a = "y" ∨ a = "z" ∨ a = "e") →
        plotVel axis .constrained sb ss sj bs = .error .keyError) ∧
      ∀ axis, (∀ a ∈ axis, a = "x" ∨ a = "y" ∨ a = "z" ∨ a = "e") → ¬ axis.Nodup →
        plotVel axis .constrained sb ss sj bs = .error .valueError := by
  obtain ⟨bs', h1, h2, _⟩ := sensible_run hsens h hex
  simp only [plotVel_anch h1]
  exact plots_errors h2 sb ss sj

/-! ## An example: the markers of the lossy program -/

/-- The program ends at (30, 5); the last marker is at (20, 0), where the machine stands. -/
theorem Demo.lossy_markers (fw : Firmware) : ∃ bs d, plan fw Demo.lossy = .ok bs ∧
    plot2d "None" true res bs = .ok d ∧ d.markers = [(10, 0), (20, 0), (20, 0)] ∧
    ∃ d', plotVel ["x", "e"] .constrained true true true bs = .ok d' ∧ d'.pos.length = 2 := by
  obtain ⟨bs, h⟩ := (c86_plannable fw Demo.lossy_sensible).2 Demo.lossy_follow
  have hex : executed none none Demo.lossy ≠ [] := by rw [Demo.lossy_executed]; simp
  have := ((c120_variants (res := res) Demo.lossy_sensible h).2 hex).2 "None" (by decide) true
  obtain ⟨d', e1, e2, _⟩ := c120_position Demo.lossy_sensible h hex (axis := ["x", "e"]) ⟨by decide, by simp⟩ true true true
  refine ⟨bs, _, h, this, ?_, d', e1, e2⟩
  rw [Demo.lossy_executed]
  rfl

end PyGCD
