import Verif.Props.IrregularOutputs

/-!
# Properties C18 and C20 to C29 for programs with feedrates of zero and lines that move and pause

`Props/Plan` shows them for regular programs. Here only `Spec.Sensible` settings are asked for: feedrates may be zero, and
a line may both move and pause. Then a block does one of the steps `Spec.executed`, which may begin elsewhere than the
program says. `Demo.lossy` is such a program.
-/

set_option linter.unusedSectionVars false
set_option linter.unusedSimpArgs false

namespace PyGCD
open Vec4 Spec

variable {fw : Firmware} {states : List (PState ℝ)} {bs : List (Block ℝ)}

theorem forall₂_left {α β : Type} {R : α → β → Prop} {l : List α} {r : List β} (h : List.Forall₂ R l r) :
    ∀ a ∈ l, ∃ b ∈ r, R a b := by
  induction h with
  | nil => intro a ha; cases ha
  | cons h _ ih =>
    intro a ha
    rcases List.mem_cons.1 ha with rfl | ha
    · exact ⟨_, List.mem_cons_self, h⟩
    · obtain ⟨b, hb, hr⟩ := ih a ha
      exact ⟨b, List.mem_cons_of_mem _ hb, hr⟩

/-- The step that a block does. -/
theorem block_step (hsens : Sensible states) (h : plan fw states = .ok bs) {b : Block ℝ} (hb : b ∈ bs) :
    ∃ x ∈ executed none none states, CarriesOut b x :=
  forall₂_left (c87_carried_out hsens h) b hb

theorem block_anchored (hsens : Sensible states) (h : plan fw states = .ok bs) {b : Block ℝ} (hb : b ∈ bs) :
    ∃ b', b.segments = b'.segments ∧ b.stateB.pause = b'.stateB.pause ∧ Good b' ∧
      ∃ x ∈ executed none none states, CarriesOut b x ∧ b'.stateA = some { x.A with position := x.src } ∧
        b'.stateB = { x.B with position := x.dst } := by
  obtain ⟨bs', h1, h2, h3, h4, h5⟩ := plan_anchored hsens h
  have hg := h2.good
  clear h2 h h5
  generalize executed none none states = xs at h3 h4 ⊢
  induction h1 generalizing xs with
  | nil => cases hb
  | cons ha _ ih =>
    cases h3 with
    | cons q1 q2 =>
    cases h4 with
    | cons r1 r2 =>
    rcases List.mem_cons.1 hb with rfl | hb
    · have hc := carriesOut ha (hg _ List.mem_cons_self) q1 r1
      exact ⟨_, ha.segs, by rw [hc.stateB, r1.2], hg _ List.mem_cons_self, _, List.mem_cons_self, hc, r1.1, r1.2⟩
    · obtain ⟨b', k1, k2, k3, x, hx, k⟩ := ih hb (fun c hc => hg c (List.mem_cons_of_mem _ hc)) _ q2 r2
      exact ⟨b', k1, k2, k3, x, List.mem_cons_of_mem _ hx, k⟩

/-- **C18, for all firmware models except `marlin_jerk`,** also with feedrates of zero. What is missing is `marlin_jerk`. -/
theorem c18_last_stop_sensible_partial (hfw : fw ≠ .marlinJerk) (hsens : Sensible states)
    (h : plan fw states = .ok bs) :
    ∀ b ∈ bs.getLast?, ∀ s ∈ b.segments.getLast?, s.velEnd.norm3 = 0 := by
  intro b hb s hs
  refine (c87_smooth hsens h).2.2.2 hfw s ?_
  obtain ⟨b', k1, _, k3, _⟩ := block_anchored hsens h (List.mem_of_getLast? hb)
  have : (Spec.path bs).getLast? = b.segments.getLast? :=
    getLast?_flatMap_segments hb (by rw [k1]; exact k3.ne_nil)
  rw [this]
  exact hs

/-- **C20.** The segments of a block begin at the source of its step and end exactly at its destination, in all four
coordinates. A move covers exactly the displacement that the program asks for; a line with a pause stays. -/
theorem c20_targets_sensible (hsens : Sensible states) (h : plan fw states = .ok bs) {b : Block ℝ} (hb : b ∈ bs) :
    ∃ A s s', b.stateA = some A ∧ b.segments.head? = some s ∧ b.segments.getLast? = some s' ∧
      s'.posEnd = s.posBegin.add (if b.stateB.pause = none then b.stateB.position.sub A.position else Vec4.zero) := by
  obtain ⟨b', k1, k2, k3, x, hx, k4, k5, k6⟩ := block_anchored hsens h hb
  obtain ⟨A, s, s', h1, h2, h3, _, h5, _, _, h8, _⟩ := k3.facts
  rw [k5] at h1
  cases h1
  refine ⟨x.A, s, s', k4.stateA, by rw [k1]; exact h2, by rw [k1]; exact h3, ?_⟩
  rw [h8, h5, k6, k4.stateB]
  obtain ⟨e1, e2⟩ := executed_steps _ _ _ x hx
  by_cases hp : x.B.pause = none
  · rw [if_pos hp]
    exact e1 hp
  · rw [if_neg hp, Vec4.add_zero]
    exact e2 hp

/-- **C21.** At every time in a block the travel speed is at most its feedrate; in a move without travel the extruder
speed is. -/
theorem c21_feedrate_sensible (hsens : Sensible states) (h : plan fw states = .ok bs) {b : Block ℝ} (hb : b ∈ bs)
    {s : Segment ℝ} (hs : s ∈ b.segments) {t : ℝ} {v : Vec4 ℝ} (hv : s.getVelocity t = .ok v) :
    v.norm3 ≤ b.stateB.speed ∧
      (b.stateA.map (fun A => (b.stateB.position.sub A.position).norm3) = some 0 → |v.e| ≤ b.stateB.speed) := by
  have hd := getVelocity_defined hv
  obtain ⟨x, hx, hc⟩ := block_step hsens h hb
  obtain ⟨e1, _⟩ := executed_steps _ _ _ x hx
  have hsp : 0 ≤ b.stateB.speed := by
    obtain ⟨i, hi, _⟩ := executed_states _ _ _ x hx
    rw [hc.stateB]
    exact hsens.speed _ (List.mem_of_getElem? hi)
  cases hp : x.B.pause with
  | some p =>
    obtain ⟨t0, ht0⟩ := hc.pause p hp
    rw [ht0, List.mem_singleton] at hs
    subst hs
    rw [static_velocity hv, norm3_zero]
    exact ⟨hsp, fun _ => by simpa only [Vec4.zero, abs_zero] using hsp⟩
  | none =>
    obtain ⟨u, t1, v1, t2, v2, hu, _, _, hr, _⟩ := hc.move hp
    obtain ⟨L, _, _, hL⟩ := hr.mem
    obtain ⟨w, w₁, l, l₁, g⟩ := hL s hs
    obtain ⟨b1, b2⟩ := g.speed_bounds hd
    rw [g.getVelocity hd, Except.ok.injEq] at hv
    have hn := hu.norms.1
    rw [hc.stateA, hc.stateB, ← hv, norm3_mul, abs_of_nonneg b1]
    constructor
    · have : u.norm3 ≤ 1 := by rw [hn]; split <;> norm_num
      calc u.norm3 * SegOn.speed s w w₁ t ≤ 1 * SegOn.speed s w w₁ t := mul_le_mul_of_nonneg_right this b1
        _ ≤ x.B.speed := by rw [one_mul]; exact b2
    · intro h0
      simp only [Option.map_some, Option.some.injEq] at h0
      have h1 : (x.dst.sub x.src).norm3 = 0 := by
        rw [← h0, e1 hp]
        congr 1
        ext <;> simp [Vec4.sub, Vec4.add]
      rw [decide_eq_true h1] at hu
      simp only [UnitDir, if_true] at hu
      simp only [Vec4.mul, abs_mul, hu.2.2.2, one_mul, abs_of_nonneg b1]
      exact b2

/-- **C22.** A moving block has a direction `u` (travel length one, or pure extrusion), and in each of its segments the
velocity changes along `u` at a constant rate which is `0`, the acceleration in force, or its negative. -/
theorem c22_acceleration_sensible (hsens : Sensible states) (h : plan fw states = .ok bs) {b : Block ℝ}
    (hb : b ∈ bs) (hp : b.stateB.pause = none) :
    ∃ (A : PState ℝ) (u : Vec4 ℝ) (d : ℝ), b.stateA = some A ∧
      (u.norm3 = 1 ∨ u.norm3 = 0 ∧ |u.e| = 1) ∧ 0 < d ∧
      b.stateB.position.sub A.position = u.mul d ∧
      ∀ s ∈ b.segments, ∃ k, (k = 0 ∨ k = b.stateB.pAcc ∨ k = -b.stateB.pAcc) ∧
        ∀ t, s.tBegin ≤ t → t ≤ s.tEnd →
          s.getVelocity t = .ok (s.velBegin.add (u.mul (k * (t - s.tBegin)))) := by
  obtain ⟨b', k1, k2, k3, x, hx, k4, k5, k6⟩ := block_anchored hsens h hb
  obtain ⟨e1, _⟩ := executed_steps _ _ _ x hx
  rw [k4.stateB] at hp
  have hdisp : x.B.position.sub x.A.position = b'.stateB.position.sub x.src := by
    rw [k6]
    show _ = x.dst.sub x.src
    rw [e1 hp]
    ext <;> simp [Vec4.sub, Vec4.add]
  rcases k3 with ⟨A, u, s0, s1, hm⟩ | ⟨A, p, hm⟩
  · have hA := hm.hA
    rw [k5] at hA
    cases hA
    obtain ⟨hu, hdist, hpos, heo, _⟩ := hm.toHdr.unit
    obtain ⟨L, _, _, hL⟩ := hm.hramp.mem
    refine ⟨x.A, u, (moveDistance { x.A with position := x.src } b'.stateB).1, k4.stateA, ?_, hdist, ?_, ?_⟩
    · cases he : (moveDistance { x.A with position := x.src } b'.stateB).2
      · rw [he] at hu
        left
        simpa [UnitDir] using hu
      · have h1 := hu.norms.1
        rw [he] at hu h1
        simp only [UnitDir, if_true] at hu h1
        exact Or.inr ⟨h1, hu.2.2.2⟩
    · rw [k4.stateB, hdisp]
      conv_lhs => rw [hpos]
      ext <;> simp [Vec4.sub, Vec4.add]
    · intro s hs
      rw [k1] at hs
      obtain ⟨w, w₁, l, l₁, g⟩ := hL s hs
      have hd := (sub_pos.2 g.ht).ne'
      have hacc : b'.stateB.pAcc = b.stateB.pAcc := by rw [k6, k4.stateB]
      refine ⟨(w₁ - w) / (s.tEnd - s.tBegin), ?_, ?_⟩
      · rcases g.hacc with h | h | h
        · left
          rw [h, zero_div]
        · right; left
          rw [h, mul_div_assoc, div_self hd, mul_one, hacc]
        · right; right
          rw [h, mul_div_assoc, div_self hd, mul_one, hacc]
      · intro t h1 h2
        rw [g.getVelocity ⟨h1, h2⟩, g.hvb]
        congr 1
        ext <;> simp only [Vec4.add, Vec4.mul, SegOn.speed] <;> ring
  · have := hm.hpause
    rw [k6] at this
    change x.B.pause = some p at this
    rw [hp] at this
    cases this

/-- **C23.** The first segment begins at time `0`, every other one exactly when its predecessor ends, no segment has
negative duration, and the segments of moves have positive duration. -/
theorem c23_timeline_sensible (hsens : Sensible states) (h : plan fw states = .ok bs) :
    (∀ s ∈ (Spec.path bs).head?, s.tBegin = 0) ∧
      ((Spec.path bs).IsChain fun s s' => s'.tBegin = s.tEnd) ∧
      (∀ s ∈ Spec.path bs, s.tBegin ≤ s.tEnd) ∧
      ∀ b ∈ bs, b.stateB.pause = none → ∀ s ∈ b.segments, s.tBegin < s.tEnd := by
  obtain ⟨bs', h1, h2, _⟩ := plan_anchored hsens h
  obtain ⟨k1, k2, k3, _⟩ := h2.timeline
  rw [path_anch h1]
  refine ⟨k1, k2, k3, ?_⟩
  intro b hb hp s hs
  obtain ⟨x, hx, hc⟩ := block_step hsens h hb
  rw [hc.stateB] at hp
  obtain ⟨u, t1, v1, t2, v2, _, _, _, hr, _⟩ := hc.move hp
  obtain ⟨L, _, _, hL⟩ := hr.mem
  obtain ⟨w, w₁, l, l₁, g⟩ := hL s hs
  exact g.ht

/-- **C24.** Every segment begins at the position where its predecessor ends. -/
theorem c24_continuous_sensible (hsens : Sensible states) (h : plan fw states = .ok bs) :
    (Spec.path bs).IsChain fun s s' => s'.posBegin = s.posEnd := by
  obtain ⟨bs', h1, h2, _⟩ := plan_anchored hsens h
  rw [path_anch h1]
  exact h2.unpack_chain.imp fun _ _ h => h.2.1

/-- **C25.** Travel speeds agree up to `1e-12` wherever two segments meet, velocities agree exactly inside a block, and
the first segment begins at standstill. -/
theorem c25_speed_continuous_sensible (hsens : Sensible states) (h : plan fw states = .ok bs) :
    ((Spec.path bs).IsChain fun s s' => |s.velEnd.norm3 - s'.velBegin.norm3| ≤ 1e-12) ∧
      (∀ b ∈ bs, b.segments.IsChain fun s s' => s'.velBegin = s.velEnd) ∧
      ∀ s ∈ (Spec.path bs).head?, s.velBegin.norm3 = 0 := by
  obtain ⟨_, k1, k2, _⟩ := c87_smooth hsens h
  refine ⟨k1, ?_, k2⟩
  intro b hb
  obtain ⟨x, _, hc⟩ := block_step hsens h hb
  cases hp : x.B.pause with
  | some p =>
    obtain ⟨t0, ht0⟩ := hc.pause p hp
    rw [ht0]
    exact .singleton _
  | none =>
    obtain ⟨u, t1, v1, t2, v2, _, _, _, hr, _⟩ := hc.move hp
    exact hr.chain.imp fun _ _ h => h.2.2

/-- **C27.** A line with a pause has exactly one segment, which lasts exactly the pause, and at every time in it the
machine stands where it was. -/
theorem c27_dwell_sensible (hsens : Sensible states) (h : plan fw states = .ok bs) {b : Block ℝ} (hb : b ∈ bs)
    {p : ℝ} (hp : b.stateB.pause = some p) :
    ∃ s, b.segments = [s] ∧ s.tEnd - s.tBegin = p ∧ ∀ t, s.tBegin ≤ t → t ≤ s.tEnd →
      s.getVelocity t = .ok Vec4.zero ∧ s.getPosition t = .ok s.posBegin := by
  obtain ⟨x, _, hc⟩ := block_step hsens h hb
  rw [hc.stateB] at hp
  obtain ⟨t0, ht0⟩ := hc.pause p hp
  refine ⟨_, ht0, by simp, ?_⟩
  intro t h1 h2
  constructor
  · obtain ⟨v, hv⟩ := getVelocity_total ⟨h1, h2⟩
    rw [hv, static_velocity hv]
  · obtain ⟨v, hv⟩ := getPosition_total ⟨h1, h2⟩
    rw [hv, static_position hv]

/-- **C29.** At every time in a move the position (X, Y, Z and E) lies on the straight line from where the move began
along the displacement that the program asks for. -/
theorem c29_straight_sensible (hsens : Sensible states) (h : plan fw states = .ok bs) {b : Block ℝ} (hb : b ∈ bs)
    (hp : b.stateB.pause = none) {s : Segment ℝ} (hs : s ∈ b.segments) {t : ℝ} {p : Vec4 ℝ}
    (hv : s.getPosition t = .ok p) :
    ∃ A f c, b.stateA = some A ∧ b.segments.head? = some f ∧ 0 ≤ c ∧ c ≤ 1 ∧
      p = f.posBegin.add ((b.stateB.position.sub A.position).mul c) := by
  have hd := getPosition_defined hv
  obtain ⟨b', k1, k2, k3, x, hx, k4, k5, k6⟩ := block_anchored hsens h hb
  obtain ⟨A, f, f', h1, h2, _, _, h5, _⟩ := k3.facts
  obtain ⟨e1, _⟩ := executed_steps _ _ _ x hx
  rw [k4.stateB] at hp
  have hdisp : x.B.position.sub x.A.position = b'.stateB.position.sub x.src := by
    rw [k6]
    show _ = x.dst.sub x.src
    rw [e1 hp]
    ext <;> simp [Vec4.sub, Vec4.add]
  rcases k3 with ⟨A', u, s0, s1, hm⟩ | ⟨A', q, hm⟩
  · have hA := hm.hA
    rw [k5] at hA h1
    cases hA
    cases h1
    obtain ⟨hu, hdist, hpos, heo, _⟩ := hm.toHdr.unit
    obtain ⟨L, hL0, hLp, hL⟩ := hm.hramp.mem
    have hLd : L = (moveDistance { x.A with position := x.src } b'.stateB).1 := by
      refine unit_cancel hu (p := x.src) ?_
      rw [← hLp, ← hpos]
    rw [← hLd] at hdist hpos
    rw [k1] at hs
    obtain ⟨w, w₁, l, l₁, g⟩ := hL s hs
    obtain ⟨b1, b2⟩ := g.dist_bounds hd
    rw [g.getPosition hd, Except.ok.injEq] at hv
    refine ⟨x.A, f, (l + (w + SegOn.speed s w w₁ t) / 2 * (t - s.tBegin)) / L, k4.stateA, by rw [k1]; exact h2, ?_, ?_, ?_⟩
    · exact div_nonneg (le_trans g.hl b1) hL0
    · exact (div_le_one hdist).2 (le_trans b2 g.hl₁)
    · rw [k4.stateB, hdisp, h5, ← hv, hpos]
      ext <;> simp only [Vec4.add, Vec4.sub, Vec4.mul] <;> field_simp <;> ring
  · have := hm.hpause
    rw [k6] at this
    change x.B.pause = some q at this
    rw [hp] at this
    cases this

/-! ## C18 with `marlin_jerk` -/

theorem actions_last (A B : PState ℝ) (post : List (PState ℝ)) (hm : B.position ≠ A.position)
    (hidle : ∀ x ∈ post, x.pause = none ∧ x.position = B.position) :
    ∀ (pre : List (PState ℝ)) (pa : Option (PState ℝ)),
      (actions pa (pre ++ A :: B :: post)).getLast? = some (some A, B, post) := by
  have idle : ∀ (post : List (PState ℝ)) (P : PState ℝ), P.position = B.position →
      (∀ x ∈ post, x.pause = none ∧ x.position = B.position) → actions (some P) post = [] := by
    intro post
    induction post with
    | nil => intro P _ _; rw [actions]
    | cons s post ih =>
      intro P hP hx
      obtain ⟨h1, h2⟩ := hx s List.mem_cons_self
      rw [actions, if_neg]
      · exact ih s h2 fun x hx' => hx x (List.mem_cons_of_mem _ hx')
      · rintro (h | ⟨A', hA', h⟩)
        · exact h h1
        · cases hA'
          exact h (by rw [h2, hP])
  have last : actions (some A) (B :: post) = [(some A, B, post)] := by
    rw [actions, if_pos (Or.inr ⟨A, rfl, hm⟩), idle post B rfl hidle]
  intro pre
  induction pre with
  | nil =>
    intro pa
    rw [List.nil_append, actions]
    split
    · rw [last]
      rfl
    · rw [last]
      rfl
  | cons s pre ih =>
    intro pa
    rw [List.cons_append, actions]
    split
    · have := ih (some s)
      cases hl : actions (some s) (pre ++ A :: B :: post) with
      | nil => rw [hl] at this; cases this
      | cons y ys =>
        rw [hl] at this
        rw [List.getLast?_cons_cons]
        exact this
    · exact ih (some s)

theorem forall₂_last {α β : Type} {R : α → β → Prop} {l : List α} {r : List β} (h : List.Forall₂ R l r) {y : β}
    (hy : r.getLast? = some y) : ∃ x, l.getLast? = some x ∧ R x y := by
  induction h with
  | nil => cases hy
  | cons h1 h2 ih =>
    cases h2 with
    | nil =>
      rw [List.getLast?_singleton, Option.some.injEq] at hy
      subst hy
      exact ⟨_, rfl, h1⟩
    | cons _ _ =>
      rw [List.getLast?_cons_cons] at hy ⊢
      exact ih hy

/-- **C18 with `marlin_jerk`, the exact law.** If the last move of a program travels, it does not end at standstill: it
ends with twice the jerk or its feedrate, whichever is less (with its feedrate if the jerk is zero), unless it accelerates
all the way and does not get that fast. -/
theorem c18_marlin_jerk_law {pre post : List (PState ℝ)} {A B : PState ℝ} (hs : states = pre ++ A :: B :: post)
    (hreg : Regular states) (h : plan .marlinJerk states = .ok bs) (hp : B.pause = none)
    (hd : (B.position.sub A.position).norm3 ≠ 0) (hidle : ∀ x ∈ post, x.pause = none ∧ x.position = B.position) :
    ∃ b s s', bs.getLast? = some b ∧ b.stateB = B ∧ b.segments.head? = some s ∧ b.segments.getLast? = some s' ∧
      0 < s'.velEnd.norm3 ∧ s'.velEnd.norm3 ≤ (if B.jerk = 0 then B.speed else min B.speed (2 * B.jerk)) ∧
      (s'.velEnd.norm3 = (if B.jerk = 0 then B.speed else min B.speed (2 * B.jerk)) ∨
        s'.velEnd.norm3 ^ 2 = s.velBegin.norm3 ^ 2 + 2 * B.pAcc * (B.position.sub A.position).norm3) := by
  have hB : B ∈ states := by rw [hs]; simp
  have hsp := hreg.speed B hB
  have hj := hreg.jerk B hB
  have ha := hreg.acc B hB
  obtain ⟨k1, _, k2⟩ := plan_opt hreg h
  have hne : B.position ≠ A.position := by
    intro he
    rw [he, Vec4.sub_self, norm3_zero] at hd
    exact hd rfl
  have hlast := actions_last A B post hne hidle pre none
  rw [← hs] at hlast
  obtain ⟨b, hb, e1, e2, e3⟩ := forall₂_last k1 hlast
  obtain ⟨u, e4, e5⟩ := e3 hp
  have hJ : junctionVel .marlinJerk (some A) B post = if B.jerk = 0 then B.speed else min B.speed (2 * B.jerk) := by
    rw [← c18_marlin_jerk_end A B hsp hj hd]
    simp only [junctionVel, calcJerk, velNext_stop (fun x hx => (hidle x hx).2), velNext_stop (B := B) (rest := [])
      (by simp)]
  have hJ0 : 0 < junctionVel .marlinJerk (some A) B post := by
    rw [hJ]
    split
    · exact hsp
    · rename_i hz
      exact lt_min hsp (by have := lt_of_le_of_ne hj (Ne.symm hz); linarith)
  rw [← hJ]
  simp only at e1 e2 e5
  rcases k2 b hb with ⟨A', p, hdw⟩ | ⟨A', u', s0, s1, hm, hex⟩
  · have := hdw.hpause
    rw [e2, hp] at this
    cases this
  · have hA := hm.hA
    rw [e1] at hA
    cases hA
    obtain ⟨s, s', q1, q2, _, _, q5, _, _, q8, _⟩ := hm.ends
    obtain ⟨hu, hdist, hpos, heo, hdir⟩ := hm.toHdr.unit
    have hfalse : (moveDistance A b.stateB).2 = false := by
      rw [← Bool.not_eq_true, heo, e2]
      exact hd
    rw [hfalse] at hu
    have hu1 : u'.norm3 = 1 := by simpa [UnitDir] using hu
    have hL : (moveDistance A b.stateB).1 = (B.position.sub A.position).norm3 := by
      have := congrArg (fun v : Vec4 ℝ => (v.sub A.position).norm3) hpos
      rw [e2] at this ⊢
      rw [this]
      rw [e2] at hdist
      have h2 : ((A.position.add (u'.mul (moveDistance A B).1)).sub A.position) = u'.mul (moveDistance A B).1 := by
        ext <;> simp [Vec4.add, Vec4.sub]
      rw [h2, norm3_mul, hu1, one_mul, abs_of_pos hdist]
    have hs0 : 0 ≤ s0 ∧ 0 ≤ s1 := ⟨hm.facts.1, hm.facts.2.2.1⟩
    refine ⟨b, s, s', hb, e2, q1, q2, ?_⟩
    rw [q5, q8, norm3_mul, norm3_mul, hu1, one_mul, one_mul, abs_of_nonneg hs0.1, abs_of_nonneg hs0.2]
    have hu' : u = u' := by
      have := hm.hdir
      rw [e4] at this
      exact Option.some.inj this
    subst hu'
    have hone : ∀ a c : ℝ, u.mul a = u.mul c → a = c := by
      intro a c hac
      exact unit_cancel hu (p := Vec4.zero) (by rw [hac])
    have hle : s1 ≤ junctionVel .marlinJerk (some A) B post := by
      obtain ⟨j, hj1, hj2⟩ := hm.hjd
      rw [e5] at hj1
      rw [hone _ _ (Option.some.inj hj1)]
      exact hj2
    rw [e2] at hdist
    rw [e2] at hL hex
    rw [hL] at hdist hex
    rcases hex with hex | hex
    · rw [e5] at hex
      have := hone _ _ (Option.some.inj hex)
      rw [← this]
      exact ⟨hJ0, le_refl _, Or.inl rfl⟩
    · refine ⟨lt_of_le_of_ne hs0.2 ?_, hle, Or.inr hex⟩
      rintro rfl
      nlinarith [sq_nonneg s0, mul_pos ha hdist]

/-! ### Examples -/

/-- A program with a move of feedrate zero and a line that moves and pauses: never faster than the feedrates. -/
example (fw : Firmware) : ∃ bs, plan fw Demo.lossy = .ok bs ∧ bs ≠ [] ∧ ∀ b ∈ bs, ∀ s ∈ b.segments, ∀ t v,
    s.getVelocity t = .ok v → v.norm3 ≤ b.stateB.speed := by
  obtain ⟨bs, h⟩ := (c86_plannable fw Demo.lossy_sensible).2 Demo.lossy_follow
  refine ⟨bs, h, ?_, fun b hb s hs t v hv => (c21_feedrate_sensible Demo.lossy_sensible h hb hs hv).1⟩
  rintro rfl
  have := (c87_carried_out Demo.lossy_sensible h).length_eq
  rw [Demo.lossy_executed] at this
  cases this

/-- A single long move with `marlin_jerk` ends with `10` mm/s; the standstill after it is not executed. -/
example : ∃ bs b s, plan .marlinJerk [Demo.s0, Demo.s1, Demo.s1] = .ok bs ∧ bs.getLast? = some b ∧
    b.segments.getLast? = some s ∧ 0 < s.velEnd.norm3 ∧ s.velEnd.norm3 ≤ 10 := by
  have hreg : Regular [Demo.s0, Demo.s1, Demo.s1] := by
    refine regular_of_no_pause fun s hs => ?_
    simp only [List.mem_cons, List.not_mem_nil, or_false] at hs
    rcases hs with rfl | rfl | rfl <;> norm_num [Demo.s0, Demo.s1]
  obtain ⟨_, bs, _, _, h, _⟩ := c26_correction_total .marlinJerk hreg
  obtain ⟨b, _, s, h1, _, _, h2, h3, h4, _⟩ := c18_marlin_jerk_law (pre := []) (post := [Demo.s1]) rfl hreg h rfl (by
    intro h0
    have := (norm3_eq_zero.1 h0).1
    simp [Demo.s0, Demo.s1, Vec4.sub] at this) (by
    intro x hx
    rw [List.mem_singleton.1 hx]
    exact ⟨rfl, rfl⟩)
  refine ⟨bs, b, s, h, h1, h2, h3, le_trans h4 ?_⟩
  norm_num [Demo.s1]

end PyGCD
