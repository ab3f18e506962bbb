import Verif.Props.Fastest
import Verif.Props.Speeds
import Verif.Spec.TaskSpeeds

/-!
# Property C119: closed formulas for the speeds and times of every program that can be planned

`Props/Speeds` shows C100 for regular programs. Here feedrates may be zero, and lines may both move and pause. `Demo.lossy` is
such a program.
-/

set_option linter.unusedSectionVars false
set_option linter.unusedSimpArgs false

namespace PyGCD
open Vec4 Spec

variable {fw : Firmware} {states : List (PState ℝ)} {bs : List (Block ℝ)}

/-! ## The legs -/

theorem MoveB.legOf {b : Block ℝ} {A : PState ℝ} {u : Vec4 ℝ} {s0 s1 J : ℝ} (hm : MoveB b A u s0 s1)
    (hz : (b.stateB.position.sub A.position).norm3 ≠ 0) (j2 : b.jd = some (u.mul J)) :
    LegOf ⟨2 * b.stateB.pAcc * (b.stateB.position.sub A.position).norm3, b.stateB.speed, J⟩ b := by
  obtain ⟨n1, n2, n3, n4⟩ := hm.travel hz
  have jump : ∀ {A' u'' t0 t1}, MoveB b A' u'' t0 t1 → A' = A ∧ u'' = u ∧ t0 = s0 ∧ t1 = s1 := by
    intro A' u'' t0 t1 hm'
    have hA := hm'.hA
    rw [hm.hA] at hA
    cases hA
    have hu := hm'.hdir
    rw [hm.hdir] at hu
    cases hu
    obtain ⟨_, k2, k3, _⟩ := hm'.travel hz
    exact ⟨rfl, rfl, k2.symm.trans n2, k3.symm.trans n3⟩
  obtain ⟨j, i1, i2⟩ := hm.hjd
  obtain ⟨g1, g2, _⟩ := hm.toHdr.unit
  obtain ⟨f1, f2, f3, f4, f5, _⟩ := hm.facts
  have hj : J = j := by
    have := j2.symm.trans i1
    injection this with this
    exact mul_inj g1 this
  rw [n4] at f5 g2
  obtain ⟨f6, f7⟩ := abs_le.1 f5
  refine ⟨by have := hm.ha; positivity, by rw [n2]; exact f1, by rw [n3]; exact f3, ?_, ?_, by rw [n2]; exact f2,
    by rw [n3]; exact f4, by rw [n3, hj]; exact i2, ?_, ?_, Or.inl (by have := hm.ha; positivity)⟩
  · rw [n2, n3]
    linarith
  · rw [n2, n3]
    linarith
  · rintro (⟨_, p, hd⟩ | ⟨A', u'', t0, t1, hm', hx⟩)
    · exact absurd hm.hpause (by rw [hd.hpause]; simp)
    · obtain ⟨rfl, rfl, rfl, rfl⟩ := jump hm'
      rcases hx with hx | hx
      · left
        rw [j2] at hx
        injection hx with hx
        rw [n3, mul_inj g1 hx]
      · right
        rw [n2, n3, hx, n4]
  · rintro (⟨_, p, hd⟩ | ⟨A', u'', t0, t1, hm', hx⟩)
    · exact absurd hm.hpause (by rw [hd.hpause]; simp)
    · obtain ⟨rfl, rfl, rfl, rfl⟩ := jump hm'
      rcases hx with hx | hx | hx
      · rw [n1] at hx
        norm_num at hx
      · left
        rw [n2, hx]
      · right
        rw [n2, n3, hx, n4]

theorem Does.legOf {b : Block ℝ} {x : Step × List (PState ℝ)} (h : Does fw b x) (hg : Good b) :
    LegOf (taskLeg (junctionVel fw) x) b := by
  obtain ⟨x, behind⟩ := x
  have h' := h
  obtain ⟨⟨a1, a2⟩, a3, _⟩ := h'
  simp only at a1 a2 a3
  unfold taskLeg
  by_cases hc : x.B.pause = none ∧ (x.dst.sub x.src).norm3 ≠ 0
  · rw [if_pos hc]
    obtain ⟨_, u, s0, s1, hm, _, _, _, hj, _⟩ := travel_does hg h hc.1 hc.2
    have := hm.legOf (by rw [a2]; exact hc.2) hj
    rw [a2] at this
    exact this
  · rw [if_neg hc]
    rcases hg with ⟨A', u, s0, s1, hm⟩ | ⟨A', p, hd⟩
    · have hA := hm.hA
      rw [a1] at hA
      cases hA
      have hp := hm.hpause
      rw [a2] at hp
      have hz : (b.stateB.position.sub x.src).norm3 = 0 := by
        rw [a2]
        by_contra hz
        exact hc ⟨hp, hz⟩
      obtain ⟨e1, e2⟩ := hm.filament hz
      exact legOf_still e1 e2
    · obtain ⟨e1, e2⟩ := hd.speeds
      exact legOf_still e1 e2

/-- The legs of the steps of a program. -/
noncomputable def taskLegs (fw : Firmware) (states : List (PState ℝ)) : List Leg :=
  (tasks none none states).map (taskLeg (junctionVel fw))

/-- A move of a step goes as far as in the program. -/
theorem tasks_shift : ∀ (states : List (PState ℝ)) (here : Option (Vec4 ℝ)) (A : Option (PState ℝ)),
    ∀ x ∈ tasks here A states, x.1.B.pause = none → x.1.dst.sub x.1.src = x.1.B.position.sub x.1.A.position
  | [], here, A, x, hx, _ => by rw [tasks] at hx; cases hx
  | s :: rest, here, none, x, hx, h => by
    rw [tasks] at hx
    exact tasks_shift rest here (some s) x hx h
  | s :: rest, here, some A, x, hx, h => by
    rw [tasks] at hx
    by_cases hp : s.pause ≠ none
    · simp only [if_pos hp, List.mem_cons] at hx
      rcases hx with rfl | hx
      · exact absurd h hp
      · exact tasks_shift rest _ _ x hx h
    · by_cases hr : Executes A s
      · simp only [if_neg hp, if_pos hr, List.mem_cons] at hx
        rcases hx with rfl | hx
        · ext <;> simp [Vec4.add, Vec4.sub]
        · exact tasks_shift rest _ _ x hx h
      · simp only [if_neg hp, if_neg hr] at hx
        exact tasks_shift rest _ _ x hx h

/-- The plan as a trace of the legs of its steps. -/
theorem plan_tasks (hsens : Sensible states) (h : plan fw states = .ok bs) :
    ∃ bs', List.Forall₂ Anch bs bs' ∧ SoundRun bs' ∧ List.Forall₂ (Does fw) bs' (tasks none none states) ∧
      (fw ≠ .marlinJerk → ∀ b ∈ bs', ∀ v ∈ b.feed, v = Vec4.zero) ∧ (taskLegs fw states).length = bs'.length ∧
      Trace bs'.length (fun k => ((taskLegs fw states)[k]?.map Leg.gain).getD 0)
        (fun k => ((taskLegs fw states)[k]?.map Leg.feed).getD 0) (fun k => ((taskLegs fw states)[k]?.map Leg.last).getD 0)
        (fun k => (bs'[k]?.map Block.nIn).getD 0) (fun k => (bs'[k]?.map Block.nOut).getD 0) 1e-12 := by
  obtain ⟨bs', h1, h2, h3, h4, h5, h6, h7⟩ := plan_anchored_opt hsens h
  have hF : List.Forall₂ LegOf (taskLegs fw states) bs' := by
    have hg := h2.good
    unfold taskLegs
    clear h1 h2 h4 h5 h6 h7
    generalize tasks none none states = xs at h3
    induction h3 with
    | nil => exact .nil
    | cons h1 _ ih => exact .cons (h1.legOf (hg _ (by simp))) (ih fun b hb => hg b (by simp [hb]))
  obtain ⟨e1, e2⟩ := trace_of_legs hF h2.chain h4 h5 fun b hb => (h2.first b hb).2.1
  exact ⟨bs', h1, h2, h3, h7, e1, e2⟩

/-! ## Speeds -/

/-- **C119.** With every firmware, each block ends with the travel speed of the closed formula for its junction and begins
with the one for the junction before, up to the planner's tolerance of `1e-12` mm/s per junction. -/
theorem c119_speeds (hsens : Sensible states) (h : plan fw states = .ok bs) {k : ℕ} {b : Block ℝ} (hb : bs[k]? = some b)
    {s s' : Segment ℝ} (hs : b.segments.head? = some s) (hs' : b.segments.getLast? = some s') :
    let l := (tasks none none states).map (taskLeg (junctionVel fw))
    cornerSpeed l k - 1e-12 ≤ s.velBegin.norm3 ∧ s.velBegin.norm3 ≤ cornerSpeed l k + (bs.length + 1) * 1e-12 ∧
      cornerSpeed l (k + 1) ≤ s'.velEnd.norm3 ∧
      s'.velEnd.norm3 ≤ cornerSpeed l (k + 1) + (bs.length + 1) * 1e-12 := by
  obtain ⟨bs', h1, _, _, _, hlen, ht⟩ := plan_tasks hsens h
  have hl := h1.length_eq
  obtain ⟨hk, hbk⟩ := List.getElem?_eq_some_iff.1 hb
  have hk' : k < bs'.length := by omega
  have ha := (List.forall₂_iff_get.1 h1).2 k hk hk'
  simp only [List.get_eq_getElem, hbk] at ha
  rw [ha.segs] at hs hs'
  rw [hl]
  exact speeds_of_trace hlen ht (List.getElem?_eq_getElem hk') hs hs'

/-! ## Durations -/

theorem duration_task (hsens : Sensible states) (hfw : fw = .marlinJerk → TasksTravel states) {bs' : List (Block ℝ)}
    (hsound : SoundRun bs') (hdoes : List.Forall₂ (Does fw) bs' (tasks none none states))
    (hfeed : fw ≠ .marlinJerk → ∀ b ∈ bs', ∀ v ∈ b.feed, v = Vec4.zero) (hlen : (taskLegs fw states).length = bs'.length)
    (ht : Trace bs'.length (fun k => ((taskLegs fw states)[k]?.map Leg.gain).getD 0)
        (fun k => ((taskLegs fw states)[k]?.map Leg.feed).getD 0) (fun k => ((taskLegs fw states)[k]?.map Leg.last).getD 0)
        (fun k => (bs'[k]?.map Block.nIn).getD 0) (fun k => (bs'[k]?.map Block.nOut).getD 0) 1e-12)
    {k : ℕ} {x : Step} {behind : List (PState ℝ)} {b : Block ℝ} (hx : (tasks none none states)[k]? = some (x, behind))
    (hb : bs'[k]? = some b) :
    |(b.t1 - b.t0) - taskTime x (cornerSpeed (taskLegs fw states) k) (cornerSpeed (taskLegs fw states) (k + 1))| ≤
      2 * ((bs'.length + 1) * 1e-12) / x.B.pAcc := by
  obtain ⟨hk, hbk⟩ := List.getElem?_eq_some_iff.1 hb
  have hmem : b ∈ bs' := List.mem_of_getElem? hb
  have hxm := List.mem_of_getElem? hx
  obtain ⟨hxk, hxe⟩ := List.getElem?_eq_some_iff.1 hx
  have hacts : Does fw b (x, behind) := by
    have := (List.forall₂_iff_get.1 hdoes).2 k hk hxk
    simpa [hbk, hxe] using this
  have hlk : (taskLegs fw states)[k]? = some (taskLeg (junctionVel fw) (x, behind)) := by
    unfold taskLegs
    rw [List.getElem?_map, hx]
    rfl
  have hacc : 0 < x.B.pAcc := hsens.acc _ (tasks_mem hxm)
  have hR := hacts.legOf (hsound.good b hmem)
  have hkl : k < (taskLegs fw states).length := by omega
  have hgain : |reach (taskLegs fw states) (k + 1) - reach (taskLegs fw states) k| = (taskLeg (junctionVel fw) (x, behind)).gain := by
    rw [reach_succ hkl]
    have : (taskLegs fw states)[k] = taskLeg (junctionVel fw) (x, behind) := by
      rw [List.getElem?_eq_getElem hkl] at hlk
      exact Option.some.inj hlk
    rw [this, add_sub_cancel_left, abs_of_nonneg hR.gain]
  have hup := cornerSpeed_step (l := taskLegs fw states) k (k + 1)
  have hdn := cornerSpeed_step (l := taskLegs fw states) (k + 1) k
  rw [hgain] at hup
  rw [abs_sub_comm, hgain] at hdn
  have hc0 := cornerSpeed_nonneg (taskLegs fw states) k
  have hc1 := cornerSpeed_nonneg (taskLegs fw states) (k + 1)
  have hbd := bounds_legs (taskLegs fw states)
  rw [hlen] at hbd
  have hfk : cornerSpeed (taskLegs fw states) k ≤ (taskLeg (junctionVel fw) (x, behind)).feed := by
    refine (cornerSpeed_le_own hkl.le (hbd.nonneg ht hk.le)).trans ?_
    cases k with
    | zero => exact hR.beg.trans hR.feed
    | succ k =>
      rw [hbd.mid k hk, hlk]
      exact min_le_right _ _
  have e3 : vAt (fun k => (bs'[k]?.map Block.nOut).getD 0) (k + 1) = b.nOut := by
    show (bs'[k]?.map Block.nOut).getD 0 = _
    rw [hb]
    rfl
  have hfk' : cornerSpeed (taskLegs fw states) (k + 1) ≤ (taskLeg (junctionVel fw) (x, behind)).feed := by
    have := (corner_of_trace (by norm_num) hlen ht (i := k + 1) hk).1
    rw [e3] at this
    exact this.trans hR.feed'
  obtain ⟨⟨a1, a2⟩, a3, _⟩ := hacts
  simp only at a1 a2 a3
  rcases hsound.good b hmem with ⟨A, u, s0, s1, hm⟩ | ⟨A, p, hd⟩
  · have hA := hm.hA
    rw [a1] at hA
    cases hA
    have ha := hm.ha
    have hp : x.B.pause = none := by
      have := hm.hpause
      rwa [a2] at this
    have epos : b.stateB.position = x.dst := by rw [a2]
    have eacc : b.stateB.pAcc = x.B.pAcc := by rw [a2]
    have espd : b.stateB.speed = x.B.speed := by rw [a2]
    have hact : ∀ v v', taskTime x v v' =
        moveTime b.stateB.pAcc b.stateB.speed (moveLength x.src b.stateB.position) v v' := by
      intro v v'
      unfold taskTime
      rw [hp, a2]
    rw [hact, hm.time, ← eacc]
    by_cases hz : (b.stateB.position.sub x.src).norm3 = 0
    · have hl : taskLeg (junctionVel fw) (x, behind) = ⟨0, 0, 0⟩ := by
        unfold taskLeg
        rw [if_neg (by rintro ⟨_, h⟩; rw [epos] at hz; exact h hz)]
      rw [hl] at hfk hfk'
      obtain ⟨g1, g2, g3, g4, _⟩ := hm.toHdr.unit
      obtain ⟨f1, f2, f3, f4, _⟩ := hm.facts
      obtain ⟨q, q', e1, _, _, _, e5, _, _, _, e9, e10⟩ := hm.ends
      have hun : u.norm3 = 0 := by
        have := g1.norms.1
        rw [g4.2 hz] at this
        simpa using this
      obtain ⟨u', j1, j2⟩ := a3 hp
      rw [hm.hdir] at j1
      cases j1
      obtain ⟨j, i1, i2⟩ := hm.hjd
      rw [j2] at i1
      injection i1 with i1
      have hj := mul_inj g1 i1
      have hsh := tasks_shift states none none _ hxm hp
      simp only at hsh
      have hj0 : junctionVel fw (some x.A) x.B behind = 0 := by
        refine c62_filament_stop fw _ (hsens.speed _ (tasks_mem hxm)) (hsens.jerk _ (tasks_mem hxm)) ?_
        rw [← hsh, ← epos]
        exact hz
      rw [hj0] at hj
      have h1 : s1 = 0 := le_antisymm (by rw [← hj] at i2; exact i2) f3
      have hmj : fw ≠ .marlinJerk := by
        intro hfw'
        have := hfw hfw' _ hxm hp
        rw [epos] at hz
        exact this hz
      have h0 : s0 = 0 := by
        have hfe : b.feed = some (u.mul s0) := by
          rw [Block.feed, hm.hdir, Option.map_some, hun, if_pos rfl, e1, Option.map_some, e5]
        have := hfeed hmj b hmem _ hfe
        exact mul_inj g1 (this.trans (Vec4.mul_zero u).symm)
      rw [h0, h1, le_antisymm hfk hc0, le_antisymm hfk' hc1, _root_.sub_self, abs_zero]
      positivity
    · obtain ⟨n1, n2, n3, n4⟩ := hm.travel hz
      have hd : 0 < moveLength x.src b.stateB.position := by
        obtain ⟨_, g2, _⟩ := hm.toHdr.unit
        rwa [moveDistance_length] at g2
      have hml : moveLength x.src b.stateB.position = (b.stateB.position.sub x.src).norm3 := by
        rw [moveLength, if_neg hz]
      have hl : taskLeg (junctionVel fw) (x, behind) = ⟨2 * b.stateB.pAcc * moveLength x.src b.stateB.position, b.stateB.speed,
          junctionVel fw (some x.A) x.B behind⟩ := by
        unfold taskLeg
        rw [hml, epos, eacc, espd]
        exact if_pos ⟨hp, by rw [← epos]; exact hz⟩
      rw [hl] at hfk hfk' hup hdn
      simp only at hfk hfk' hup hdn
      obtain ⟨f1, f2, f3, f4, f5, _⟩ := hm.facts
      rw [moveDistance_length] at f5
      obtain ⟨f6, f7⟩ := abs_le.1 f5
      obtain ⟨s, s', z1, z2, _⟩ := hm.ends
      obtain ⟨c1, c2, c3, c4⟩ := speeds_of_trace hlen ht hb z1 z2
      have e1 : s.velBegin.norm3 = s0 := by
        rw [← n2]
        unfold Block.nIn
        rw [z1]
        rfl
      have e2 : s'.velEnd.norm3 = s1 := by
        rw [← n3]
        unfold Block.nOut
        rw [z2]
        rfl
      rw [e1] at c1 c2
      rw [e2] at c3 c4
      have hn : (0 : ℝ) ≤ bs'.length := Nat.cast_nonneg _
      have hε : (1e-12 : ℝ) ≤ (bs'.length + 1) * 1e-12 := by nlinarith
      have hε0 : (0 : ℝ) ≤ (bs'.length + 1) * 1e-12 := by positivity
      have t1 := moveTime_close_le ha hm.hs hd f1 f2 f3 f4 (by linarith) (by linarith) hc0 hfk hc1 hfk' hup hdn hε0
        (by linarith) (by linarith)
      have t2 := moveTime_close_le ha hm.hs hd hc0 hfk hc1 hfk' hup hdn f1 f2 f3 f4 (by linarith) (by linarith) hε0
        (by linarith) (by linarith)
      rw [abs_le]
      constructor <;> linarith
  · have hp : x.B.pause = some p := by
      have := hd.hpause
      rwa [a2] at this
    have hact : ∀ v v', taskTime x v v' = p := by
      intro v v'
      unfold taskTime
      rw [hp]
    obtain ⟨t, ht⟩ := hd.hseg
    have : b.t1 - b.t0 = p := by
      unfold Block.t1 Block.t0
      rw [ht]
      simp
    rw [hact, this, _root_.sub_self, abs_zero]
    positivity

/-- **C119.** The duration of each block is the closed formula for its step with the closed formulas for the speeds at its
ends, up to the planner's tolerance. -/
theorem c119_durations (hsens : Sensible states) (hfw : fw = .marlinJerk → TasksTravel states)
    (h : plan fw states = .ok bs) {k : ℕ} {x : Step × List (PState ℝ)} {b : Block ℝ}
    (hx : (tasks none none states)[k]? = some x) (hb : bs[k]? = some b) :
    let l := (tasks none none states).map (taskLeg (junctionVel fw))
    |(b.t1 - b.t0) - taskTime x.1 (cornerSpeed l k) (cornerSpeed l (k + 1))| ≤
      2 * ((bs.length + 1) * 1e-12) / x.1.B.pAcc := by
  obtain ⟨bs', h1, h2, h3, h4, hlen, ht⟩ := plan_tasks hsens h
  have hl := h1.length_eq
  obtain ⟨hk, hbk⟩ := List.getElem?_eq_some_iff.1 hb
  have hk' : k < bs'.length := by omega
  have ha := (List.forall₂_iff_get.1 h1).2 k hk hk'
  simp only [List.get_eq_getElem, hbk] at ha
  have e : b.t1 - b.t0 = bs'[k].t1 - bs'[k].t0 := by
    unfold Block.t1 Block.t0
    rw [ha.segs]
  show |(b.t1 - b.t0) - taskTime x.1 (cornerSpeed (taskLegs fw states) k) (cornerSpeed (taskLegs fw states) (k + 1))| ≤ _
  rw [e, hl]
  exact duration_task hsens hfw h2 h3 h4 hlen ht hx (List.getElem?_eq_getElem hk')

/-! ## Print time -/

theorem tasks_sublist : ∀ (states : List (PState ℝ)) (here : Option (Vec4 ℝ)) (A : Option (PState ℝ)),
    ((tasks here A states).map fun x => x.1.B).Sublist states
  | [], here, A => by rw [tasks]; exact .slnil
  | s :: rest, here, none => by
    rw [tasks]
    exact (tasks_sublist rest here (some s)).cons s
  | s :: rest, here, some A => by
    rw [tasks]
    by_cases hp : s.pause ≠ none
    · simp only [if_pos hp, List.map_cons]
      exact (tasks_sublist rest _ _).cons_cons s
    · by_cases hr : Executes A s
      · simp only [if_neg hp, if_pos hr, List.map_cons]
        exact (tasks_sublist rest _ _).cons_cons s
      · simp only [if_neg hp, if_neg hr]
        exact (tasks_sublist rest _ _).cons s

/-- **C119.** With every firmware the print time is the sum of the closed formulas for the durations of the steps, with
the closed formulas for the speeds at the junctions, up to the planner's tolerance. With `marlin_jerk` every move has to
travel. -/
theorem c119_print_time (hsens : Sensible states) (hfw : fw = .marlinJerk → TasksTravel states)
    (h : plan fw states = .ok bs) {t : ℝ} (ht : EndTime (Spec.path bs) t) :
    |t - tasksTime (junctionVel fw) states| ≤ slack states := by
  obtain ⟨bs', a1, a2, a3, a4, alen, atr⟩ := plan_tasks hsens h
  have hlen : (tasks none none states).length = bs'.length := a3.length_eq.symm
  have hsum := sum_near (f := fun b : Block ℝ => b.t1 - b.t0)
    (g := fun x k => taskTime x.1 (cornerSpeed (taskLegs fw states) k) (cornerSpeed (taskLegs fw states) (k + 1)))
    (B := fun x => 2 * ((bs'.length + 1) * 1e-12) / x.1.B.pAcc) 0 hlen (by
      intro k x b hx hb
      rw [Nat.zero_add]
      exact duration_task hsens hfw a2 a3 a4 alen atr hx hb)
  rw [path_anch a1] at ht
  rw [a2.endTime_sum ht] at hsum
  refine hsum.trans ?_
  have hacc : ∀ s ∈ states, 0 ≤ 1 / s.pAcc := fun s hs => (one_div_pos.2 (hsens.acc s hs)).le
  have h1 : ((tasks none none states).map fun x => 2 * (((bs'.length : ℝ) + 1) * 1e-12) / x.1.B.pAcc).sum =
      2 * (((bs'.length : ℝ) + 1) * 1e-12) * (((tasks none none states).map fun x => x.1.B).map fun s => 1 / s.pAcc).sum := by
    rw [List.map_map, ← List.sum_map_mul_left]
    congr 1
    refine List.map_congr_left fun x _ => ?_
    simp only [Function.comp]
    ring
  have h2 : (((tasks none none states).map fun x => x.1.B).map fun s => 1 / s.pAcc).sum ≤
      (states.map fun s => 1 / s.pAcc).sum :=
    ((tasks_sublist states none none).map _).sum_le_sum (by
      intro y hy
      obtain ⟨s, hs, rfl⟩ := List.mem_map.1 hy
      exact hacc s hs)
  have h0 : 0 ≤ (((tasks none none states).map fun x => x.1.B).map fun s => 1 / s.pAcc).sum := by
    refine List.sum_nonneg fun y hy => ?_
    obtain ⟨s, hs, rfl⟩ := List.mem_map.1 hy
    exact hacc s ((tasks_sublist states none none).subset hs)
  rw [h1]
  unfold slack
  have hn := (tasks_sublist states none none).length_le
  rw [List.length_map] at hn
  rw [hlen] at hn
  rcases Nat.eq_zero_or_pos states.length with h3 | h3
  · have : states = [] := List.length_eq_zero_iff.1 h3
    subst this
    rw [tasks]
    simp
  · have h4 : ((bs'.length : ℝ) + 1) ≤ 2 * states.length := by
      have : ((bs'.length + 1 : ℕ) : ℝ) ≤ ((2 * states.length : ℕ) : ℝ) := by exact_mod_cast (by omega)
      push_cast at this
      exact this
    refine mul_le_mul ?_ h2 h0 (by positivity)
    linarith


/-! ## Example -/

theorem cornerSpeed_rest {l : List Leg} {i : ℕ} (hi : i ≤ l.length) (h0 : ownSpeed l i = 0) : cornerSpeed l i = 0 :=
  le_antisymm ((cornerSpeed_le_own hi h0.ge).trans h0.le) (cornerSpeed_nonneg l i)

theorem Demo.lossy_time : tasksTime (junctionVel .default) Demo.lossy = 4.2 := by
  have hs : √(100 : ℝ) = 10 := by rw [show (100 : ℝ) = 10 ^ 2 by norm_num]; exact Real.sqrt_sq (by norm_num)
  have n1 : ((⟨10, 0, 0, 1⟩ : Vec4 ℝ).sub ⟨0, 0, 0, 0⟩).norm3 = 10 := by
    norm_num [Vec4.sub, Vec4.norm3, PyMath.sqrt, hs]
  have n2 : ((⟨20, 0, 0, 1⟩ : Vec4 ℝ).sub ⟨10, 0, 0, 1⟩).norm3 = 10 := by
    norm_num [Vec4.sub, Vec4.norm3, PyMath.sqrt, hs]
  have top : min (10 : ℝ) √(100 * 10 + (0 ^ 2 + 0 ^ 2) / 2) = 10 := by
    refine min_eq_left (Real.le_sqrt_of_sq_le ?_)
    norm_num
  have hd : ∀ A (B : PState ℝ) rest, junctionVel .default (some A) B rest = 0 := fun _ _ _ => rfl
  have hl : (tasks none none Demo.lossy).map (taskLeg (junctionVel .default)) =
      [⟨2000, 10, 0⟩, ⟨2000, 10, 0⟩, ⟨0, 0, 0⟩] := by
    rw [Demo.lossy_tasks]
    simp only [List.map_cons, List.map_nil, taskLeg, n1, n2, hd, Demo.s1, Demo.afterZero, Demo.moveAndPause]
    have h2 : (some (2 : ℝ) = none) = False := by simp
    norm_num [h2]
  unfold tasksTime
  simp only
  rw [hl]
  have c : ∀ i ≤ 3, cornerSpeed [⟨2000, 10, 0⟩, ⟨2000, 10, 0⟩, ⟨0, 0, 0⟩] i = 0 := by
    intro i hi
    refine cornerSpeed_rest (by simpa using hi) ?_
    rcases i with _ | _ | _ | _ | i
    · rfl
    · simp [ownSpeed]
    · simp [ownSpeed]
    · simp [ownSpeed]
    · omega
  rw [Demo.lossy_tasks]
  simp only [List.zipIdx_cons, List.zipIdx_nil, List.map_cons, List.map_nil, List.sum_cons, List.sum_nil, taskTime,
    Demo.s1, Demo.afterZero, Demo.moveAndPause, moveTime, topSpeed, moveLength, n1, n2]
  have ten : ((10 : ℝ) = 0) = False := by norm_num
  simp only [_root_.zero_add, Nat.reduceAdd, ten, if_false, c 0 (by norm_num), c 1 (by norm_num), c 2 (by norm_num), top]
  norm_num

/-- With the default junction handling, the example takes one second and a tenth for each of the two moves that are carried
out, and two seconds for the pause. -/
example : ∃ bs, plan .default Demo.lossy = .ok bs ∧ ∀ t, EndTime (Spec.path bs) t → |t - 4.2| ≤ slack Demo.lossy := by
  obtain ⟨bs, h⟩ := (c86_plannable .default Demo.lossy_sensible).2 Demo.lossy_follow
  refine ⟨bs, h, fun t ht => ?_⟩
  have := c119_print_time Demo.lossy_sensible (by rintro ⟨⟩) h ht
  rwa [Demo.lossy_time] at this

end PyGCD
