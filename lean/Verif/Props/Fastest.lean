import Verif.Props.SensibleMotion
import Verif.Props.Stops

/-!
# Property C118: the planned motion is the fastest one for every program that can be planned

`Props/Optimal` and `Props/Stops` show C53, C54, C55, C64 and C65 for regular programs. Here feedrates may be zero, and lines may
both move and pause. `Demo.lossy` is such a program.
-/

set_option linter.unusedSectionVars false
set_option linter.unusedSimpArgs false

namespace PyGCD
open Vec4 Spec

variable {fw : Firmware} {states : List (PState ℝ)} {bs : List (Block ℝ)}

/-! ## The steps with the states behind them -/

/-- Without the states behind them, the tasks are the steps that are carried out. -/
theorem tasks_fst : ∀ (states : List (PState ℝ)) (here : Option (Vec4 ℝ)) (A : Option (PState ℝ)),
    (tasks here A states).map Prod.fst = executed here A states
  | [], here, A => by rw [tasks, executed]; rfl
  | s :: rest, here, none => by rw [tasks, executed]; exact tasks_fst rest here (some s)
  | s :: rest, here, some A => by
    rw [tasks, executed]
    by_cases hp : s.pause ≠ none
    · simp only [if_pos hp, List.map_cons, tasks_fst rest]
    · by_cases hr : Executes A s
      · simp only [if_neg hp, if_pos hr, List.map_cons, tasks_fst rest]
      · simp only [if_neg hp, if_neg hr, tasks_fst rest]

/-- The states behind a step are those behind it in the program. -/
theorem tasks_behind : ∀ (states : List (PState ℝ)) (here : Option (Vec4 ℝ)) (A : Option (PState ℝ)),
    ∀ x ∈ tasks here A states, ∃ pre, A.toList ++ states = pre ++ x.1.A :: x.1.B :: x.2
  | [], here, A, x, hx => by rw [tasks] at hx; cases hx
  | s :: rest, here, none, x, hx => by
    rw [tasks] at hx
    obtain ⟨pre, h⟩ := tasks_behind rest here (some s) x hx
    exact ⟨pre, h⟩
  | s :: rest, here, some A, x, hx => by
    have step : (∃ here', x ∈ tasks here' (some s) rest) →
        ∃ pre, (some A).toList ++ s :: rest = pre ++ x.1.A :: x.1.B :: x.2 := by
      rintro ⟨here', h⟩
      obtain ⟨pre, h⟩ := tasks_behind rest here' (some s) x h
      refine ⟨A :: pre, ?_⟩
      rw [Option.toList_some, List.singleton_append] at h ⊢
      rw [List.cons_append, ← h]
    rw [tasks] at hx
    by_cases hp : s.pause ≠ none
    · simp only [if_pos hp, List.mem_cons] at hx
      rcases hx with rfl | hx
      · exact ⟨[], rfl⟩
      · exact step ⟨_, hx⟩
    · by_cases hr : Executes A s
      · simp only [if_neg hp, if_pos hr, List.mem_cons] at hx
        rcases hx with rfl | hx
        · exact ⟨[], rfl⟩
        · exact step ⟨_, hx⟩
      · simp only [if_neg hp, if_neg hr] at hx
        exact step ⟨_, hx⟩

/-! ## The bound -/

/-- The part of a plan that belongs to some tasks. -/
structure OptT (fw : Firmware) (ts : List (Step × List (PState ℝ))) (bs : List (Block ℝ)) : Prop where
  does : List.Forall₂ (Does fw) bs ts
  good : ∀ b ∈ bs, Good b
  link : bs.IsChain LinkT
  linkO : bs.IsChain LinkO
  last : ∀ l ∈ bs.getLast?, l.ExitR

theorem OptT.step {x : Step × List (PState ℝ)} {ts : List (Step × List (PState ℝ))} (h : OptT fw (x :: ts) bs) :
    ∃ b tl, bs = b :: tl ∧ Good b ∧ Does fw b x ∧ OptT fw ts tl ∧
      (∀ c ∈ tl.head?, LinkT b c ∧ LinkO b c) ∧ (tl = [] → b.ExitR) := by
  have ha := h.does
  cases ha with
  | @cons b _ tl _ h1 h2 =>
    refine ⟨b, tl, rfl, h.good b (by simp), h1, ⟨h2, fun c hc => h.good c (by simp [hc]), ?_, ?_, ?_⟩, ?_, ?_⟩
    · exact h.link.tail
    · exact h.linkO.tail
    · intro l hl
      cases tl with
      | nil => cases hl
      | cons c tl => exact h.last l (by rw [List.getLast?_cons_cons]; exact hl)
    · intro c hc
      cases tl with
      | nil => cases hc
      | cons c' tl =>
        cases hc
        exact ⟨(List.isChain_cons_cons.1 h.link).1, (List.isChain_cons_cons.1 h.linkO).1⟩
    · rintro rfl
      exact h.last b rfl

theorem travel_does {b : Block ℝ} {x : Step} {behind : List (PState ℝ)} (hg : Good b)
    (ha : Does fw b (x, behind)) (hp : x.B.pause = none) (hne : (x.dst.sub x.src).norm3 ≠ 0) :
    b.stateB = { x.B with position := x.dst } ∧ ∃ u s0 s1, MoveB b { x.A with position := x.src } u s0 s1 ∧ u.norm3 = 1 ∧
      b.nIn = s0 ∧ b.nOut = s1 ∧ b.jd = some (u.mul (junctionVel fw (some x.A) x.B behind)) ∧
      (moveDistance { x.A with position := x.src } b.stateB).1 = (x.dst.sub x.src).norm3 := by
  obtain ⟨⟨a1, a2⟩, a3, _⟩ := ha
  simp only at a1 a2 a3
  rcases hg with ⟨A', u, s0, s1, hm⟩ | ⟨A', p, hd⟩
  · have hA := hm.hA
    rw [a1] at hA
    cases hA
    obtain ⟨h1, h2, h3, h4, _⟩ := hm.toHdr.unit
    have hf : (moveDistance { x.A with position := x.src } b.stateB).2 = false := by
      cases hx : (moveDistance { x.A with position := x.src } b.stateB).2
      · rfl
      · have := h4.1 hx
        rw [a2] at this
        exact absurd this hne
    have hu1 : u.norm3 = 1 := by
      have := h1.norms.1
      rw [hf] at this
      simpa using this
    obtain ⟨_, _, _, _, _, _, _, _, _, _, g9, g10⟩ := hm.ends
    rw [hu1, one_mul] at g9 g10
    obtain ⟨u', d1, d2⟩ := a3 hp
    rw [hm.hdir] at d1
    cases d1
    refine ⟨a2, u, s0, s1, hm, hu1, g9, g10, d2, ?_⟩
    rw [moveDistance_length, a2]
    unfold moveLength
    rw [if_neg hne]
  · exact absurd hd.hpause (by simp [a2, hp])

theorem entry_bound_tasks {v T : ℝ} {ts : List (Step × List (PState ℝ))}
    (hS : Timetable (junctionVel fw) v ts T) : ∀ {bs : List (Block ℝ)}, OptT fw ts bs →
    ∀ b ∈ bs.head?, b.EntryR → v ≤ b.nIn := by
  induction hS with
  | done v =>
    intro bs h b hb _
    have := h.does
    cases this
    cases hb
  | pause =>
    intro bs h b hb _
    obtain ⟨_, _, _, _, _, _, _, _, _, _, _, _, h11, _⟩ := (h.good b (List.mem_of_mem_head? hb)).facts
    exact h11
  | filament =>
    intro bs h b hb _
    obtain ⟨_, _, _, _, _, _, _, _, _, _, _, _, h11, _⟩ := (h.good b (List.mem_of_mem_head? hb)).facts
    exact h11
  | @travel x behind ts v v' t T hp hne hd hlim _ ih =>
    intro bs h b hb hE
    obtain ⟨b', tl, rfl, hg, ha, ho, hl, hn⟩ := h.step
    cases hb
    obtain ⟨hB, u, s0, s1, hm, hu1, hin, hout, hj, hdist⟩ := travel_does hg ha hp hne
    have hp' : b.stateB.pause = none := by rw [hB]; exact hp
    have hacc : x.B.pAcc = b.stateB.pAcc := by rw [hB]
    have hsp : x.B.speed = b.stateB.speed := by rw [hB]
    rw [← hdist, hacc, hsp] at hd
    obtain ⟨_, f1, f2, _, f3, f4⟩ := hd.facts hm.ha
    obtain ⟨k1, k2, k3, k4, k5, k6⟩ := hm.facts
    obtain ⟨hu, hd0, _⟩ := hm.toHdr.unit
    have had : 0 < b.stateB.pAcc * (moveDistance { x.A with position := x.src } b.stateB).1 := mul_pos hm.ha hd0
    rcases hE with ⟨A', p, hd'⟩ | ⟨A', u', q0, q1, hm', hc⟩
    · rw [hd'.hpause] at hp'
      cases hp'
    · obtain ⟨rfl, rfl, rfl, rfl⟩ := hm.unique hm'
      rcases hc with hc | hc | hc
      · rw [hu1] at hc
        norm_num at hc
      · rw [hin, hc]
        exact f1
      · have hv' : v' ≤ s1 := by
          have hexit : b.ExitR → v' ≤ s1 := by
            rintro (⟨A', p, hd'⟩ | ⟨A', u', q0, q1, hm', hc'⟩)
            · rw [hd'.hpause] at hp'
              cases hp'
            · obtain ⟨rfl, rfl, rfl, rfl⟩ := hm.unique hm'
              rcases hc' with hc' | hc'
              · rw [hj] at hc'
                injection hc' with hc'
                rw [← mul_inj hu hc']
                exact hlim
              · exfalso
                linarith
          cases tl with
          | nil => exact hexit (hn rfl)
          | cons c tl =>
            obtain ⟨l1, l2⟩ := hl c rfl
            rcases l2.2 with l | l
            · exact hexit l
            · rw [← hout]
              exact le_trans (ih ho c rfl l) l1.2.1
        rw [hin]
        refine (sq_le_sq₀ (by linarith) k1).1 ?_
        have := (sq_le_sq₀ f2 k3).2 hv'
        linarith

theorem total_bound_tasks {v T : ℝ} {ts : List (Step × List (PState ℝ))}
    (hS : Timetable (junctionVel fw) v ts T) : ∀ {bs : List (Block ℝ)}, OptT fw ts bs →
    (∀ b ∈ bs.head?, v ≤ b.nIn) → (bs.map fun b => b.t1 - b.t0).sum ≤ T := by
  induction hS with
  | done v =>
    intro bs h _
    have := h.does
    cases this
    simp
  | @pause x behind ts p t T hp ht _ ih =>
    intro bs h hv
    obtain ⟨b, tl, rfl, hg, ha, ho, hl, hn⟩ := h.step
    rw [List.map_cons, List.sum_cons]
    have h1 := ih ho (by
      intro c hc
      obtain ⟨_, _, _, _, _, _, _, _, _, _, _, _, h11, _⟩ := (ho.good c (List.mem_of_mem_head? hc)).facts
      exact h11)
    have hp' : b.stateB.pause = some p := by rw [ha.1.2]; exact hp
    have h2 : b.t1 - b.t0 = p := by
      rcases hg with ⟨A', u, s0, s1, hm⟩ | ⟨A', q, hd⟩
      · have := hm.hpause
        rw [hp'] at this
        cases this
      · have := hd.hpause
        rw [hp'] at this
        cases this
        obtain ⟨t, ht⟩ := hd.hseg
        simp [Block.t0, Block.t1, ht]
    linarith
  | @filament x behind ts t T hp h0 hne hd _ ih =>
    intro bs h hv
    obtain ⟨b, tl, rfl, hg, ha, ho, hl, hn⟩ := h.step
    rw [List.map_cons, List.sum_cons]
    have h1 := ih ho (by
      intro c hc
      obtain ⟨_, _, _, _, _, _, _, _, _, _, _, _, h11, _⟩ := (ho.good c (List.mem_of_mem_head? hc)).facts
      exact h11)
    have h2 : b.t1 - b.t0 ≤ t := by
      obtain ⟨⟨a1, a2⟩, _⟩ := ha
      simp only at a1 a2
      rcases hg with ⟨A', u, s0, s1, hm⟩ | ⟨A', q, hd'⟩
      · have hA := hm.hA
        rw [a1] at hA
        cases hA
        have hma := hm.ha
        have hms := hm.hs
        obtain ⟨g1, g2, g3, g4, _⟩ := hm.toHdr.unit
        obtain ⟨ta, tc, td, vp, ph, _⟩ := profile_phases g1 hm.hramp hm.hprof g3
        obtain ⟨f1, f2, f3, f4, _⟩ := hm.facts
        rw [moveDistance_length, a2] at ph
        rw [a2] at hma hms
        unfold moveLength at ph
        rw [if_pos h0] at ph
        exact ph.fastest hma hms f1 f1 f3 hd
      · have := hd'.hpause
        rw [a2] at this
        exact absurd this (by simp [hp])
    linarith
  | @travel x behind ts v v' t T hp hne hd hlim hrest ih =>
    intro bs h hv
    obtain ⟨b, tl, rfl, hg, ha, ho, hl, hn⟩ := h.step
    obtain ⟨hB', u, s0, s1, hm, hu1, hin, hout, hj, hdist⟩ := travel_does hg ha hp hne
    have hp' : b.stateB.pause = none := by rw [hB']; exact hp
    have hacc : x.B.pAcc = b.stateB.pAcc := by rw [hB']
    have hsp : x.B.speed = b.stateB.speed := by rw [hB']
    rw [← hdist, hacc, hsp] at hd
    obtain ⟨f0, f1, f2, _, f3, f4⟩ := hd.facts hm.ha
    obtain ⟨k1, k2, k3, k4, k5, k6⟩ := hm.facts
    obtain ⟨hu, hd0, hB, _⟩ := hm.toHdr.unit
    have hv0 : v ≤ s0 := by
      rw [← hin]
      exact hv b rfl
    have hentry : ∀ c ∈ tl.head?, c.EntryR → v' ≤ c.nIn := fun c hc hE => entry_bound_tasks hrest ho c hc hE
    have hv' : v' ≤ s1 := by
      have hexit : b.ExitR → v' ≤ s1 := by
        rintro (⟨A', p, hd'⟩ | ⟨A', u', q0, q1, hm', hc'⟩)
        · rw [hd'.hpause] at hp'
          cases hp'
        · obtain ⟨rfl, rfl, rfl, rfl⟩ := hm.unique hm'
          rcases hc' with hc' | hc'
          · rw [hj] at hc'
            injection hc' with hc'
            rw [← mul_inj hu hc']
            exact hlim
          · refine (sq_le_sq₀ f2 k3).1 ?_
            have := (sq_le_sq₀ f0 k1).2 hv0
            linarith
      cases htl : tl with
      | nil => exact hexit (hn htl)
      | cons c tl' =>
        have hc : c ∈ tl.head? := by rw [htl]; rfl
        obtain ⟨l1, l2⟩ := hl c hc
        rcases l2.2 with l | l
        · exact hexit l
        · rw [← hout]
          exact le_trans (hentry c hc l) l1.2.1
    have h1 := ih ho (by
      intro c hc
      obtain ⟨l1, l2⟩ := hl c hc
      rcases l2.1 with l | l
      · rw [l, hout]
        exact hv'
      · exact hentry c hc l)
    obtain ⟨ta, tc, td, vp, ph, _⟩ := profile_phases hu hm.hramp hm.hprof hB
    have h2 := ph.fastest hm.ha hm.hs k1 hv0 hv' hd
    rw [List.map_cons, List.sum_cons]
    linarith

/-- **C118, the fastest motion.** Whatever motion does the steps of a program from rest, within the same feedrates,
accelerations and junction speeds, takes at least as long as the plan. Feedrates of the program may be zero, and a line may
both move and pause. -/
theorem c118_fastest (hsens : Sensible states) (h : plan fw states = .ok bs) {T t : ℝ}
    (hS : Timetable (junctionVel fw) 0 (tasks none none states) T) (ht : EndTime (Spec.path bs) t) : t ≤ T := by
  obtain ⟨bs', h1, h2, h3, h4, h5, _⟩ := plan_anchored_opt hsens h
  have hb := total_bound_tasks hS ⟨h3, h2.good, h2.chain, h4, h5⟩ (fun b hb => by rw [(h2.first b hb).2.1])
  rw [path_anch h1] at ht
  rwa [h2.endTime_sum ht] at hb

theorem forall₂_three {α β γ : Type} {P : α → β → Prop} {Q : β → γ → Prop} {R : α → γ → Prop} :
    ∀ {l : List α} {m : List β} {r : List γ}, List.Forall₂ P l m → List.Forall₂ Q m r →
      (∀ a b c, b ∈ m → P a b → Q b c → R a c) → List.Forall₂ R l r
  | _, _, _, .nil, .nil, _ => .nil
  | _, _, _, .cons p ps, .cons q qs, h => .cons (h _ _ _ List.mem_cons_self p q)
      (forall₂_three ps qs fun a b c hb => h a b c (List.mem_cons_of_mem _ hb))

/-- What is known about the block of a move: it goes straight from where the machine is, accelerates fully, cruises at the
feedrate, brakes fully, ends no faster than its junction allows, is itself a drive within the limits, takes as long as the
closed formula says, and reaches its feedrate if it is long enough. -/
structure BestMove (fw : Firmware) (b : Block ℝ) (x : Step) (behind : List (PState ℝ)) : Prop where
  best : ∃ u s s' v v', b.segments.head? = some s ∧ b.segments.getLast? = some s' ∧
    UnitDir u (decide ((x.dst.sub x.src).norm3 = 0)) ∧ x.dst = x.src.add (u.mul (moveLength x.src x.dst)) ∧
    Profile u x.B.pAcc x.B.speed b.segments ∧ s.velBegin = u.mul v ∧ s'.velEnd = u.mul v' ∧ 0 ≤ v ∧ 0 ≤ v' ∧
    v' ≤ junctionVel fw (some x.A) x.B behind ∧
    Drive x.B.pAcc x.B.speed (moveLength x.src x.dst) v v' (s'.tEnd - s.tBegin) ∧
    s'.tEnd - s.tBegin = moveTime x.B.pAcc x.B.speed (moveLength x.src x.dst) v v' ∧
    (x.B.speed ^ 2 < x.B.pAcc * moveLength x.src x.dst →
      ∃ s ∈ b.segments, s.velBegin = u.mul x.B.speed ∧ s.velEnd = u.mul x.B.speed)

theorem MoveB.reaches {b : Block ℝ} {A : PState ℝ} {u : Vec4 ℝ} {s0 s1 : ℝ} (hm : MoveB b A u s0 s1)
    (hlong : b.stateB.speed ^ 2 < b.stateB.pAcc * moveLength A.position b.stateB.position) :
    ∃ s ∈ b.segments, s.velBegin = u.mul b.stateB.speed ∧ s.velEnd = u.mul b.stateB.speed := by
  obtain ⟨h1, h2, h3, h4, _⟩ := hm.toHdr.unit
  obtain ⟨ta, tc, td, vp, ph, hcr, hle⟩ := profile_phases h1 hm.hramp hm.hprof h3
  rw [moveDistance_length] at ph h2 h3
  refine hcr ?_
  by_contra hc
  have htc : tc = 0 := le_antisymm (not_lt.1 hc) ph.htc
  have hvp : vp ≤ b.stateB.speed ∧ 0 ≤ vp := by
    refine ⟨hle hm.facts.2.1, ?_⟩
    have := mul_nonneg hm.ha.le ph.hta
    rw [ph.hup]
    linarith [hm.facts.1]
  obtain ⟨f1, f2, f3, f4, _⟩ := hm.facts
  have e : 2 * (b.stateB.pAcc * moveLength A.position b.stateB.position) =
      (vp ^ 2 - s0 ^ 2) + (vp ^ 2 - s1 ^ 2) := by
    have h5 : b.stateB.pAcc * ta = vp - s0 := by linarith [ph.hup]
    have h6 : b.stateB.pAcc * td = vp - s1 := by linarith [ph.hdown]
    rw [ph.hd, htc]
    have : 2 * (b.stateB.pAcc * (s0 * ta + b.stateB.pAcc * ta ^ 2 / 2 + vp * 0 +
        (s1 * td + b.stateB.pAcc * td ^ 2 / 2))) = 2 * s0 * (b.stateB.pAcc * ta) +
        (b.stateB.pAcc * ta) ^ 2 + 2 * s1 * (b.stateB.pAcc * td) + (b.stateB.pAcc * td) ^ 2 := by ring
    rw [this, h5, h6]
    ring
  have := pow_le_pow_left₀ hvp.2 hvp.1 2
  nlinarith [sq_nonneg s0, sq_nonneg s1]

/-- The drive of the block of a move, with the speeds at its ends. -/
theorem MoveB.drive {b : Block ℝ} {A : PState ℝ} {u : Vec4 ℝ} {s0 s1 : ℝ} (hm : MoveB b A u s0 s1) :
    Drive b.stateB.pAcc b.stateB.speed (moveLength A.position b.stateB.position) s0 s1 (b.t1 - b.t0) := by
  obtain ⟨f1, f2, _⟩ := hm.facts
  obtain ⟨d, d1, d2⟩ := hm.hramp.drive hm.ha.le ⟨f1, f2⟩
  obtain ⟨h1, h2, h3, h4, _⟩ := hm.toHdr.unit
  have hd : d = (moveDistance A b.stateB).1 := unit_cancel h1 (p := A.position) (by rw [← d2, ← h3])
  rw [← moveDistance_length, ← hd]
  exact d1

theorem MoveB.unitDir {b : Block ℝ} {A : PState ℝ} {u : Vec4 ℝ} {s0 s1 : ℝ} (hm : MoveB b A u s0 s1) :
    UnitDir u (decide ((b.stateB.position.sub A.position).norm3 = 0)) ∧
      b.stateB.position = A.position.add (u.mul (moveLength A.position b.stateB.position)) := by
  obtain ⟨h1, h2, h3, h4, _⟩ := hm.toHdr.unit
  have hdec : decide ((b.stateB.position.sub A.position).norm3 = 0) = (moveDistance A b.stateB).2 := by
    by_cases hc : (b.stateB.position.sub A.position).norm3 = 0
    · rw [decide_eq_true hc, h4.2 hc]
    · rw [decide_eq_false hc]
      cases hx : (moveDistance A b.stateB).2
      · rfl
      · exact absurd (h4.1 hx) hc
  rw [hdec]
  exact ⟨h1, by rw [← moveDistance_length]; exact h3⟩

theorem bestMove {b : Block ℝ} {x : Step} {behind : List (PState ℝ)} (hg : Good b) (ha : Does fw b (x, behind))
    (hp : x.B.pause = none) : BestMove fw b x behind := by
  obtain ⟨⟨a1, a2⟩, a3, _⟩ := ha
  simp only at a1 a2 a3
  rcases hg with ⟨A', u, s0, s1, hm⟩ | ⟨A', p, hd⟩
  · have hA := hm.hA
    rw [a1] at hA
    cases hA
    obtain ⟨s, s', e1, e2, e3, _, e5, e6, _, e8, _⟩ := hm.ends
    obtain ⟨u', d1, d2⟩ := a3 hp
    rw [hm.hdir] at d1
    cases d1
    obtain ⟨j, j1, j2⟩ := hm.hjd
    rw [d2] at j1
    injection j1 with j1
    have hj := mul_inj hm.toHdr.unit.1 j1
    have q1 := hm.unitDir
    have q2 := hm.hprof
    have q3 := hm.drive
    have q4 := hm.time
    have q5 := hm.reaches
    rw [a2] at q1 q2 q3 q4 q5
    refine ⟨u, s, s', s0, s1, e1, e2, q1.1, q1.2, q2, e5, e8, hm.facts.1, hm.facts.2.2.1, ?_, ?_, ?_, q5⟩
    · rw [hj]
      exact j2
    · rw [e6, e3]
      exact q3
    · rw [e6, e3]
      exact q4
  · have := hd.hpause
    rw [a2] at this
    exact absurd this (by simp [hp])

/-- **C118, every move.** The blocks are the steps of the program, in order, and each move is as fast as its limits allow. -/
theorem c118_moves (hsens : Sensible states) (h : plan fw states = .ok bs) :
    List.Forall₂ (fun b x => b.stateA = some x.1.A ∧ b.stateB = x.1.B ∧ (x.1.B.pause = none → BestMove fw b x.1 x.2)) bs
      (tasks none none states) := by
  obtain ⟨bs', h1, h2, h3, _⟩ := plan_anchored_opt hsens h
  have hc := c87_carried_out hsens h
  rw [← tasks_fst, List.forall₂_map_right_iff] at hc
  have hb := forall₂_three h1 h3 (R := fun b x => x.1.B.pause = none → BestMove fw b x.1 x.2) (by
    intro b b' x hb' hanch hdo hp
    obtain ⟨hbest⟩ := bestMove (h2.good b' hb') hdo hp
    rw [← hanch.segs] at hbest
    exact ⟨hbest⟩)
  clear h1 h2 h3
  generalize tasks none none states = ts at hc hb
  clear h
  induction hb with
  | nil => exact .nil
  | cons q _ ih =>
    cases hc with
    | cons r1 r2 => exact .cons ⟨r1.stateA, r1.stateB, q⟩ (ih r2)

/-- **C118, unknown firmware.** With default junction handling every block begins and ends at rest, also of the filament. -/
theorem c118_stops (hsens : Sensible states) (h : plan .default states = .ok bs) {b : Block ℝ} (hb : b ∈ bs) :
    (∀ s ∈ b.segments.head?, s.velBegin = Vec4.zero) ∧ ∀ s ∈ b.segments.getLast?, s.velEnd = Vec4.zero := by
  obtain ⟨bs', h1, h2, h3, h4, h5, h6, _⟩ := plan_anchored_opt hsens h
  obtain ⟨b', hb', ha⟩ := forall₂_left h1 b hb
  rw [ha.segs]
  rcases h6 (fun _ _ _ => rfl) b' hb' with ⟨A, u, hm⟩ | ⟨A, p, hd⟩
  · obtain ⟨s, s', e1, e2, _, _, e5, _, _, e8, _⟩ := hm.ends
    rw [e1, e2]
    constructor
    · intro x hx
      cases hx
      rw [e5]
      exact Vec4.mul_zero u
    · intro x hx
      cases hx
      rw [e8]
      exact Vec4.mul_zero u
  · obtain ⟨t, ht⟩ := hd.hseg
    rw [ht]
    constructor <;>
    · intro x hx
      cases hx
      rfl

/-- Blocks that begin and end at rest are a timetable. -/
theorem timetable_of_rest {limit : Option (PState ℝ) → PState ℝ → List (PState ℝ) → ℝ} :
    ∀ {ts : List (Step × List (PState ℝ))} {bs : List (Block ℝ)},
      (∀ x ∈ ts, 0 ≤ limit (some x.1.A) x.1.B x.2) → List.Forall₂ (Does .default) bs ts → (∀ b ∈ bs, b.AtRest) →
      Timetable limit 0 ts (bs.map fun b => b.t1 - b.t0).sum := by
  intro ts bs hlim hF hr
  induction hF with
  | nil => exact .done 0
  | @cons b x bs ts ha _ ih =>
    have hrest := ih (fun y hy => hlim y (by simp [hy])) (fun c hc => hr c (by simp [hc]))
    rw [List.map_cons, List.sum_cons]
    obtain ⟨⟨a1, a2⟩, a3, _⟩ := ha
    obtain ⟨x, behind⟩ := x
    simp only at a1 a2 a3
    rcases hr b (by simp) with ⟨A, u, hm⟩ | ⟨A, p, hd⟩
    · have hA := hm.hA
      rw [a1] at hA
      cases hA
      have d1 := hm.drive
      have hp := hm.hpause
      have hne := hm.hne
      rw [a2] at d1 hp hne
      by_cases hz : (x.dst.sub x.src).norm3 = 0
      · rw [moveLength, if_pos hz] at d1
        refine .filament hp hz ?_ d1 hrest
        intro he
        apply hne
        obtain ⟨zx, zy, zz⟩ := norm3_eq_zero.1 hz
        ext
        · exact sub_eq_zero.1 zx
        · exact sub_eq_zero.1 zy
        · exact sub_eq_zero.1 zz
        · exact he
      · rw [moveLength, if_neg hz] at d1
        exact .travel hp hz d1 (hlim (x, behind) (by simp)) hrest
    · obtain ⟨t, ht⟩ := hd.hseg
      have hp := hd.hpause
      rw [a2] at hp
      have e : b.t1 - b.t0 = p := by simp [Block.t0, Block.t1, ht]
      rw [e]
      exact .pause hp le_rfl hrest

theorem tasks_mem {x : Step × List (PState ℝ)} (hx : x ∈ tasks none none states) : x.1.B ∈ states := by
  obtain ⟨pre, h⟩ := tasks_behind states none none x hx
  have : x.1.B ∈ pre ++ x.1.A :: x.1.B :: x.2 := by simp
  rw [← h] at this
  simpa using this

/-- **C118, unknown firmware.** No firmware is slower than the default junction handling. -/
theorem c118_slowest (hsens : Sensible states) {bs₀ : List (Block ℝ)} (h0 : plan .default states = .ok bs₀)
    (h : plan fw states = .ok bs) {t t₀ : ℝ} (ht0 : EndTime (Spec.path bs₀) t₀)
    (ht : EndTime (Spec.path bs) t) : t ≤ t₀ := by
  refine c118_fastest hsens h ?_ ht
  obtain ⟨bs', h1, h2, h3, h4, h5, h6, _⟩ := plan_anchored_opt hsens h0
  rw [path_anch h1] at ht0
  rw [← h2.endTime_sum ht0]
  refine timetable_of_rest ?_ h3 (h6 fun _ _ _ => rfl)
  intro x hx
  have hB := tasks_mem hx
  exact (c17_junction_speed fw (some x.1.A) x.1.B x.2 (hsens.speed _ hB) (hsens.jerk _ hB)).1

/-! ## An example -/

namespace Demo

theorem lossy_tasks : tasks none none lossy =
    [(⟨s0, s1, ⟨0, 0, 0, 0⟩, ⟨10, 0, 0, 1⟩⟩, [zeroFeed, afterZero, moveAndPause]),
      (⟨zeroFeed, afterZero, ⟨10, 0, 0, 1⟩, ⟨20, 0, 0, 1⟩⟩, [moveAndPause]),
      (⟨afterZero, moveAndPause, ⟨20, 0, 0, 1⟩, ⟨20, 0, 0, 1⟩⟩, [])] := by
  unfold lossy
  rw [tasks_none, tasks_run (src := ⟨0, 0, 0, 0⟩) (dst := ⟨10, 0, 0, 1⟩) runs_s1 rfl
    (by ext <;> simp [s0, s1, Vec4.add, Vec4.sub]), tasks_skip rfl (by simpa using stands_zero),
    tasks_run (src := ⟨10, 0, 0, 1⟩) (dst := ⟨20, 0, 0, 1⟩) runs_after rfl
    (by ext <;> norm_num [zeroFeed, afterZero, Vec4.add, Vec4.sub]), tasks_pause (by simp [moveAndPause])]
  rw [tasks]

/-- The example can be done in fourteen seconds, within the limits of every firmware. -/
theorem lossy_timetable (fw : Firmware) : Timetable (junctionVel fw) 0 (tasks none none lossy) 14 := by
  have hs : √(100 : ℝ) = 10 := by rw [show (100 : ℝ) = 10 ^ 2 by norm_num]; exact Real.sqrt_sq (by norm_num)
  have n1 : ((⟨10, 0, 0, 1⟩ : Vec4 ℝ).sub ⟨0, 0, 0, 0⟩).norm3 = 10 := by
    norm_num [Vec4.sub, Vec4.norm3, PyMath.sqrt, hs]
  have n2 : ((⟨20, 0, 0, 1⟩ : Vec4 ℝ).sub ⟨10, 0, 0, 1⟩).norm3 = 10 := by
    norm_num [Vec4.sub, Vec4.norm3, PyMath.sqrt, hs]
  have hj : ∀ (A : Option (PState ℝ)) B rest, B ∈ lossy → 0 ≤ junctionVel fw A B rest := fun A B rest hB =>
    (c17_junction_speed fw A B rest (lossy_sensible.speed B hB) (lossy_sensible.jerk B hB)).1
  have h := Timetable.pause (limit := junctionVel fw) (x := ⟨afterZero, moveAndPause, ⟨20, 0, 0, 1⟩, ⟨20, 0, 0, 1⟩⟩)
    (behind := []) (p := 2) (t := 2) rfl le_rfl (.done 0)
  have h := Timetable.travel (x := ⟨zeroFeed, afterZero, ⟨10, 0, 0, 1⟩, ⟨20, 0, 0, 1⟩⟩) (behind := [moveAndPause]) (v := 0)
    (t := 6) rfl (by rw [n2]; norm_num) (slow (norm3_nonneg _) n2.le) (hj _ _ _ (by simp [lossy])) h
  have h := Timetable.travel (x := ⟨s0, s1, ⟨0, 0, 0, 0⟩, ⟨10, 0, 0, 1⟩⟩) (behind := [zeroFeed, afterZero, moveAndPause])
    (v := 0) (t := 6) rfl (by rw [n1]; norm_num) (slow (norm3_nonneg _) n1.le) (hj _ _ _ (by simp [lossy])) h
  rw [lossy_tasks]
  have e : (6 + (6 + (2 + 0)) : ℝ) = 14 := by norm_num
  rw [e] at h
  exact h

end Demo

/-- Every firmware plans the example, in at most the fourteen seconds of the timetable. -/
example (fw : Firmware) : ∃ bs, plan fw Demo.lossy = .ok bs ∧ bs.length = 3 ∧ ∀ t, EndTime (Spec.path bs) t → t ≤ 14 := by
  obtain ⟨bs, h⟩ := (c86_plannable fw Demo.lossy_sensible).2 Demo.lossy_follow
  refine ⟨bs, h, ?_, fun t ht => c118_fastest Demo.lossy_sensible h (Demo.lossy_timetable fw) ht⟩
  rw [(c118_moves Demo.lossy_sensible h).length_eq, Demo.lossy_tasks]
  rfl

end PyGCD
