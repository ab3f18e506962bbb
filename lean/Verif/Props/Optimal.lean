import Verif.Proofs.OptimalLemmas
import Verif.Props.Plan
import Verif.Props.Junctions
import Verif.Spec.Timeline

/-!
# Properties C53 to C55: the planned motion is as fast as the limits allow
-/

set_option linter.unusedSectionVars false
set_option linter.unusedSimpArgs false

namespace PyGCD
open Vec4 Spec Set

variable {fw : Firmware} {states : List (PState ℝ)} {bs : List (Block ℝ)}

/-! ## C53 -/

/-- **C53.** A planned move accelerates fully, cruises at its feedrate, brakes fully: no phase is slower than
the limits ask for, and only cruising at the feedrate has no acceleration. -/
theorem c53_profile (hreg : Regular states) (h : plan fw states = .ok bs) {b : Block ℝ} (hb : b ∈ bs)
    (hp : b.stateB.pause = none) :
    ∃ A u, b.stateA = some A ∧
      UnitDir u (decide ((b.stateB.position.sub A.position).norm3 = 0)) ∧
      b.stateB.position = A.position.add (u.mul (moveLength A.position b.stateB.position)) ∧
      Profile u b.stateB.pAcc b.stateB.speed b.segments := by
  rcases (plan_ok hreg h).1 b hb with ⟨A, u, s0, s1, hm⟩ | ⟨A, p, hd⟩
  · obtain ⟨h1, h2, h3, h4, _⟩ := hm.toHdr.unit
    refine ⟨A, u, hm.hA, ?_, by rw [← moveDistance_length]; exact h3, hm.hprof⟩
    have : decide ((b.stateB.position.sub A.position).norm3 = 0) = (moveDistance A b.stateB).2 := by
      by_cases hc : (b.stateB.position.sub A.position).norm3 = 0
      · rw [decide_eq_true hc, h4.2 hc]
      · rw [decide_eq_false hc]
        cases hx : (moveDistance A b.stateB).2
        · rfl
        · exact absurd (h4.1 hx) hc
    rw [this]
    exact h1
  · rw [hd.hpause] at hp
    cases hp

/-- **C53.** A move that is long enough reaches its feedrate and cruises there. -/
theorem c53_reaches_feedrate (hreg : Regular states) (h : plan fw states = .ok bs) {b : Block ℝ}
    (hb : b ∈ bs) (hp : b.stateB.pause = none) {A : PState ℝ} (hA : b.stateA = some A)
    (hlong : b.stateB.speed ^ 2 < b.stateB.pAcc * moveLength A.position b.stateB.position) :
    ∃ u, UnitDir u (decide ((b.stateB.position.sub A.position).norm3 = 0)) ∧
      b.stateB.position = A.position.add (u.mul (moveLength A.position b.stateB.position)) ∧
      ∃ s ∈ b.segments, s.velBegin = u.mul b.stateB.speed ∧ s.velEnd = u.mul b.stateB.speed := by
  rcases (plan_ok hreg h).1 b hb with ⟨A', u, s0, s1, hm⟩ | ⟨A', p, hd⟩
  · have hAA := hm.hA
    rw [hA] at hAA
    cases hAA
    obtain ⟨A₁, u', g1, g2, g3, g4⟩ := c53_profile hreg h hb hp
    rw [hA] at g1
    cases g1
    obtain ⟨h1, h2, h3, h4, _⟩ := hm.toHdr.unit
    obtain ⟨ta, tc, td, vp, ph, hcr, hle⟩ := profile_phases h1 hm.hramp hm.hprof h3
    rw [moveDistance_length] at ph h2 h3
    have huu : u' = u := by
      have g4 := h3.symm.trans g3
      clear g3 h3
      generalize moveLength A.position b.stateB.position = d at g4 h2
      have hx := congrArg Vec4.x g4
      have hy := congrArg Vec4.y g4
      have hz := congrArg Vec4.z g4
      have he := congrArg Vec4.e g4
      simp only [Vec4.add, Vec4.mul, add_right_inj, mul_eq_mul_right_iff, h2.ne', or_false] at hx hy hz he
      ext
      · exact hx.symm
      · exact hy.symm
      · exact hz.symm
      · exact he.symm
    subst huu
    refine ⟨u', g2, g3, hcr ?_⟩
    by_contra hc
    have htc : tc = 0 := le_antisymm (not_lt.1 hc) ph.htc
    have hvp : vp ≤ b.stateB.speed ∧ 0 ≤ vp := by
      refine ⟨hle hm.facts.2.1, ?_⟩
      have := mul_nonneg hm.ha.le ph.hta
      rw [ph.hup]
      linarith [hm.facts.1]
    obtain ⟨f1, f2, f3, f4, _⟩ := hm.facts
    have e : 2 * (b.stateB.pAcc * moveLength A.position b.stateB.position) =
        (vp ^ 2 - s0 ^ 2) + (vp ^ 2 - s1 ^ 2) := by
      have h5 : b.stateB.pAcc * ta = vp - s0 := by linarith [ph.hup]
      have h6 : b.stateB.pAcc * td = vp - s1 := by linarith [ph.hdown]
      rw [ph.hd, htc]
      have : 2 * (b.stateB.pAcc * (s0 * ta + b.stateB.pAcc * ta ^ 2 / 2 + vp * 0 +
          (s1 * td + b.stateB.pAcc * td ^ 2 / 2))) = 2 * s0 * (b.stateB.pAcc * ta) +
          (b.stateB.pAcc * ta) ^ 2 + 2 * s1 * (b.stateB.pAcc * td) + (b.stateB.pAcc * td) ^ 2 := by ring
      rw [this, h5, h6]
      ring
    have := pow_le_pow_left₀ hvp.2 hvp.1 2
    nlinarith [sq_nonneg s0, sq_nonneg s1]
  · rw [hd.hpause] at hp
    cases hp

/-- In the example program the first move, of ten millimetres, is long enough for its feedrate. -/
example : ∃ bs, plan .marlinJd Demo.prog = .ok bs ∧ ∃ b ∈ bs, b.stateB.pause = none ∧
    b.stateA = some Demo.s0 ∧
    b.stateB.speed ^ 2 < b.stateB.pAcc * moveLength Demo.s0.position b.stateB.position := by
  obtain ⟨_, bs, _, _, h, _⟩ := c26_correction_total .marlinJd Demo.regular
  obtain ⟨_, _, _, hm, _⟩ := plan_ok Demo.regular h
  rw [Demo.active_prog] at hm
  rcases bs with _ | ⟨b, tl⟩
  · cases hm
  simp only [List.map_cons, List.cons.injEq, Prod.mk.injEq] at hm
  have n1 : (Demo.s1.position.sub Demo.s0.position).norm3 = 10 := by
    simp only [Demo.s1, Demo.s0, Vec4.sub, Vec4.norm3]
    rw [show ((10 : ℝ) - 0) * (10 - 0) + (0 - 0) * (0 - 0) + (0 - 0) * (0 - 0) = 10 ^ 2 by norm_num]
    exact Real.sqrt_sq (by norm_num)
  refine ⟨_, h, b, by simp, by rw [hm.1.2]; rfl, hm.1.1, ?_⟩
  rw [hm.1.2]
  unfold moveLength
  rw [if_neg (by rw [n1]; norm_num), n1]
  norm_num [Demo.s1]

/-! ## C54 -/

/-- **C54.** No move ends faster than its junction allows: the blocks are the actions of the program in
order, and the travel speed at the end of a moving block is at most the junction speed. -/
theorem c54_junction_limit (hreg : Regular states) (h : plan fw states = .ok bs) :
    List.Forall₂ (fun b (x : Option (PState ℝ) × PState ℝ × List (PState ℝ)) =>
      b.stateA = x.1 ∧ b.stateB = x.2.1 ∧ (x.2.1.pause = none →
        ∀ s ∈ b.segments.getLast?, s.velEnd.norm3 ≤ junctionVel fw x.1 x.2.1 x.2.2))
      bs (actions none states) := by
  obtain ⟨hF, _, _⟩ := plan_opt hreg h
  have hg := (plan_ok hreg h).1
  have : ∀ {l : List (Block ℝ)} {xs}, (∀ b ∈ l, Good b) → List.Forall₂ (Acts fw) l xs →
      List.Forall₂ (fun b (x : Option (PState ℝ) × PState ℝ × List (PState ℝ)) =>
      b.stateA = x.1 ∧ b.stateB = x.2.1 ∧ (x.2.1.pause = none →
        ∀ s ∈ b.segments.getLast?, s.velEnd.norm3 ≤ junctionVel fw x.1 x.2.1 x.2.2)) l xs := by
    intro l xs hl hf
    induction hf with
    | nil => exact .nil
    | @cons b x l xs h1 h2 ih =>
      refine .cons ⟨h1.1, h1.2.1, ?_⟩ (ih fun b hb => hl b (by simp [hb]))
      intro hp s hs
      rcases hl b (by simp) with ⟨A, u, s0, s1, hm⟩ | ⟨A, p, hd⟩
      · obtain ⟨u', d1, d2⟩ := h1.2.2 hp
        rw [hm.hdir] at d1
        cases d1
        obtain ⟨j, j1, j2⟩ := hm.hjd
        rw [d2] at j1
        injection j1 with j1
        obtain ⟨hu, _⟩ := hm.toHdr.unit
        have hj := mul_inj hu j1
        obtain ⟨_, s', _, e2, _, _, _, _, _, e8, _⟩ := hm.ends
        rw [e2] at hs
        cases hs
        rw [e8, norm3_mul, abs_of_nonneg hm.facts.2.2.1, hj]
        rcases UnitDir.norm3_le hu with h0 | h0
        · rw [h0, MulZeroClass.zero_mul]
          exact le_trans hm.facts.2.2.1 j2
        · rw [h0, one_mul]
          exact j2
      · rw [← h1.2.1, hd.hpause] at hp
        cases hp
  exact this hg hF

/-! ## C55 -/

/-- The part of a plan that belongs to the rest of a program. -/
structure Opt (fw : Firmware) (pa : Option (PState ℝ)) (states : List (PState ℝ))
    (bs : List (Block ℝ)) : Prop where
  acts : List.Forall₂ (Acts fw) bs (actions pa states)
  good : ∀ b ∈ bs, Good b
  link : bs.IsChain LinkT
  linkO : bs.IsChain LinkO
  last : ∀ l ∈ bs.getLast?, l.ExitR

theorem Opt.idle {pa : Option (PState ℝ)} {B : PState ℝ} {rest : List (PState ℝ)}
    (h : Opt fw pa (B :: rest) bs) (hp : B.pause = none) (hpos : ∀ A ∈ pa, B.position = A.position) :
    Opt fw (some B) rest bs :=
  ⟨by rw [← actions_cons_skip rest hpos hp]; exact h.acts, h.good, h.link, h.linkO, h.last⟩

theorem Opt.step {pa : Option (PState ℝ)} {B : PState ℝ} {rest : List (PState ℝ)}
    (h : Opt fw pa (B :: rest) bs)
    (hact : B.pause ≠ none ∨ ∃ A, pa = some A ∧ B.position ≠ A.position) :
    ∃ b tl, bs = b :: tl ∧ Good b ∧ Acts fw b (pa, B, rest) ∧ Opt fw (some B) rest tl ∧
      (∀ c ∈ tl.head?, LinkT b c ∧ LinkO b c) ∧ (tl = [] → b.ExitR) := by
  have ha := h.acts
  rw [actions_cons_take rest hact] at ha
  cases ha with
  | @cons b _ tl _ h1 h2 =>
    refine ⟨b, tl, rfl, h.good b (by simp), h1, ⟨h2, fun c hc => h.good c (by simp [hc]), ?_, ?_, ?_⟩, ?_, ?_⟩
    · exact h.link.tail
    · exact h.linkO.tail
    · intro l hl
      cases tl with
      | nil => cases hl
      | cons c tl => exact h.last l (by rw [List.getLast?_cons_cons]; exact hl)
    · intro c hc
      cases tl with
      | nil => cases hc
      | cons c' tl =>
        cases hc
        exact ⟨(List.isChain_cons_cons.1 h.link).1, (List.isChain_cons_cons.1 h.linkO).1⟩
    · rintro rfl
      exact h.last b rfl

theorem travel_block {b : Block ℝ} {A B : PState ℝ} {rest : List (PState ℝ)} (hg : Good b)
    (ha : Acts fw b (some A, B, rest)) (hp : B.pause = none)
    (hne : (B.position.sub A.position).norm3 ≠ 0) :
    b.stateB = B ∧ ∃ u s0 s1, MoveB b A u s0 s1 ∧ u.norm3 = 1 ∧ b.nIn = s0 ∧ b.nOut = s1 ∧
      b.jd = some (u.mul (junctionVel fw (some A) B rest)) ∧
      (moveDistance A b.stateB).1 = (B.position.sub A.position).norm3 := by
  obtain ⟨a1, a2, a3⟩ := ha
  simp only at a1 a2 a3
  rcases hg with ⟨A', u, s0, s1, hm⟩ | ⟨A', p, hd⟩
  · have hA := hm.hA
    rw [a1] at hA
    cases hA
    obtain ⟨h1, h2, h3, h4, _⟩ := hm.toHdr.unit
    have hf : (moveDistance A b.stateB).2 = false := by
      cases hx : (moveDistance A b.stateB).2
      · rfl
      · exact absurd (by rw [← a2]; exact h4.1 hx) hne
    have hu1 : u.norm3 = 1 := by
      have := h1.norms.1
      rw [hf] at this
      simpa using this
    obtain ⟨_, _, _, _, _, _, _, _, _, _, g9, g10⟩ := hm.ends
    rw [hu1, one_mul] at g9 g10
    obtain ⟨u', d1, d2⟩ := a3 hp
    rw [hm.hdir] at d1
    cases d1
    refine ⟨a2, u, s0, s1, hm, hu1, g9, g10, d2, ?_⟩
    rw [moveDistance_length, a2]
    unfold moveLength
    rw [if_neg hne]
  · exact absurd hd.hpause (by simp [a2, hp])

theorem entry_bound {pa : Option (PState ℝ)} {v T : ℝ} {states : List (PState ℝ)}
    (hS : Schedule (junctionVel fw) pa v states T) : ∀ {bs : List (Block ℝ)}, Opt fw pa states bs →
    ∀ b ∈ bs.head?, b.EntryR → v ≤ b.nIn := by
  induction hS with
  | done pa v =>
    intro bs h b hb _
    have := h.acts
    rw [actions] at this
    cases this
    cases hb
  | idle hp hpos _ ih =>
    intro bs h
    exact ih (h.idle hp hpos)
  | pause =>
    intro bs h b hb _
    obtain ⟨_, _, _, _, _, _, _, _, _, _, _, _, h11, _⟩ := (h.good b (List.mem_of_mem_head? hb)).facts
    exact h11
  | filament =>
    intro bs h b hb _
    obtain ⟨_, _, _, _, _, _, _, _, _, _, _, _, h11, _⟩ := (h.good b (List.mem_of_mem_head? hb)).facts
    exact h11
  | @travel A B v v' t T rest hp hne hd hlim _ ih =>
    intro bs h b hb hE
    obtain ⟨b', tl, rfl, hg, ha, ho, hl, hn⟩ := h.step (Or.inr ⟨A, rfl, by
      intro he
      apply hne
      rw [he, norm3_eq_zero]
      simp [Vec4.sub]⟩)
    cases hb
    obtain ⟨rfl, u, s0, s1, hm, hu1, hin, hout, hj, hdist⟩ := travel_block hg ha hp hne
    rw [← hdist] at hd
    obtain ⟨_, f1, f2, _, f3, f4⟩ := hd.facts hm.ha
    obtain ⟨k1, k2, k3, k4, k5, k6⟩ := hm.facts
    obtain ⟨hu, hd0, _⟩ := hm.toHdr.unit
    have had : 0 < b.stateB.pAcc * (moveDistance A b.stateB).1 := mul_pos hm.ha hd0
    rcases hE with ⟨A', p, hd'⟩ | ⟨A', u', q0, q1, hm', hc⟩
    · rw [hd'.hpause] at hp
      cases hp
    · obtain ⟨rfl, rfl, rfl, rfl⟩ := hm.unique hm'
      rcases hc with hc | hc | hc
      · rw [hu1] at hc
        norm_num at hc
      · rw [hin, hc]
        exact f1
      · have hv' : v' ≤ s1 := by
          have hexit : b.ExitR → v' ≤ s1 := by
            rintro (⟨A', p, hd'⟩ | ⟨A', u', q0, q1, hm', hc'⟩)
            · rw [hd'.hpause] at hp
              cases hp
            · obtain ⟨rfl, rfl, rfl, rfl⟩ := hm.unique hm'
              rcases hc' with hc' | hc'
              · rw [hj] at hc'
                injection hc' with hc'
                rw [← mul_inj hu hc']
                exact hlim
              · exfalso
                linarith
          cases tl with
          | nil => exact hexit (hn rfl)
          | cons c tl =>
            obtain ⟨l1, l2⟩ := hl c rfl
            rcases l2.2 with l | l
            · exact hexit l
            · rw [← hout]
              exact le_trans (ih ho c rfl l) l1.2.1
        rw [hin]
        refine (sq_le_sq₀ (by linarith) k1).1 ?_
        have := (sq_le_sq₀ f2 k3).2 hv'
        linarith

theorem total_bound {pa : Option (PState ℝ)} {v T : ℝ} {states : List (PState ℝ)}
    (hS : Schedule (junctionVel fw) pa v states T) : ∀ {bs : List (Block ℝ)}, Opt fw pa states bs →
    (∀ b ∈ bs.head?, v ≤ b.nIn) → (bs.map fun b => b.t1 - b.t0).sum ≤ T := by
  induction hS with
  | done pa v =>
    intro bs h _
    have := h.acts
    rw [actions] at this
    cases this
    simp
  | idle hp hpos _ ih =>
    intro bs h
    exact ih (h.idle hp hpos)
  | @pause pa p t T B rest hp ht _ ih =>
    intro bs h hv
    obtain ⟨b, tl, rfl, hg, ha, ho, hl, hn⟩ := h.step (Or.inl (by rw [hp]; simp))
    rw [List.map_cons, List.sum_cons]
    have h1 := ih ho (by
      intro c hc
      obtain ⟨_, _, _, _, _, _, _, _, _, _, _, _, h11, _⟩ := (ho.good c (List.mem_of_mem_head? hc)).facts
      exact h11)
    have h2 : b.t1 - b.t0 = p := by
      rcases hg with ⟨A', u, s0, s1, hm⟩ | ⟨A', q, hd⟩
      · have := hm.hpause
        rw [ha.2.1, hp] at this
        cases this
      · have := hd.hpause
        rw [ha.2.1, hp] at this
        cases this
        obtain ⟨t, ht⟩ := hd.hseg
        simp [Block.t0, Block.t1, ht]
    linarith
  | @filament A B t T rest hp h0 hne hd _ ih =>
    intro bs h hv
    have hpos : B.position ≠ A.position := fun h => hne (congrArg Vec4.e h)
    obtain ⟨b, tl, rfl, hg, ha, ho, hl, hn⟩ := h.step (Or.inr ⟨A, rfl, hpos⟩)
    rw [List.map_cons, List.sum_cons]
    have h1 := ih ho (by
      intro c hc
      obtain ⟨_, _, _, _, _, _, _, _, _, _, _, _, h11, _⟩ := (ho.good c (List.mem_of_mem_head? hc)).facts
      exact h11)
    have h2 : b.t1 - b.t0 ≤ t := by
      obtain ⟨a1, a2, _⟩ := ha
      simp only at a1 a2
      rcases hg with ⟨A', u, s0, s1, hm⟩ | ⟨A', q, hd'⟩
      · have hA := hm.hA
        rw [a1] at hA
        cases hA
        obtain ⟨g1, g2, g3, g4, _⟩ := hm.toHdr.unit
        obtain ⟨ta, tc, td, vp, ph, _⟩ := profile_phases g1 hm.hramp hm.hprof g3
        obtain ⟨f1, f2, f3, f4, _⟩ := hm.facts
        rw [moveDistance_length, a2] at ph
        unfold moveLength at ph
        rw [if_pos h0] at ph
        exact ph.fastest (by rw [← a2]; exact hm.ha) (by rw [← a2]; exact hm.hs) f1 f1 f3 hd
      · have := hd'.hpause
        rw [a2, hp] at this
        cases this
    linarith
  | @travel A B v v' t T rest hp hne hd hlim hrest ih =>
    intro bs h hv
    obtain ⟨b, tl, rfl, hg, ha, ho, hl, hn⟩ := h.step (Or.inr ⟨A, rfl, by
      intro he
      apply hne
      rw [he, norm3_eq_zero]
      simp [Vec4.sub]⟩)
    obtain ⟨rfl, u, s0, s1, hm, hu1, hin, hout, hj, hdist⟩ := travel_block hg ha hp hne
    rw [← hdist] at hd
    obtain ⟨f0, f1, f2, _, f3, f4⟩ := hd.facts hm.ha
    obtain ⟨k1, k2, k3, k4, k5, k6⟩ := hm.facts
    obtain ⟨hu, hd0, hB, _⟩ := hm.toHdr.unit
    have hv0 : v ≤ s0 := by
      rw [← hin]
      exact hv b rfl
    have hentry : ∀ c ∈ tl.head?, c.EntryR → v' ≤ c.nIn := fun c hc hE => entry_bound hrest ho c hc hE
    have hv' : v' ≤ s1 := by
      have hexit : b.ExitR → v' ≤ s1 := by
        rintro (⟨A', p, hd'⟩ | ⟨A', u', q0, q1, hm', hc'⟩)
        · rw [hd'.hpause] at hp
          cases hp
        · obtain ⟨rfl, rfl, rfl, rfl⟩ := hm.unique hm'
          rcases hc' with hc' | hc'
          · rw [hj] at hc'
            injection hc' with hc'
            rw [← mul_inj hu hc']
            exact hlim
          · refine (sq_le_sq₀ f2 k3).1 ?_
            have := (sq_le_sq₀ f0 k1).2 hv0
            linarith
      cases htl : tl with
      | nil => exact hexit (hn htl)
      | cons c tl' =>
        have hc : c ∈ tl.head? := by rw [htl]; rfl
        obtain ⟨l1, l2⟩ := hl c hc
        rcases l2.2 with l | l
        · exact hexit l
        · rw [← hout]
          exact le_trans (hentry c hc l) l1.2.1
    have h1 := ih ho (by
      intro c hc
      obtain ⟨l1, l2⟩ := hl c hc
      rcases l2.1 with l | l
      · rw [l, hout]
        exact hv'
      · exact hentry c hc l)
    obtain ⟨ta, tc, td, vp, ph, _⟩ := profile_phases hu hm.hramp hm.hprof hB
    have h2 := ph.fastest hm.ha hm.hs k1 hv0 hv' hd
    rw [List.map_cons, List.sum_cons]
    linarith

theorem sum_durations : ∀ {bs : List (Block ℝ)}, bs.IsChain LinkT → ∀ b ∈ bs.head?, ∀ l ∈ bs.getLast?,
    (bs.map fun b => b.t1 - b.t0).sum = l.t1 - b.t0 := by
  intro bs
  induction bs with
  | nil => intro _ b hb; cases hb
  | cons x tl ih =>
    intro hc b hb l hl
    cases hb
    cases tl with
    | nil =>
      cases hl
      simp
    | cons y tl =>
      obtain ⟨h1, h2⟩ := List.isChain_cons_cons.1 hc
      rw [List.map_cons, List.sum_cons, ih h2 y rfl l (by rw [List.getLast?_cons_cons] at hl; exact hl),
        h1.2.2.2]
      ring

namespace Demo

/-- A slow way to drive up to ten millimetres: smoothly, in six seconds. -/
theorem slow {d : ℝ} (h0 : 0 ≤ d) (h1 : d ≤ 10) : Drive 100 10 d 0 0 6 := by
  refine ⟨by norm_num, fun t => d / 36 * (3 * t ^ 2 - t ^ 3 / 3), fun t => d / 36 * (6 * t - t ^ 2), ?_, ?_, ?_,
    by norm_num, by ring, by norm_num, by norm_num⟩
  · intro t _
    have h2 : HasDerivAt (fun t : ℝ => d / 36 * (3 * t ^ 2 - t ^ 3 / 3)) (d / 36 * (6 * t - t ^ 2)) t := by
      have := (((hasDerivAt_pow 2 t).const_mul 3).sub ((hasDerivAt_pow 3 t).div_const 3)).const_mul (d / 36)
      refine this.congr_deriv ?_
      push_cast
      ring
    exact h2.hasDerivWithinAt
  · intro s hs t ht
    have e : d / 36 * (6 * t - t ^ 2) - d / 36 * (6 * s - s ^ 2) = d / 36 * (6 - t - s) * (t - s) := by ring
    rw [e, abs_mul]
    refine mul_le_mul_of_nonneg_right ?_ (abs_nonneg _)
    rw [abs_le]
    obtain ⟨s1, s2⟩ := hs
    obtain ⟨t1, t2⟩ := ht
    constructor <;> nlinarith
  · intro t ht
    obtain ⟨t1, t2⟩ := ht
    have h2 : 0 ≤ 6 * t - t ^ 2 := by nlinarith
    have h3 : 6 * t - t ^ 2 ≤ 9 := by nlinarith [sq_nonneg (t - 3)]
    constructor
    · positivity
    · nlinarith

/-- The example program can be executed in twenty seconds, within the limits of every firmware. -/
theorem schedule (fw : Firmware) : Schedule (junctionVel fw) none 0 prog 20 := by
  have n1 : (s1.position.sub s0.position).norm3 = 10 := by
    simp only [s1, s0, Vec4.sub, Vec4.norm3]
    rw [show ((10 : ℝ) - 0) * (10 - 0) + (0 - 0) * (0 - 0) + (0 - 0) * (0 - 0) = 10 ^ 2 by norm_num]
    exact Real.sqrt_sq (by norm_num)
  have n3 : (s3.position.sub s2.position).norm3 = 10 := by
    simp only [s3, s2, Vec4.sub, Vec4.norm3]
    rw [show ((10 : ℝ) - 10) * (10 - 10) + (10 - 0) * (10 - 0) + (0 - 0) * (0 - 0) = 10 ^ 2 by norm_num]
    exact Real.sqrt_sq (by norm_num)
  have n4 : (s4.position.sub s3.position).norm3 = 0 := by
    rw [norm3_eq_zero]
    simp [s3, s4, Vec4.sub]
  have hj : ∀ (A : Option (PState ℝ)) B rest, B ∈ prog → 0 ≤ junctionVel fw A B rest := fun A B rest hB =>
    (c17_junction_speed fw A B rest (regular.speed B hB).le (regular.jerk B hB)).1
  have h := @Schedule.filament (junctionVel fw) s3 s4 6 0 [] rfl n4 (by simp [s3, s4])
    (slow (abs_nonneg _) (by norm_num [s3, s4])) (.done _ _)
  have h := @Schedule.travel (junctionVel fw) s2 s3 0 0 6 _ _ rfl (by rw [n3]; norm_num)
    (slow (norm3_nonneg _) n3.le) (hj _ _ _ (by simp [prog])) h
  have h := @Schedule.pause (junctionVel fw) (some s1) 2 2 _ s2 _ rfl le_rfl h
  have h := @Schedule.travel (junctionVel fw) s0 s1 0 0 6 _ _ rfl (by rw [n1]; norm_num)
    (slow (norm3_nonneg _) n1.le) (hj _ _ _ (by simp [prog])) h
  have h := @Schedule.idle (junctionVel fw) none 0 _ s0 _ rfl (by simp) h
  have e : (6 + (2 + (6 + (6 + 0))) : ℝ) = 20 := by norm_num
  rw [e] at h
  exact h

end Demo

theorem getLast?_flatMap_segments {b : Block ℝ} (hb : bs.getLast? = some b) (hne : b.segments ≠ []) :
    (Spec.path bs).getLast? = b.segments.getLast? := by
  obtain ⟨l, rfl⟩ : ∃ l, bs = l ++ [b] := by
    rw [List.getLast?_eq_some_iff] at hb
    exact hb
  rw [Spec.path, List.flatMap_append, List.flatMap_singleton, List.getLast?_append]
  cases hx : b.segments.getLast? with
  | none => exact absurd (List.getLast?_eq_none_iff.1 hx) hne
  | some s => rfl

/-- **C55.** The plan is the fastest one possible: whatever motion executes the program from rest within the
same feedrates, accelerations and junction speeds takes at least as long. -/
theorem c55_fastest (hreg : Regular states) (h : plan fw states = .ok bs) {T t : ℝ}
    (hS : Schedule (junctionVel fw) none 0 states T) (ht : EndTime (Spec.path bs) t) :
    t ≤ T := by
  obtain ⟨hF, hO, hE⟩ := plan_opt hreg h
  obtain ⟨hg, hc, hf, _⟩ := plan_ok hreg h
  have hb := total_bound hS ⟨hF, hg, hc, hO, hE⟩ (fun b hb => by rw [(hf b hb).2.1])
  cases hl : bs.getLast? with
  | none =>
    rw [List.getLast?_eq_none_iff] at hl
    subst hl
    obtain ⟨s, hs, _⟩ := ht
    cases hs
  | some l =>
    cases hh : bs.head? with
    | none =>
      rw [List.head?_eq_none_iff] at hh
      subst hh
      cases hl
    | some f =>
      rw [sum_durations hc f hh l hl, (hf f hh).1, sub_zero] at hb
      obtain ⟨s, hs, rfl⟩ := ht
      have hgl := hg l (List.mem_of_getLast? hl)
      rw [getLast?_flatMap_segments hl hgl.ne_nil] at hs
      obtain ⟨_, _, s', _, _, e3, _, _, _, e7, _⟩ := hgl.facts
      rw [hs] at e3
      cases e3
      rw [e7]
      exact hb

/-- The example program has a plan, an end time and a competing motion. -/
example : ∃ bs t, plan .klipper Demo.prog = .ok bs ∧ EndTime (Spec.path bs) t ∧ t ≤ 20 := by
  obtain ⟨_, bs, _, _, h, _⟩ := c26_correction_total .klipper Demo.regular
  obtain ⟨hg, _, _, hm, _⟩ := plan_ok Demo.regular h
  rw [Demo.active_prog] at hm
  obtain ⟨l, hl⟩ : ∃ l, bs.getLast? = some l := by
    cases hx : bs.getLast? with
    | none =>
      rw [List.getLast?_eq_none_iff] at hx
      rw [hx] at hm
      cases hm
    | some l => exact ⟨l, rfl⟩
  have hgl := hg l (List.mem_of_getLast? hl)
  obtain ⟨_, _, s', _, _, e3, _⟩ := hgl.facts
  have he : EndTime (Spec.path bs) s'.tEnd :=
    ⟨s', by rw [getLast?_flatMap_segments hl hgl.ne_nil]; exact e3, rfl⟩
  exact ⟨bs, _, h, he, c55_fastest Demo.regular h (Demo.schedule _) he⟩

/-- **C55.** The bound is attained: each planned move is itself such a motion, in exactly the planned time,
with the speeds of its first and last segment. -/
theorem c55_attained (hreg : Regular states) (h : plan fw states = .ok bs) {b : Block ℝ} (hb : b ∈ bs)
    (hp : b.stateB.pause = none) :
    ∃ A u s s' v v', b.stateA = some A ∧ b.segments.head? = some s ∧ b.segments.getLast? = some s' ∧
      UnitDir u (decide ((b.stateB.position.sub A.position).norm3 = 0)) ∧
      s.velBegin = u.mul v ∧ s'.velEnd = u.mul v' ∧
      Drive b.stateB.pAcc b.stateB.speed (moveLength A.position b.stateB.position) v v'
        (s'.tEnd - s.tBegin) := by
  rcases (plan_ok hreg h).1 b hb with ⟨A, u, s0, s1, hm⟩ | ⟨A, p, hd⟩
  · obtain ⟨A', u', g1, g2, g3, _⟩ := c53_profile hreg h hb hp
    rw [hm.hA] at g1
    cases g1
    obtain ⟨s, s', e1, e2, e3, _, e5, e6, _, e8, _⟩ := hm.ends
    obtain ⟨f1, f2, _⟩ := hm.facts
    obtain ⟨d, d1, d2⟩ := hm.hramp.drive hm.ha.le ⟨f1, f2⟩
    obtain ⟨h1, h2, h3, h4, _⟩ := hm.toHdr.unit
    have hd : d = (moveDistance A b.stateB).1 := unit_cancel h1 (p := A.position) (by rw [← d2, ← h3])
    have hdec : decide ((b.stateB.position.sub A.position).norm3 = 0) = (moveDistance A b.stateB).2 := by
      by_cases hc : (b.stateB.position.sub A.position).norm3 = 0
      · rw [decide_eq_true hc, h4.2 hc]
      · rw [decide_eq_false hc]
        cases hx : (moveDistance A b.stateB).2
        · rfl
        · exact absurd (h4.1 hx) hc
    refine ⟨A, u, s, s', s0, s1, hm.hA, e1, e2, by rw [hdec]; exact h1, e5, e8, ?_⟩
    rw [e6, e3, ← moveDistance_length, ← hd]
    exact d1
  · rw [hd.hpause] at hp
    cases hp

end PyGCD
