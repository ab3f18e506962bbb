import Verif.Spec.Times
import Verif.Props.Optimal

/-!
# Properties C64 and C65: durations
-/

set_option linter.unusedSectionVars false
set_option linter.unusedSimpArgs false

namespace PyGCD
open Vec4 Spec Set

variable {fw : Firmware} {states : List (PState ℝ)} {bs : List (Block ℝ)}

/-! ## C65: the duration of a move -/

theorem Phases.time {a vT d v v' T ta tc td vp : ℝ} (h : Phases a vT d v v' T ta tc td vp) (ha : 0 < a)
    (hd : 0 < d) (hv : 0 ≤ v) (hle : vp ≤ vT) : T = moveTime a vT d v v' ∧ vp = topSpeed a vT d v v' := by
  have h1 : a * ta = vp - v := by linarith [h.hup]
  have h2 : a * td = vp - v' := by linarith [h.hdown]
  have hvp0 : 0 ≤ vp := by
    rw [h.hup]
    have := mul_nonneg ha.le h.hta
    linarith
  have e : 2 * (a * d) = (vp ^ 2 - v ^ 2) + (vp ^ 2 - v' ^ 2) + 2 * (a * (vp * tc)) := by
    rw [h.hd]
    have : 2 * (a * (v * ta + a * ta ^ 2 / 2 + vp * tc + (v' * td + a * td ^ 2 / 2))) =
        2 * v * (a * ta) + (a * ta) ^ 2 + 2 * v' * (a * td) + (a * td) ^ 2 + 2 * (a * (vp * tc)) := by ring
    rw [this, h1, h2]
    ring
  have htop : topSpeed a vT d v v' = vp := by
    unfold topSpeed
    rcases h.htc.lt_or_eq with hc | hc
    · rw [← h.hcruise hc]
      apply min_eq_left
      apply Real.le_sqrt_of_sq_le
      have := mul_nonneg ha.le (mul_nonneg hvp0 h.htc)
      linarith
    · rw [← hc] at e
      rw [show a * d + (v ^ 2 + v' ^ 2) / 2 = vp ^ 2 by linarith, Real.sqrt_sq hvp0, min_eq_right hle]
  have hpos : 0 < vp := by
    refine lt_of_le_of_ne hvp0 ?_
    intro hz
    rw [← hz] at e
    have := mul_pos ha hd
    nlinarith [sq_nonneg v, sq_nonneg v']
  refine ⟨?_, htop.symm⟩
  unfold moveTime
  rw [htop, h.hT]
  have q1 : ta = (vp - v) / a := by rw [← h1]; field_simp
  have q2 : td = (vp - v') / a := by rw [← h2]; field_simp
  have q3 : tc = (d - ((vp ^ 2 - v ^ 2) / (2 * a) + (vp ^ 2 - v' ^ 2) / (2 * a))) / vp := by
    rw [eq_div_iff hpos.ne']
    field_simp
    linarith
  simp only
  rw [q3, ← q1, ← q2]
  ring

theorem MoveB.time {b : Block ℝ} {A : PState ℝ} {u : Vec4 ℝ} {s0 s1 : ℝ} (hm : MoveB b A u s0 s1) :
    b.t1 - b.t0 = moveTime b.stateB.pAcc b.stateB.speed (moveLength A.position b.stateB.position) s0 s1 := by
  obtain ⟨h1, h2, h3, _⟩ := hm.toHdr.unit
  obtain ⟨f1, f2, _⟩ := hm.facts
  obtain ⟨ta, tc, td, vp, ph, _, hle⟩ := profile_phases h1 hm.hramp hm.hprof h3
  rw [moveDistance_length] at ph h2
  exact (ph.time hm.ha h2 f1 (hle f2)).1

/-- **C65.** The duration of a planned move is the closed formula in its acceleration, feedrate, length, begin
speed and end speed. -/
theorem c65_move_time (hreg : Regular states) (h : plan fw states = .ok bs) {b : Block ℝ} (hb : b ∈ bs)
    (hp : b.stateB.pause = none) :
    ∃ A u s s' v v', b.stateA = some A ∧ b.segments.head? = some s ∧ b.segments.getLast? = some s' ∧
      UnitDir u (decide ((b.stateB.position.sub A.position).norm3 = 0)) ∧
      s.velBegin = u.mul v ∧ s'.velEnd = u.mul v' ∧ 0 ≤ v ∧ 0 ≤ v' ∧
      s'.tEnd - s.tBegin =
        moveTime b.stateB.pAcc b.stateB.speed (moveLength A.position b.stateB.position) v v' := by
  rcases (plan_ok hreg h).1 b hb with ⟨A, u, s0, s1, hm⟩ | ⟨A, p, hd⟩
  · obtain ⟨A', u', g1, g2, g3, _⟩ := c53_profile hreg h hb hp
    rw [hm.hA] at g1
    cases g1
    obtain ⟨s, s', e1, e2, e3, _, e5, e6, _, e8, _⟩ := hm.ends
    obtain ⟨h1, h2, h3, h4, _⟩ := hm.toHdr.unit
    have hdec : decide ((b.stateB.position.sub A.position).norm3 = 0) = (moveDistance A b.stateB).2 := by
      by_cases hc : (b.stateB.position.sub A.position).norm3 = 0
      · rw [decide_eq_true hc, h4.2 hc]
      · rw [decide_eq_false hc]
        cases hx : (moveDistance A b.stateB).2
        · rfl
        · exact absurd (h4.1 hx) hc
    refine ⟨A, u, s, s', s0, s1, hm.hA, e1, e2, by rw [hdec]; exact h1, e5, e8, hm.facts.1, hm.facts.2.2.1, ?_⟩
    rw [e6, e3]
    exact hm.time
  · rw [hd.hpause] at hp
    cases hp

/-- **C65.** From rest to rest: the familiar trapezoid and triangle. -/
theorem c65_rest_to_rest {a vT d : ℝ} (ha : 0 < a) (hv : 0 < vT) (hd : 0 ≤ d) :
    moveTime a vT d 0 0 = if vT ^ 2 ≤ a * d then d / vT + vT / a else 2 * √(d / a) := by
  have htop : topSpeed a vT d 0 0 = if vT ^ 2 ≤ a * d then vT else √(a * d) := by
    unfold topSpeed
    rw [show a * d + ((0 : ℝ) ^ 2 + 0 ^ 2) / 2 = a * d by ring]
    split
    · rename_i h
      exact min_eq_left (Real.le_sqrt_of_sq_le h)
    · rename_i h
      apply min_eq_right
      rw [Real.sqrt_le_left hv.le]
      exact (not_le.1 h).le
  unfold moveTime
  rw [htop]
  split
  · field_simp
    ring
  · rcases hd.lt_or_eq with hd | hd
    · have h0 : 0 < a * d := mul_pos ha hd
      have hs : √(a * d) ^ 2 = a * d := Real.sq_sqrt h0.le
      have hp : 0 < √(a * d) := Real.sqrt_pos.2 h0
      have h1 : √(d / a) = √(a * d) / a := by
        rw [show d / a = a * d / a ^ 2 by field_simp, Real.sqrt_div h0.le, Real.sqrt_sq ha.le]
      have h2 : d - ((√(a * d) ^ 2 - 0 ^ 2) / (2 * a) + (√(a * d) ^ 2 - 0 ^ 2) / (2 * a)) = 0 := by
        rw [hs]
        field_simp
        ring
      simp only [h2, h1]
      ring
    · rw [← hd]
      simp

/-! ## C64: unknown firmware stops everywhere -/

theorem AtRest.time {b : Block ℝ} (h : b.AtRest) : b.t1 - b.t0 = restTime (b.stateA, b.stateB) := by
  rcases h with ⟨A, u, hm⟩ | ⟨A, p, hd⟩
  · unfold restTime
    simp only [hm.hpause, hm.hA]
    exact hm.time
  · obtain ⟨t, ht⟩ := hd.hseg
    unfold restTime
    simp only [hd.hpause, Block.t0, Block.t1, ht, List.head?_cons, List.getLast?_singleton, Option.map_some,
      Option.getD_some]
    ring

/-- **C64.** With default junction handling every block begins and ends at rest, also of the filament. -/
theorem c64_stops (hreg : Regular states) (h : plan .default states = .ok bs) {b : Block ℝ} (hb : b ∈ bs) :
    (∀ s ∈ b.segments.head?, s.velBegin = Vec4.zero) ∧ ∀ s ∈ b.segments.getLast?, s.velEnd = Vec4.zero := by
  have hr := plan_rest hreg h (fun _ _ _ => rfl) b hb
  rcases hr with ⟨A, u, hm⟩ | ⟨A, p, hd⟩
  · obtain ⟨s, s', e1, e2, _, _, e5, _, _, e8, _⟩ := hm.ends
    rw [e1, e2]
    constructor
    · intro x hx
      cases hx
      rw [e5]
      exact Vec4.mul_zero u
    · intro x hx
      cases hx
      rw [e8]
      exact Vec4.mul_zero u
  · obtain ⟨t, ht⟩ := hd.hseg
    rw [ht]
    constructor <;>
    · intro x hx
      cases hx
      rfl

theorem SoundRun.endTime_sum (h : SoundRun bs) {t : ℝ}
    (ht : EndTime (Spec.path bs) t) : (bs.map fun b => b.t1 - b.t0).sum = t := by
  obtain ⟨hg, hc, hf⟩ := h
  cases hl : bs.getLast? with
  | none =>
    rw [List.getLast?_eq_none_iff] at hl
    subst hl
    obtain ⟨s, hs, _⟩ := ht
    cases hs
  | some l =>
    cases hh : bs.head? with
    | none =>
      rw [List.head?_eq_none_iff] at hh
      subst hh
      cases hl
    | some f =>
      rw [sum_durations hc f hh l hl, (hf f hh).1, sub_zero]
      obtain ⟨s, hs, rfl⟩ := ht
      have hgl := hg l (List.mem_of_getLast? hl)
      rw [getLast?_flatMap_segments hl hgl.ne_nil] at hs
      obtain ⟨_, _, s', _, _, e3, _, _, _, e7, _⟩ := hgl.facts
      rw [hs] at e3
      cases e3
      rw [e7]

theorem endTime_sum (hreg : Regular states) (h : plan fw states = .ok bs) {t : ℝ}
    (ht : EndTime (Spec.path bs) t) : (bs.map fun b => b.t1 - b.t0).sum = t := (plan_sound hreg h).endTime_sum ht

/-- **C64.** The print time with default junction handling is the sum over the program of the closed
formulas. -/
theorem c64_print_time (hreg : Regular states) (h : plan .default states = .ok bs) {t : ℝ}
    (ht : EndTime (Spec.path bs) t) : t = ((active none states).map restTime).sum := by
  rw [← endTime_sum hreg h ht, ← (plan_ok hreg h).2.2.2.1, List.map_map]
  congr 1
  apply List.map_congr_left
  intro b hb
  exact AtRest.time (plan_rest hreg h (fun _ _ _ => rfl) b hb)

theorem schedule_of_rest {limit : Option (PState ℝ) → PState ℝ → List (PState ℝ) → ℝ}
    (hlim : ∀ A, ∀ B ∈ states, ∀ l, 0 ≤ limit A B l) :
    ∀ {rest : List (PState ℝ)} {pa : Option (PState ℝ)} {bs : List (Block ℝ)}, (∀ s ∈ rest, s ∈ states) →
      bs.map (fun b => (b.stateA, b.stateB)) = active pa rest → (∀ b ∈ bs, b.AtRest) →
      Schedule limit pa 0 rest (bs.map fun b => b.t1 - b.t0).sum := by
  intro rest
  induction rest with
  | nil =>
    intro pa bs _ hbs _
    have : bs = [] := by
      simpa [active, withPrev] using hbs
    subst this
    exact .done pa 0
  | cons B rest ih =>
    intro pa bs hmem hbs hr
    by_cases hact : B.pause ≠ none ∨ ∃ A, pa = some A ∧ B.position ≠ A.position
    · rw [active_cons_take rest hact] at hbs
      cases bs with
      | nil => cases hbs
      | cons b tl =>
        simp only [List.map_cons, List.cons.injEq, Prod.mk.injEq] at hbs
        obtain ⟨⟨hA, hB⟩, htl⟩ := hbs
        have hrest := ih (fun s hs => hmem s (by simp [hs])) htl (fun c hc => hr c (by simp [hc]))
        rw [List.map_cons, List.sum_cons]
        rcases hr b (by simp) with ⟨A, u, hm⟩ | ⟨A, p, hd⟩
        · obtain ⟨h1, h2, h3, h4, _⟩ := hm.toHdr.unit
          obtain ⟨f1, f2, _⟩ := hm.facts
          obtain ⟨d, d1, d2⟩ := hm.hramp.drive hm.ha.le ⟨f1, f2⟩
          have hd : d = (moveDistance A b.stateB).1 := unit_cancel h1 (p := A.position) (by rw [← d2, ← h3])
          rw [hd, moveDistance_length] at d1
          have hpa : pa = some A := hA.symm.trans hm.hA
          have hp := hm.hpause
          have hne := hm.hne
          rw [hB] at d1 hp hne
          subst hpa
          by_cases hz : (B.position.sub A.position).norm3 = 0
          · rw [moveLength, if_pos hz] at d1
            refine .filament hp hz ?_ d1 hrest
            intro he
            apply hne
            obtain ⟨zx, zy, zz⟩ := norm3_eq_zero.1 hz
            ext
            · exact sub_eq_zero.1 zx
            · exact sub_eq_zero.1 zy
            · exact sub_eq_zero.1 zz
            · exact he
          · rw [moveLength, if_neg hz] at d1
            exact .travel hp hz d1 (hlim _ B (hmem B (by simp)) _) hrest
        · obtain ⟨t, ht⟩ := hd.hseg
          have hp := hd.hpause
          rw [hB] at hp
          have e : b.t1 - b.t0 = p := by
            simp [Block.t0, Block.t1, ht]
          rw [e]
          exact .pause hp le_rfl hrest
    · push Not at hact
      obtain ⟨hp, hpos⟩ := hact
      have hpos' : ∀ A ∈ pa, B.position = A.position := fun A hA => hpos A hA
      rw [active_cons_skip rest hpos' hp] at hbs
      exact .idle hp hpos' (ih (fun s hs => hmem s (by simp [hs])) hbs hr)

/-- **C64.** No firmware is slower than the default junction handling. -/
theorem c64_slowest (hreg : Regular states) {bs₀ : List (Block ℝ)} (h0 : plan .default states = .ok bs₀)
    (h : plan fw states = .ok bs) {t t₀ : ℝ} (ht0 : EndTime (Spec.path bs₀) t₀)
    (ht : EndTime (Spec.path bs) t) : t ≤ t₀ := by
  refine c55_fastest hreg h ?_ ht
  rw [← endTime_sum hreg h0 ht0]
  refine schedule_of_rest (states := states) ?_ (fun _ h => h) (plan_ok hreg h0).2.2.2.1
    (plan_rest hreg h0 (fun _ _ _ => rfl))
  intro A B hB l
  exact (c17_junction_speed fw A B l (hreg.speed B hB).le (hreg.jerk B hB)).1

/-! ## An example -/

/-- The example program takes exactly 4.4 seconds with default junction handling: two moves of 1.1 seconds, a
pause of two seconds and a retraction of 0.2 seconds. Any other firmware needs at most this time. -/
theorem c64_example (fw : Firmware) : ∃ bs₀ bs t, plan .default Demo.prog = .ok bs₀ ∧ plan fw Demo.prog = .ok bs ∧
    EndTime (Spec.path bs₀) 4.4 ∧ EndTime (Spec.path bs) t ∧ t ≤ 4.4 := by
  have hend : ∀ fw, ∃ bs t, plan fw Demo.prog = .ok bs ∧ EndTime (Spec.path bs) t := by
    intro fw
    obtain ⟨_, bs, _, _, h, _⟩ := c26_correction_total fw Demo.regular
    obtain ⟨hg, _, _, hm, _⟩ := plan_ok Demo.regular h
    rw [Demo.active_prog] at hm
    obtain ⟨l, hl⟩ : ∃ l, bs.getLast? = some l := by
      cases hx : bs.getLast? with
      | none =>
        rw [List.getLast?_eq_none_iff] at hx
        rw [hx] at hm
        cases hm
      | some l => exact ⟨l, rfl⟩
    have hgl := hg l (List.mem_of_getLast? hl)
    obtain ⟨_, _, s', _, _, e3, _⟩ := hgl.facts
    exact ⟨bs, s'.tEnd, h, s', by rw [getLast?_flatMap_segments hl hgl.ne_nil]; exact e3, rfl⟩
  obtain ⟨bs₀, t₀, h0, ht0⟩ := hend .default
  obtain ⟨bs, t, h, ht⟩ := hend fw
  have e := c64_print_time Demo.regular h0 ht0
  have n1 : (Demo.s1.position.sub Demo.s0.position).norm3 = 10 := by
    simp only [Demo.s1, Demo.s0, Vec4.sub, Vec4.norm3]
    rw [show ((10 : ℝ) - 0) * (10 - 0) + (0 - 0) * (0 - 0) + (0 - 0) * (0 - 0) = 10 ^ 2 by norm_num]
    exact Real.sqrt_sq (by norm_num)
  have n3 : (Demo.s3.position.sub Demo.s2.position).norm3 = 10 := by
    simp only [Demo.s3, Demo.s2, Vec4.sub, Vec4.norm3]
    rw [show ((10 : ℝ) - 10) * (10 - 10) + (10 - 0) * (10 - 0) + (0 - 0) * (0 - 0) = 10 ^ 2 by norm_num]
    exact Real.sqrt_sq (by norm_num)
  have n4 : (Demo.s4.position.sub Demo.s3.position).norm3 = 0 := norm3_eq_zero.2 (by
    simp [Demo.s4, Demo.s3, Vec4.sub])
  have q1 : restTime (some Demo.s0, Demo.s1) = 1.1 := by
    simp only [restTime, show Demo.s1.pause = none from rfl]
    rw [moveLength, if_neg (by rw [n1]; norm_num), n1,
      c65_rest_to_rest (by norm_num [Demo.s1]) (by norm_num [Demo.s1]) (by norm_num)]
    norm_num [Demo.s1]
  have q2 : restTime (some Demo.s1, Demo.s2) = 2 := rfl
  have q3 : restTime (some Demo.s2, Demo.s3) = 1.1 := by
    simp only [restTime, show Demo.s3.pause = none from rfl]
    rw [moveLength, if_neg (by rw [n3]; norm_num), n3,
      c65_rest_to_rest (by norm_num [Demo.s3]) (by norm_num [Demo.s3]) (by norm_num)]
    norm_num [Demo.s3]
  have q4 : restTime (some Demo.s3, Demo.s4) = 0.2 := by
    simp only [restTime, show Demo.s4.pause = none from rfl]
    rw [moveLength, if_pos n4,
      c65_rest_to_rest (by norm_num [Demo.s4]) (by norm_num [Demo.s4]) (by positivity)]
    norm_num [Demo.s4, Demo.s3]
  rw [Demo.active_prog] at e
  simp only [List.map_cons, List.map_nil, List.sum_cons, List.sum_nil, q1, q2, q3, q4] at e
  norm_num at e
  subst e
  have := c64_slowest Demo.regular h0 h ht0 ht
  norm_num
  exact ⟨bs₀, h0, bs, h, ht0, t, ht, this⟩

end PyGCD
