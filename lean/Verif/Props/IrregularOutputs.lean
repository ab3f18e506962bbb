import Verif.Props.Irregular

/-!
# Property C116: summary and layer metrics of every program that can be planned

C41 and C63 are about regular programs. Here feedrates may be zero, a line may both move and pause, and only
`Spec.Sensible` settings are asked for.
-/

set_option linter.unusedSectionVars false
set_option linter.unusedSimpArgs false

namespace PyGCD
open Vec4 Spec

variable {fw : Firmware} {states : List (PState ℝ)} {bs : List (Block ℝ)}

/-- A block that carries out a step has segments. -/
theorem Spec.CarriesOut.segments_ne {b : Block ℝ} {x : Step} (h : CarriesOut b x) : b.segments ≠ [] := by
  by_cases hp : x.B.pause = none
  · obtain ⟨_, _, _, _, _, _, _, h, _⟩ := h.move hp
    exact h
  · obtain ⟨p, hp⟩ := Option.ne_none_iff_exists'.1 hp
    obtain ⟨t, ht⟩ := h.pause p hp
    rw [ht]
    simp

/-- What the planner makes of a program has an end iff the machine does something. -/
theorem endTime_sensible (hsens : Sensible states) (h : plan fw states = .ok bs) :
    (executed none none states = [] → bs = [] ∧ endTime bs = .error .indexError) ∧
    (executed none none states ≠ [] → ∃ T, endTime bs = .ok T ∧ EndTime (Spec.path bs) T) := by
  have hc := c87_carried_out hsens h
  constructor
  · intro he
    rw [he] at hc
    cases hc
    exact ⟨rfl, rfl⟩
  · intro he
    have hne : bs ≠ [] := by
      rintro rfl
      exact he (List.forall₂_nil_left_iff.1 hc)
    obtain ⟨z, hz⟩ := Option.isSome_iff_exists.1 (List.getLast?_isSome.2 hne)
    obtain ⟨x, _, hx⟩ := (partner hc).1 z (List.mem_of_getLast? hz)
    obtain ⟨s, hs⟩ := Option.isSome_iff_exists.1 (List.getLast?_isSome.2 hx.segments_ne)
    have he : endTime bs = .ok s.tEnd := by
      unfold endTime
      rw [hz]
      simp only [lastSeg_ok hs]
      rfl
    exact ⟨s.tEnd, he, endTime_path he⟩

/-- **C116, summary.** A program without a step that extrudes has no summary: an `IndexError` if the machine does nothing
at all, otherwise a `ValueError`. For all others the summary has the end time; its box encloses the programmed ends of the
steps that extrude and each of its bounds is a coordinate of such an end; its speed bounds the travel speed at all times of
these steps and is attained at an end of a segment. -/
theorem c116_summary (hsens : Sensible states) (h : plan fw states = .ok bs) {own : String} {f : ℝ} (hf : InUnit own f) :
    ((∀ x ∈ executed none none states, ¬ x.Extrudes) →
      saveSummary bs own = .error (if bs = [] then .indexError else .valueError)) ∧
    ((∃ x ∈ executed none none states, x.Extrudes) → ∃ sm, saveSummary bs own = .ok sm ∧
      EndTime (Spec.path bs) sm.tEnd ∧
      (∀ x ∈ executed none none states, x.Extrudes →
        Within sm.lo sm.hi (x.A.position.mul f) ∧ Within sm.lo sm.hi (x.B.position.mul f)) ∧
      (∀ c : Vec4 ℝ → ℝ, c = Vec4.x ∨ c = Vec4.y ∨ c = Vec4.z →
        (∃ x ∈ executed none none states, x.Extrudes ∧
          (c sm.lo = c x.A.position * f ∨ c sm.lo = c x.B.position * f)) ∧
        ∃ x ∈ executed none none states, x.Extrudes ∧
          (c sm.hi = c x.A.position * f ∨ c sm.hi = c x.B.position * f)) ∧
      (∀ (i : Nat) b x, bs[i]? = some b → (executed none none states)[i]? = some x → x.Extrudes →
        ∀ s ∈ b.segments, ∀ t v, s.getVelocity t = .ok v → f * v.norm3 ≤ sm.maxVel) ∧
      ∃ (i : Nat) (b : Block ℝ) (x : Step), bs[i]? = some b ∧ (executed none none states)[i]? = some x ∧ x.Extrudes ∧
        ∃ s ∈ b.segments, sm.maxVel = f * s.velBegin.norm3 ∨ sm.maxVel = f * s.velEnd.norm3) := by
  obtain ⟨t1, t2⟩ := endTime_sensible hsens h
  obtain ⟨e1, e2⟩ := c94_extent hsens h (own := own) (u := none) hf
  obtain ⟨m1, m2⟩ := c94_max_vel hsens h (own := own) (u := none) hf
  constructor
  · intro hno
    by_cases he : executed none none states = []
    · obtain ⟨k1, k2⟩ := t1 he
      rw [if_pos k1]
      simp only [saveSummary, k2, bind, Except.bind]
    · obtain ⟨T, k1, _⟩ := t2 he
      rw [if_neg]
      · simp only [saveSummary, k1, e1 hno, bind, Except.bind]
      · rintro rfl
        cases k1
  · intro hex
    have hex' := hex
    obtain ⟨x₀, hx₀, _⟩ := hex'
    obtain ⟨T, k1, k2⟩ := t2 (List.ne_nil_of_mem hx₀)
    obtain ⟨lo, hi, a1, a2, _, a3⟩ := e2 hex
    obtain ⟨m, b1, b2, b3⟩ := m2 hex
    exact ⟨⟨T, lo, hi, m⟩, by simp only [saveSummary, k1, a1, b1, bind, Except.bind], k2, a2, a3, b2, b3⟩

/-- The travel of the blocks is that of the program. -/
theorem totalTravel_steps : ∀ {bs : List (Block ℝ)} {xs : List Step}, List.Forall₂ CarriesOut bs xs →
    totalTravel bs = (xs.map Step.programmed).sum ∧ totalTravel bs.dropLast = (xs.dropLast.map Step.programmed).sum := by
  have one : ∀ {bs : List (Block ℝ)} {xs : List Step}, List.Forall₂ CarriesOut bs xs →
      totalTravel bs = (xs.map Step.programmed).sum := by
    intro bs xs h
    induction h with
    | nil => simp [totalTravel]
    | cons h _ ih =>
      unfold totalTravel at ih ⊢
      rw [List.map_cons, List.sum_cons, List.map_cons, List.sum_cons, ih, h.stateA, h.stateB]
      rfl
  intro bs xs h
  refine ⟨one h, one ?_⟩
  rw [List.dropLast_eq_take, List.dropLast_eq_take, h.length_eq]
  exact List.forall₂_take _ h

/-- **C116, layer metrics, the exact law.** If the layers of all steps are known, the listed layers increase strictly and
the average speed is travel over duration. The travel distances add up to the *programmed* distances of all steps but the
last, whether they are travelled or not. The durations add up to the end time if the last step belongs to a layer seen
before (or to layer `0`), otherwise to its begin. -/
theorem c116_layers (hsens : Sensible states) (h : plan fw states = .ok bs) {z : Step} {n : Nat}
    (hl : ∀ x ∈ executed none none states, x.B.layer ≠ none) (hz : (executed none none states).getLast? = some z)
    (hn : z.B.layer = some n) :
    ∃ rows s s' b, saveLayerMetrics true bs = .ok (some rows) ∧ bs.getLast? = some b ∧ b.segments.head? = some s ∧
      b.segments.getLast? = some s' ∧ EndTime (Spec.path bs) s'.tEnd ∧ (rows.map LayerRow.layer).Pairwise (· < ·) ∧
      (∀ r ∈ rows, r.avg = if r.duration = 0 then none else some (r.travel / r.duration)) ∧
      (rows.map LayerRow.travel).sum = ((executed none none states).dropLast.map Step.programmed).sum ∧
      ((n = 0 ∨ ∃ x ∈ (executed none none states).dropLast, ∃ m, x.B.layer = some m ∧ n ≤ m) →
        (rows.map LayerRow.duration).sum = s'.tEnd) ∧
      ((0 < n ∧ ∀ x ∈ (executed none none states).dropLast, ∀ m, x.B.layer = some m → m < n) →
        (rows.map LayerRow.duration).sum = s.tBegin) := by
  have hc := c87_carried_out hsens h
  have hd : List.Forall₂ CarriesOut bs.dropLast (executed none none states).dropLast := by
    rw [List.dropLast_eq_take, List.dropLast_eq_take, hc.length_eq]
    exact List.forall₂_take _ hc
  obtain ⟨T, t1, t2⟩ := (endTime_sensible hsens h).2 (by rintro he; rw [he] at hz; cases hz)
  obtain ⟨b, hb, hbz⟩ : ∃ b, bs.getLast? = some b ∧ CarriesOut b z := by
    rw [List.getLast?_eq_getElem?] at hz ⊢
    have hlen := hc.length_eq
    have hi := (List.getElem?_eq_some_iff.1 hz).1
    have hi' : bs.length - 1 < bs.length := by omega
    refine ⟨_, List.getElem?_eq_getElem hi', (partner hc).2.2 (bs.length - 1) _ _ (List.getElem?_eq_getElem hi') ?_⟩
    rw [hlen]
    exact hz
  obtain ⟨m1, _, _⟩ := partner hc
  obtain ⟨s, hs⟩ := Option.isSome_iff_exists.1 (List.isSome_head?.2 hbz.segments_ne)
  obtain ⟨s', hs'⟩ := Option.isSome_iff_exists.1 (List.getLast?_isSome.2 hbz.segments_ne)
  have hT : s'.tEnd = T := by
    unfold endTime at t1
    rw [hb] at t1
    simp only [lastSeg_ok hs', Except.map, Except.ok.injEq] at t1
    exact t1
  obtain ⟨rows, r1, r2, r3, r4, r5, r6, r7⟩ := layerLoop_spec bs
    (fun c hc' => by
      obtain ⟨x, _, hx⟩ := m1 c hc'
      exact ⟨by rw [hx.stateA]; rfl, hx.segments_ne⟩)
    (fun c hc' => by
      obtain ⟨x, hx, hcx⟩ := m1 c hc'
      rw [hcx.stateB]
      exact Option.ne_none_iff_exists'.1 (hl x hx)) 0 0 0 hb (by rw [hbz.stateB]; exact hn)
  have ht0 : b.t0 = s.tBegin := by simp [Block.t0, hs]
  have ht1 : b.t1 = s'.tEnd := by simp [Block.t1, hs']
  refine ⟨rows, s, s', b, ?_, hb, hs, hs', by rw [hT]; exact t2, r2, r5, ?_, ?_, ?_⟩
  · unfold saveLayerMetrics
    rw [if_pos rfl, r1]
    rfl
  · rw [r4, _root_.zero_add, (totalTravel_steps hc).2]
  · intro hn'
    rw [r6 ?_, ht1, sub_zero]
    rcases hn' with rfl | ⟨x, hx, m, hm, hnm⟩
    · exact ⟨0, by simp, le_refl _⟩
    · obtain ⟨c, hc', hcx⟩ := (partner hd).2.1 x hx
      exact ⟨m, List.mem_cons_of_mem _ (List.mem_filterMap.2 ⟨c, hc', by rw [hcx.stateB]; exact hm⟩), hnm⟩
  · rintro ⟨h0, hn'⟩
    rw [r7 ?_, ht0, sub_zero]
    intro y hy
    rcases List.mem_cons.1 hy with rfl | hy
    · exact h0
    · obtain ⟨c, hc', hm⟩ := List.mem_filterMap.1 hy
      obtain ⟨x, hx, hcx⟩ := (partner hd).1 c hc'
      exact hn' x hx y (by rw [← hcx.stateB]; exact hm)

/-- C116 as wanted: in a print that ends with a step that does not travel, the travel distances of the layers add up to the
distance that the machine travels. -/
def C116Full : Prop :=
  ∀ (fw : Firmware) (states : List (PState ℝ)) (bs : List (Block ℝ)) (z : Step), Sensible states →
    plan fw states = .ok bs → (∀ s ∈ states, s.layer ≠ none) → (executed none none states).getLast? = some z →
    z.travelled = 0 → z.programmed = 0 →
    ∃ rows, saveLayerMetrics true bs = .ok (some rows) ∧
      (rows.map LayerRow.travel).sum = ((executed none none states).map Step.travelled).sum

/-- A step belongs to two states in a row. -/
theorem executed_states : ∀ (rest : List (PState ℝ)) (here : Option (Vec4 ℝ)) (A : Option (PState ℝ)),
    ∀ x ∈ executed here A rest, ∃ i, rest[i]? = some x.B ∧ (i = 0 → A = some x.A) ∧
      ∀ j, i = j + 1 → rest[j]? = some x.A := by
  intro rest
  induction rest with
  | nil => intro here A x hx; rw [executed] at hx; cases hx
  | cons s rest ih =>
    intro here A x hx
    have deeper : ∀ here', x ∈ executed here' (some s) rest → ∃ i, (s :: rest)[i]? = some x.B ∧ (i = 0 → A = some x.A) ∧
        ∀ j, i = j + 1 → (s :: rest)[j]? = some x.A := by
      intro here' hx
      obtain ⟨i, h1, h2, h3⟩ := ih here' (some s) x hx
      refine ⟨i + 1, by simpa using h1, by simp, ?_⟩
      intro j hj
      cases j with
      | zero => simpa using h2 (by omega)
      | succ j => simpa using h3 j (by omega)
    cases A with
    | none => rw [executed] at hx; exact deeper _ hx
    | some A =>
      rw [executed] at hx
      by_cases hp : s.pause ≠ none
      · rw [if_pos hp] at hx
        rcases List.mem_cons.1 hx with rfl | hx
        · exact ⟨0, by simp, by simp, by simp⟩
        · exact deeper _ hx
      · rw [if_neg hp] at hx
        by_cases he : Executes A s
        · rw [if_pos he] at hx
          rcases List.mem_cons.1 hx with rfl | hx
          · exact ⟨0, by simp, by simp, by simp⟩
          · exact deeper _ hx
        · rw [if_neg he] at hx
          exact deeper _ hx

/-- **C116, if no line both moves and pauses.** Then moves that are carried out travel as far as programmed, and the wanted
statement holds. Missing are lines that move and pause, for which it is false (`c116_refuted`). -/
theorem c116_travelled_partial (hsens : Sensible states) (h : plan fw states = .ok bs) {z : Step}
    (hl : ∀ s ∈ states, s.layer ≠ none) (hz : (executed none none states).getLast? = some z) (hstay : z.travelled = 0)
    (hpause : ∀ x ∈ executed none none states, x.B.pause ≠ none → x.programmed = 0) :
    ∃ rows, saveLayerMetrics true bs = .ok (some rows) ∧
      (rows.map LayerRow.travel).sum = ((executed none none states).map Step.travelled).sum := by
  have hl' : ∀ x ∈ executed none none states, x.B.layer ≠ none := by
    intro x hx
    obtain ⟨i, hi, _⟩ := executed_states _ _ _ x hx
    exact hl x.B (List.mem_of_getElem? hi)
  obtain ⟨n, hn⟩ := Option.ne_none_iff_exists'.1 (hl' z (List.mem_of_getLast? hz))
  obtain ⟨rows, _, _, _, r1, _, _, _, _, _, _, r2, _⟩ := c116_layers hsens h hl' hz hn
  have same : ∀ x ∈ executed none none states, x.programmed = x.travelled := by
    intro x hx
    obtain ⟨d1, d2⟩ := executed_steps _ _ _ x hx
    by_cases hp : x.B.pause = none
    · unfold Step.programmed Step.travelled
      congr 1
      rw [d1 hp]
      ext <;> simp [Vec4.sub, Vec4.add]
    · rw [hpause x hx hp, Step.travelled, d2 hp]
      simp [Vec4.sub, norm3, PyMath.sqrt]
  refine ⟨rows, r1, ?_⟩
  obtain ⟨l, hl⟩ : ∃ l, executed none none states = l ++ [z] := by
    rw [List.getLast?_eq_some_iff] at hz
    exact hz
  rw [r2, hl]
  rw [hl] at same
  simp only [List.dropLast_concat, List.map_append, List.sum_append, List.map_cons, List.map_nil, List.sum_cons,
    List.sum_nil, hstay, _root_.add_zero]
  congr 1
  exact List.map_congr_left fun x hx => same x (by simp [hx])

namespace Demo

/-- The machine moves, is asked to move and pause on one line, and pauses. -/
noncomputable def lazyProg : List (PState ℝ) :=
  [⟨⟨0, 0, 0, 0⟩, 10, 100, 5, none, some 0⟩, ⟨⟨10, 0, 0, 1⟩, 10, 100, 5, none, some 0⟩,
    ⟨⟨20, 0, 0, 1⟩, 10, 100, 5, some 1, some 0⟩, ⟨⟨20, 0, 0, 1⟩, 10, 100, 5, some 1, some 0⟩]

theorem lazy_sensible : Sensible lazyProg := by
  constructor <;> simp [lazyProg]

theorem lazy_moves : Executes ⟨⟨0, 0, 0, 0⟩, 10, 100, 5, none, some 0⟩ ⟨⟨10, 0, 0, 1⟩, 10, 100, 5, none, some 0⟩ := by
  simp [Executes]

theorem lazy_follow : PausesFollow lazyProg := by
  intro pre s post h p hp
  have key : Started [⟨⟨0, 0, 0, 0⟩, 10, 100, 5, none, some 0⟩, ⟨⟨10, 0, 0, 1⟩, 10, 100, 5, none, some 0⟩] :=
    ⟨[], _, _, [], rfl, lazy_moves⟩
  unfold lazyProg at h
  match pre, h with
  | [], h => cases h; cases hp
  | [_], h => cases h; cases hp
  | [_, _], h => cases h; cases hp; exact ⟨by norm_num, key⟩
  | [_, _, _], h =>
    cases h; cases hp
    exact ⟨by norm_num, [], _, _, [_], rfl, lazy_moves⟩
  | _ :: _ :: _ :: _ :: r, h =>
    simp only [List.cons_append, List.cons.injEq] at h
    have := h.2.2.2.2
    cases r <;> cases this

theorem lazy_executed : executed none none lazyProg =
    [⟨⟨⟨0, 0, 0, 0⟩, 10, 100, 5, none, some 0⟩, ⟨⟨10, 0, 0, 1⟩, 10, 100, 5, none, some 0⟩, ⟨0, 0, 0, 0⟩, ⟨10, 0, 0, 1⟩⟩,
      ⟨⟨⟨10, 0, 0, 1⟩, 10, 100, 5, none, some 0⟩, ⟨⟨20, 0, 0, 1⟩, 10, 100, 5, some 1, some 0⟩, ⟨10, 0, 0, 1⟩, ⟨10, 0, 0, 1⟩⟩,
      ⟨⟨⟨20, 0, 0, 1⟩, 10, 100, 5, some 1, some 0⟩, ⟨⟨20, 0, 0, 1⟩, 10, 100, 5, some 1, some 0⟩, ⟨10, 0, 0, 1⟩,
        ⟨10, 0, 0, 1⟩⟩] := by
  unfold lazyProg
  simp only [executed]
  rw [if_neg (by simp), if_pos lazy_moves]
  simp [Vec4.add, Vec4.sub]

end Demo

/-- **C116 is false of the code**: the line that moves and pauses does not move the machine, but the layer metrics count its
move. -/
theorem c116_refuted : ¬ C116Full := by
  intro hfull
  obtain ⟨bs, h⟩ := (c86_plannable .klipper Demo.lazy_sensible).2 Demo.lazy_follow
  obtain ⟨rows, h1, h2⟩ := hfull .klipper Demo.lazyProg bs _ Demo.lazy_sensible h (by simp [Demo.lazyProg])
    (by rw [Demo.lazy_executed]; rfl) (by simp [Step.travelled, Vec4.sub, norm3, PyMath.sqrt])
    (by simp [Step.programmed, Vec4.sub, norm3, PyMath.sqrt])
  obtain ⟨rows', _, _, _, h1', _, _, _, _, _, _, h2', _⟩ := c116_layers Demo.lazy_sensible h (n := 0)
    (by rw [Demo.lazy_executed]; simp) (by rw [Demo.lazy_executed]; rfl) rfl
  rw [h1] at h1'
  cases h1'
  rw [h2, Demo.lazy_executed] at h2'
  simp only [List.dropLast, List.map_cons, List.map_nil, List.sum_cons, List.sum_nil, Step.travelled, Step.programmed,
    Vec4.sub, norm3, PyMath.sqrt] at h2'
  norm_num at h2'

/-- The summary and the layer metrics of this program: it prints up to `X10`, but `20` mm of travel are counted. -/
example (fw : Firmware) : ∃ bs sm rows, plan fw Demo.lazyProg = .ok bs ∧ saveSummary bs "SImm" = .ok sm ∧
    saveLayerMetrics true bs = .ok (some rows) ∧ (rows.map LayerRow.travel).sum = 20 ∧ ¬ Regular Demo.lazyProg := by
  obtain ⟨bs, h⟩ := (c86_plannable fw Demo.lazy_sensible).2 Demo.lazy_follow
  obtain ⟨sm, hs, _⟩ := (c116_summary Demo.lazy_sensible h (own := "SImm") (f := 1) (by simp [InUnit])).2
    ⟨_, by rw [Demo.lazy_executed]; exact List.mem_cons_self, by norm_num [Step.Extrudes]⟩
  obtain ⟨rows, _, _, _, h1, _, _, _, _, _, _, h2, _⟩ := c116_layers Demo.lazy_sensible h (n := 0)
    (by rw [Demo.lazy_executed]; simp) (by rw [Demo.lazy_executed]; rfl) rfl
  refine ⟨bs, sm, rows, h, hs, h1, ?_, ?_⟩
  · rw [h2, Demo.lazy_executed]
    simp only [List.dropLast, List.map_cons, List.map_nil, List.sum_cons, List.sum_nil, Step.programmed,
      Vec4.sub, norm3, PyMath.sqrt]
    have : √(100 : ℝ) = 10 := by rw [show (100 : ℝ) = 10 ^ 2 by norm_num, Real.sqrt_sq (by norm_num)]
    norm_num [this]
  · intro hr
    obtain ⟨A, hA, hp⟩ := hr.stays [_, _] _ [_] rfl (by simp)
    simp only [List.getLast?_cons_cons, List.getLast?_singleton, Option.some.injEq] at hA
    rw [← hA] at hp
    norm_num at hp

end PyGCD
