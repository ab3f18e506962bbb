import Verif.Props.Session
import Verif.Props.Query
import Verif.Props.Irregular

/-!
# Properties C81 and C82: queries in the life of a simulation object
-/

set_option linter.unusedSectionVars false
set_option linter.unusedSimpArgs false

namespace PyGCD
open Vec4 Spec

theorem run_planned {presets : Dict (Dict (SVal ℝ))} {cue : Option String} {p : String} (ops : List SimOp) :
    ∀ bk : SimBook, bk.planned = bk.states →
      (ops.foldl (SimBook.note presets cue p) bk).planned = (ops.foldl (SimBook.note presets cue p) bk).states := by
  induction ops with
  | nil => exact fun bk h => h
  | cons op ops ih =>
    intro bk h
    rw [List.foldl_cons]
    refine ih _ ?_
    cases op with
    | values t u => exact h
    | width t hh dia => exact h
    | refresh new => rfl
    | onSetup op => exact h

theorem refresh_own (s : Session ℝ) (new : Option (List (PState ℝ))) :
    (s.refresh new).2.own = s.own := by
  unfold Session.refresh
  dsimp only
  split
  · rfl
  · split <;> rfl

theorem run_own (ops : List SimOp) : ∀ s : Session ℝ, (ops.foldl Session.call s).own = s.own := by
  induction ops with
  | nil => exact fun s => rfl
  | cons op ops ih =>
    intro s
    rw [List.foldl_cons, ih]
    cases op with
    | refresh new => exact refresh_own s new
    | _ => rfl

/-- What a width query returns if the values query does. -/
theorem width_of_values {s : Session ℝ} {t hgt dia : ℝ} {v p : Vec4 ℝ}
    (h : (s.values t none).1 = .ok (v, p)) :
    (s.width t hgt dia).1 =
      .ok (if 0 < v.norm3 then v.e * (Real.pi * (dia * dia) / 4) / (hgt * v.norm3) else 0) := by
  have h' : (getValues (unpack s.blocks) s.own none t s.last).1 = .ok (v, p) := h
  simp only [Session.width, getWidth, h', Except.map, pi_real]

/-- A query in either form leaves the index of the values query. -/
theorem call_asks {s : Session ℝ} {q : SimOp} {t : ℝ} (h : q.asks = some t) :
    ∃ u, s.call q = (s.values t u).2 := by
  cases q with
  | values t' u => cases h; exact ⟨u, rfl⟩
  | width t' hh dia => cases h; exact ⟨none, rfl⟩
  | refresh new => cases h
  | onSetup op => cases h

theorem plan_nil (fw : Firmware) : plan fw ([] : List (PState ℝ)) = .ok [] := rfl

section
variable {presets shipped : Dict (Dict (SVal ℝ))} {printer cue : Option String} {s : Setup ℝ}
  {pf : List Char → Option ℝ} {content : List Char} {name : Option String} {unit : String} {sim : Session ℝ}

/-- After any calls the blocks are a plan of the object's states. -/
theorem run_plan (hc : Setup.create presets printer cue = .ok s) (before : List SetupOp)
    (hb : ∀ op ∈ before, op.WellFormed)
    (h : Session.create pf shipped content name (some (before.foldl Setup.call s)) unit = .ok sim)
    (hsens : Sensible sim.states) (ops : List SimOp) (hw : ∀ op ∈ ops, op.WellFormed Feasible) :
    let sim' := ops.foldl Session.call sim
    ∃ fw, Feasible sim'.states ∧ plan fw sim'.states = .ok sim'.blocks ∧ sim'.own = unit := by
  intro sim'
  obtain ⟨_, _, ho, hl⟩ := live_create (agrees_run before (agrees_create hc) hb) h hsens
  obtain ⟨_, hl'⟩ := live_run ops hl hw
  have e := hl'.blocks
  rw [run_planned ops _ rfl, ← hl'.states] at e
  refine ⟨_, ?_, e, (run_own ops sim).trans ho⟩
  have := hl'.regular
  rw [← hl'.states] at this
  exact this

/-- **C81.** Whatever was called on a simulation object and on its setup object, a query inside the print
answers with what a segment of the current trajectory containing that time reports, in the wanted unit system;
the width is computed from that velocity; before the start and behind the end both raise. -/
theorem c81_answers (hc : Setup.create presets printer cue = .ok s) (before : List SetupOp)
    (hb : ∀ op ∈ before, op.WellFormed)
    (h : Session.create pf shipped content name (some (before.foldl Setup.call s)) unit = .ok sim)
    (hsens : Sensible sim.states) (ops : List SimOp) (hw : ∀ op ∈ ops, op.WellFormed Feasible)
    {T : ℝ} (hT : EndTime (Spec.path (ops.foldl Session.call sim).blocks) T) {u : Option String} {f : ℝ}
    (hf : InUnit (u.getD unit) f) (t : ℝ) :
    let sim' := ops.foldl Session.call sim
    (0 ≤ t → t < T → ∃ s ∈ Spec.path sim'.blocks, ∃ v p, Covers s t ∧ s.getVelocity t = .ok v ∧
      s.getPosition t = .ok p ∧ (sim'.values t u).1 = .ok (v.mul f, p.mul f)) ∧
    (T < t → (sim'.values t u).1 = .error .attributeError) ∧
    (t < 0 → (sim'.values t u).1 = .error .typeError) := by
  intro sim'
  obtain ⟨fw, h1, h2, h3⟩ := run_plan hc before hb h hsens ops hw
  rw [← h3] at hf
  exact c93_answers h1.toSensible h2 hT hf sim'.last [] t

/-- **C81, width.** The same for `get_width`: inside the print it answers, `width * height * speed` is the
filament cross-section times the extrusion rate of a segment of the current trajectory containing that time,
and it is `0` where that segment stands still. -/
theorem c81_width (hc : Setup.create presets printer cue = .ok s) (before : List SetupOp)
    (hb : ∀ op ∈ before, op.WellFormed)
    (h : Session.create pf shipped content name (some (before.foldl Setup.call s)) unit = .ok sim)
    (hsens : Sensible sim.states) (ops : List SimOp) (hw : ∀ op ∈ ops, op.WellFormed Feasible)
    {T : ℝ} (hT : EndTime (Spec.path (ops.foldl Session.call sim).blocks) T) {f : ℝ}
    (hf : InUnit unit f) (t : ℝ) {hgt : ℝ} (hh : hgt ≠ 0) (dia : ℝ) :
    let sim' := ops.foldl Session.call sim
    (0 ≤ t → t < T → ∃ s ∈ Spec.path sim'.blocks, ∃ v w, Covers s t ∧ s.getVelocity t = .ok v ∧
      (sim'.width t hgt dia).1 = .ok w ∧
      (0 < v.norm3 → w * hgt * v.norm3 = Real.pi * dia ^ 2 / 4 * v.e) ∧ (v.norm3 = 0 → w = 0)) ∧
    (T < t → (sim'.width t hgt dia).1 = .error .attributeError) ∧
    (t < 0 → (sim'.width t hgt dia).1 = .error .typeError) := by
  intro sim'
  obtain ⟨a1, a2, a3⟩ := c81_answers hc before hb h hsens ops hw hT (u := none) hf t
  have key : ∀ e, (sim'.values t none).1 = .error e → (sim'.width t hgt dia).1 = .error e := by
    intro e he
    have h' : (getValues (unpack sim'.blocks) sim'.own none t sim'.last).1 = .error e := he
    simp only [Session.width, getWidth, h', Except.map]
  refine ⟨fun h0 h1 => ?_, fun h0 => key _ (a2 h0), fun h0 => key _ (a3 h0)⟩
  obtain ⟨s, hs, v, p, hcov, hv, hp, hval⟩ := a1 h0 h1
  have hw' := width_of_values (hgt := hgt) (dia := dia) hval
  have hfp := simScaling_pos hf.scaling
  refine ⟨s, hs, v, _, hcov, hv, hw', ?_, ?_⟩
  · intro hpos
    rw [norm3_mul, abs_of_pos hfp, if_pos (mul_pos hpos hfp)]
    simp only [Vec4.mul]
    have := hpos.ne'
    field_simp
  · intro hz
    rw [norm3_mul, hz, MulZeroClass.zero_mul, if_neg (lt_irrefl _)]

/-- **C81, history.** Two histories of calls that do not name the firmware and end with the same states give
the same position at every time, and the same velocity and width unless the time is exactly the end of a
segment. -/
theorem c81_history (hc : Setup.create presets printer cue = .ok s) (before : List SetupOp)
    (hb : ∀ op ∈ before, op.WellFormed)
    (h : Session.create pf shipped content name (some (before.foldl Setup.call s)) unit = .ok sim)
    (hsens : Sensible sim.states) (ops ops' : List SimOp) (hw : ∀ op ∈ ops, op.WellFormed Feasible)
    (hw' : ∀ op ∈ ops', op.WellFormed Feasible) (hk : ∀ op ∈ ops, op.KeepsFirmware)
    (hk' : ∀ op ∈ ops', op.KeepsFirmware)
    (hs : latestStates sim.states ops = latestStates sim.states ops') (t : ℝ) :
    let a := ops.foldl Session.call sim
    let b := ops'.foldl Session.call sim
    a.blocks = b.blocks ∧
    (∀ u v p v' p', (a.values t u).1 = .ok (v, p) → (b.values t u).1 = .ok (v', p') →
      p = p' ∧ ((∀ s ∈ Spec.path a.blocks, s.tEnd ≠ t) → v = v')) ∧
    (∀ hgt dia w w', (a.width t hgt dia).1 = .ok w → (b.width t hgt dia).1 = .ok w' →
      (∀ s ∈ Spec.path a.blocks, s.tEnd ≠ t) → w = w') := by
  intro a b
  obtain ⟨_, _, ho, hl⟩ := live_create (agrees_run before (agrees_create hc) hb) h hsens
  have hblk : a.blocks = b.blocks := by
    obtain ⟨_, l1⟩ := live_run ops hl hw
    obtain ⟨_, l2⟩ := live_run ops' hl hw'
    obtain ⟨a1, a2, a3, _⟩ := run_book (presets := presets) (cue := cue) (p := sim.printer) ops
      (SimBook.start presets cue _ sim.printer sim.states) rfl rfl hk
    obtain ⟨b1, b2, b3, _⟩ := run_book (presets := presets) (cue := cue) (p := sim.printer) ops'
      (SimBook.start presets cue _ sim.printer sim.states) rfl rfl hk'
    have e1 := l1.blocks
    have e2 := l2.blocks
    rw [a2, a1, a3] at e1
    rw [b2, b1, b3] at e2
    have hs' : latestStates sim.states ops = latestStates sim.states ops' := hs
    simp only [SimBook.start] at e1 e2
    rw [hs'] at e1
    rw [e1, Except.ok.injEq] at e2
    exact e2
  obtain ⟨fw, r1, r2, r3⟩ := run_plan hc before hb h hsens ops hw
  obtain ⟨_, _, _, r3'⟩ := run_plan hc before hb h hsens ops' hw'
  have hown : b.own = a.own := r3'.trans r3.symm
  have main : ∀ u v p v' p', (a.values t u).1 = .ok (v, p) → (b.values t u).1 = .ok (v', p') →
      p = p' ∧ ((∀ s ∈ Spec.path a.blocks, s.tEnd ≠ t) → v = v') := by
    intro u v p v' p' h1 h2
    have h1' : (getValues (unpack a.blocks) a.own u t a.last).1 = .ok (v, p) := h1
    have h2' : (getValues (unpack b.blocks) b.own u t b.last).1 = .ok (v', p') := h2
    rw [← hblk, hown] at h2'
    exact c93_history r1.toSensible r2 a.last b.last [] [] t h1' h2'
  refine ⟨hblk, main, ?_⟩
  intro hgt dia w w' h1 h2 hne
  have inv : ∀ (c : Session ℝ) (x : ℝ), (c.width t hgt dia).1 = .ok x →
      ∃ v p, (c.values t none).1 = .ok (v, p) := by
    intro c x hx
    cases hv : (c.values t none).1 with
    | ok vp => exact ⟨vp.1, vp.2, rfl⟩
    | error e =>
      have h' : (getValues (unpack c.blocks) c.own none t c.last).1 = .error e := hv
      simp only [Session.width, getWidth, h', Except.map] at hx
      cases hx
  obtain ⟨v, p, i1⟩ := inv a w h1
  obtain ⟨v', p', i2⟩ := inv b w' h2
  have hvv := (main none v p v' p' i1 i2).2 hne
  subst hvv
  rw [width_of_values i1, Except.ok.injEq] at h1
  rw [width_of_values i2, Except.ok.injEq] at h2
  rw [← h1, ← h2]

/-! ## C82: the end time -/

theorem Primed.append {T : ℝ} {ops : List SimOp} {q : SimOp} :
    Primed T (ops ++ [q]) ↔
      (∃ t, q.asks = some t ∧ 0 ≤ t ∧ t < T) ∨ (Primed T ops ∧ ∀ t, q.asks = some t → t ≤ T) := by
  constructor
  · rintro ⟨a, x, b, t, h1, h2, h3, h4, h5⟩
    rcases List.eq_nil_or_concat b with rfl | ⟨b', y, rfl⟩
    · rw [List.append_inj_right' h1 rfl |> List.singleton_inj.1] at *
      exact .inl ⟨t, h2, h3, h4⟩
    · have h6 : ops ++ [q] = (a ++ x :: b') ++ [y] := by rw [h1]; simp
      obtain ⟨h7, h8⟩ := List.append_inj' h6 rfl
      rw [List.singleton_inj] at h8
      subst h8
      refine .inr ⟨⟨a, x, b', t, h7, h2, h3, h4, fun r hr => h5 r (by simp [hr])⟩, h5 q (by simp)⟩
  · rintro (⟨t, h2, h3, h4⟩ | ⟨⟨a, x, b, t, h1, h2, h3, h4, h5⟩, h6⟩)
    · exact ⟨ops, q, [], t, rfl, h2, h3, h4, by simp⟩
    · refine ⟨a, x, b ++ [q], t, by rw [h1]; simp, h2, h3, h4, ?_⟩
      intro r hr
      rcases List.mem_append.1 hr with hr | hr
      · exact h5 r hr
      · rw [List.mem_singleton] at hr
        subst hr
        exact h6

/-- Calls without a `refresh` keep the blocks; the index is remembered iff the calls are `Primed`. -/
theorem run_primed {sim : Session ℝ} (htl : Timeline (unpack sim.blocks)) {T : ℝ}
    (hT : EndTime (unpack sim.blocks) T) (hnew : sim.last = none) (ops : List SimOp)
    (hr : ∀ op ∈ ops, ∀ new, op ≠ .refresh new) :
    let sim' := ops.foldl Session.call sim
    sim'.blocks = sim.blocks ∧ sim'.states = sim.states ∧ (∀ i, sim'.last = some i → i < (unpack sim.blocks).length) ∧
    (sim'.last.isSome ↔ Primed T ops) := by
  induction ops using List.reverseRecOn with
  | nil =>
    refine ⟨rfl, rfl, by simp [hnew], ?_⟩
    simp only [List.foldl_nil, hnew, Option.isSome_none, Bool.false_eq_true, false_iff]
    rintro ⟨a, q, b, t, h, _⟩
    simp at h
  | append_singleton ops q ih =>
    obtain ⟨i1, i2, i3, i4⟩ := ih fun op ho => hr op (by simp [ho])
    rw [List.foldl_append, List.foldl_cons, List.foldl_nil, Primed.append]
    set a := ops.foldl Session.call sim with ha
    cases hq : q.asks with
    | none =>
      have hsame : (a.call q).blocks = a.blocks ∧ (a.call q).states = a.states ∧ (a.call q).last = a.last := by
        cases q with
        | values t u => cases hq
        | width t hh dia => cases hq
        | refresh new => exact absurd rfl (hr _ (by simp) new)
        | onSetup op => exact ⟨rfl, rfl, rfl⟩
      obtain ⟨s1, s2, s3⟩ := hsame
      dsimp only
      rw [s1, s2, s3]
      refine ⟨i1, i2, i3, ?_⟩
      rw [i4]
      simp
    | some t =>
      obtain ⟨u, hu⟩ := call_asks (s := a) hq
      rw [hu]
      refine ⟨i1, i2, ?_⟩
      have hsp := findSegment_spec htl hT t a.last
      have hval : (a.values t u).2.last = (getValues (unpack sim.blocks) a.own u t a.last).2 := by
        rw [← i1]; rfl
      rw [hval]
      simp only [Option.some.injEq, exists_eq_left', forall_eq']
      rcases lt_trichotomy t T with hlt | heq | hgt
      · rcases lt_or_ge t 0 with hneg | h0
        · have e : (getValues (unpack sim.blocks) a.own u t a.last).2 = a.last := by
            unfold getValues
            rw [hsp.2.1 hneg]
          rw [e]
          refine ⟨i3, ?_⟩
          rw [i4]
          constructor
          · exact fun hp => .inr ⟨hp, hlt.le⟩
          · rintro (h | h)
            · exact absurd hneg (not_lt.2 h.1)
            · exact h.1
        · obtain ⟨x, i, hx⟩ := hsp.2.2.1 h0 hlt
          have e : (getValues (unpack sim.blocks) a.own u t a.last).2 = some i := by
            unfold getValues
            rw [hx]
          rw [e]
          refine ⟨?_, ?_⟩
          · intro j hj
            cases hj
            exact (List.getElem?_eq_some_iff.1 (findSegment_sound hx).1).1
          · simp [h0, hlt]
      · by_cases hi : ∃ i, a.last = some i ∧ i < (unpack sim.blocks).length
        · obtain ⟨x, i, hx⟩ := hsp.2.2.2.1 heq hi
          have e : (getValues (unpack sim.blocks) a.own u t a.last).2 = some i := by
            unfold getValues
            rw [hx]
          rw [e]
          refine ⟨?_, ?_⟩
          · intro j hj
            cases hj
            exact (List.getElem?_eq_some_iff.1 (findSegment_sound hx).1).1
          · have : Primed T ops := i4.1 (by obtain ⟨j, hj, _⟩ := hi; rw [hj]; rfl)
            simp [this, heq]
        · have e : (getValues (unpack sim.blocks) a.own u t a.last).2 = a.last := by
            unfold getValues
            rw [hsp.2.2.2.2 heq hi]
          rw [e]
          refine ⟨i3, ?_⟩
          rw [i4]
          constructor
          · exact fun hp => .inr ⟨hp, heq.le⟩
          · rintro (h | h)
            · exact absurd heq h.2.ne
            · exact h.1
      · have e : (getValues (unpack sim.blocks) a.own u t a.last).2 = none := by
          unfold getValues
          rw [hsp.1 hgt]
        rw [e]
        refine ⟨by simp, ?_⟩
        simp only [Option.isSome_none, Bool.false_eq_true, false_iff]
        rintro (h | h)
        · exact absurd hgt h.2.not_gt
        · exact absurd hgt h.2.not_gt

/-- **C82.** As long as a new simulation object is not refreshed, asking it for its end time works exactly if
some earlier query (of values or of a width) asked for a time before the end and no query after that one asked
for a time behind the end; the answer is then the last programmed position less what was lost on the way (`C87`).
Otherwise `get_values` raises `TypeError`. -/
theorem c82_end_time_sensible (hc : Setup.create presets printer cue = .ok s) (before : List SetupOp)
    (hb : ∀ op ∈ before, op.WellFormed)
    (h : Session.create pf shipped content name (some (before.foldl Setup.call s)) unit = .ok sim)
    (hsens : Sensible sim.states) (ops : List SimOp) (hw : ∀ op ∈ ops, op.WellFormed Feasible)
    (hr : ∀ op ∈ ops, ∀ new, op ≠ .refresh new) {T : ℝ} (hT : EndTime (Spec.path sim.blocks) T)
    {u : Option String} {f : ℝ} (hf : InUnit (u.getD unit) f) :
    let sim' := ops.foldl Session.call sim
    (Primed T ops → ∃ v p, (sim'.values T u).1 = .ok (v, p) ∧ ∀ q ∈ sim.states.getLast?,
      p = (q.position.sub (total (lostMoves false none sim.states))).mul f) ∧
    (¬ Primed T ops → (sim'.values T u).1 = .error .typeError) := by
  intro sim'
  obtain ⟨_, hlast, _, _⟩ := live_create (agrees_run before (agrees_create hc) hb) h hsens
  obtain ⟨fw, r1, r2, r3⟩ := run_plan hc before hb h hsens ops hw
  obtain ⟨fw0, q1, q2, q3⟩ := run_plan hc before hb h hsens [] (by simp)
  have hT' := hT
  rw [path_eq] at hT'
  obtain ⟨b1, b2, b3, b4⟩ := run_primed (sim := sim) (sensible_timeline q1.toSensible q2) hT' hlast ops hr
  rw [← r3] at hf
  have hiff : (∃ i, sim'.last = some i ∧ i < (Spec.path sim'.blocks).length) ↔ Primed T ops := by
    rw [← b4, path_eq]
    constructor
    · rintro ⟨i, hi, _⟩
      show sim'.last.isSome
      rw [hi]
      rfl
    · intro hi
      obtain ⟨i, hi⟩ := Option.isSome_iff_exists.1 hi
      exact ⟨i, hi, by rw [b1]; exact b3 i hi⟩
  cases hL : sim.states.getLast? with
  | none =>
    exfalso
    rw [List.getLast?_eq_none_iff] at hL
    change plan fw0 sim.states = .ok sim.blocks at q2
    rw [hL, plan_nil] at q2
    obtain ⟨z, hz, _⟩ := hT
    rw [← Except.ok.inj q2] at hz
    cases hz
  | some L =>
    have law := c93_end r1.toSensible r2 (T := T) (by rw [b1]; exact hT) hf (L := L) (by rw [b2]; exact hL) sim'.last
    rw [b2, hiff] at law
    refine ⟨fun hp => ?_, law.2⟩
    obtain ⟨v, p, e1, e2⟩ := law.1 hp
    exact ⟨v, p, e1, fun q hq => by cases hq; exact e2⟩

/-- **C82 for regular programs:** the answer is the last position. -/
theorem c82_end_time (hc : Setup.create presets printer cue = .ok s) (before : List SetupOp)
    (hb : ∀ op ∈ before, op.WellFormed)
    (h : Session.create pf shipped content name (some (before.foldl Setup.call s)) unit = .ok sim)
    (hreg : Regular sim.states) (ops : List SimOp) (hw : ∀ op ∈ ops, op.WellFormed Feasible)
    (hr : ∀ op ∈ ops, ∀ new, op ≠ .refresh new) {T : ℝ} (hT : EndTime (Spec.path sim.blocks) T)
    {u : Option String} {f : ℝ} (hf : InUnit (u.getD unit) f) :
    let sim' := ops.foldl Session.call sim
    (Primed T ops → ∃ v p, (sim'.values T u).1 = .ok (v, p) ∧ ∀ q ∈ sim.states.getLast?, p = q.position.mul f) ∧
    (¬ Primed T ops → (sim'.values T u).1 = .error .typeError) := by
  intro sim'
  have hsens := hreg.feasible.toSensible
  obtain ⟨c1, c2⟩ := c82_end_time_sensible hc before hb h hsens ops hw hr hT hf
  refine ⟨fun hp => ?_, c2⟩
  obtain ⟨v, p, e1, e2⟩ := c1 hp
  refine ⟨v, p, e1, fun q hq => ?_⟩
  obtain ⟨fw0, _, q2, _⟩ := run_plan hc before hb h hsens [] (by simp)
  change plan fw0 sim.states = .ok sim.blocks at q2
  obtain ⟨z, hz, _⟩ := hT
  have hne : sim.blocks ≠ [] := by
    intro hn
    rw [hn] at hz
    cases hz
  obtain ⟨_, s', _, h2, _, _, h4⟩ := unpack_ends hreg q2 hne
  rw [e2 q hq, ← c87_displaced hsens q2 hq s' h2, h4 q hq]

end

/-- The hypotheses of C81 and C82 are met: a setup with a call on it, a simulation of `G1 X10`, and calls of
every kind. -/
example : ∃ s sim T, Setup.create Demo.presets (some "p") none = .ok s ∧
    Session.create Demo.pf [] ['G', '1', ' ', 'X', '1', '0'] none
      (some ([SetupOp.setPos (.tuple [1, 0, 0, 0]) (some "inch")].foldl Setup.call s)) "SImm" = .ok sim ∧
    Regular sim.states ∧ EndTime (Spec.path sim.blocks) T ∧ 0 < T ∧
    ¬ Primed T [.values (T + 1) none, .onSetup .read, .values T none] ∧
    ¬ Primed T [.values 0 none, .width (T + 1) 1 1] ∧
    Primed T [.width (T + 1) 1 1, .width 0 1 1, .onSetup .read, .values (-1) none, .values T none] := by
  obtain ⟨s, sim, h1, h2, h3, _, h5⟩ := Demo.session
  have hreg : Regular sim.states := by rw [h3]; exact Demo.fileRegular
  rw [← h3] at h5
  obtain ⟨_, T, hb, hT⟩ : ∃ bs T, plan .klipper sim.states = .ok bs ∧ endTime bs = .ok T := by
    obtain ⟨bs, hb, hpl, he⟩ := simulate_ok .klipper Demo.fileRegular Demo.fileActive
    obtain ⟨_, s', _, _, e, _⟩ := unpack_ends Demo.fileRegular hpl he
    rw [h3]
    exact ⟨bs, _, hpl, e⟩
  rw [h5, Except.ok.injEq] at hb
  subst hb
  have hpos := endTime_pos hreg h5 hT
  refine ⟨s, sim, T, h1, h2, hreg, endTime_path hT, hpos, ?_, ?_, ?_⟩
  · rw [show ([.values (T + 1) none, .onSetup .read, .values T none] : List SimOp) =
      (([] ++ [.values (T + 1) none]) ++ [.onSetup .read]) ++ [.values T none] from rfl]
    simp only [Primed.append, SimOp.asks, Option.some.injEq]
    rintro (⟨t, rfl, _, h⟩ | ⟨⟨t, h, _⟩ | ⟨⟨t, rfl, _, h⟩ | ⟨_, h⟩, _⟩, _⟩)
    · exact lt_irrefl _ h
    · cases h
    · linarith
    · linarith [h _ rfl]
  · rw [show ([.values 0 none, .width (T + 1) 1 1] : List SimOp) =
      ([] ++ [.values 0 none]) ++ [.width (T + 1) 1 1] from rfl]
    simp only [Primed.append, SimOp.asks, Option.some.injEq]
    rintro (⟨t, rfl, _, h⟩ | ⟨_, h⟩)
    · linarith
    · linarith [h _ rfl]
  · refine ⟨[.width (T + 1) 1 1], .width 0 1 1, [.onSetup .read, .values (-1) none, .values T none], 0, rfl, rfl,
      le_rfl, hpos, ?_⟩
    intro r hr t ht
    simp only [List.mem_cons, List.not_mem_nil, or_false] at hr
    rcases hr with rfl | rfl | rfl
    · cases ht
    · cases ht
      linarith
    · cases ht
      exact le_rfl

end PyGCD
