import Verif.Props.Executed
import Verif.Props.Output
import Verif.Spec.Irregular

/-!
# Properties C93 and C94: asking about programs with moves that are not carried out

C30 to C40 are about regular programs. Here feedrates may be zero, a line may both move and pause, and only `Spec.Sensible`
settings are asked for.
-/

set_option linter.unusedSectionVars false
set_option linter.unusedSimpArgs false

namespace PyGCD
open Vec4 Spec

variable {fw : Firmware} {states : List (PState ℝ)} {bs : List (Block ℝ)}

/-! ## C93 -/

theorem sensible_timeline (hsens : Sensible states) (h : plan fw states = .ok bs) : Timeline (unpack bs) :=
  (c87_smooth hsens h).1

/-- **C93.** Every time from the start to before the end can be asked for, after any other questions. -/
theorem c93_answers (hsens : Sensible states) (h : plan fw states = .ok bs) {T : ℝ}
    (hT : EndTime (Spec.path bs) T) {own : String} {u : Option String} {f : ℝ}
    (hf : InUnit (u.getD own) f) (start : Option Nat) (history : List (ℝ × Option String)) (t : ℝ) :
    let last := queryHistory (unpack bs) own history start
    (0 ≤ t → t < T → ∃ s ∈ Spec.path bs, ∃ v p, Covers s t ∧ s.getVelocity t = .ok v ∧
      s.getPosition t = .ok p ∧ (getValues (unpack bs) own u t last).1 = .ok (v.mul f, p.mul f)) ∧
    (T < t → (getValues (unpack bs) own u t last).1 = .error .attributeError) ∧
    (t < 0 → (getValues (unpack bs) own u t last).1 = .error .typeError) :=
  (sensible_timeline hsens h).answers hT hf start history t

/-- **C93.** Other questions before do not change the position, nor the velocity but at the ends of segments. -/
theorem c93_history (hsens : Sensible states) (h : plan fw states = .ok bs) {own : String}
    {u : Option String} (start start' : Option Nat) (history history' : List (ℝ × Option String)) (t : ℝ)
    {v p v' p' : Vec4 ℝ}
    (h1 : (getValues (unpack bs) own u t (queryHistory (unpack bs) own history start)).1 = .ok (v, p))
    (h2 : (getValues (unpack bs) own u t (queryHistory (unpack bs) own history' start')).1 = .ok (v', p')) :
    p = p' ∧ ((∀ s ∈ Spec.path bs, s.tEnd ≠ t) → v = v') :=
  (sensible_timeline hsens h).history start start' history history' t h1 h2

/-- **C93.** The end time can be asked for iff a segment is remembered, and the answer is the last programmed place less
what was lost on the way. -/
theorem c93_end (hsens : Sensible states) (h : plan fw states = .ok bs) {T : ℝ}
    (hT : EndTime (Spec.path bs) T) {own : String} {u : Option String} {f : ℝ}
    (hf : InUnit (u.getD own) f) {L : PState ℝ} (hL : states.getLast? = some L) (last : Option Nat) :
    ((∃ i, last = some i ∧ i < (Spec.path bs).length) →
      ∃ v p, (getValues (unpack bs) own u T last).1 = .ok (v, p) ∧
        p = (L.position.sub (total (lostMoves false none states))).mul f) ∧
    ((¬ ∃ i, last = some i ∧ i < (Spec.path bs).length) →
      (getValues (unpack bs) own u T last).1 = .error .typeError) := by
  obtain ⟨q1, q2⟩ := (sensible_timeline hsens h).at_end hT hf last
  refine ⟨fun hi => ?_, q2⟩
  obtain ⟨v, p, r1, r2⟩ := q1 hi
  obtain ⟨s, hs, _⟩ := hT
  exact ⟨v, p, r1, by rw [r2 s hs, c87_displaced hsens h hL s hs]⟩

/-- **C93.** The reported velocity is the derivative of the reported position, in every segment. -/
theorem c93_derivative (hsens : Sensible states) (h : plan fw states = .ok bs) {s : Segment ℝ}
    (hs : s ∈ Spec.path bs) :
    ∃ pos vel : ℝ → Vec4 ℝ,
      (∀ t, Covers s t → s.getPosition t = .ok (pos t) ∧ s.getVelocity t = .ok (vel t)) ∧
      pos s.tBegin = s.posBegin ∧ pos s.tEnd = s.posEnd ∧
      vel s.tBegin = s.velBegin ∧ (s.tBegin < s.tEnd → vel s.tEnd = s.velEnd) ∧
      ∀ t, HasDerivAt (fun t => (pos t).x) (vel t).x t ∧ HasDerivAt (fun t => (pos t).y) (vel t).y t ∧
        HasDerivAt (fun t => (pos t).z) (vel t).z t ∧ HasDerivAt (fun t => (pos t).e) (vel t).e t :=
  (sensible_timeline hsens h).derivative hs

/-- **C93.** Sampling at any non-decreasing times within the print succeeds and reports the motion. -/
theorem c93_sampling (hsens : Sensible states) (h : plan fw states = .ok bs) {T : ℝ}
    (hT : EndTime (Spec.path bs) T) {ts : List ℝ} (hts : ∀ t ∈ ts, 0 ≤ t ∧ t ≤ T)
    (hsort : ts.Pairwise (· ≤ ·)) :
    ∃ vals, sampleLoop (unpack bs) 0 ts = .ok vals ∧
      List.Forall₂ (fun t vp => ∃ s ∈ Spec.path bs, Covers s t ∧ s.getVelocity t = .ok vp.1 ∧
        s.getPosition t = .ok vp.2) ts vals :=
  (sensible_timeline hsens h).sampling hT hts hsort

/-- **C93.** The event series describes the ends of all segments. -/
theorem c93_event_series (hsens : Sensible states) (h : plan fw states = .ok bs) {T : ℝ}
    (hT : EndTime (Spec.path bs) T) {own : String} {u : Option String} {f : ℝ}
    (hf : InUnit (u.getD own) f) (tol : ℝ) :
    ∃ rows, abaqusEvents bs own u tol = .ok rows ∧ rows.length = (Spec.path bs).length + 1 ∧
      rows.head?.map EventRow.t = some 0 ∧ rows.getLast?.map EventRow.t = some T ∧
      rows.Pairwise (fun r r' => r.t ≤ r'.t) ∧ (∀ r ∈ rows.getLast?, r.flag = 0) ∧
      ∀ i s, (Spec.path bs)[i]? = some s → ∃ r r', rows[i]? = some r ∧ rows[i + 1]? = some r' ∧
        r.t = s.tBegin ∧ r'.t = s.tEnd ∧
        (r.x = f * s.posBegin.x ∧ r.y = f * s.posBegin.y ∧ r.z = f * s.posBegin.z) ∧
        (r'.x = f * s.posEnd.x ∧ r'.y = f * s.posEnd.y ∧ r'.z = f * s.posEnd.z) ∧
        (r.flag = 1 ↔ tol < s.posEnd.e - s.posBegin.e) ∧ (r.flag = 0 ∨ r.flag = 1) :=
  (sensible_timeline hsens h).events hT hf tol

/-- **C93.** Between two rows of the event series interpolation is exact iff the velocity is constant. -/
theorem c93_interpolation (hsens : Sensible states) (h : plan fw states = .ok bs) {s : Segment ℝ}
    (hs : s ∈ Spec.path bs) {t : ℝ} (h1 : s.tBegin < t) (h2 : t < s.tEnd) :
    s.getPosition t = .ok (lerp s t) ↔ s.velBegin = s.velEnd :=
  (sensible_timeline hsens h).lerp_iff hs h1 h2

/-- The example program with lost moves has an end time, so that all of the above applies to it. -/
example (fw : Firmware) : ∃ bs T, plan fw Demo.lossy = .ok bs ∧ EndTime (Spec.path bs) T ∧ ¬ Regular Demo.lossy := by
  obtain ⟨bs, h⟩ := (c86_plannable fw Demo.lossy_sensible).2 Demo.lossy_follow
  have hc := c87_carried_out Demo.lossy_sensible h
  rw [Demo.lossy_executed] at hc
  cases hl : (Spec.path bs).getLast? with
  | some s =>
    refine ⟨bs, s.tEnd, h, ⟨s, hl, rfl⟩, fun hr => ?_⟩
    have := hr.speed Demo.zeroFeed (by simp [Demo.lossy])
    exact lt_irrefl _ this
  | none =>
    exfalso
    rw [List.getLast?_eq_none_iff] at hl
    cases hc with
    | @cons b _ _ _ q _ =>
    obtain ⟨u, t, v, t', v', _, _, hne, _⟩ := q.move rfl
    unfold Spec.path at hl
    rw [List.flatMap_cons, List.append_eq_nil_iff] at hl
    exact hne hl.1

/-! ## C94 -/

/-- Which blocks are marked as extruding. -/
theorem marked_blocks (hsens : Sensible states) (h : plan fw states = .ok bs) :
    List.Forall₂ (fun b x => CarriesOut b x ∧ (b.isExtruding = true ↔ x.Extrudes)) bs (executed none none states) := by
  obtain ⟨bs', h1, h2, h3, h4, h5⟩ := plan_anchored hsens h
  have hg := h2.good
  clear h2 h h5
  generalize executed none none states = xs at h3 h4 ⊢
  induction h1 generalizing xs with
  | nil =>
    cases h3
    exact .nil
  | cons ha _ ih =>
    cases h3 with
    | cons q1 q2 =>
    cases h4 with
    | cons r1 r2 =>
    refine .cons ⟨carriesOut ha (hg _ (by simp)) q1 r1, ?_⟩ (ih (fun c hc => hg c (by simp [hc])) _ q2 r2)
    rw [q1.2.2, decide_eq_true_iff]
    rfl

/-- A step goes from its source to its destination along the programmed displacement. -/
theorem executed_steps : ∀ (rest : List (PState ℝ)) (here : Option (Vec4 ℝ)) (A : Option (PState ℝ)),
    ∀ x ∈ executed here A rest, (x.B.pause = none → x.dst = x.src.add (x.B.position.sub x.A.position)) ∧
      (x.B.pause ≠ none → x.dst = x.src) := by
  intro rest
  induction rest with
  | nil => intro here A x hx; rw [executed] at hx; cases hx
  | cons s rest ih =>
    intro here A x hx
    cases A with
    | none => rw [executed] at hx; exact ih _ _ x hx
    | some A =>
      rw [executed] at hx
      by_cases hp : s.pause ≠ none
      · simp only [if_pos hp] at hx
        rcases List.mem_cons.1 hx with rfl | hx
        · exact ⟨fun h => absurd h hp, fun _ => rfl⟩
        · exact ih _ _ x hx
      · simp only [if_neg hp] at hx
        by_cases hr : Executes A s
        · simp only [if_pos hr] at hx
          rcases List.mem_cons.1 hx with rfl | hx
          · exact ⟨fun _ => rfl, fun h => absurd h hp⟩
          · exact ih _ _ x hx
        · simp only [if_neg hr] at hx
          exact ih _ _ x hx

/-- Along a step the machine is on the line from source to destination. -/
theorem CarriesOut.straight {b : Block ℝ} {x : Step} (h : CarriesOut b x) {s : Segment ℝ} (hs : s ∈ b.segments)
    {t : ℝ} {p : Vec4 ℝ} (hv : s.getPosition t = .ok p) :
    (x.B.pause ≠ none → p = x.src) ∧
    (x.B.pause = none → ∃ c, 0 ≤ c ∧ c ≤ 1 ∧ p = x.src.add ((x.dst.sub x.src).mul c)) := by
  constructor
  · intro hp
    obtain ⟨q, hq⟩ := Option.ne_none_iff_exists'.1 hp
    obtain ⟨t0, ht0⟩ := h.pause q hq
    rw [ht0, List.mem_singleton] at hs
    subst hs
    exact static_position hv
  · intro hp
    obtain ⟨u, t1, v, t', v', hu, hpos, _, hramp, _⟩ := h.move hp
    have hd := getPosition_defined hv
    obtain ⟨L, hL0, hLp, hL⟩ := hramp.mem
    obtain ⟨w, w₁, l, l₁, g⟩ := hL s hs
    obtain ⟨b1, b2⟩ := g.dist_bounds hd
    rw [g.getPosition hd, Except.ok.injEq] at hv
    have d0 := le_trans g.hl b1
    have d1 := le_trans b2 g.hl₁
    revert d0 d1 hv
    generalize l + (w + SegOn.speed s w w₁ t) / 2 * (t - s.tBegin) = d
    intro hv d0 d1
    refine ⟨d / L, div_nonneg d0 hL0, div_le_one_of_le₀ d1 hL0, ?_⟩
    rw [← hv, hLp]
    rcases hL0.eq_or_lt with h0 | h0
    · have : d = 0 := le_antisymm (by rw [h0]; exact d1) d0
      subst this
      subst h0
      ext <;> simp [Vec4.add, Vec4.sub, Vec4.mul]
    · ext <;> simp only [Vec4.add, Vec4.sub, Vec4.mul] <;> field_simp <;> ring

/-- The extent of the marked blocks: it encloses their programmed ends, and no smaller box does. -/
theorem extent_ends {own : String} {u : Option String} {f : ℝ} (hf : InUnit (u.getD own) f) :
    ((∀ b ∈ bs, b.isExtruding = false) → extrusionExtent bs own u = .error .valueError) ∧
    ((∃ b ∈ bs, b.isExtruding = true) → ∃ lo hi, extrusionExtent bs own u = .ok (lo, hi) ∧
      (∀ b ∈ bs, b.isExtruding = true → ∀ p, (b.stateA.map PState.position = some p ∨ b.stateB.position = p) →
        Within lo hi (p.mul f)) ∧
      ∀ c : Vec4 ℝ → ℝ, c = Vec4.x ∨ c = Vec4.y ∨ c = Vec4.z →
        (∃ b ∈ bs, b.isExtruding = true ∧ ∃ p, (b.stateA.map PState.position = some p ∨
          b.stateB.position = p) ∧ c lo = c p * f) ∧
        ∃ b ∈ bs, b.isExtruding = true ∧ ∃ p, (b.stateA.map PState.position = some p ∨
          b.stateB.position = p) ∧ c hi = c p * f) := by
  replace hf := hf.scaling
  have hfp := simScaling_pos hf
  constructor
  · intro hno
    have : extrudingPoints bs = [] := by
      apply List.eq_nil_iff_forall_not_mem.2
      intro p hp
      obtain ⟨b, hb, he, _⟩ := mem_extrudingPoints.1 hp
      rw [hno b hb] at he
      cases he
    unfold extrusionExtent
    rw [this]
  · rintro ⟨b₀, hb₀, he₀⟩
    cases hp : extrudingPoints bs with
    | nil =>
      have : b₀.stateB.position ∈ extrudingPoints bs :=
        mem_extrudingPoints.2 ⟨b₀, hb₀, he₀, Or.inr rfl⟩
      rw [hp] at this
      cases this
    | cons q qs =>
      refine ⟨(vecFold listMin q qs).mul f, (vecFold listMax q qs).mul f, ?_, ?_, ?_⟩
      · unfold extrusionExtent
        rw [hp]
        simp only [hf, bind, Except.bind]
      · intro b hb he p hpb
        have hm : p ∈ q :: qs := by
          rw [← hp]
          exact mem_extrudingPoints.2 ⟨b, hb, he, hpb⟩
        have key : ∀ (k : Vec4 ℝ → ℝ),
            listMin (k q) (qs.map k) * f ≤ k p * f ∧ k p * f ≤ listMax (k q) (qs.map k) * f := by
          intro k
          have hk : k p ∈ k q :: qs.map k := by rw [← List.map_cons]; exact List.mem_map.2 ⟨_, hm, rfl⟩
          exact ⟨mul_le_mul_of_nonneg_right ((listMin_spec (k q) (qs.map k)).1 _ hk) hfp.le,
            mul_le_mul_of_nonneg_right ((listMax_spec (k q) (qs.map k)).1 _ hk) hfp.le⟩
        exact ⟨key Vec4.x, key Vec4.y, key Vec4.z⟩
      · have key : ∀ (k : Vec4 ℝ → ℝ) (v : ℝ), v ∈ k q :: qs.map k →
            ∃ b ∈ bs, b.isExtruding = true ∧ ∃ p, (b.stateA.map PState.position = some p ∨
              b.stateB.position = p) ∧ v * f = k p * f := by
          intro k v hv
          rw [← List.map_cons, ← hp] at hv
          obtain ⟨p, hp', hk⟩ := List.mem_map.1 hv
          obtain ⟨b, hb, he, hpb⟩ := mem_extrudingPoints.1 hp'
          exact ⟨b, hb, he, p, hpb, by rw [hk]⟩
        rintro c (rfl | rfl | rfl)
        · exact ⟨key _ _ (listMin_spec _ _).2, key _ _ (listMax_spec _ _).2⟩
        · exact ⟨key _ _ (listMin_spec _ _).2, key _ _ (listMax_spec _ _).2⟩
        · exact ⟨key _ _ (listMin_spec _ _).2, key _ _ (listMax_spec _ _).2⟩

theorem Spec.Within.between {lo hi p q : Vec4 ℝ} {f c : ℝ} (hp : Within lo hi (p.mul f)) (hq : Within lo hi (q.mul f))
    (h0 : 0 ≤ c) (h1 : c ≤ 1) : Within lo hi ((p.add ((q.sub p).mul c)).mul f) := by
  obtain ⟨⟨a1, a2⟩, ⟨a3, a4⟩, a5, a6⟩ := hp
  obtain ⟨⟨b1, b2⟩, ⟨b3, b4⟩, b5, b6⟩ := hq
  simp only [Vec4.mul] at a1 a2 a3 a4 a5 a6 b1 b2 b3 b4 b5 b6
  have key : ∀ l h x y : ℝ, l ≤ x * f → x * f ≤ h → l ≤ y * f → y * f ≤ h →
      l ≤ (x + (y - x) * c) * f ∧ (x + (y - x) * c) * f ≤ h := by
    intro l h x y q1 q2 q3 q4
    have e : (x + (y - x) * c) * f = (x * f) * (1 - c) + (y * f) * c := by ring
    have hc : 0 ≤ 1 - c := by linarith
    rw [e]
    constructor
    · nlinarith [mul_le_mul_of_nonneg_right q1 hc, mul_le_mul_of_nonneg_right q3 h0]
    · nlinarith [mul_le_mul_of_nonneg_right q2 hc, mul_le_mul_of_nonneg_right q4 h0]
  exact ⟨key _ _ _ _ a1 a2 b1 b2, key _ _ _ _ a3 a4 b3 b4, key _ _ _ _ a5 a6 b5 b6⟩

/-- Of two lists that correspond, every element has its partner. -/
theorem partner {α β : Type} {R : α → β → Prop} : ∀ {l : List α} {l' : List β}, List.Forall₂ R l l' →
    (∀ a ∈ l, ∃ b ∈ l', R a b) ∧ (∀ b ∈ l', ∃ a ∈ l, R a b) ∧
      ∀ (i : Nat) a b, l[i]? = some a → l'[i]? = some b → R a b := by
  intro l l' h
  induction h with
  | nil => simp
  | cons h _ ih =>
    obtain ⟨i1, i2, i3⟩ := ih
    refine ⟨?_, ?_, ?_⟩
    · intro a ha
      rcases List.mem_cons.1 ha with rfl | ha
      · exact ⟨_, by simp, h⟩
      · obtain ⟨b, hb, hr⟩ := i1 a ha
        exact ⟨b, by simp [hb], hr⟩
    · intro b hb
      rcases List.mem_cons.1 hb with rfl | hb
      · exact ⟨_, by simp, h⟩
      · obtain ⟨a, ha, hr⟩ := i2 b hb
        exact ⟨a, by simp [ha], hr⟩
    · intro i a b ha hb
      cases i with
      | zero =>
        simp only [List.getElem?_cons_zero, Option.some.injEq] at ha hb
        rw [← ha, ← hb]
        exact h
      | succ i => exact i3 i a b (by simpa using ha) (by simpa using hb)

/-- **C94, the law.** The extent is that of the programmed ends of the steps that extrude: it encloses them, and each of
its six bounds is one of their coordinates. What is simulated lies in it after adding the offset between the program and the
machine. It raises exactly if there is no such step. -/
theorem c94_extent (hsens : Sensible states) (h : plan fw states = .ok bs) {own : String}
    {u : Option String} {f : ℝ} (hf : InUnit (u.getD own) f) :
    ((∀ x ∈ executed none none states, ¬ x.Extrudes) → extrusionExtent bs own u = .error .valueError) ∧
    ((∃ x ∈ executed none none states, x.Extrudes) → ∃ lo hi, extrusionExtent bs own u = .ok (lo, hi) ∧
      (∀ x ∈ executed none none states, x.Extrudes →
        Within lo hi (x.A.position.mul f) ∧ Within lo hi (x.B.position.mul f)) ∧
      (∀ (i : Nat) b x, bs[i]? = some b → (executed none none states)[i]? = some x → x.Extrudes →
        ∀ s ∈ b.segments, ∀ t p, s.getPosition t = .ok p → Within lo hi ((p.add x.offset).mul f)) ∧
      ∀ c : Vec4 ℝ → ℝ, c = Vec4.x ∨ c = Vec4.y ∨ c = Vec4.z →
        (∃ x ∈ executed none none states, x.Extrudes ∧ (c lo = c x.A.position * f ∨ c lo = c x.B.position * f)) ∧
        ∃ x ∈ executed none none states, x.Extrudes ∧ (c hi = c x.A.position * f ∨ c hi = c x.B.position * f)) := by
  have hm := marked_blocks hsens h
  obtain ⟨m1, m2, m3⟩ := partner hm
  obtain ⟨e1, e2⟩ := extent_ends (bs := bs) hf
  constructor
  · intro hno
    apply e1
    intro b hb
    obtain ⟨x, hx, _, hbx⟩ := m1 b hb
    rw [← Bool.not_eq_true]
    exact fun hc => hno x hx (hbx.1 hc)
  · rintro ⟨x₀, hx₀, he₀⟩
    obtain ⟨b₀, hb₀, _, hbx₀⟩ := m2 x₀ hx₀
    obtain ⟨lo, hi, r1, r2, r3⟩ := e2 ⟨b₀, hb₀, hbx₀.2 he₀⟩
    have ends : ∀ b ∈ bs, ∀ x, CarriesOut b x → (b.isExtruding = true ↔ x.Extrudes) → x.Extrudes →
        Within lo hi (x.A.position.mul f) ∧ Within lo hi (x.B.position.mul f) := by
      intro b hb x hc hbx he
      exact ⟨r2 b hb (hbx.2 he) _ (Or.inl (by rw [hc.stateA]; rfl)),
        r2 b hb (hbx.2 he) _ (Or.inr (by rw [hc.stateB]))⟩
    have back : ∀ (c : Vec4 ℝ → ℝ) (v : ℝ), (∃ b ∈ bs, b.isExtruding = true ∧
        ∃ p, (b.stateA.map PState.position = some p ∨ b.stateB.position = p) ∧ v = c p * f) →
        ∃ x ∈ executed none none states, x.Extrudes ∧ (v = c x.A.position * f ∨ v = c x.B.position * f) := by
      rintro c v ⟨b, hb, he, p, hp, hv⟩
      obtain ⟨x, hx, hc, hbx⟩ := m1 b hb
      refine ⟨x, hx, hbx.1 he, ?_⟩
      rw [hc.stateA, hc.stateB] at hp
      rcases hp with hp | hp
      · simp only [Option.map_some, Option.some.injEq] at hp
        rw [hp]
        exact Or.inl hv
      · rw [hp]
        exact Or.inr hv
    refine ⟨lo, hi, r1, ?_, ?_, ?_⟩
    · intro x hx he
      obtain ⟨b, hb, hc, hbx⟩ := m2 x hx
      exact ends b hb x hc hbx he
    · intro i b x hb hx he s hs t p hp
      obtain ⟨hc, hbx⟩ := m3 i b x hb hx
      obtain ⟨w1, w2⟩ := ends b (List.mem_of_getElem? hb) x hc hbx he
      obtain ⟨d1, d2⟩ := executed_steps _ _ _ x (List.mem_of_getElem? hx)
      obtain ⟨p1, p2⟩ := CarriesOut.straight hc hs hp
      by_cases hpz : x.B.pause = none
      · obtain ⟨c, c0, c1, hpc⟩ := p2 hpz
        have := w1.between w2 c0 c1
        have e : p.add x.offset = x.A.position.add ((x.B.position.sub x.A.position).mul c) := by
          rw [hpc, d1 hpz]
          ext <;> simp only [Step.offset, Vec4.add, Vec4.sub, Vec4.mul] <;> ring
        rw [e]
        exact this
      · have e : p.add x.offset = x.A.position := by
          rw [p1 hpz]
          ext <;> simp only [Step.offset, Vec4.add, Vec4.sub] <;> ring
        rw [e]
        exact w1
    · intro c hc
      exact ⟨back c _ (r3 c hc).1, back c _ (r3 c hc).2⟩

/-- C94 as wanted: the extent encloses every simulated position at which filament is pushed. -/
def C94Full : Prop :=
  ∀ (fw : Firmware) (states : List (PState ℝ)) (bs : List (Block ℝ)) (lo hi : Vec4 ℝ), Sensible states →
    plan fw states = .ok bs → extrusionExtent bs "SImm" none = .ok (lo, hi) →
    ∀ s ∈ Spec.path bs, s.posBegin.e < s.posEnd.e → ∀ t p, s.getPosition t = .ok p → Within lo hi p

/-- A segment that pushes filament belongs to a step that extrudes. -/
theorem extruding_segment {b : Block ℝ} {x : Step} (h : CarriesOut b x) {s : Segment ℝ} (hs : s ∈ b.segments)
    (he : s.posBegin.e < s.posEnd.e) (hst : x.B.pause = none → x.dst = x.src.add (x.B.position.sub x.A.position)) : x.Extrudes := by
  by_cases hp : x.B.pause = none
  · obtain ⟨u, t, v, t', v', hu, hpos, _, hramp, hprof⟩ := h.move hp
    obtain ⟨L, hL0, hLp, hL⟩ := hramp.mem
    obtain ⟨w, w₁, l, l₁, g⟩ := hL s hs
    have h1 := g.hpos
    have h2 := g.hw.2
    have h3 := g.hw₁.2
    have h4 : l < l₁ := by
      rw [g.hlen]
      have := mul_pos (half_pos h1) (sub_pos.2 g.ht)
      linarith
    have h5 : 0 < u.e := by
      rw [g.hpb, g.hpe] at he
      simp only [Vec4.add, Vec4.mul] at he
      by_contra hn
      nlinarith
    have h6 : 0 < L := lt_of_le_of_lt g.hl (lt_of_lt_of_le h4 g.hl₁)
    refine ⟨by linarith, ?_⟩
    have e := hst hp
    rw [hLp] at e
    have := congrArg Vec4.e e
    simp only [Vec4.add, Vec4.sub, Vec4.mul] at this
    have := mul_pos h5 h6
    linarith
  · obtain ⟨q, hq⟩ := Option.ne_none_iff_exists'.1 hp
    obtain ⟨t0, ht0⟩ := h.pause q hq
    rw [ht0, List.mem_singleton] at hs
    subst hs
    exact absurd he (lt_irrefl _)

/-- **C94, where the machine is where the program says.** What is missing are steps that extrude after a move that was
not carried out, for which it is false (`c94_refuted`). -/
theorem c94_enclosed_partial (hsens : Sensible states) (h : plan fw states = .ok bs) {lo hi : Vec4 ℝ}
    (hext : extrusionExtent bs "SImm" none = .ok (lo, hi))
    (hoff : ∀ x ∈ executed none none states, x.Extrudes → x.offset = Vec4.zero)
    {s : Segment ℝ} (hs : s ∈ Spec.path bs) (he : s.posBegin.e < s.posEnd.e) {t : ℝ} {p : Vec4 ℝ}
    (hp : s.getPosition t = .ok p) : Within lo hi p := by
  have hm := marked_blocks hsens h
  obtain ⟨b, hb, hsb⟩ := List.mem_flatMap.1 hs
  obtain ⟨i, hi'⟩ := List.getElem?_of_mem hb
  have hlen := hm.length_eq
  obtain ⟨x, hx⟩ : ∃ x, (executed none none states)[i]? = some x := by
    have := (List.getElem?_eq_some_iff.1 hi').1
    exact ⟨_, List.getElem?_eq_getElem (by omega)⟩
  obtain ⟨hc, hbx⟩ := (partner hm).2.2 i b x hi' hx
  have hxm := List.mem_of_getElem? hx
  have hxe := extruding_segment hc hsb he (executed_steps _ _ _ x hxm).1
  obtain ⟨lo', hi'', r1, _, r3, _⟩ := (c94_extent hsens h (own := "SImm") (u := none) (f := 1) (by simp [InUnit])).2
    ⟨x, hxm, hxe⟩
  rw [hext, Except.ok.injEq, Prod.mk.injEq] at r1
  have := r3 i b x hi' hx hxe s hsb t p hp
  rw [← r1.1, ← r1.2, hoff x hxm hxe, Vec4.add_zero, Vec4.mul_one] at this
  exact this

/-- The maximum velocity of a block bounds the travel speed at all times and is one of the vertex speeds. -/
theorem Good.maxVel {b : Block ℝ} (hg : Good b) :
    (∀ s ∈ b.segments, ∀ t v, s.getVelocity t = .ok v → v.norm3 ≤ b.maxVel.norm3) ∧
      ∃ s ∈ b.segments, b.maxVel.norm3 = s.velBegin.norm3 ∨ b.maxVel.norm3 = s.velEnd.norm3 := by
  rcases hg with ⟨A, u, s0, s1, hm⟩ | ⟨A, q, hd⟩
  · exact block_maxVel hm
  · obtain ⟨t0, ht0⟩ := hd.hseg
    have hz : b.maxVel = Vec4.zero := by
      unfold Block.maxVel
      rw [ht0]
      simp [maxAbs4, pyMax_real, pyAbs_real, Vec4.zero]
    rw [ht0, hz]
    refine ⟨?_, _, List.mem_singleton.2 rfl, Or.inl rfl⟩
    intro s hs t v hv
    rw [List.mem_singleton] at hs
    subst hs
    unfold Segment.getVelocity at hv
    split at hv
    · cases hv
    · simp only [Except.ok.injEq] at hv
      rw [← hv]
      apply le_of_eq
      congr 1
      split <;> ext <;> simp [Vec4.add, Vec4.mul, Vec4.sub, Vec4.div, Vec4.zero]

/-- **C94, maximum speed.** `extrusion_max_vel` bounds the travel speed at all times of all steps that extrude, is attained
at an end of a segment of one of them, and raises exactly if there is none. -/
theorem c94_max_vel (hsens : Sensible states) (h : plan fw states = .ok bs) {own : String}
    {u : Option String} {f : ℝ} (hf : InUnit (u.getD own) f) :
    ((∀ x ∈ executed none none states, ¬ x.Extrudes) → extrusionMaxVel bs own u = .error .valueError) ∧
    ((∃ x ∈ executed none none states, x.Extrudes) → ∃ m, extrusionMaxVel bs own u = .ok m ∧
      (∀ (i : Nat) b x, bs[i]? = some b → (executed none none states)[i]? = some x → x.Extrudes →
        ∀ s ∈ b.segments, ∀ t v, s.getVelocity t = .ok v → f * v.norm3 ≤ m) ∧
      ∃ (i : Nat) (b : Block ℝ) (x : Step), bs[i]? = some b ∧ (executed none none states)[i]? = some x ∧ x.Extrudes ∧
        ∃ s ∈ b.segments, m = f * s.velBegin.norm3 ∨ m = f * s.velEnd.norm3) := by
  have hfp := simScaling_pos hf.scaling
  have hm := marked_blocks hsens h
  obtain ⟨m1, m2, m3⟩ := partner hm
  have hv : ∀ b ∈ bs, (∀ s ∈ b.segments, ∀ t v, s.getVelocity t = .ok v → v.norm3 ≤ b.maxVel.norm3) ∧
      ∃ s ∈ b.segments, b.maxVel.norm3 = s.velBegin.norm3 ∨ b.maxVel.norm3 = s.velEnd.norm3 := by
    obtain ⟨bs', h1, h2, _⟩ := plan_anchored hsens h
    intro b hb
    obtain ⟨b', hb', ha⟩ := (partner h1).1 b hb
    have := Good.maxVel (h2.good b' hb')
    unfold Block.maxVel at this ⊢
    rw [← ha.segs] at this
    exact this
  have idx : ∀ b ∈ bs, ∃ (i : Nat) (x : Step), bs[i]? = some b ∧ (executed none none states)[i]? = some x := by
    intro b hb
    obtain ⟨i, hi⟩ := List.getElem?_of_mem hb
    have := (List.getElem?_eq_some_iff.1 hi).1
    have hlen := hm.length_eq
    exact ⟨i, _, hi, List.getElem?_eq_getElem (by omega)⟩
  replace hf := hf.scaling
  constructor
  · intro hno
    have : (bs.filter (·.isExtruding)).map (fun b => b.maxVel.norm3) = [] := by
      rw [List.map_eq_nil_iff, List.filter_eq_nil_iff]
      intro b hb
      obtain ⟨x, hx, _, hbx⟩ := m1 b hb
      exact fun hc => hno x hx (hbx.1 hc)
    unfold extrusionMaxVel
    rw [this]
  · rintro ⟨x₀, hx₀, he₀⟩
    obtain ⟨b₀, hb₀, _, hbx₀⟩ := m2 x₀ hx₀
    have hmem : ∀ b ∈ bs, b.isExtruding = true →
        b.maxVel.norm3 ∈ (bs.filter (·.isExtruding)).map (fun b => b.maxVel.norm3) := by
      intro b hb he
      exact List.mem_map.2 ⟨b, List.mem_filter.2 ⟨hb, he⟩, rfl⟩
    cases hl : (bs.filter (·.isExtruding)).map (fun b => b.maxVel.norm3) with
    | nil =>
      have := hmem b₀ hb₀ (hbx₀.2 he₀)
      rw [hl] at this
      cases this
    | cons v vs =>
      refine ⟨f * listMax v vs, ?_, ?_, ?_⟩
      · unfold extrusionMaxVel
        rw [hl]
        simp only [hf, bind, Except.bind]
      · intro i b x hb hx he s hs t w hw
        have hbm := List.mem_of_getElem? hb
        have h1 := (hv b hbm).1 s hs t w hw
        have h2 := (listMax_spec v vs).1 b.maxVel.norm3 (by
          rw [← hl]
          exact hmem b hbm ((m3 i b x hb hx).2.2 he))
        exact mul_le_mul_of_nonneg_left (le_trans h1 h2) hfp.le
      · have h2 := (listMax_spec v vs).2
        rw [← hl] at h2
        obtain ⟨b, hb, he⟩ := List.mem_map.1 h2
        obtain ⟨hb, hbe⟩ := List.mem_filter.1 hb
        obtain ⟨i, x, hi, hx⟩ := idx b hb
        obtain ⟨s, hs, hsv⟩ := (hv b hb).2
        refine ⟨i, b, x, hi, hx, (m3 i b x hi hx).2.1 hbe, s, hs, ?_⟩
        rw [← he]
        rcases hsv with hsv | hsv
        · left; rw [hsv]
        · right; rw [hsv]

namespace Demo

/-- The end of a travel move. -/
noncomputable def travelled : PState ℝ := ⟨⟨10, 0, 0, 0⟩, 10, 100, 5, none, none⟩
/-- A further move that is not carried out, as its feedrate is zero. -/
noncomputable def stuck : PState ℝ := ⟨⟨20, 0, 0, 0⟩, 0, 100, 5, none, none⟩
/-- A move that extrudes. -/
noncomputable def printed : PState ℝ := ⟨⟨20, 10, 0, 1⟩, 10, 100, 5, none, none⟩
/-- A program that prints away from where the extent says. -/
noncomputable def astray : List (PState ℝ) := [s0, travelled, stuck, printed]

theorem astray_sensible : Sensible astray := by
  have hall : ∀ s ∈ astray, 0 ≤ s.speed ∧ s.pAcc = 100 ∧ s.jerk = 5 := by
    intro s hs
    simp only [astray, List.mem_cons, List.not_mem_nil, or_false] at hs
    rcases hs with rfl | rfl | rfl | rfl <;> simp [s0, travelled, stuck, printed]
  refine ⟨fun s hs => (hall s hs).1, fun s hs => ?_, fun s hs => ?_⟩
  · rw [(hall s hs).2.1]; norm_num
  · rw [(hall s hs).2.2]; norm_num

theorem astray_follow : PausesFollow astray := by
  intro pre s post h p hp
  have hs : s ∈ astray := by rw [h]; simp
  simp only [astray, List.mem_cons, List.not_mem_nil, or_false] at hs
  rcases hs with rfl | rfl | rfl | rfl <;> simp [s0, travelled, stuck, printed] at hp

theorem astray_executed : executed none none astray =
    [⟨s0, travelled, ⟨0, 0, 0, 0⟩, ⟨10, 0, 0, 0⟩⟩, ⟨stuck, printed, ⟨10, 0, 0, 0⟩, ⟨10, 10, 0, 1⟩⟩] := by
  have r1 : Executes s0 travelled := ⟨rfl, fun h => by simpa [s0, travelled] using congrArg Vec4.x h, by simp [travelled]⟩
  have r2 : ¬ Executes travelled stuck := fun h => lt_irrefl _ h.2.2
  have r3 : Executes stuck printed := ⟨rfl, fun h => by simpa [stuck, printed] using congrArg Vec4.y h, by simp [printed]⟩
  unfold astray
  rw [executed_none, executed_run (src := ⟨0, 0, 0, 0⟩) (dst := ⟨10, 0, 0, 0⟩) r1 rfl
    (by ext <;> simp [s0, travelled, Vec4.add, Vec4.sub]), executed_skip rfl (by simpa using r2),
    executed_run (src := ⟨10, 0, 0, 0⟩) (dst := ⟨10, 10, 0, 1⟩) r3 rfl
    (by ext <;> norm_num [stuck, printed, Vec4.add, Vec4.sub]), executed]

end Demo

/-- C94 is false of the code: after a move with feedrate zero the print is elsewhere. -/
theorem c94_refuted : ¬ C94Full := by
  intro hfull
  obtain ⟨bs, h⟩ := (c86_plannable .default Demo.astray_sensible).2 Demo.astray_follow
  have hm := marked_blocks Demo.astray_sensible h
  rw [Demo.astray_executed] at hm
  have hext : (⟨Demo.stuck, Demo.printed, ⟨10, 0, 0, 0⟩, ⟨10, 10, 0, 1⟩⟩ : Step).Extrudes := by
    constructor <;> norm_num [Demo.stuck, Demo.printed]
  have hno : ¬ (⟨Demo.s0, Demo.travelled, ⟨0, 0, 0, 0⟩, ⟨10, 0, 0, 0⟩⟩ : Step).Extrudes := by
    rintro ⟨_, h⟩
    norm_num [Demo.s0, Demo.travelled] at h
  obtain ⟨lo, hi, r1, _, _, r4⟩ := (c94_extent Demo.astray_sensible h (own := "SImm") (u := none) (f := 1)
    (by simp [InUnit])).2 (by rw [Demo.astray_executed]; exact ⟨_, by simp, hext⟩)
  obtain ⟨x, hx, hxe, hlo⟩ := (r4 Vec4.x (Or.inl rfl)).1
  have hlo' : lo.x = 20 := by
    rw [Demo.astray_executed] at hx
    simp only [List.mem_cons, List.not_mem_nil, or_false] at hx
    rcases hx with rfl | rfl
    · exact absurd hxe hno
    · simpa [Demo.stuck, Demo.printed] using hlo
  cases hm with
  | @cons b0 _ _ _ q0 hm =>
  cases hm with
  | @cons b1 _ _ _ q1 hm =>
  cases hm
  obtain ⟨u, t, v, t', v', hu, hpos, hne, hramp, hprof⟩ := q1.1.move rfl
  obtain ⟨s, hs⟩ := List.exists_mem_of_ne_nil _ hne
  obtain ⟨L, hL0, hLp, hL⟩ := hramp.mem
  obtain ⟨w, w₁, l, l₁, g⟩ := hL s hs
  have hsm : s ∈ Spec.path [b0, b1] := List.mem_flatMap.2 ⟨b1, by simp, hs⟩
  have hux : u.x * L = 0 := by
    have := congrArg Vec4.x hLp
    simpa [Vec4.add, Vec4.mul] using this
  have hue : 1 = u.e * L := by
    have := congrArg Vec4.e hLp
    simpa [Vec4.add, Vec4.mul] using this
  have hL' : L ≠ 0 := by
    rintro rfl
    simp at hue
  have hue' : 0 < u.e := by
    by_contra hn
    nlinarith
  have hux' : u.x = 0 := (mul_eq_zero.1 hux).resolve_right hL'
  have hl : l < l₁ := by
    rw [g.hlen]
    have := mul_pos (half_pos g.hpos) (sub_pos.2 g.ht)
    linarith
  have := hfull .default Demo.astray _ lo hi Demo.astray_sensible h r1 s hsm (by
    rw [g.hpb, g.hpe]
    simp only [Vec4.add, Vec4.mul]
    nlinarith) s.tBegin _ (getPosition_begin g.ht.le)
  have := this.1.1
  rw [hlo', g.hpb] at this
  simp only [Vec4.add, Vec4.mul, hux', MulZeroClass.zero_mul] at this
  norm_num at this

end PyGCD
