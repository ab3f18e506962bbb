import Verif.Model.Output
import Verif.Props.Extent

/-!
# Properties C39 to C41: Abaqus event series and layer metrics
-/

set_option linter.unusedSectionVars false
set_option linter.unusedSimpArgs false

namespace PyGCD
open Vec4 Spec

variable {fw : Firmware} {states : List (PState ℝ)} {bs : List (Block ℝ)}

/-! ## C39 -/

theorem abaqusRows_spec (tol f : ℝ) : ∀ (path : List (Segment ℝ)), Part path → ∀ (t : ℝ) (p : Vec4 ℝ),
    (∀ s ∈ path.head?, s.tBegin = t ∧ s.posBegin = p) →
    let rows := abaqusRows tol f ((t, p) :: path.map fun s => (s.tEnd, s.posEnd))
    rows.length = path.length + 1 ∧ (rows.head?.map EventRow.t = some t) ∧
      rows.Pairwise (fun r r' => r.t ≤ r'.t) ∧
      (∀ r ∈ rows.getLast?, r.flag = 0) ∧
      ∀ i s, path[i]? = some s → ∃ r r', rows[i]? = some r ∧ rows[i + 1]? = some r' ∧
        r.t = s.tBegin ∧ r'.t = s.tEnd ∧
        (r.x = f * s.posBegin.x ∧ r.y = f * s.posBegin.y ∧ r.z = f * s.posBegin.z) ∧
        (r'.x = f * s.posEnd.x ∧ r'.y = f * s.posEnd.y ∧ r'.z = f * s.posEnd.z) ∧
        (r.flag = 1 ↔ tol < s.posEnd.e - s.posBegin.e) ∧ (r.flag = 0 ∨ r.flag = 1) := by
  intro path
  induction path with
  | nil =>
    intro _ t p _
    simp [abaqusRows]
  | cons s path ih =>
    intro hp t p hs
    obtain ⟨h1, h2⟩ := hs s rfl
    obtain ⟨i1, i2, i3, i4, i5⟩ := ih hp.tail s.tEnd s.posEnd (by
      intro s' hs'
      cases path with
      | nil => cases hs'
      | cons y ys =>
        cases hs'
        exact ⟨(List.isChain_cons_cons.1 hp.time).1, (List.isChain_cons_cons.1 hp.place).1⟩)
    simp only [List.map_cons, abaqusRows]
    set rows := abaqusRows tol f ((s.tEnd, s.posEnd) :: path.map fun s => (s.tEnd, s.posEnd)) with hrows
    have hne : rows ≠ [] := by
      intro h
      rw [h] at i1
      simp at i1
    obtain ⟨r₀, rest, hr⟩ := List.exists_cons_of_ne_nil hne
    have hr₀ : r₀.t = s.tEnd := by
      rw [hr] at i2
      simpa using i2
    have hr₀' : r₀.x = f * s.posEnd.x ∧ r₀.y = f * s.posEnd.y ∧ r₀.z = f * s.posEnd.z := by
      cases path with
      | nil =>
        simp only [List.map_nil, abaqusRows] at hrows
        rw [hr] at hrows
        simp only [List.cons.injEq] at hrows
        rw [hrows.1]
        exact ⟨rfl, rfl, rfl⟩
      | cons y ys =>
        simp only [List.map_cons, abaqusRows] at hrows
        rw [hr] at hrows
        simp only [List.cons.injEq] at hrows
        rw [hrows.1]
        exact ⟨rfl, rfl, rfl⟩
    refine ⟨by simp [i1], rfl, ?_, ?_, ?_⟩
    · rw [List.pairwise_cons]
      refine ⟨?_, i3⟩
      intro r hr'
      have hd := hp.duration s (by simp)
      rw [h1] at hd
      refine le_trans hd ?_
      rw [hr] at hr' i3
      rcases List.mem_cons.1 hr' with rfl | hr'
      · exact hr₀.ge
      · rw [← hr₀]
        exact (List.pairwise_cons.1 i3).1 r hr'
    · rw [List.getLast?_cons_of_ne_nil hne]
      exact i4
    · intro i s' hs'
      cases i with
      | zero =>
        simp only [List.getElem?_cons_zero, Option.some.injEq] at hs'
        subst hs'
        refine ⟨_, r₀, rfl, by rw [hr]; rfl, h1.symm, hr₀, ?_, hr₀', ?_, ?_⟩
        · rw [h2]; exact ⟨rfl, rfl, rfl⟩
        · rw [h2]
          dsimp only
          split <;> simp [*]
        · dsimp only
          split <;> simp
      | succ i =>
        rw [List.getElem?_cons_succ] at hs'
        obtain ⟨r, r', q⟩ := i5 i s' hs'
        exact ⟨r, r', by simpa using q⟩

/-- The event series of a timeline. -/
theorem Spec.Timeline.events (htl : Timeline (unpack bs)) {T : ℝ}
    (hT : EndTime (Spec.path bs) T) {own : String} {u : Option String} {f : ℝ}
    (hf : InUnit (u.getD own) f) (tol : ℝ) :
    ∃ rows, abaqusEvents bs own u tol = .ok rows ∧ rows.length = (Spec.path bs).length + 1 ∧
      rows.head?.map EventRow.t = some 0 ∧ rows.getLast?.map EventRow.t = some T ∧
      rows.Pairwise (fun r r' => r.t ≤ r'.t) ∧ (∀ r ∈ rows.getLast?, r.flag = 0) ∧
      ∀ i s, (Spec.path bs)[i]? = some s → ∃ r r', rows[i]? = some r ∧ rows[i + 1]? = some r' ∧
        r.t = s.tBegin ∧ r'.t = s.tEnd ∧
        (r.x = f * s.posBegin.x ∧ r.y = f * s.posBegin.y ∧ r.z = f * s.posBegin.z) ∧
        (r'.x = f * s.posEnd.x ∧ r'.y = f * s.posEnd.y ∧ r'.z = f * s.posEnd.z) ∧
        (r.flag = 1 ↔ tol < s.posEnd.e - s.posBegin.e) ∧ (r.flag = 0 ∨ r.flag = 1) := by
  replace hf := hf.scaling
  simp only [path_eq] at *
  obtain ⟨s', h2, h3⟩ := hT
  cases hu : unpack bs with
  | nil => rw [hu] at h2; cases h2
  | cons y ys =>
    have hp := htl.part
    rw [hu] at h2
    rw [hu] at hp
    have hy0 : y.tBegin = 0 := htl.start y (by rw [hu]; rfl)
    obtain ⟨a1, a2, a3, a4, a5⟩ := abaqusRows_spec tol f (y :: ys) hp 0 y.posBegin (by
      intro z hz
      cases hz
      exact ⟨hy0, rfl⟩)
    refine ⟨_, ?_, a1, a2, ?_, a3, a4, a5⟩
    · unfold abaqusEvents
      rw [hu]
      simp only [List.isEmpty_cons, Bool.false_eq_true, if_false, hf, bind, Except.bind, abaqusVertices]
    · obtain ⟨r, r', _, b2, _, b4, _⟩ := a5 ys.length s' (by
        rw [← h2, List.getLast?_eq_getElem?]
        simp)
      rw [List.getLast?_eq_getElem?, a1]
      simp only [List.length_cons, Nat.add_sub_cancel]
      rw [b2, Option.map_some, b4, h3]

/-- **C39.** The event series has one row more than there are segments; the first is at time `0`, the last
at the end time, times never decrease; rows `i` and `i + 1` are the begin and end of segment `i`; the flag of
row `i` is `1` exactly if E grows by more than the tolerance over segment `i`, and `0` otherwise; the last
flag is `0`. -/
theorem c39_event_series (hreg : Regular states) (h : plan fw states = .ok bs) {T : ℝ}
    (hT : EndTime (Spec.path bs) T) {own : String} {u : Option String} {f : ℝ}
    (hf : InUnit (u.getD own) f) (tol : ℝ) :
    ∃ rows, abaqusEvents bs own u tol = .ok rows ∧ rows.length = (Spec.path bs).length + 1 ∧
      rows.head?.map EventRow.t = some 0 ∧ rows.getLast?.map EventRow.t = some T ∧
      rows.Pairwise (fun r r' => r.t ≤ r'.t) ∧ (∀ r ∈ rows.getLast?, r.flag = 0) ∧
      ∀ i s, (Spec.path bs)[i]? = some s → ∃ r r', rows[i]? = some r ∧ rows[i + 1]? = some r' ∧
        r.t = s.tBegin ∧ r'.t = s.tEnd ∧
        (r.x = f * s.posBegin.x ∧ r.y = f * s.posBegin.y ∧ r.z = f * s.posBegin.z) ∧
        (r'.x = f * s.posEnd.x ∧ r'.y = f * s.posEnd.y ∧ r'.z = f * s.posEnd.z) ∧
        (r.flag = 1 ↔ tol < s.posEnd.e - s.posBegin.e) ∧ (r.flag = 0 ∨ r.flag = 1) :=
  (plan_timeline hreg h).events hT hf tol

/-! ## C40 -/

/-- Linear interpolation in time between the two ends of a segment. -/
noncomputable def lerp (s : Segment ℝ) (t : ℝ) : Vec4 ℝ :=
  s.posBegin.add ((s.posEnd.sub s.posBegin).mul ((t - s.tBegin) / (s.tEnd - s.tBegin)))

/-- C40 as wanted: between two rows of the event series, i.e. between the ends of a segment, linear
interpolation in time gives the simulated position. -/
def C40Full : Prop :=
  ∀ (fw : Firmware) (states : List (PState ℝ)) (bs : List (Block ℝ)), Regular states →
    plan fw states = .ok bs → ∀ s ∈ Spec.path bs, ∀ t, s.tBegin ≤ t → t ≤ s.tEnd → s.tBegin < s.tEnd →
      s.getPosition t = .ok (lerp s t)

/-- Linear interpolation along a timeline. -/
theorem Spec.Timeline.error_law (htl : Timeline (unpack bs)) {s : Segment ℝ}
    (hs : s ∈ Spec.path bs) {t : ℝ} (h1 : s.tBegin ≤ t) (h2 : t ≤ s.tEnd) (h3 : s.tBegin < s.tEnd) :
    s.getPosition t = .ok ((lerp s t).add
      (((s.velEnd.sub s.velBegin).div (s.tEnd - s.tBegin)).mul (-((t - s.tBegin) * (s.tEnd - t)) / 2))) := by
  simp only [path_eq] at *
  have hk := htl.kinematic s hs
  unfold Kinematic at hk
  have hd : 0 < s.tEnd - s.tBegin := sub_pos.2 h3
  have hd' := hd.ne'
  have hc : ¬ (t < s.tBegin ∨ s.tEnd < t) := by push Not; exact ⟨h1, h2⟩
  simp only [Segment.getPosition, Segment.getVelocity, if_neg hc, bind, Except.bind, if_pos hd,
    Except.ok.injEq]
  unfold lerp
  rw [hk]
  ext <;> simp only [Vec4.add, Vec4.sub, Vec4.mul, Vec4.div] <;> field_simp <;> ring

/-- The exact law: the simulated position differs from the interpolated one by half the acceleration times
the product of the times to both ends. -/
theorem c40_error_law (hreg : Regular states) (h : plan fw states = .ok bs) {s : Segment ℝ}
    (hs : s ∈ Spec.path bs) {t : ℝ} (h1 : s.tBegin ≤ t) (h2 : t ≤ s.tEnd) (h3 : s.tBegin < s.tEnd) :
    s.getPosition t = .ok ((lerp s t).add
      (((s.velEnd.sub s.velBegin).div (s.tEnd - s.tBegin)).mul (-((t - s.tBegin) * (s.tEnd - t)) / 2))) :=
  (plan_timeline hreg h).error_law hs h1 h2 h3

/-- **C40, segments of constant velocity.** What is missing are the accelerating and decelerating segments,
for which it is false at all inner times (`c40_iff`). -/
theorem c40_constant_partial (hreg : Regular states) (h : plan fw states = .ok bs) {s : Segment ℝ}
    (hs : s ∈ Spec.path bs) (hc : s.velBegin = s.velEnd) {t : ℝ} (h1 : s.tBegin ≤ t) (h2 : t ≤ s.tEnd)
    (h3 : s.tBegin < s.tEnd) : s.getPosition t = .ok (lerp s t) := by
  simp only [path_eq] at *
  rw [c40_error_law hreg h hs h1 h2 h3, hc]
  congr 1
  ext <;> simp [Vec4.add, Vec4.sub, Vec4.mul, Vec4.div]

/-- Where interpolation along a timeline is exact. -/
theorem Spec.Timeline.lerp_iff (htl : Timeline (unpack bs)) {s : Segment ℝ}
    (hs : s ∈ Spec.path bs) {t : ℝ} (h1 : s.tBegin < t) (h2 : t < s.tEnd) :
    s.getPosition t = .ok (lerp s t) ↔ s.velBegin = s.velEnd := by
  simp only [path_eq] at *
  refine ⟨?_, fun hc => by
    rw [htl.error_law hs h1.le h2.le (h1.trans h2), hc]
    congr 1
    ext <;> simp [Vec4.add, Vec4.sub, Vec4.mul, Vec4.div]⟩
  intro he
  rw [htl.error_law hs h1.le h2.le (h1.trans h2), Except.ok.injEq] at he
  have hd' : s.tEnd - s.tBegin ≠ 0 := (sub_pos.2 (h1.trans h2)).ne'
  have hk : -((t - s.tBegin) * (s.tEnd - t)) / 2 ≠ 0 := by
    have := mul_pos (sub_pos.2 h1) (sub_pos.2 h2)
    apply ne_of_lt
    linarith
  have hx := congrArg Vec4.x he
  have hy := congrArg Vec4.y he
  have hz := congrArg Vec4.z he
  have hee := congrArg Vec4.e he
  simp only [Vec4.add, Vec4.sub, Vec4.mul, Vec4.div, add_eq_left, mul_eq_zero, hk, or_false,
    div_eq_zero_iff, hd', sub_eq_zero] at hx hy hz hee
  ext
  · exact hx.symm
  · exact hy.symm
  · exact hz.symm
  · exact hee.symm

/-- At an inner time of a segment interpolation is exact only if the segment has constant velocity. -/
theorem c40_iff (hreg : Regular states) (h : plan fw states = .ok bs) {s : Segment ℝ}
    (hs : s ∈ Spec.path bs) {t : ℝ} (h1 : s.tBegin < t) (h2 : t < s.tEnd) :
    s.getPosition t = .ok (lerp s t) ↔ s.velBegin = s.velEnd :=
  (plan_timeline hreg h).lerp_iff hs h1 h2

/-- C40 is false of the code: every simulation starts with an accelerating segment. -/
theorem c40_refuted : ¬ C40Full := by
  intro hfull
  obtain ⟨_, bs, _, _, h, _⟩ := c26_correction_total .marlinJd Demo.regular
  have h28 := c28_blocks Demo.regular h
  rw [Demo.active_prog] at h28
  cases bs with
  | nil => cases h28
  | cons b tl =>
    simp only [List.map_cons, List.cons.injEq, Prod.mk.injEq] at h28
    rcases (plan_ok Demo.regular h).1 b (by simp) with ⟨A, u, s0, s1, hm⟩ | ⟨A, p, hm⟩
    · obtain ⟨s, s', e1, _⟩ := hm.ends
      have hs := List.mem_of_head? e1
      have hsu : s ∈ unpack (b :: tl) := List.mem_flatMap.2 ⟨b, by simp, hs⟩
      obtain ⟨L, _, _, hL⟩ := hm.hramp.mem
      obtain ⟨w, w₁, l, l₁, g⟩ := hL s hs
      have hhead : (unpack (b :: tl)).head? = some s := by
        unfold unpack
        rw [List.flatMap_cons, List.head?_append, e1, Option.some_or]
      have h0 := (c25_speed_continuous Demo.regular h).2.2 s hhead
      have hA := hm.hA
      rw [h28.1.1, Option.some.injEq] at hA
      obtain ⟨hu, _, _, heo, _⟩ := hm.toHdr.unit
      have hnorm : u.norm3 = 1 := by
        cases he : (moveDistance A b.stateB).2
        · rw [he] at hu
          simpa [UnitDir] using hu
        · have := norm3_eq_zero.1 (heo.1 he)
          rw [h28.1.2, ← hA] at this
          simp [Demo.s0, Demo.s1, Vec4.sub] at this
      have hw : w = 0 := by
        rw [g.hvb, norm3_mul, hnorm, one_mul, abs_of_nonneg g.hw.1] at h0
        exact h0
      have hpos := g.hpos
      rw [hw, zero_add] at hpos
      have hmid : s.tBegin < (s.tBegin + s.tEnd) / 2 ∧ (s.tBegin + s.tEnd) / 2 < s.tEnd := by
        have := g.ht
        constructor <;> linarith
      have hc := (c40_iff Demo.regular h hsu hmid.1 hmid.2).1
        (hfull .marlinJd Demo.prog (b :: tl) Demo.regular h s hsu _ hmid.1.le hmid.2.le g.ht)
      have := congrArg Vec4.norm3 hc
      rw [h0, g.hve, norm3_mul, hnorm, one_mul, abs_of_pos hpos] at this
      linarith
    · have := hm.hpause
      rw [h28.1.2] at this
      cases this

example (fw : Firmware) : ∃ bs rows, plan fw Demo.prog = .ok bs ∧
    abaqusEvents bs "SImm" none 1e-6 = .ok rows ∧ rows.length = (Spec.path bs).length + 1 := by
  obtain ⟨bs, T, h, hT, _⟩ := Demo.end_time fw
  obtain ⟨rows, h1, h2, _⟩ := c39_event_series Demo.regular h hT (own := "SImm") (u := none) (f := 1)
    (by simp [InUnit]) 1e-6
  exact ⟨bs, rows, h, h1, h2⟩

/-! ## C41 -/

/-- The travel of all blocks together. -/
noncomputable def totalTravel (bs : List (Block ℝ)) : ℝ :=
  (bs.map fun b => match b.stateA with
    | some A => (b.stateB.position.sub A.position).norm3
    | none => 0).sum

/-- C41 as wanted. -/
def C41Full : Prop :=
  ∀ (fw : Firmware) (states : List (PState ℝ)) (bs : List (Block ℝ)) (T : ℝ), Regular states →
    (∀ s ∈ states, s.layer ≠ none) → plan fw states = .ok bs → EndTime (Spec.path bs) T →
    ∃ rows, saveLayerMetrics true bs = .ok (some rows) ∧ (rows.map LayerRow.layer).Pairwise (· < ·) ∧
      (rows.map LayerRow.duration).sum = T ∧ (rows.map LayerRow.travel).sum = totalTravel bs

/-- Distances do not depend on the direction. -/
theorem norm3_sub_comm (a b : Vec4 ℝ) : (a.sub b).norm3 = (b.sub a).norm3 := by
  rw [← pow_left_inj₀ (norm3_nonneg _) (norm3_nonneg _) two_ne_zero, norm3_sq, norm3_sq]
  simp only [Vec4.sub]
  ring

theorem layerLoop_spec : ∀ (bs : List (Block ℝ)), (∀ b ∈ bs, b.stateA.isSome ∧ b.segments ≠ []) →
    (∀ b ∈ bs, ∃ n, b.stateB.layer = some n) → ∀ (cur : Nat) (lastT trav : ℝ) {z : Block ℝ} {n : Nat},
    bs.getLast? = some z → z.stateB.layer = some n →
    ∃ rows, layerLoop cur lastT trav bs = .ok rows ∧ (rows.map LayerRow.layer).Pairwise (· < ·) ∧
      (∀ r ∈ rows, cur ≤ r.layer) ∧
      (rows.map LayerRow.travel).sum = trav + totalTravel bs.dropLast ∧
      (∀ r ∈ rows, r.avg = if r.duration = 0 then none else some (r.travel / r.duration)) ∧
      (((∃ y ∈ cur :: bs.dropLast.filterMap (·.stateB.layer), n ≤ y) →
          (rows.map LayerRow.duration).sum = z.t1 - lastT) ∧
        ((∀ y ∈ cur :: bs.dropLast.filterMap (·.stateB.layer), y < n) →
          (rows.map LayerRow.duration).sum = z.t0 - lastT)) := by
  intro bs
  induction bs with
  | nil =>
    intro _ _ cur lastT trav z n h
    cases h
  | cons b bs ih =>
    intro hg hl cur lastT trav z n hz hn
    obtain ⟨m, hm⟩ := hl b (by simp)
    obtain ⟨A, e1⟩ := Option.isSome_iff_exists.1 (hg b (by simp)).1
    obtain ⟨s, e2⟩ := Option.isSome_iff_exists.1 (List.isSome_head?.2 (hg b (by simp)).2)
    obtain ⟨s', e3⟩ := Option.isSome_iff_exists.1 (List.getLast?_isSome.2 (hg b (by simp)).2)
    have e4 : b.t0 = s.tBegin := by simp [Block.t0, e2]
    have e7 : b.t1 = s'.tEnd := by simp [Block.t1, e3]
    have htr : b.travel = .ok (b.stateB.position.sub A.position).norm3 := by
      unfold Block.travel
      rw [e1]
      simp only [Vec4.tDistance, Except.ok.injEq]
      exact norm3_sub_comm _ _
    have htot : ∀ l, totalTravel (b :: l) = (b.stateB.position.sub A.position).norm3 + totalTravel l := by
      intro l
      unfold totalTravel
      rw [List.map_cons, List.sum_cons, e1]
    unfold layerLoop
    simp only [hm, bind, Except.bind, firstSeg_ok e2, lastSeg_ok e3, htr]
    cases bs with
    | nil =>
      simp only [List.getLast?_singleton, Option.some.injEq] at hz
      subst hz
      rw [hm, Option.some.injEq] at hn
      subst hn
      by_cases hc : cur < m
      · rw [if_pos hc]
        refine ⟨[_], rfl, by simp, by simp [layerRow], by simp [layerRow, totalTravel], by simp [layerRow], ?_, ?_⟩
        · rintro ⟨y, hy, hyn⟩
          simp at hy
          omega
        · intro _
          simp [layerRow, e4]
      · rw [if_neg hc]
        refine ⟨[_], rfl, by simp, by simp [layerRow], by simp [layerRow, totalTravel], by simp [layerRow], ?_, ?_⟩
        · intro _
          simp [layerRow, e7]
        · intro hy
          exact absurd (hy cur (by simp)) hc
    | cons c cs =>
      rw [List.getLast?_cons_cons] at hz
      have hfil : (b :: c :: cs).dropLast.filterMap (·.stateB.layer) =
          m :: (c :: cs).dropLast.filterMap (·.stateB.layer) := by
        rw [List.dropLast_cons_cons, List.filterMap_cons, hm]
      rw [hfil, List.dropLast_cons_cons, htot]
      by_cases hc : cur < m
      · rw [if_pos hc]
        obtain ⟨rows, r1, r2, r3, r4, r5, r6, r7⟩ := ih (fun x hx => hg x (by simp [hx]))
          (fun x hx => hl x (by simp [hx])) m s.tBegin (0 + (b.stateB.position.sub A.position).norm3) hz hn
        rw [r1]
        refine ⟨_, rfl, ?_, ?_, ?_, ?_, ?_, ?_⟩
        · rw [List.map_cons, List.pairwise_cons]
          refine ⟨?_, r2⟩
          intro y hy
          obtain ⟨r, hr, rfl⟩ := List.mem_map.1 hy
          exact lt_of_lt_of_le hc (r3 r hr)
        · intro r hr
          rcases List.mem_cons.1 hr with rfl | hr
          · exact le_refl _
          · exact le_trans hc.le (r3 r hr)
        · rw [List.map_cons, List.sum_cons, r4]
          simp only [layerRow]
          ring
        · intro r hr
          rcases List.mem_cons.1 hr with rfl | hr
          · rfl
          · exact r5 r hr
        · rintro ⟨y, hy, hyn⟩
          rw [List.map_cons, List.sum_cons, r6 ?_]
          · simp only [layerRow]
            ring
          · rcases List.mem_cons.1 hy with rfl | hy
            · exact ⟨m, by simp, by omega⟩
            · exact ⟨y, hy, hyn⟩
        · intro hy
          rw [List.map_cons, List.sum_cons, r7 (fun y hy' => hy y (List.mem_cons_of_mem _ hy'))]
          simp only [layerRow]
          ring
      · rw [if_neg hc]
        obtain ⟨rows, r1, r2, r3, r4, r5, r6, r7⟩ := ih (fun x hx => hg x (by simp [hx]))
          (fun x hx => hl x (by simp [hx])) cur lastT (trav + (b.stateB.position.sub A.position).norm3) hz hn
        simp only [List.isEmpty_cons, Bool.false_eq_true, if_false]
        refine ⟨rows, r1, r2, r3, ?_, r5, ?_, ?_⟩
        · rw [r4]
          ring
        · rintro ⟨y, hy, hyn⟩
          apply r6
          simp only [List.mem_cons] at hy
          rcases hy with rfl | rfl | hy
          · exact ⟨y, by simp, hyn⟩
          · exact ⟨cur, by simp, by omega⟩
          · exact ⟨y, List.mem_cons_of_mem _ hy, hyn⟩
        · intro hy
          apply r7
          intro y hy'
          rcases List.mem_cons.1 hy' with rfl | hy'
          · exact hy y (by simp)
          · exact hy y (List.mem_cons_of_mem _ (List.mem_cons_of_mem _ hy'))

/-- **C41, the exact law.** `save_layer_metrics` lists strictly increasing layers, and the average speed is
travel over duration. The travel distances add up to the travel of all blocks but the last. The durations add
up to the print time if the last block belongs to a layer seen before (or to layer `0`), otherwise only to
the begin of the last block. -/
theorem c41_layer_law (hreg : Regular states) (h : plan fw states = .ok bs)
    (hl : ∀ b ∈ bs, b.stateB.layer ≠ none) {z : Block ℝ} {n : Nat} {s s' : Segment ℝ}
    (hz : bs.getLast? = some z) (hn : z.stateB.layer = some n) (hs : z.segments.head? = some s)
    (hs' : z.segments.getLast? = some s') :
    ∃ rows, saveLayerMetrics true bs = .ok (some rows) ∧ (rows.map LayerRow.layer).Pairwise (· < ·) ∧
      (rows.map LayerRow.travel).sum = totalTravel bs.dropLast ∧
      (∀ r ∈ rows, r.avg = if r.duration = 0 then none else some (r.travel / r.duration)) ∧
      ((n = 0 ∨ ∃ b ∈ bs.dropLast, ∃ m, b.stateB.layer = some m ∧ n ≤ m) →
        (rows.map LayerRow.duration).sum = s'.tEnd) ∧
      ((0 < n ∧ ∀ b ∈ bs.dropLast, ∀ m, b.stateB.layer = some m → m < n) →
        (rows.map LayerRow.duration).sum = s.tBegin) := by
  obtain ⟨hg, _⟩ := plan_ok hreg h
  obtain ⟨rows, r1, r2, r3, r4, r5, r6, r7⟩ := layerLoop_spec bs
    (fun b hb => by
      obtain ⟨A, q, _, e1, e2, _⟩ := (hg b hb).facts
      exact ⟨by rw [e1]; rfl, by rintro h; rw [h] at e2; cases e2⟩)
    (fun b hb => Option.ne_none_iff_exists'.1 (hl b hb)) 0 0 0 hz hn
  obtain ⟨A, q, q', _, e2, e3, e4, _, _, e7, _⟩ := (hg z (List.mem_of_getLast? hz)).facts
  rw [hs] at e2
  rw [hs'] at e3
  cases e2
  cases e3
  refine ⟨rows, ?_, r2, ?_, r5, ?_, ?_⟩
  · unfold saveLayerMetrics
    rw [if_pos rfl, r1]
    rfl
  · rw [r4, zero_add]
  · intro hn'
    rw [r6 ?_, e7, sub_zero]
    rcases hn' with rfl | ⟨b, hb, m, hm, hnm⟩
    · exact ⟨0, by simp, le_refl _⟩
    · exact ⟨m, List.mem_cons_of_mem _ (List.mem_filterMap.2 ⟨b, hb, hm⟩), hnm⟩
  · rintro ⟨h0, hn'⟩
    rw [r7 ?_, e4, sub_zero]
    intro y hy
    rcases List.mem_cons.1 hy with rfl | hy
    · exact h0
    · obtain ⟨b, hb, hm⟩ := List.mem_filterMap.1 hy
      exact hn' b hb y hm

/-- **C41, if the last block neither travels nor opens a layer** (for example a final retraction). What is
missing are all other prints, for which it is false (`c41_layer_law`). -/
theorem c41_layer_metrics_partial (hreg : Regular states) (h : plan fw states = .ok bs) {T : ℝ}
    (hT : EndTime (Spec.path bs) T) (hl : ∀ b ∈ bs, b.stateB.layer ≠ none) {z : Block ℝ} {n : Nat}
    (hz : bs.getLast? = some z) (hn : z.stateB.layer = some n)
    (hseen : n = 0 ∨ ∃ b ∈ bs.dropLast, ∃ m, b.stateB.layer = some m ∧ n ≤ m)
    (hstay : ∀ A, z.stateA = some A → (z.stateB.position.sub A.position).norm3 = 0) :
    ∃ rows, saveLayerMetrics true bs = .ok (some rows) ∧ (rows.map LayerRow.layer).Pairwise (· < ·) ∧
      (rows.map LayerRow.duration).sum = T ∧ (rows.map LayerRow.travel).sum = totalTravel bs := by
  replace hT := (endTime_iff hreg h).2 hT
  obtain ⟨A, q, q', e1, e2, e3, _⟩ := ((plan_ok hreg h).1 z (List.mem_of_getLast? hz)).facts
  obtain ⟨rows, r1, r2, r3, _, r5, _⟩ := c41_layer_law hreg h hl hz hn e2 e3
  refine ⟨rows, r1, r2, ?_, ?_⟩
  · rw [r5 hseen]
    unfold endTime at hT
    rw [hz] at hT
    simp only [lastSeg_ok e3, Except.map, Except.ok.injEq] at hT
    exact hT
  · rw [r3]
    have hsplit : bs = bs.dropLast ++ [z] := by
      obtain ⟨l, hlast⟩ := List.getLast?_eq_some_iff.1 hz
      rw [hlast]
      simp
    conv_rhs => rw [hsplit]
    unfold totalTravel
    rw [List.map_append, List.sum_append]
    simp [e1, hstay A e1]

/-- A list of states without pauses is regular if the settings are. -/
theorem regular_of_no_pause {l : List (PState ℝ)}
    (hall : ∀ s ∈ l, 0 < s.speed ∧ 0 < s.pAcc ∧ 0 ≤ s.jerk ∧ s.pause = none) : Regular l := by
  refine ⟨fun s hs => (hall s hs).1, fun s hs => (hall s hs).2.1, fun s hs => (hall s hs).2.2.1,
    fun s hs p hp => ?_, fun pre s post he hp => ?_, fun pre s post he hp => ?_⟩
  · rw [(hall s hs).2.2.2] at hp
    cases hp
  · exact absurd (hall s (by rw [he]; simp)).2.2.2 hp
  · exact absurd (hall s (by rw [he]; simp)).2.2.2 hp

namespace Demo

/-- Start of a print with layers. -/
noncomputable def a0 : PState ℝ := ⟨⟨0, 0, 0, 0⟩, 10, 100, 5, none, some 0⟩
/-- A travelling move in layer 1. -/
noncomputable def a1 : PState ℝ := ⟨⟨10, 0, 0, 1⟩, 10, 100, 5, none, some 1⟩
/-- A retraction in layer 1. -/
noncomputable def a2 : PState ℝ := ⟨⟨10, 0, 0, 0⟩, 10, 100, 5, none, some 1⟩

theorem regular_a : Regular [a0, a1, a2] := by
  refine regular_of_no_pause fun s hs => ?_
  simp only [List.mem_cons, List.not_mem_nil, or_false] at hs
  rcases hs with rfl | rfl | rfl <;> norm_num [a0, a1, a2]

theorem regular_a' : Regular [a0, a1] := by
  refine regular_of_no_pause fun s hs => ?_
  simp only [List.mem_cons, List.not_mem_nil, or_false] at hs
  rcases hs with rfl | rfl <;> norm_num [a0, a1]

theorem active_a : active none [a0, a1, a2] = [(some a0, a1), (some a1, a2)] := by
  have n01 : a1.position ≠ a0.position := fun h => by simpa [a0, a1] using congrArg Vec4.x h
  have n12 : a2.position ≠ a1.position := fun h => by simpa [a1, a2] using congrArg Vec4.e h
  rw [active_cons_skip _ (by simp) rfl, active_cons_take _ (Or.inr ⟨_, rfl, n01⟩),
    active_cons_take _ (Or.inr ⟨_, rfl, n12⟩)]
  rfl

theorem active_a' : active none [a0, a1] = [(some a0, a1)] := by
  have n01 : a1.position ≠ a0.position := fun h => by simpa [a0, a1] using congrArg Vec4.x h
  rw [active_cons_skip _ (by simp) rfl, active_cons_take _ (Or.inr ⟨_, rfl, n01⟩)]
  rfl

end Demo

/-- C41 is false of the code: the only move of a print travels 10 mm, the layer metrics say 0. -/
theorem c41_refuted : ¬ C41Full := by
  intro hfull
  obtain ⟨_, bs, _, _, h, _⟩ := c26_correction_total .klipper Demo.regular_a'
  have h28 := c28_blocks Demo.regular_a' h
  rw [Demo.active_a'] at h28
  obtain ⟨b, rfl⟩ : ∃ b, bs = [b] := by
    have := congrArg List.length h28
    simp only [List.length_map, List.length_cons, List.length_nil] at this
    exact List.length_eq_one_iff.1 this
  simp only [List.map_cons, List.map_nil, List.cons.injEq, Prod.mk.injEq, and_true] at h28
  obtain ⟨A, q, q', e1, e2, e3, _⟩ := ((plan_ok Demo.regular_a' h).1 b (by simp)).facts
  obtain ⟨rows, r1, _, _, r4⟩ := hfull .klipper [Demo.a0, Demo.a1] [b] q'.tEnd Demo.regular_a' (by
    intro s hs
    simp only [List.mem_cons, List.not_mem_nil, or_false] at hs
    rcases hs with rfl | rfl <;> simp [Demo.a0, Demo.a1]) h (by
    rw [← endTime_iff Demo.regular_a' h]
    unfold endTime
    simp [lastSeg_ok e3, Except.map])
  obtain ⟨rows', r1', _, r3', _⟩ := c41_layer_law Demo.regular_a' h (by
    intro c hc
    simp only [List.mem_singleton] at hc
    rw [hc, h28.2]
    simp [Demo.a1]) (z := b) (n := 1) (by simp) (by rw [h28.2]; rfl) e2 e3
  rw [r1] at r1'
  cases r1'
  rw [r4] at r3'
  simp only [totalTravel, List.map_cons, List.map_nil, List.dropLast_singleton, List.sum_nil, List.sum_cons,
    h28.1, h28.2, add_zero] at r3'
  have := (norm3_eq_zero.1 r3').1
  simp [Demo.a0, Demo.a1, Vec4.sub] at this

/-- The partial theorem applies to a print that ends with a retraction. -/
example (fw : Firmware) : ∃ bs T rows, plan fw [Demo.a0, Demo.a1, Demo.a2] = .ok bs ∧
    EndTime (Spec.path bs) T ∧
    saveLayerMetrics true bs = .ok (some rows) ∧ (rows.map LayerRow.duration).sum = T := by
  obtain ⟨_, bs, _, _, h, _⟩ := c26_correction_total fw Demo.regular_a
  have h28 := c28_blocks Demo.regular_a h
  rw [Demo.active_a] at h28
  obtain ⟨b, c, rfl⟩ : ∃ b c, bs = [b, c] := by
    have := congrArg List.length h28
    simp only [List.length_map, List.length_cons, List.length_nil] at this
    exact List.length_eq_two.1 this
  simp only [List.map_cons, List.map_nil, List.cons.injEq, Prod.mk.injEq, and_true] at h28
  obtain ⟨A, q, q', e1, e2, e3, _⟩ := ((plan_ok Demo.regular_a h).1 c (by simp)).facts
  have hT : EndTime (Spec.path [b, c]) q'.tEnd := by
    rw [← endTime_iff Demo.regular_a h]
    unfold endTime
    simp [lastSeg_ok e3, Except.map]
  obtain ⟨rows, r1, _, r3, _⟩ := c41_layer_metrics_partial Demo.regular_a h hT (by
    intro d hd
    simp only [List.mem_cons, List.not_mem_nil, or_false] at hd
    rcases hd with rfl | rfl
    · rw [h28.1.2]; simp [Demo.a1]
    · rw [h28.2.2]; simp [Demo.a2]) (z := c) (n := 1) (by simp) (by rw [h28.2.2]; rfl)
    (Or.inr ⟨b, by simp, 1, by rw [h28.1.2]; rfl, le_refl _⟩) (by
      intro A' hA'
      rw [h28.2.1, Option.some.injEq] at hA'
      rw [h28.2.2, ← hA', norm3_eq_zero]
      simp [Demo.a1, Demo.a2, Vec4.sub])
  exact ⟨_, _, rows, h, hT, r1, r3⟩

end PyGCD
