import Verif.Props.Output

/-!
# Property C42: the time at a given distance
-/

set_option linter.unusedSectionVars false
set_option linter.unusedSimpArgs false

namespace PyGCD
open Vec4 Spec

variable {fw : Firmware} {states : List (PState ℝ)} {bs : List (Block ℝ)}
variable {u : Vec4 ℝ} {a vT : ℝ}

/-- In which segment `inverse_time_at_pos` looks, and for which distance. -/
theorem inverseTimeLoop_spec (hu : u.norm3 = 1) {p p' : Vec4 ℝ} {t t' v v' : ℝ} {ss : List (Segment ℝ)}
    (h : Ramp u a vT p t v ss p' t' v') : ∀ {cum dist L : ℝ}, p' = p.add (u.mul L) → cum < dist →
    dist ≤ cum + L → ∃ s ∈ ss, ∃ w w₁ l l₁, SegOn u a vT p L s w w₁ l l₁ ∧ l < dist - cum ∧
      dist - cum ≤ l₁ ∧ inverseTimeLoop dist cum ss =
        s.interpolateTimeToSpace s.tBegin s.tEnd (dist - cum - l) := by
  have huc : ∀ {p : Vec4 ℝ} {l d : ℝ}, p.add (u.mul l) = p.add (u.mul d) → l = d :=
    fun h => unit_cancel (eo := false) (by simpa [UnitDir] using hu) h
  induction h with
  | nil p t v =>
    intro cum dist L hL h1 h2
    have : L = 0 := huc (by rw [← hL, Vec4.mul_zero, Vec4.add_zero])
    rw [this] at h2
    linarith
  | @cons t t₁ v v₁ t' v' p p₁ p' ss hv hv₁ ht hacc hpos hp hrest ih =>
    intro cum dist L hL h1 h2
    set d := (v + v₁) / 2 * (t₁ - t) with hd
    have hdp : 0 < d := by
      have := sub_pos.2 ht
      positivity
    have hlen : Segment.len ⟨t, t₁, p, u.mul v, p₁, u.mul v₁⟩ = d := by
      unfold Segment.len
      simp only [hp]
      have : (p.add (u.mul d)).sub p = u.mul d := by ext <;> simp [Vec4.add, Vec4.sub]
      rw [this, norm3_mul, hu, one_mul, abs_of_pos hdp]
    have hL' : p' = p₁.add (u.mul (L - d)) := by
      rw [hp, hL, add_mul_add]
      congr 2
      ring
    have hLd : 0 ≤ L - d := by
      obtain ⟨L', q1, q2, _⟩ := hrest.mem
      have : L' = L - d := huc (p := p₁) (by rw [← q2, hL'])
      rw [← this]
      exact q1
    unfold inverseTimeLoop
    simp only [hlen]
    by_cases hc : dist ≤ cum + d
    · rw [if_pos hc]
      refine ⟨_, List.mem_cons_self, v, v₁, 0, d, ⟨hv, hv₁, ht, hacc, hpos, rfl, rfl, ?_, ?_, le_refl _, ?_, ?_⟩, ?_, ?_, ?_⟩
      · rw [Vec4.mul_zero, Vec4.add_zero]
      · exact hp
      · linarith
      · rw [zero_add]
      · linarith
      · linarith
      · congr 1
        ring
    · rw [if_neg hc]
      push Not at hc
      obtain ⟨s, hs, w, w₁, l, l₁, g, g1, g2, g3⟩ := ih hL' hc (by linarith)
      refine ⟨s, by simp [hs], w, w₁, d + l, d + l₁,
        ⟨g.hw, g.hw₁, g.ht, g.hacc, g.hpos, g.hvb, g.hve, ?_, ?_, ?_, ?_, ?_⟩, ?_, ?_, ?_⟩
      · rw [g.hpb, hp, add_mul_add]
      · rw [g.hpe, hp, add_mul_add]
      · linarith [g.hl]
      · linarith [g.hl₁]
      · rw [g.hlen]
        ring
      · linarith
      · linarith
      · rw [g3]
        congr 1
        ring

/-- What `_interpolate_time_to_space` computes for a distance inside a segment: a time `r` after its begin
such that a motion that speeds up at the segment's rate covers the distance in `r`. -/
theorem interpolate_spec (hu : u.norm3 = 1) {p : Vec4 ℝ} {L w w₁ l l₁ : ℝ} {s : Segment ℝ}
    (g : SegOn u a vT p L s w w₁ l l₁) {x : ℝ} (h0 : 0 < x) (h1 : x ≤ l₁ - l) :
    ∃ r, s.interpolateTimeToSpace s.tBegin s.tEnd x = .ok (s.tBegin + r) ∧ 0 < r ∧
      r ≤ s.tEnd - s.tBegin ∧ x = w * r + |w₁ - w| / (s.tEnd - s.tBegin) * r ^ 2 / 2 := by
  have hd := sub_pos.2 g.ht
  have hd' := hd.ne'
  set D := s.tEnd - s.tBegin with hD
  have hk : (s.velEnd.sub s.velBegin).norm3 = |w₁ - w| := by
    rw [g.hve, g.hvb]
    have : (u.mul w₁).sub (u.mul w) = u.mul (w₁ - w) := by
      ext <;> simp only [Vec4.mul, Vec4.sub] <;> ring
    rw [this, norm3_mul, hu, one_mul]
  have hw : s.velBegin.norm3 = w := by rw [g.hvb, norm3_mul, hu, one_mul, abs_of_nonneg g.hw.1]
  unfold Segment.interpolateTimeToSpace
  simp only [hk, hw, ← hD, div_self hd', one_mul]
  set k := |w₁ - w| / D with hkdef
  have hk0 : 0 ≤ k := div_nonneg (abs_nonneg _) hd.le
  have hkD : k * D = |w₁ - w| := by rw [hkdef]; field_simp
  have hxle : x ≤ w * D + k * D ^ 2 / 2 := by
    have hl := g.hlen
    rw [← hD] at hl
    have h2 : w₁ - w ≤ k * D := by rw [hkD]; exact le_abs_self _
    nlinarith
  by_cases hkz : 0 < k
  · rw [if_pos hkz]
    have hvsq : 0 < 2 * k * x + w * w := by nlinarith [mul_pos hkz h0, mul_self_nonneg w]
    rw [if_pos hvsq, sqrt_real]
    set q := Real.sqrt (2 * k * x + w * w) with hq
    have hqq : q ^ 2 = 2 * k * x + w * w := Real.sq_sqrt hvsq.le
    have hq0 : 0 ≤ q := Real.sqrt_nonneg _
    refine ⟨(q - w) / k, by rw [add_comm], ?_, ?_, ?_⟩
    · apply div_pos _ hkz
      have : w < q := (sq_lt_sq₀ g.hw.1 hq0).1 (by rw [hqq]; nlinarith [mul_pos hkz h0])
      linarith
    · rw [div_le_iff₀ hkz]
      have : q ≤ w + k * D := (sq_le_sq₀ hq0 (by nlinarith [g.hw.1])).1 (by
        rw [hqq]
        nlinarith [mul_le_mul_of_nonneg_left hxle hkz.le])
      linarith
    · field_simp
      linear_combination -hqq
  · rw [if_neg hkz]
    have hkz' : k = 0 := le_antisymm (not_lt.1 hkz) hk0
    have hww : w₁ = w := by
      rw [hkz', MulZeroClass.zero_mul] at hkD
      have := abs_eq_zero.1 hkD.symm
      linarith
    have hwp : 0 < w := by
      have := g.hpos
      rw [hww] at this
      linarith
    refine ⟨x / w, by rw [add_comm], div_pos h0 hwp, ?_, ?_⟩
    · rw [div_le_iff₀ hwp]
      rw [hkz'] at hxle
      linarith
    · rw [hkz']
      field_simp
      ring

/-- Along a chain of segments the distances grow. -/
theorem segOn_mono {eo : Bool} (hud : UnitDir u eo) {p : Vec4 ℝ} {L : ℝ} : ∀ (ss : List (Segment ℝ)),
    (∀ s ∈ ss, ∃ w w₁ l l₁, SegOn u a vT p L s w w₁ l l₁) → Part ss → ∀ x y, x ∈ ss → y ∈ ss →
    x.tEnd ≤ y.tBegin → ∀ {w w₁ k k₁ w' w₁' k' k₁'}, SegOn u a vT p L x w w₁ k k₁ →
    SegOn u a vT p L y w' w₁' k' k₁' → k₁ ≤ k' := by
  intro ss
  induction ss with
  | nil => intro _ _ x y hx; cases hx
  | cons z ss ih =>
    intro hmem hp x y hx hy hxy w w₁ k k₁ w' w₁' k' k₁' gx gy
    rcases List.mem_cons.1 hx with rfl | hx'
    · rcases List.mem_cons.1 hy with rfl | hy
      · have := gx.ht
        linarith
      · cases ss with
        | nil => cases hy
        | cons z' ss =>
          obtain ⟨v, v₁, m, m₁, gz⟩ := hmem z' (by simp)
          have e : m = k₁ := by
            refine unit_cancel hud (p := p) ?_
            rw [← gz.hpb, ← gx.hpe]
            exact (List.isChain_cons_cons.1 hp.place).1
          rcases List.mem_cons.1 hy with rfl | hy'
          · have : k' = m := by
              refine unit_cancel hud (p := p) ?_
              rw [← gz.hpb, ← gy.hpb]
            rw [this, e]
          · have h3 := ih (fun q hq => hmem q (List.mem_cons_of_mem _ hq)) hp.tail z' y (by simp) (by simp [hy'])
              (hp.tail.le y hy') gz gy
            have := gz.hlen
            have := mul_pos (half_pos gz.hpos) (sub_pos.2 gz.ht)
            linarith
    · rcases List.mem_cons.1 hy with rfl | hy
      · have h3 := hp.le x hx'
        have h4 := gx.ht
        have h5 := gy.ht
        linarith
      · exact ih (fun q hq => hmem q (List.mem_cons_of_mem _ hq)) hp.tail x y hx' hy hxy gx gy

theorem Good.inverse_law {b : Block ℝ} (hg : Good b)
    {A : PState ℝ} (hA : b.stateA = some A) {L d : ℝ} (hL : (b.stateB.position.sub A.position).norm3 = L)
    (h0 : 0 < d) (h1 : d ≤ L) :
    ∃ t s, b.inverseTimeAtPos d = .ok t ∧ s ∈ b.segments ∧ Covers s t ∧
      (s.posBegin.sub A.position).norm3 < d ∧ d ≤ (s.posEnd.sub A.position).norm3 ∧
      s.getPosition t = .ok (A.position.add ((b.stateB.position.sub A.position).mul
        ((if s.velBegin.norm3 ≤ s.velEnd.norm3 then d else d - b.stateB.pAcc * (t - s.tBegin) ^ 2) / L))) ∧
      s.tBegin < t := by
  have hLp : 0 < L := lt_of_lt_of_le h0 h1
  rcases hg with ⟨A', u, s0, s1, hm⟩ | ⟨A', p, hm⟩
  swap
  · have := hm.hA
    rw [hA, Option.some.injEq] at this
    rw [hm.hpos, ← this, Vec4.sub_self, norm3_zero] at hL
    linarith
  have hAA := hm.hA
  rw [hA, Option.some.injEq] at hAA
  subst hAA
  obtain ⟨hu, hdist, hpos, heo, _⟩ := hm.toHdr.unit
  have hn : u.norm3 = 1 := by
    cases he : (moveDistance A b.stateB).2
    · rw [he] at hu
      simpa [UnitDir] using hu
    · rw [heo.1 he] at hL
      linarith
  have hdiff : b.stateB.position.sub A.position = u.mul L := by
    have e1 : b.stateB.position.sub A.position = u.mul (moveDistance A b.stateB).1 := by
      conv_lhs => rw [hpos]
      ext <;> simp [Vec4.sub, Vec4.add]
    have e2 : (moveDistance A b.stateB).1 = L := by
      rw [e1, norm3_mul, hn, one_mul, abs_of_pos hdist] at hL
      exact hL
    rw [e1, e2]
  have hp' : b.stateB.position = A.position.add (u.mul L) := by
    rw [← hdiff]
    ext <;> simp [Vec4.sub, Vec4.add]
  obtain ⟨s, hs, w, w₁, l, l₁, g, g1, g2, g3⟩ := inverseTimeLoop_spec hn hm.hramp (cum := 0) hp' h0
    (by rw [zero_add]; exact h1)
  rw [sub_zero] at g1 g2 g3
  obtain ⟨r, r1, r2, r3, r4⟩ := interpolate_spec hn g (x := d - l) (by linarith) (by linarith)
  have hcov : Covers s (s.tBegin + r) := ⟨by linarith, by linarith⟩
  have hdistn : ∀ y, 0 ≤ y → ((A.position.add (u.mul y)).sub A.position).norm3 = y := by
    intro y hy
    have : (A.position.add (u.mul y)).sub A.position = u.mul y := by ext <;> simp [Vec4.sub, Vec4.add]
    rw [this, norm3_mul, hn, one_mul, abs_of_nonneg hy]
  refine ⟨s.tBegin + r, s, ?_, hs, hcov, ?_, ?_, ?_, by linarith⟩
  · unfold Block.inverseTimeAtPos
    rw [g3, r1]
  · rw [g.hpb, hdistn l g.hl]
    exact g1
  · rw [g.hpe, hdistn l₁ (by linarith [g.hl])]
    exact g2
  · rw [g.getPosition hcov, hdiff]
    have hDp := sub_pos.2 g.ht
    have hD := hDp.ne'
    have hwn : s.velBegin.norm3 = w := by rw [g.hvb, norm3_mul, hn, one_mul, abs_of_nonneg g.hw.1]
    have hwn₁ : s.velEnd.norm3 = w₁ := by rw [g.hve, norm3_mul, hn, one_mul, abs_of_nonneg g.hw₁.1]
    rw [hwn, hwn₁]
    congr 2
    have key : l + (w + SegOn.speed s w w₁ (s.tBegin + r)) / 2 * (s.tBegin + r - s.tBegin) =
        if w ≤ w₁ then d else d - b.stateB.pAcc * (s.tBegin + r - s.tBegin) ^ 2 := by
      unfold SegOn.speed
      split
      · rename_i hle
        rw [abs_of_nonneg (sub_nonneg.2 hle)] at r4
        have : d = l + (w * r + (w₁ - w) / (s.tEnd - s.tBegin) * r ^ 2 / 2) := by linarith
        rw [this]
        field_simp
        ring
      · rename_i hle
        push Not at hle
        have hacc : (w - w₁) / (s.tEnd - s.tBegin) = b.stateB.pAcc := by
          rcases g.hacc with h | h | h
          · linarith
          · nlinarith [hm.ha]
          · rw [div_eq_iff hD]
            linarith
        rw [abs_of_neg (sub_neg.2 hle), neg_sub, hacc] at r4
        have h2 : (w₁ - w) / (s.tEnd - s.tBegin) = -b.stateB.pAcc := by
          rw [← hacc, ← neg_div, neg_sub]
        have : d = l + (w * r + b.stateB.pAcc * r ^ 2 / 2) := by linarith
        rw [h2, this]
        ring
    rw [key]
    ext <;> simp only [Vec4.mul] <;> field_simp

/-- **C42, the exact law.** For every distance within a travelling move `inverse_time_at_pos` returns a time
inside the segment in which that distance is reached. If that segment does not decelerate, the simulated
position at that time is indeed the given distance from the start; if it decelerates, it falls short by the
acceleration times the square of the time since the begin of the segment. -/
theorem c42_law (hreg : Regular states) (h : plan fw states = .ok bs) {b : Block ℝ} (hb : b ∈ bs)
    {A : PState ℝ} (hA : b.stateA = some A) {L d : ℝ} (hL : (b.stateB.position.sub A.position).norm3 = L)
    (h0 : 0 < d) (h1 : d ≤ L) :
    ∃ t s, b.inverseTimeAtPos d = .ok t ∧ s ∈ b.segments ∧ Covers s t ∧
      (s.posBegin.sub A.position).norm3 < d ∧ d ≤ (s.posEnd.sub A.position).norm3 ∧
      s.getPosition t = .ok (A.position.add ((b.stateB.position.sub A.position).mul
        ((if s.velBegin.norm3 ≤ s.velEnd.norm3 then d else d - b.stateB.pAcc * (t - s.tBegin) ^ 2) / L))) ∧
      s.tBegin < t :=
  ((plan_ok hreg h).1 b hb).inverse_law hA hL h0 h1

/-- **C42, for distances reached in a segment that does not decelerate.** What is missing are the
decelerating segments, for which it is false (`c42_law`, `c42_refuted`). -/
theorem c42_inverse_partial (hreg : Regular states) (h : plan fw states = .ok bs) {b : Block ℝ}
    (hb : b ∈ bs) {A : PState ℝ} (hA : b.stateA = some A) {L d : ℝ}
    (hL : (b.stateB.position.sub A.position).norm3 = L) (h0 : 0 < d) (h1 : d ≤ L)
    (hacc : ∀ s ∈ b.segments, (s.posBegin.sub A.position).norm3 < d →
      d ≤ (s.posEnd.sub A.position).norm3 → s.velBegin.norm3 ≤ s.velEnd.norm3) :
    ∃ t s, b.inverseTimeAtPos d = .ok t ∧ s ∈ b.segments ∧ Covers s t ∧
      s.getPosition t = .ok (A.position.add ((b.stateB.position.sub A.position).mul (d / L))) := by
  obtain ⟨t, s, r1, r2, r3, r4, r5, r6, _⟩ := c42_law hreg h hb hA hL h0 h1
  rw [if_pos (hacc s r2 r4 r5)] at r6
  exact ⟨t, s, r1, r2, r3, r6⟩

/-- C42 as wanted: at the returned time the motion has travelled the given distance. -/
def C42Full : Prop :=
  ∀ (fw : Firmware) (states : List (PState ℝ)) (bs : List (Block ℝ)), Regular states →
    plan fw states = .ok bs → ∀ b ∈ bs, ∀ A, b.stateA = some A → ∀ L,
    (b.stateB.position.sub A.position).norm3 = L → ∀ d, 0 < d → d ≤ L →
    ∃ t, b.inverseTimeAtPos d = .ok t ∧ ∃ s ∈ b.segments, Covers s t ∧
      s.getPosition t = .ok (A.position.add ((b.stateB.position.sub A.position).mul (d / L)))

/-- The demo move stops at its end; the end is reached in a segment that brakes to a stop. -/
theorem Demo.braked_end : ∃ (b : Block ℝ) (t : ℝ) (s : Segment ℝ), plan .klipper [Demo.a0, Demo.a1] = .ok [b] ∧
    b.stateA = some Demo.a0 ∧ b.stateB = Demo.a1 ∧ 0 < (b.stateB.position.sub Demo.a0.position).norm3 ∧
    b.inverseTimeAtPos (b.stateB.position.sub Demo.a0.position).norm3 = .ok t ∧ s ∈ b.segments ∧ Covers s t ∧
    s.velEnd.norm3 = 0 ∧ 0 < s.velBegin.norm3 ∧ s.tBegin < t ∧
    s.getPosition t = .ok (Demo.a0.position.add ((b.stateB.position.sub Demo.a0.position).mul
      (((b.stateB.position.sub Demo.a0.position).norm3 - b.stateB.pAcc * (t - s.tBegin) ^ 2) /
        (b.stateB.position.sub Demo.a0.position).norm3))) := by
  obtain ⟨_, bs, _, _, h, _⟩ := c26_correction_total .klipper Demo.regular_a'
  have h28 := c28_blocks Demo.regular_a' h
  rw [Demo.active_a'] at h28
  obtain ⟨b, rfl⟩ : ∃ b, bs = [b] := by
    have := congrArg List.length h28
    simp only [List.length_map, List.length_cons, List.length_nil] at this
    exact List.length_eq_one_iff.1 this
  simp only [List.map_cons, List.map_nil, List.cons.injEq, Prod.mk.injEq, and_true] at h28
  have hL : 0 < (b.stateB.position.sub Demo.a0.position).norm3 := by
    refine lt_of_le_of_ne (norm3_nonneg _) (Ne.symm fun h0 => ?_)
    have := (norm3_eq_zero.1 h0).1
    rw [h28.2] at this
    simp [Demo.a0, Demo.a1, Vec4.sub] at this
  obtain ⟨t, s, r1, r2, r3, r4, r5, r6, r7⟩ := c42_law Demo.regular_a' h (b := b) (by simp) h28.1 rfl hL
    (le_refl _)
  have htl := plan_timeline Demo.regular_a' h
  have hu : unpack [b] = b.segments := by simp [unpack]
  -- the last segment is the one in which the end is reached
  obtain ⟨l, hl⟩ : ∃ l, b.segments.getLast? = some l := by
    cases hc : b.segments.getLast? with
    | none => rw [List.getLast?_eq_none_iff] at hc; rw [hc] at r2; cases r2
    | some l => exact ⟨l, rfl⟩
  have hstop := c18_last_stop_partial (by simp) Demo.regular_a' h b (by simp) l hl
  have hsl : s.velEnd.norm3 = 0 ∧ 0 < s.velBegin.norm3 := by
    rcases (plan_ok Demo.regular_a' h).1 b (by simp) with ⟨A, u, s0, s1, hm⟩ | ⟨A, p, hm⟩
    swap
    · have := hm.hpause
      rw [h28.2] at this
      cases this
    have hAA := hm.hA
    rw [h28.1, Option.some.injEq] at hAA
    subst hAA
    obtain ⟨hud, hdist, hpos, heo, _⟩ := hm.toHdr.unit
    have hn : u.norm3 = 1 := by
      cases he : (moveDistance Demo.a0 b.stateB).2
      · rw [he] at hud
        simpa [UnitDir] using hud
      · rw [heo.1 he] at hL
        exact absurd hL (lt_irrefl _)
    obtain ⟨L, _, hLp, hmem⟩ := hm.hramp.mem
    obtain ⟨w, w₁, k, k₁, g⟩ := hmem s r2
    obtain ⟨w', w₁', k', k₁', g'⟩ := hmem l (List.mem_of_getLast? hl)
    have hlen := fun y (hy : 0 ≤ y) => (show ((Demo.a0.position.add (u.mul y)).sub Demo.a0.position).norm3 = y by
      have : (Demo.a0.position.add (u.mul y)).sub Demo.a0.position = u.mul y := by
        ext <;> simp [Vec4.sub, Vec4.add]
      rw [this, norm3_mul, hn, one_mul, abs_of_nonneg hy])
    have hend : l.posEnd = b.stateB.position := by
      obtain ⟨_, _, l', _, _, e3, _, e8⟩ := c20_targets Demo.regular_a' h (b := b) (by simp)
      rw [hl, Option.some.injEq] at e3
      rw [e3, e8]
    have hk1 : L ≤ k₁ := by
      rw [g.hpe, hLp, hlen k₁ ?_, hlen L ?_] at r5
      · exact r5
      · linarith [g.hl, g.hl₁]
      · have := g.hlen
        have := g.hl
        have := mul_pos (half_pos g.hpos) (sub_pos.2 g.ht)
        linarith
    have hk1' : k₁' = L := by
      refine unit_cancel hud (p := Demo.a0.position) ?_
      rw [← g'.hpe, ← hLp, hend]
    by_cases hsl : s = l
    · have hpp := g.hpos
      rw [← hsl] at hstop
      refine ⟨hstop, ?_⟩
      rw [g.hve, norm3_mul, hn, one_mul, abs_of_nonneg g.hw₁.1] at hstop
      rw [g.hvb, norm3_mul, hn, one_mul, abs_of_nonneg g.hw.1]
      linarith
    · exfalso
      -- another segment ends before the last one begins
      have h1 : s.tEnd ≤ l.tBegin := by
        have hp := htl.part
        rw [hu] at hp
        obtain ⟨pre, hpre⟩ := List.getLast?_eq_some_iff.1 hl
        rw [hpre] at hp r2
        rcases List.mem_append.1 r2 with hin | hin
        · obtain ⟨l1, l2, hl12⟩ := List.append_of_mem hin
          have hdrop := hp.drop l1.length
          rw [hl12] at hdrop
          simp only [List.append_assoc, List.cons_append, List.drop_left'] at hdrop
          exact hdrop.le l (by simp)
        · simp only [List.mem_singleton] at hin
          exact absurd hin hsl
      have hT1 : Covers s s.tEnd := ⟨g.ht.le, le_refl _⟩
      -- distance at the end of s is L, but the last segment still has to travel
      have hp := htl.part
      rw [hu] at hp
      have h2 := segOn_mono hud b.segments hmem hp s l r2 (List.mem_of_getLast? hl) h1 g g'
      have := g'.hlen
      have := mul_pos (half_pos g'.hpos) (sub_pos.2 g'.ht)
      linarith
  rw [if_neg (by rw [hsl.1]; exact not_le.2 hsl.2)] at r6
  exact ⟨b, t, s, h, h28.1, h28.2, hL, r1, r2, r3, hsl.1, hsl.2, r7, r6⟩

/-- C42 is false of the code: the end of a move that stops is reported too early. -/
theorem c42_refuted : ¬ C42Full := by
  intro hfull
  obtain ⟨b, t, s, h, hA, hB, hL, r1, r2, r3, _, _, r7, r6⟩ := Demo.braked_end
  obtain ⟨t', q1, s', q2, q3, q4⟩ := hfull .klipper _ [b] Demo.regular_a' h b (by simp) Demo.a0 hA _ rfl
    _ hL (le_refl _)
  rw [r1, Except.ok.injEq] at q1
  subst q1
  have htl := plan_timeline Demo.regular_a' h
  have hu : unpack [b] = b.segments := by simp [unpack]
  have heq := htl.part.position_unique s (by rw [hu]; exact r2) s' (by rw [hu]; exact q2) r3 q3
  rw [r6, q4, Except.ok.injEq] at heq
  have hx := congrArg Vec4.x heq
  rw [hB] at hx
  simp only [Vec4.add, Vec4.mul, Vec4.sub, Demo.a0, Demo.a1] at hx
  have hacc : 0 < (100 : ℝ) * (t - s.tBegin) ^ 2 := by
    have := sub_pos.2 r7
    positivity
  rw [hB] at hL
  simp only [Demo.a0, Demo.a1, Vec4.sub] at hL
  have hq : ∀ N : ℝ, 0 < N → 0 + (10 - 0) * ((N - 100 * (t - s.tBegin) ^ 2) / N) ≠
      0 + (10 - 0) * (N / N) := by
    intro N hN he
    have h2 : (N - 100 * (t - s.tBegin) ^ 2) / N = N / N := by linarith
    rw [div_left_inj' hN.ne'] at h2
    linarith
  exact hq _ hL hx

/-- The hypotheses of `c42_inverse_partial` are met by the end of the first segment of every program that
starts with a travelling move. -/
example (fw : Firmware) : ∃ bs b d, plan fw [Demo.a0, Demo.a1] = .ok bs ∧ b ∈ bs ∧ 0 < d ∧
    ∃ t s, b.inverseTimeAtPos d = .ok t ∧ s ∈ b.segments ∧ Covers s t ∧
      s.getPosition t = .ok (Demo.a0.position.add ((b.stateB.position.sub Demo.a0.position).mul
        (d / (b.stateB.position.sub Demo.a0.position).norm3))) := by
  obtain ⟨_, bs, _, _, h, _⟩ := c26_correction_total fw Demo.regular_a'
  have h28 := c28_blocks Demo.regular_a' h
  rw [Demo.active_a'] at h28
  obtain ⟨b, rfl⟩ : ∃ b, bs = [b] := by
    have := congrArg List.length h28
    simp only [List.length_map, List.length_cons, List.length_nil] at this
    exact List.length_eq_one_iff.1 this
  simp only [List.map_cons, List.map_nil, List.cons.injEq, Prod.mk.injEq, and_true] at h28
  have hL : 0 < (b.stateB.position.sub Demo.a0.position).norm3 := by
    refine lt_of_le_of_ne (norm3_nonneg _) (Ne.symm fun h0 => ?_)
    have := (norm3_eq_zero.1 h0).1
    rw [h28.2] at this
    simp [Demo.a0, Demo.a1, Vec4.sub] at this
  rcases (plan_ok Demo.regular_a' h).1 b (by simp) with ⟨A, u, s0, s1, hm⟩ | ⟨A, p, hm⟩
  swap
  · have := hm.hpause
    rw [h28.2] at this
    cases this
  have hAA := hm.hA
  rw [h28.1, Option.some.injEq] at hAA
  subst hAA
  obtain ⟨hud, hdist, hpos, heo, _⟩ := hm.toHdr.unit
  have hn : u.norm3 = 1 := by
    cases he : (moveDistance Demo.a0 b.stateB).2
    · rw [he] at hud
      simpa [UnitDir] using hud
    · rw [heo.1 he] at hL
      exact absurd hL (lt_irrefl _)
  have hlen := fun y (hy : 0 ≤ y) => (show ((Demo.a0.position.add (u.mul y)).sub Demo.a0.position).norm3 = y by
    have : (Demo.a0.position.add (u.mul y)).sub Demo.a0.position = u.mul y := by
      ext <;> simp [Vec4.sub, Vec4.add]
    rw [this, norm3_mul, hn, one_mul, abs_of_nonneg hy])
  obtain ⟨L, hL0, hLp, hmem⟩ := hm.hramp.mem
  obtain ⟨s, s', e1, _, _, e4, e5, _⟩ := hm.ends
  obtain ⟨w, w₁, k, k₁, g⟩ := hmem s (List.mem_of_head? e1)
  have hk : k = 0 := by
    refine unit_cancel hud (p := Demo.a0.position) ?_
    rw [← g.hpb, e4, Vec4.mul_zero, Vec4.add_zero]
  have hk₁ : 0 < k₁ := by
    have := g.hlen
    have := mul_pos (half_pos g.hpos) (sub_pos.2 g.ht)
    linarith
  have htl := plan_timeline Demo.regular_a' h
  have hu : unpack [b] = b.segments := by simp [unpack]
  have hp := htl.part
  rw [hu] at hp
  refine ⟨[b], b, k₁, h, by simp, hk₁, c42_inverse_partial Demo.regular_a' h (by simp) h28.1 rfl hk₁ ?_ ?_⟩
  · rw [hLp, hlen L hL0]
    exact g.hl₁
  · intro x hx hx1 hx2
    have hxs : x = s := by
      cases hseg : b.segments with
      | nil => rw [hseg] at hx; cases hx
      | cons y ys =>
        rw [hseg] at hp hx e1 hmem
        simp only [List.head?_cons, Option.some.injEq] at e1
        subst e1
        rcases List.mem_cons.1 hx with rfl | hx'
        · rfl
        · obtain ⟨v, v₁, m, m₁, gx⟩ := hmem x hx
          have := segOn_mono hud (y :: ys) hmem hp y x (by simp) hx (hp.le x hx') g gx
          rw [gx.hpb, hlen m gx.hl] at hx1
          linarith
    have h0 : s.velBegin.norm3 = 0 :=
      (c25_speed_continuous Demo.regular_a' h).2.2 s (by rw [path_eq, hu]; exact e1)
    rw [hxs, h0]
    exact norm3_nonneg _

end PyGCD
