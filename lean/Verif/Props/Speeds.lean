import Verif.Proofs.SpeedLemmas
import Verif.Props.Cuts

/-!
# Property C100: the speeds at the junctions and the print time are closed formulas
-/

set_option linter.unusedSectionVars false

namespace PyGCD
open PyGCD.Spec Vec4

variable {fw : Firmware} {states : List (PState ℝ)} {bs : List (Block ℝ)}

theorem speeds_of_trace {l : List Leg} (hlen : l.length = bs.length)
    (ht : Trace bs.length (fun k => (l[k]?.map Leg.gain).getD 0)
      (fun k => (l[k]?.map Leg.feed).getD 0) (fun k => (l[k]?.map Leg.last).getD 0)
      (fun k => (bs[k]?.map Block.nIn).getD 0) (fun k => (bs[k]?.map Block.nOut).getD 0) 1e-12) {k : ℕ} {b : Block ℝ}
    (hb : bs[k]? = some b) {s s' : Segment ℝ} (hs : b.segments.head? = some s) (hs' : b.segments.getLast? = some s') :
    cornerSpeed l k - 1e-12 ≤ s.velBegin.norm3 ∧ s.velBegin.norm3 ≤ cornerSpeed l k + (bs.length + 1) * 1e-12 ∧
      cornerSpeed l (k + 1) ≤ s'.velEnd.norm3 ∧
      s'.velEnd.norm3 ≤ cornerSpeed l (k + 1) + (bs.length + 1) * 1e-12 := by
  obtain ⟨hk, hbk⟩ := List.getElem?_eq_some_iff.1 hb
  have e1 : s.velBegin.norm3 = b.nIn := by
    unfold Block.nIn
    rw [hs]
    rfl
  have e2 : s'.velEnd.norm3 = b.nOut := by
    unfold Block.nOut
    rw [hs']
    rfl
  have hε : (0 : ℝ) ≤ 1e-12 := by norm_num
  have h1 := corner_of_trace hε hlen ht (i := k) hk.le
  have h2 := corner_of_trace hε hlen ht (i := k + 1) hk
  have e3 : vAt (fun k => (bs[k]?.map Block.nOut).getD 0) (k + 1) = b.nOut := by
    show (bs[k]?.map Block.nOut).getD 0 = _
    rw [hb]
    rfl
  have hI : vAt (fun k => (bs[k]?.map Block.nOut).getD 0) k - 1e-12 ≤ b.nIn ∧
      b.nIn ≤ vAt (fun k => (bs[k]?.map Block.nOut).getD 0) k := by
    cases k with
    | zero =>
      have := ht.first hk
      simp only [hb, Option.map_some, Option.getD_some] at this
      rw [this]
      show (0 : ℝ) - 1e-12 ≤ 0 ∧ (0 : ℝ) ≤ 0
      norm_num
    | succ k =>
      have g1 := ht.le k hk
      have g2 := ht.near k hk
      simp only [hb, Option.map_some, Option.getD_some] at g1 g2
      exact ⟨by show (bs[k]?.map Block.nOut).getD 0 - _ ≤ _; linarith, g1⟩
  rw [e3] at h2
  rw [e1, e2]
  exact ⟨by linarith [h1.1, hI.1], by linarith [h1.2, hI.2], h2.1, h2.2⟩

/-- **C100.** With every firmware, each block ends with the travel speed of the closed formula for its junction and begins
with the one for the junction before, up to the planner's tolerance of `1e-12` mm/s per junction. -/
theorem c100_speeds (hreg : Regular states) (h : plan fw states = .ok bs) {k : ℕ} {b : Block ℝ} (hb : bs[k]? = some b)
    {s s' : Segment ℝ} (hs : b.segments.head? = some s) (hs' : b.segments.getLast? = some s') :
    let l := (actions none states).map (leg (junctionVel fw))
    cornerSpeed l k - 1e-12 ≤ s.velBegin.norm3 ∧ s.velBegin.norm3 ≤ cornerSpeed l k + (bs.length + 1) * 1e-12 ∧
      cornerSpeed l (k + 1) ≤ s'.velEnd.norm3 ∧
      s'.velEnd.norm3 ≤ cornerSpeed l (k + 1) + (bs.length + 1) * 1e-12 := by
  exact speeds_of_trace (plan_trace hreg h).1 (plan_trace hreg h).2 hb hs hs'

/-! ## Durations -/

theorem phases_exist {a vT d v v' : ℝ} (ha : 0 < a) (hvT : 0 < vT) (hd : 0 < d) (hv : 0 ≤ v) (hvv : v ≤ vT)
    (hv' : 0 ≤ v') (hvv' : v' ≤ vT) (h1 : v' ^ 2 ≤ v ^ 2 + 2 * a * d) (h2 : v ^ 2 ≤ v' ^ 2 + 2 * a * d) :
    ∃ ta tc td vp, Phases a vT d v v' (moveTime a vT d v v') ta tc td vp ∧ vp ≤ vT := by
  have hX : 0 < a * d + (v ^ 2 + v' ^ 2) / 2 := by positivity
  set w := topSpeed a vT d v v' with hw
  have hwT : w ≤ vT := min_le_left _ _
  have hpos : 0 < w := lt_min hvT (Real.sqrt_pos.2 hX)
  have hwv : v ≤ w := le_min hvv (Real.le_sqrt_of_sq_le (by linarith))
  have hwv' : v' ≤ w := le_min hvv' (Real.le_sqrt_of_sq_le (by linarith))
  have hsq : w ^ 2 ≤ a * d + (v ^ 2 + v' ^ 2) / 2 := by
    have : w ≤ √(a * d + (v ^ 2 + v' ^ 2) / 2) := min_le_right _ _
    have := pow_le_pow_left₀ hpos.le this 2
    rwa [Real.sq_sqrt hX.le] at this
  have hrest : 0 ≤ d - ((w ^ 2 - v ^ 2) / (2 * a) + (w ^ 2 - v' ^ 2) / (2 * a)) := by
    rw [← add_div, sub_nonneg, div_le_iff₀ (by positivity)]
    linarith
  have key : ∀ x : ℝ, x * ((w - x) / a) + a * ((w - x) / a) ^ 2 / 2 = (w ^ 2 - x ^ 2) / (2 * a) := by
    intro x
    field_simp
    ring
  refine ⟨(w - v) / a, (d - ((w ^ 2 - v ^ 2) / (2 * a) + (w ^ 2 - v' ^ 2) / (2 * a))) / w, (w - v') / a, w,
    ⟨div_nonneg (by linarith) ha.le, div_nonneg hrest hpos.le, div_nonneg (by linarith) ha.le, ?_, ?_, ?_, ?_, ?_⟩, hwT⟩
  · field_simp
    ring
  · field_simp
    ring
  · intro hc
    rcases min_choice vT √(a * d + (v ^ 2 + v' ^ 2) / 2) with h | h
    · exact h
    · exfalso
      have hw2 : w ^ 2 = a * d + (v ^ 2 + v' ^ 2) / 2 := by
        rw [hw, topSpeed, h, Real.sq_sqrt hX.le]
      have : d - ((w ^ 2 - v ^ 2) / (2 * a) + (w ^ 2 - v' ^ 2) / (2 * a)) = 0 := by
        rw [hw2]
        field_simp
        ring
      rw [this, zero_div] at hc
      exact lt_irrefl _ hc
  · unfold moveTime
    simp only
    rw [← hw]
    ring
  · rw [key, key, mul_div_cancel₀ _ hpos.ne']
    ring

theorem Phases.drive {a vT d v v' T ta tc td vp : ℝ} (ha : 0 < a) (h : Phases a vT d v v' T ta tc td vp) (hv : 0 ≤ v)
    (hv' : 0 ≤ v') (hle : vp ≤ vT) : Drive a vT d v v' T := by
  have h1 : v ≤ vp := by rw [h.hup]; nlinarith [h.hta]
  have h2 : v' ≤ vp := by rw [h.hdown]; nlinarith [h.htd]
  have d1 := drive_one (a := a) (vT := vT) (T := ta) (k := a) ⟨hv, by linarith⟩ ⟨by linarith, hle⟩ h.hta
    (by rw [abs_of_pos ha]) h.hup
  have d2 := drive_one (a := a) (vT := vT) (v := vp) (v' := vp) (T := tc) (k := 0) ⟨by linarith, hle⟩ ⟨by linarith, hle⟩
    h.htc (by rw [abs_zero]; exact ha.le) (by ring)
  have d3 := drive_one (a := a) (vT := vT) (v := vp) (v' := v') (T := td) (k := -a) ⟨by linarith, hle⟩
    ⟨hv', by linarith⟩ h.htd (by rw [abs_neg, abs_of_pos ha]) (by linarith [h.hdown])
  have := (d1.append d2).append d3
  rw [h.hT]
  have e : (v + vp) / 2 * ta + (vp + vp) / 2 * tc + (vp + v') / 2 * td = d := by
    rw [h.hd]
    have e1 : (v + vp) / 2 * ta = v * ta + a * ta ^ 2 / 2 := by rw [h.hup]; ring
    have e2 : (vp + v') / 2 * td = v' * td + a * td ^ 2 / 2 := by rw [h.hdown]; ring
    rw [e1, e2]
    ring
  rw [e] at this
  exact this

theorem moveTime_close_le {a vT d v v' w w' e : ℝ} (ha : 0 < a) (hvT : 0 < vT) (hd : 0 < d) (hv : 0 ≤ v) (hvv : v ≤ vT)
    (hv' : 0 ≤ v') (hvv' : v' ≤ vT) (h1 : v' ^ 2 ≤ v ^ 2 + 2 * a * d) (h2 : v ^ 2 ≤ v' ^ 2 + 2 * a * d) (hw : 0 ≤ w)
    (hww : w ≤ vT) (hw' : 0 ≤ w') (hww' : w' ≤ vT) (h3 : w' ^ 2 ≤ w ^ 2 + 2 * a * d) (h4 : w ^ 2 ≤ w' ^ 2 + 2 * a * d)
    (he : 0 ≤ e) (he1 : w ≤ v + e) (he2 : w' ≤ v' + e) : moveTime a vT d v v' ≤ moveTime a vT d w w' + 2 * e / a := by
  obtain ⟨ta, tc, td, vp, ph, _⟩ := phases_exist ha hvT hd hv hvv hv' hvv' h1 h2
  obtain ⟨_, _, _, vp', ph', hle⟩ := phases_exist ha hvT hd hw hww hw' hww' h3 h4
  have dr := ph'.drive ha hw hw' hle
  obtain ⟨D, hD, dr'⟩ := dr.extend ha (lo := min v w) (lo' := min v' w') (le_min hv hw) (min_le_right _ _)
    (le_min hv' hw') (min_le_right _ _)
  have := ph.fastest_far ha hvT hv (min_le_left _ _) (min_le_left _ _) hD dr'
  refine this.trans ?_
  have q1 : w - min v w ≤ e := by
    rcases min_choice v w with h | h <;> rw [h] <;> linarith
  have q2 : w' - min v' w' ≤ e := by
    rcases min_choice v' w' with h | h <;> rw [h] <;> linarith
  rw [← add_div]
  have : (w - min v w + (w' - min v' w')) / a ≤ 2 * e / a := div_le_div_of_nonneg_right (by linarith) ha.le
  linarith

theorem cornerSpeed_le_own {l : List Leg} {i : ℕ} (hi : i ≤ l.length) (h0 : 0 ≤ ownSpeed l i) :
    cornerSpeed l i ≤ ownSpeed l i := by
  have hbdd : BddBelow (Set.range fun j : Fin (l.length + 1) => √(ownSpeed l j ^ 2 + |reach l i - reach l j|)) :=
    ⟨0, by rintro _ ⟨j, rfl⟩; exact Real.sqrt_nonneg _⟩
  refine (ciInf_le hbdd ⟨i, by omega⟩).trans ?_
  simp only [_root_.sub_self, abs_zero, _root_.add_zero]
  rw [Real.sqrt_sq h0]

theorem cornerSpeed_nonneg (l : List Leg) (i : ℕ) : 0 ≤ cornerSpeed l i :=
  Real.iInf_nonneg fun _ => Real.sqrt_nonneg _

/-- The closed formula never changes the speed by more than the action allows. -/
theorem cornerSpeed_step {l : List Leg} (i i' : ℕ) :
    cornerSpeed l i' ^ 2 ≤ cornerSpeed l i ^ 2 + |reach l i' - reach l i| := by
  obtain ⟨j, hj⟩ := exists_eq_ciInf_of_finite (f := fun j : Fin (l.length + 1) =>
    √(ownSpeed l j ^ 2 + |reach l i - reach l j|))
  have hbdd : BddBelow (Set.range fun j : Fin (l.length + 1) => √(ownSpeed l j ^ 2 + |reach l i' - reach l j|)) :=
    ⟨0, by rintro _ ⟨j, rfl⟩; exact Real.sqrt_nonneg _⟩
  have h1 : cornerSpeed l i' ≤ √(ownSpeed l j ^ 2 + |reach l i' - reach l j|) := ciInf_le hbdd j
  have h2 := pow_le_pow_left₀ (cornerSpeed_nonneg l i') h1 2
  rw [Real.sq_sqrt (by positivity)] at h2
  have h3 : cornerSpeed l i ^ 2 = ownSpeed l j ^ 2 + |reach l i - reach l j| := by
    unfold cornerSpeed
    rw [← hj]
    exact Real.sq_sqrt (by positivity)
  have := abs_sub_le (reach l i') (reach l i) (reach l j)
  linarith

theorem actions_sublist (pa : Option (PState ℝ)) (states : List (PState ℝ)) :
    ((actions pa states).map fun x => x.2.1).Sublist states := by
  induction states generalizing pa with
  | nil =>
    rw [actions]
    simp
  | cons s rest ih =>
    rw [actions]
    split
    · exact (ih _).cons₂ _
    · exact (ih _).cons _

theorem sum_near {α β : Type} {f : β → ℝ} {g : α → ℕ → ℝ} {B : α → ℝ} : ∀ {xs : List α} {ys : List β} (m : ℕ),
    xs.length = ys.length → (∀ k x y, xs[k]? = some x → ys[k]? = some y → |f y - g x (m + k)| ≤ B x) →
    |(ys.map f).sum - ((xs.zipIdx m).map fun x => g x.1 x.2).sum| ≤ (xs.map B).sum := by
  intro xs
  induction xs with
  | nil =>
    intro ys m hlen _
    have : ys = [] := List.length_eq_zero_iff.1 hlen.symm
    subst this
    simp
  | cons x xs ih =>
    intro ys m hlen h
    cases ys with
    | nil => simp at hlen
    | cons y ys =>
      have h0 := h 0 x y rfl rfl
      have h1 := ih (ys := ys) (m + 1) (by simpa using hlen) (by
        intro k x' y' hx hy
        have := h (k + 1) x' y' hx hy
        rwa [show m + (k + 1) = m + 1 + k by omega] at this)
      simp only [List.zipIdx_cons, List.map_cons, List.sum_cons, _root_.add_zero] at h0 ⊢
      rw [abs_le] at *
      constructor <;> linarith [h0.1, h0.2, h1.1, h1.2]

theorem plan_feed_zero (hreg : Regular states) (hfw : fw = .marlinJerk → Travels states) (h : plan fw states = .ok bs) :
    ∀ b ∈ bs, ∀ v ∈ b.feed, v = Vec4.zero := by
  by_cases hx : fw = .marlinJerk
  · intro b hb v hv
    rcases (plan_ok hreg h).1 b hb with ⟨A, u, s0, s1, hm⟩ | ⟨A, p, hd⟩
    · have hmem : (b.stateA, b.stateB) ∈ active none states := by
        rw [← (plan_ok hreg h).2.2.2.1]
        exact List.mem_map_of_mem hb
      have := hfw hx _ hmem A hm.hA hm.hpause
      rw [Block.feed_none hm.hdir (hm.travel this).1] at hv
      cases hv
    · obtain ⟨t, ht⟩ := hd.hseg
      unfold Block.feed at hv
      split at hv
      · rw [ht] at hv
        cases hv
        rfl
      · cases hv
  · exact plan_feed hreg hx h

theorem actions_length (pa : Option (PState ℝ)) (states : List (PState ℝ)) :
    (actions pa states).length ≤ states.length := by
  have := (actions_sublist pa states).length_le
  rwa [List.length_map] at this

/-- **C100.** The duration of each block is the closed formula for its action with the closed formulas for the speeds at
its ends, up to the planner's tolerance. -/
theorem c100_durations (hreg : Regular states) (hfw : fw = .marlinJerk → Travels states) (h : plan fw states = .ok bs)
    {k : ℕ} {x : Option (PState ℝ) × PState ℝ × List (PState ℝ)} {b : Block ℝ} (hx : (actions none states)[k]? = some x)
    (hb : bs[k]? = some b) :
    let l := (actions none states).map (leg (junctionVel fw))
    |(b.t1 - b.t0) - actionTime x (cornerSpeed l k) (cornerSpeed l (k + 1))| ≤
      2 * ((bs.length + 1) * 1e-12) / x.2.1.pAcc := by
  show |(b.t1 - b.t0) - actionTime x (cornerSpeed (legs fw states) k) (cornerSpeed (legs fw states) (k + 1))| ≤ _
  obtain ⟨hlen, ht⟩ := plan_trace hreg h
  obtain ⟨hk, hbk⟩ := List.getElem?_eq_some_iff.1 hb
  have hmem : b ∈ bs := List.mem_of_getElem? hb
  obtain ⟨hxk, hxe⟩ := List.getElem?_eq_some_iff.1 hx
  have hacts : Acts fw b x := by
    have := (List.forall₂_iff_get.1 (plan_opt hreg h).1).2 k hk hxk
    simpa [hbk, hxe] using this
  have hlk : (legs fw states)[k]? = some (leg (junctionVel fw) x) := by
    unfold legs
    rw [List.getElem?_map, hx]
    rfl
  have hR := hacts.legOf ((plan_ok hreg h).1 b hmem)
  have hkl : k < (legs fw states).length := by omega
  have hgain : |reach (legs fw states) (k + 1) - reach (legs fw states) k| = (leg (junctionVel fw) x).gain := by
    rw [reach_succ hkl]
    have : (legs fw states)[k] = leg (junctionVel fw) x := by
      rw [List.getElem?_eq_getElem hkl] at hlk
      exact Option.some.inj hlk
    rw [this, add_sub_cancel_left, abs_of_nonneg hR.gain]
  have hup := cornerSpeed_step (l := legs fw states) k (k + 1)
  have hdn := cornerSpeed_step (l := legs fw states) (k + 1) k
  rw [hgain] at hup
  rw [abs_sub_comm, hgain] at hdn
  have hc0 := cornerSpeed_nonneg (legs fw states) k
  have hc1 := cornerSpeed_nonneg (legs fw states) (k + 1)
  have hbd := bounds_legs (legs fw states)
  rw [hlen] at hbd
  have hfk : cornerSpeed (legs fw states) k ≤ (leg (junctionVel fw) x).feed := by
    refine (cornerSpeed_le_own hkl.le (hbd.nonneg ht hk.le)).trans ?_
    cases k with
    | zero => exact hR.beg.trans hR.feed
    | succ k =>
      rw [hbd.mid k hk, hlk]
      exact min_le_right _ _
  have e3 : vAt (fun k => (bs[k]?.map Block.nOut).getD 0) (k + 1) = b.nOut := by
    show (bs[k]?.map Block.nOut).getD 0 = _
    rw [hb]
    rfl
  have hfk' : cornerSpeed (legs fw states) (k + 1) ≤ (leg (junctionVel fw) x).feed := by
    have := (corner_of_trace (by norm_num) hlen ht (i := k + 1) hk).1
    rw [e3] at this
    exact this.trans hR.feed'
  rcases (plan_ok hreg h).1 b hmem with ⟨A, u, s0, s1, hm⟩ | ⟨A, p, hd⟩
  · obtain ⟨a1, a2, a3⟩ := hacts
    have ha := hm.ha
    have hact : ∀ v v', actionTime x v v' =
        moveTime b.stateB.pAcc b.stateB.speed (moveLength A.position b.stateB.position) v v' := by
      intro v v'
      unfold actionTime
      rw [← a1, ← a2, hm.hA, hm.hpause]
    rw [hact, hm.time, ← a2]
    by_cases hz : (b.stateB.position.sub A.position).norm3 = 0
    · have hl : leg (junctionVel fw) x = ⟨0, 0, 0⟩ := by
        obtain ⟨x1, x2, x3⟩ := x
        simp only at a1 a2
        rw [← a1, ← a2, hm.hA]
        unfold leg
        simp only
        rw [if_neg (by rintro ⟨_, h⟩; exact h hz)]
      rw [hl] at hfk hfk'
      obtain ⟨g1, g2, g3, g4, _⟩ := hm.toHdr.unit
      obtain ⟨f1, f2, f3, f4, _⟩ := hm.facts
      obtain ⟨q, q', e1, _, _, _, e5, _, _, _, e9, e10⟩ := hm.ends
      have hun : u.norm3 = 0 := by
        have := g1.norms.1
        rw [g4.2 hz] at this
        simpa using this
      obtain ⟨u', j1, j2⟩ := a3 (by rw [← a2]; exact hm.hpause)
      rw [hm.hdir] at j1
      cases j1
      obtain ⟨j, i1, i2⟩ := hm.hjd
      rw [j2] at i1
      injection i1 with i1
      have hj := mul_inj g1 i1
      have hj0 : junctionVel fw (some A) b.stateB x.2.2 = 0 := by
        refine c62_filament_stop fw _ hm.hs.le ?_ hz
        have hs := (actions_sublist none states).subset (List.mem_map_of_mem (List.mem_of_getElem? hx))
        rw [a2]
        exact hreg.jerk _ hs
      rw [← a1, ← a2, hm.hA, hj0] at hj
      have h1 : s1 = 0 := le_antisymm (by rw [← hj] at i2; exact i2) f3
      have h0 : s0 = 0 := by
        have hfe : b.feed = some (u.mul s0) := by
          rw [Block.feed, hm.hdir, Option.map_some, hun, if_pos rfl, e1, Option.map_some, e5]
        have := plan_feed_zero hreg hfw h b hmem _ hfe
        exact mul_inj g1 (this.trans (Vec4.mul_zero u).symm)
      rw [h0, h1, le_antisymm hfk hc0, le_antisymm hfk' hc1, _root_.sub_self, abs_zero]
      positivity
    · obtain ⟨n1, n2, n3, n4⟩ := hm.travel hz
      have hd : 0 < moveLength A.position b.stateB.position := by
        obtain ⟨_, g2, _⟩ := hm.toHdr.unit
        rwa [moveDistance_length] at g2
      have hml : moveLength A.position b.stateB.position = (b.stateB.position.sub A.position).norm3 := by
        rw [moveLength, if_neg hz]
      have hl : leg (junctionVel fw) x = ⟨2 * b.stateB.pAcc * moveLength A.position b.stateB.position, b.stateB.speed,
          junctionVel fw (some A) b.stateB x.2.2⟩ := by
        obtain ⟨x1, x2, x3⟩ := x
        simp only at a1 a2
        rw [← a1, ← a2, hm.hA]
        unfold leg
        simp only
        rw [if_pos ⟨hm.hpause, hz⟩, hml]
      rw [hl] at hfk hfk' hup hdn
      simp only at hfk hfk' hup hdn
      obtain ⟨f1, f2, f3, f4, f5, _⟩ := hm.facts
      rw [moveDistance_length] at f5
      obtain ⟨f6, f7⟩ := abs_le.1 f5
      obtain ⟨s, s', z1, z2, _⟩ := hm.ends
      obtain ⟨c1, c2, c3, c4⟩ := c100_speeds hreg h hb z1 z2
      change cornerSpeed (legs fw states) k - _ ≤ _ at c1
      change _ ≤ cornerSpeed (legs fw states) k + _ at c2
      change cornerSpeed (legs fw states) (k + 1) ≤ _ at c3
      change _ ≤ cornerSpeed (legs fw states) (k + 1) + _ at c4
      have e1 : s.velBegin.norm3 = s0 := by
        rw [← n2]
        unfold Block.nIn
        rw [z1]
        rfl
      have e2 : s'.velEnd.norm3 = s1 := by
        rw [← n3]
        unfold Block.nOut
        rw [z2]
        rfl
      rw [e1] at c1 c2
      rw [e2] at c3 c4
      have hn : (0 : ℝ) ≤ bs.length := Nat.cast_nonneg _
      have hε : (1e-12 : ℝ) ≤ (bs.length + 1) * 1e-12 := by nlinarith
      have hε0 : (0 : ℝ) ≤ (bs.length + 1) * 1e-12 := by positivity
      have t1 := moveTime_close_le ha hm.hs hd f1 f2 f3 f4 (by linarith) (by linarith) hc0 hfk hc1 hfk' hup hdn hε0
        (by linarith) (by linarith)
      have t2 := moveTime_close_le ha hm.hs hd hc0 hfk hc1 hfk' hup hdn f1 f2 f3 f4 (by linarith) (by linarith) hε0
        (by linarith) (by linarith)
      rw [abs_le]
      constructor <;> linarith
  · have hact : ∀ v v', actionTime x v v' = p := by
      intro v v'
      unfold actionTime
      rw [← hacts.2.1, hd.hpause]
    obtain ⟨t, ht⟩ := hd.hseg
    have : b.t1 - b.t0 = p := by
      unfold Block.t1 Block.t0
      rw [ht]
      simp
    rw [hact, this, _root_.sub_self, abs_zero]
    have hs := (actions_sublist none states).subset (List.mem_map_of_mem (List.mem_of_getElem? hx))
    have := hreg.acc _ hs
    positivity

/-- **C100.** With every firmware the print time is the sum of the closed formulas for the durations of the actions, with
the closed formulas for the speeds at the junctions, up to the planner's tolerance. With `marlin_jerk` every move has to
travel. -/
theorem c100_print_time (hreg : Regular states) (hfw : fw = .marlinJerk → Travels states) (h : plan fw states = .ok bs)
    {t : ℝ} (ht : EndTime (Spec.path bs) t) : |t - programTime (junctionVel fw) states| ≤ slack states := by
  have hlen : (actions none states).length = bs.length := (List.forall₂_iff_get.1 (plan_opt hreg h).1).1.symm
  have hsum := sum_near (f := fun b : Block ℝ => b.t1 - b.t0)
    (g := fun x k => actionTime x (cornerSpeed (legs fw states) k) (cornerSpeed (legs fw states) (k + 1)))
    (B := fun x => 2 * ((bs.length + 1) * 1e-12) / x.2.1.pAcc) 0 hlen (by
      intro k x b hx hb
      rw [Nat.zero_add]
      exact c100_durations hreg hfw h hx hb)
  rw [endTime_sum hreg h ht] at hsum
  refine hsum.trans ?_
  have hacc : ∀ s ∈ states, 0 ≤ 1 / s.pAcc := fun s hs => (one_div_pos.2 (hreg.acc s hs)).le
  have h1 : ((actions none states).map fun x => 2 * (((bs.length : ℝ) + 1) * 1e-12) / x.2.1.pAcc).sum =
      2 * (((bs.length : ℝ) + 1) * 1e-12) * (((actions none states).map fun x => x.2.1).map fun s => 1 / s.pAcc).sum := by
    rw [List.map_map, ← List.sum_map_mul_left]
    congr 1
    refine List.map_congr_left fun x _ => ?_
    simp only [Function.comp]
    ring
  have h2 : (((actions none states).map fun x => x.2.1).map fun s => 1 / s.pAcc).sum ≤
      (states.map fun s => 1 / s.pAcc).sum :=
    ((actions_sublist none states).map _).sum_le_sum (by
      intro y hy
      obtain ⟨s, hs, rfl⟩ := List.mem_map.1 hy
      exact hacc s hs)
  have h0 : 0 ≤ (((actions none states).map fun x => x.2.1).map fun s => 1 / s.pAcc).sum := by
    refine List.sum_nonneg fun y hy => ?_
    obtain ⟨s, hs, rfl⟩ := List.mem_map.1 hy
    exact hacc s ((actions_sublist none states).subset hs)
  rw [h1]
  unfold slack
  have hn := actions_length none states
  rw [hlen] at hn
  rcases Nat.eq_zero_or_pos states.length with h3 | h3
  · have : states = [] := List.length_eq_zero_iff.1 h3
    subst this
    rw [actions]
    simp
  · have h4 : ((bs.length : ℝ) + 1) ≤ 2 * states.length := by
      have : ((bs.length + 1 : ℕ) : ℝ) ≤ ((2 * states.length : ℕ) : ℝ) := by exact_mod_cast (by omega)
      push_cast at this
      exact this
    refine mul_le_mul ?_ h2 h0 (by positivity)
    linarith

/-! ## A corner -/

/-- Two moves that can change the square of the speed by 200 each meet at a junction that allows 5 mm/s: it is taken with
these 5 mm/s. -/
example : cornerSpeed [⟨200, 10, 5⟩, ⟨200, 10, 0⟩] 1 = 5 := by
  have h5 : ownSpeed [⟨200, 10, 5⟩, ⟨200, 10, 0⟩] 1 = 5 := by
    simp only [ownSpeed, List.getElem?_cons_zero, List.getElem?_cons_succ]
    norm_num
  refine le_antisymm ((cornerSpeed_le_own (by simp) (by rw [h5]; norm_num)).trans h5.le) (le_ciInf fun j => ?_)
  refine Real.le_sqrt_of_sq_le ?_
  obtain ⟨j, hj⟩ := j
  simp only [List.length_cons, List.length_nil] at hj
  rcases j with _ | _ | _ | j
  · norm_num [reach, ownSpeed]
  · rw [h5]
    norm_num [reach]
  · norm_num [reach, ownSpeed]
  · omega

/-- Moves that can change the square of the speed by 16 only take the same junction with 4 mm/s: the one before has begun
at rest. -/
example : cornerSpeed [⟨16, 10, 5⟩, ⟨200, 10, 0⟩] 1 = 4 := by
  have hbdd : BddBelow (Set.range fun j : Fin ([(⟨16, 10, 5⟩ : Leg), ⟨200, 10, 0⟩].length + 1) =>
      √(ownSpeed [⟨16, 10, 5⟩, ⟨200, 10, 0⟩] j ^ 2 + |reach [⟨16, 10, 5⟩, ⟨200, 10, 0⟩] 1 - reach [⟨16, 10, 5⟩, ⟨200, 10, 0⟩] j|)) :=
    ⟨0, by rintro _ ⟨j, rfl⟩; exact Real.sqrt_nonneg _⟩
  refine le_antisymm ((ciInf_le hbdd ⟨0, by simp⟩).trans ?_) (le_ciInf fun j => ?_)
  · rw [Real.sqrt_le_left (by norm_num)]
    norm_num [reach, ownSpeed]
  · refine Real.le_sqrt_of_sq_le ?_
    obtain ⟨j, hj⟩ := j
    simp only [List.length_cons, List.length_nil] at hj
    rcases j with _ | _ | _ | j
    · norm_num [reach, ownSpeed]
    · norm_num [reach, ownSpeed]
    · norm_num [reach, ownSpeed]
    · omega

/-- The bracket with every firmware but `marlin_jerk`. -/
example (hfw : fw ≠ .marlinJerk) : ∃ bs t, plan fw Demo.bracket = .ok bs ∧ EndTime (Spec.path bs) t ∧
    |t - programTime (junctionVel fw) Demo.bracket| ≤ slack Demo.bracket := by
  obtain ⟨bs, t, h, ht⟩ := exists_endTime fw Demo.bracket_regular Demo.bracket_cut.moves.1
  exact ⟨bs, t, h, ht, c100_print_time Demo.bracket_regular (fun h => absurd h hfw) h ht⟩

end PyGCD
