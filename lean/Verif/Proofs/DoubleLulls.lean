import Verif.Proofs.DoubleTracked
import Verif.Spec.Lulls

/-!
# Times that no segment of a plan covers, in double precision
-/

set_option linter.unusedSectionVars false
set_option linter.unusedSimpArgs false

namespace PyGCD
open PyGCD.Spec Vec4

/-- Coordinates of the size that plans of usual programs have. -/
def Bounded4 (p : Vec4 Dbl) : Prop := |p.x.r| ≤ 400000 ∧ |p.y.r| ≤ 400000 ∧ |p.z.r| ≤ 400000 ∧ |p.e.r| ≤ 400000

/-- What is added to a coordinate without changing it is small. -/
theorem stuck_coord {p x : Dbl} (h : p + x = p) (hp : |p.r| ≤ 400000) : |x.r| ≤ 1e-10 := by
  have he := eps_pos
  have he' := eps_lt
  have h1 := Dbl.r_add p x
  rw [h] at h1
  have h2 := h1.symm.abs_sub (by norm_num)
  push_cast at h2
  rw [add_sub_cancel_left] at h2
  have : eps * |p.r| ≤ eps * 400000 := by gcongr
  linarith

theorem stuck_scaled {p u L : Dbl} {c : ℝ} (hu : Rel 41 u.r c) (h : p + u * L = p) (hp : |p.r| ≤ 400000) :
    |c * L.r| ≤ 1.001e-10 := by
  have he := eps_pos
  have he' := eps_lt
  have h1 := stuck_coord h hp
  have h2 := ((Dbl.r_mul u L).trans (hu.mul (Rel.refl 0 L.r))).symm.abs_sub (by norm_num)
  have h3 := abs_add_le (c * L.r - (u * L).r) (u * L).r
  rw [sub_add_cancel] at h3
  push_cast at h2
  have : eps * |(u * L).r| ≤ 0.00001 * |(u * L).r| := by gcongr; linarith
  linarith

/-- A way that is not seen in the coordinates is short. -/
theorem stuck_way {p u : Vec4 Dbl} {ur : Vec4 ℝ} {eo : Bool} {L : Dbl} (hu : RelV 41 u ur) (hd : UnitDir ur eo)
    (h : p.add (u.mul L) = p) (hp : Bounded4 p) : |L.r| ≤ 2e-10 := by
  obtain ⟨p1, p2, p3, p4⟩ := hp
  have hx : p.x + u.x * L = p.x := congrArg Vec4.x h
  have hy : p.y + u.y * L = p.y := congrArg Vec4.y h
  have hz : p.z + u.z * L = p.z := congrArg Vec4.z h
  have he : p.e + u.e * L = p.e := congrArg Vec4.e h
  have kx := stuck_scaled hu.x hx p1
  have ky := stuck_scaled hu.y hy p2
  have kz := stuck_scaled hu.z hz p3
  have ke := stuck_scaled hu.e he p4
  cases eo
  · simp only [UnitDir, Bool.false_eq_true, if_false] at hd
    have hn := norm3_sq ur
    rw [hd] at hn
    have sx := sq_le_sq' (abs_le.1 kx).1 (abs_le.1 kx).2
    have sy := sq_le_sq' (abs_le.1 ky).1 (abs_le.1 ky).2
    have sz := sq_le_sq' (abs_le.1 kz).1 (abs_le.1 kz).2
    have : L.r ^ 2 ≤ (2e-10) ^ 2 := by
      have : L.r ^ 2 = (ur.x * L.r) ^ 2 + (ur.y * L.r) ^ 2 + (ur.z * L.r) ^ 2 := by
        calc L.r ^ 2 = 1 ^ 2 * L.r ^ 2 := by ring
          _ = _ := by rw [hn]; ring
      rw [this]
      linarith
    exact abs_le_of_sq_le_sq this (by norm_num)
  · simp only [UnitDir, if_true] at hd
    rw [abs_mul, hd.2.2.2, one_mul] at ke
    linarith

/-- The time for a ramp that is not seen in the coordinates. -/
theorem stuck_ramp {v w acc : Dbl} (ha : 0 < acc.r) (hv : 0 ≤ v.r) (hw : 0 ≤ w.r)
    (h : |((w - v) * (v + w) / (2 * acc)).r| ≤ 2e-10) : max ((w - v) / acc).r 0 ≤ 2.2e-5 / √acc.r := by
  have he := eps_pos
  have he' := eps_lt
  have hs : 0 < √acc.r := Real.sqrt_pos.2 ha
  rcases le_total w.r v.r with hle | hle
  · have := div_time_le (a := w - v) (b := acc) (c := 0) 1 (by norm_num) (Dbl.r_sub w v) (Rel.refl 1 _) ha (by linarith) le_rfl
    rw [MulZeroClass.mul_zero, zero_div] at this
    exact this.trans (by positivity)
  · have h1 := rel_ramp (a := w) (b := v) (acc := acc)
    have h2 : 0 ≤ (w.r * w.r - v.r * v.r) / (2 * acc.r) := div_nonneg (by nlinarith) (by linarith)
    have h3 := h1.ge (by norm_num) h2
    have h4 := (le_abs_self _).trans h
    push_cast at h3
    have h5 : (w.r * w.r - v.r * v.r) / (2 * acc.r) ≤ 2.01e-10 := by
      have : eps * ((w.r * w.r - v.r * v.r) / (2 * acc.r)) ≤ 0.00001 * ((w.r * w.r - v.r * v.r) / (2 * acc.r)) := by
        gcongr
        linarith
      linarith
    rw [div_le_iff₀ (by linarith)] at h5
    have h6 : (w.r - v.r) ^ 2 ≤ 4.02e-10 * acc.r := by nlinarith
    have h7 : w.r - v.r ≤ 2.01e-5 * √acc.r := by
      refine abs_le_of_sq_le_sq' ?_ (by positivity) |>.2
      rw [mul_pow, Real.sq_sqrt ha.le]
      linarith
    have h8 := div_time_le (a := w - v) (b := acc) (c := 2.01e-5 * √acc.r) 1 (by norm_num) (Dbl.r_sub w v) (Rel.refl 1 _) ha
      h7 (by positivity)
    refine h8.trans ?_
    rw [div_le_div_iff₀ ha hs]
    have := Real.mul_self_sqrt ha.le
    nlinarith

/-- The segments begin at most `τ` after the end of the one before, if their begin is inside and their time not too
large. -/
def Soon (τ : ℝ) : Dbl → List (Segment Dbl) → Prop
  | _, [] => True
  | t, s :: ss => (Bounded4 s.posBegin → s.tBegin.r ≤ 1000000 → s.tBegin.r ≤ t.r + τ) ∧ Soon τ s.tEnd ss

theorem soon_three {τ β γ : ℝ} {t₀ t₁ t₂ : Dbl} {a b c : Segment Dbl} (ha : a.tBegin = t₀) (ha' : a.tEnd = t₁)
    (hb : b.tBegin = t₁) (hb' : b.tEnd = t₂) (hc : c.tBegin = t₂) (hab : b.posBegin = a.posEnd)
    (hbc : c.posBegin = b.posEnd) (h01 : t₀.r ≤ t₁.r) (h12 : t₁.r ≤ t₂.r) (h0 : |t₀.r| ≤ 1000000)
    (h1 : a.posEnd = a.posBegin → Bounded4 a.posBegin → t₁.r ≤ t₀.r + β)
    (h2 : b.posEnd = b.posBegin → Bounded4 b.posBegin → |t₁.r| ≤ 1000000 → t₂.r ≤ t₁.r + γ) (hβ : 0 ≤ β) (hγ : 0 ≤ γ)
    (hτ : β + γ ≤ τ) : Soon τ t₀ (keepSeg a ++ keepSeg b ++ keepSeg c) := by
  have mid : t₂.r ≤ 1000000 → |t₁.r| ≤ 1000000 := by
    intro h
    rw [abs_le] at h0 ⊢
    constructor <;> linarith
  rcases keepSeg_cases a with ka | ⟨ka, qa⟩ <;> rcases keepSeg_cases b with kb | ⟨kb, qb⟩ <;>
    rcases keepSeg_cases c with kc | ⟨kc, qc⟩ <;>
    simp only [ka, kb, kc, List.nil_append, List.append_nil, List.cons_append, Soon, ha, ha', hb, hb', hc, and_true]
  · exact ⟨fun _ _ => by linarith, fun _ _ => by linarith, fun _ _ => by linarith⟩
  · exact ⟨fun _ _ => by linarith, fun _ _ => by linarith⟩
  · refine ⟨fun _ _ => by linarith, fun i1 i2 => ?_⟩
    have := h2 qb (qb ▸ hbc ▸ i1) (mid i2)
    linarith
  · exact fun _ _ => by linarith
  · refine ⟨fun i1 _ => ?_, fun _ _ => by linarith⟩
    have := h1 qa (qa ▸ hab ▸ i1)
    linarith
  · intro i1 _
    have := h1 qa (qa ▸ hab ▸ i1)
    linarith
  · intro i1 i2
    have i3 : Bounded4 b.posBegin := qb ▸ hbc ▸ i1
    have := h2 qb i3 (mid i2)
    have := h1 qa (qa ▸ hab ▸ i3)
    linarith

theorem soon_two {τ β : ℝ} {t₀ t₁ : Dbl} {a c : Segment Dbl} (ha : a.tBegin = t₀) (ha' : a.tEnd = t₁) (hc : c.tBegin = t₁)
    (hac : c.posBegin = a.posEnd) (h1 : a.posEnd = a.posBegin → Bounded4 a.posBegin → t₁.r ≤ t₀.r + β) (h0 : 0 ≤ τ)
    (hτ : β ≤ τ) : Soon τ t₀ (keepSeg a ++ keepSeg c) := by
  rcases keepSeg_cases a with ka | ⟨ka, qa⟩ <;> rcases keepSeg_cases c with kc | ⟨kc, qc⟩ <;>
    simp only [ka, kc, List.nil_append, List.append_nil, List.cons_append, Soon, ha, ha', hc, and_true]
  · exact ⟨fun _ _ => by linarith, fun _ _ => by linarith⟩
  · exact fun _ _ => by linarith
  · intro i1 _
    have := h1 qa (qa ▸ hac ▸ i1)
    linarith

theorem soon_one {τ : ℝ} {t₀ : Dbl} {a : Segment Dbl} (ha : a.tBegin = t₀) (h0 : 0 ≤ τ) : Soon τ t₀ (keepSeg a) := by
  rcases keepSeg_cases a with ka | ⟨ka, qa⟩ <;> simp only [ka, Soon, ha, and_true]
  exact fun _ _ => by linarith

theorem tick_small {t d : Dbl} {β : ℝ} (h : t.r ≤ (t + d).r) (hM : |t.r| ≤ 1000000) (hd : max d.r 0 ≤ β) :
    (t + d).r ≤ t.r + 1.01 * β + 4e-10 := by
  have he := eps_pos
  have he' := eps_lt
  have hβ : 0 ≤ β := (le_max_right _ _).trans hd
  have h1 := tick_le h hM ((le_max_left _ _).trans hd) hβ
  have : eps * β ≤ 0.001 * β := by gcongr; linarith
  linarith

/-- A planned move: its segments follow each other soon. -/
theorem planMove_soon {prev : Segment Dbl} {u : Vec4 Dbl} {ur : Vec4 ℝ} {B : PState Dbl} {d vE : Dbl} {eo : Bool} {D w : ℝ}
    {r : List (Segment Dbl) × BlockType} (hr : planMove prev u B d eo vE = .ok r)
    (h : LenHyp B.pAcc B.speed (if prev.velEnd.norm3 < B.speed then prev.velEnd.norm3 else B.speed) vE d D w)
    (hu : RelV 41 u ur) (hd : UnitDir ur eo) (hT : 0 < B.speed.r) (ht : |prev.tEnd.r| ≤ 1000000) :
    Soon (lull B.speed.r B.pAcc.r - 1e-9) prev.tEnd r.1 := by
  have hac := h.hacc
  have hs : 0 < √B.pAcc.r := Real.sqrt_pos.2 hac
  have hβ : 0 ≤ 1.01 * (2.2e-5 / √B.pAcc.r) + 4e-10 := by positivity
  have hγ : 0 ≤ 1.01 * (1.01 * 2e-10 / B.speed.r) + 4e-10 := by positivity
  have hτ : (1.01 * (2.2e-5 / √B.pAcc.r) + 4e-10) + (1.01 * (1.01 * 2e-10 / B.speed.r) + 4e-10) ≤
      lull B.speed.r B.pAcc.r - 1e-9 := by
    unfold lull
    have e1 : 1.01 * (2.2e-5 / √B.pAcc.r) ≤ 2.5e-5 / √B.pAcc.r := by
      rw [← mul_div_assoc]
      gcongr
      norm_num
    have e2 : 1.01 * (1.01 * 2e-10 / B.speed.r) ≤ 1e-9 / B.speed.r := by
      rw [← mul_div_assoc]
      gcongr
      norm_num
    linarith
  have hτ1 : 1.01 * (2.2e-5 / √B.pAcc.r) + 4e-10 ≤ lull B.speed.r B.pAcc.r - 1e-9 := by linarith
  have hτ0 : 0 ≤ lull B.speed.r B.pAcc.r - 1e-9 := by linarith
  unfold planMove at hr
  have hr := rescue_ok hr
  generalize hB : (if prev.velEnd.norm3 < B.speed then prev.velEnd.norm3 else B.speed) = vB at hr h
  by_cases c1 : (B.speed - vB) * (vB + B.speed) / (2 * B.pAcc) + (vE - B.speed) * (vE + B.speed) / (2 * -B.pAcc) < d ∧
      (0 < (B.speed - vB) * (vB + B.speed) / (2 * B.pAcc) ∨
        isClose ((B.speed - vB) * (vB + B.speed) / (2 * B.pAcc)) 0 = true) ∧
      (0 < (vE - B.speed) * (vE + B.speed) / (2 * -B.pAcc) ∨
        isClose ((vE - B.speed) * (vE + B.speed) / (2 * -B.pAcc)) 0 = true)
  · rw [if_pos c1] at hr
    cases hq : trapezoid prev u B.pAcc B.speed vB vE d eo with
    | error e => rw [hq] at hr; cases hr
    | ok ss =>
      rw [hq] at hr
      cases hr
      unfold trapezoid at hq
      simp only [bind, Except.bind] at hq
      split at hq
      · cases hq
      · rename_i sA hA
        split at hq
        · cases hq
        · rename_i sB hB'
          split at hq
          · cases hq
          · rename_i sC hC
            cases hq
            obtain ⟨t1, _⟩ := make_times hA
            obtain ⟨t2, _⟩ := make_times hB'
            have eA := make_dbl hA
            have eB := make_dbl hB'
            have eC := make_dbl hC
            refine soon_three (by rw [eA]) (by rw [eA]) (by rw [eB]) (by rw [eB]) (by rw [eC]) (by rw [eA, eB])
              (by rw [eB, eC]) t1 t2 ht ?_ ?_ hβ hγ hτ
            · rw [eA]
              intro k1 k2
              have k3 := stuck_ramp hac h.beg hT.le (stuck_way hu hd k1 k2)
              have := tick_small t1 ht k3
              linarith
            · rw [eB]
              intro k1 k2 k3
              have k4 := stuck_way hu hd k1 k2
              have k5 := div_time_le 91 (by norm_num) (Rel.refl 91 _) (vConst_rel hu hd hT) hT ((le_abs_self _).trans k4)
                (by norm_num)
              have := tick_small t2 k3 k5
              linarith
  · rw [if_neg c1] at hr
    by_cases c2 : vE < PyMath.sqrt (B.pAcc * d + vB * vB / 2 + vE * vE / 2) ∧
        vB < PyMath.sqrt (B.pAcc * d + vB * vB / 2 + vE * vE / 2) ∧
        (PyMath.sqrt (B.pAcc * d + vB * vB / 2 + vE * vE / 2) < B.speed ∨
          isClose (PyMath.sqrt (B.pAcc * d + vB * vB / 2 + vE * vE / 2)) B.speed = true)
    · rw [if_pos c2] at hr
      have hP : 0 ≤ (PyMath.sqrt (B.pAcc * d + vB * vB / 2 + vE * vE / 2) : Dbl).r := dbl_sqrt_nonneg _
      generalize PyMath.sqrt (B.pAcc * d + vB * vB / 2 + vE * vE / 2) = vP at hr hP
      cases hq : triang prev u B.pAcc vP vB vE with
      | error e => rw [hq] at hr; cases hr
      | ok ss =>
        rw [hq] at hr
        cases hr
        unfold triang at hq
        simp only [bind, Except.bind] at hq
        split at hq
        · cases hq
        · rename_i sA hA
          split at hq
          · cases hq
          · rename_i sC hC
            cases hq
            obtain ⟨t1, _⟩ := make_times hA
            have eA := make_dbl hA
            have eC := make_dbl hC
            refine soon_two (by rw [eA]) (by rw [eA]) (by rw [eC]) (by rw [eA, eC]) ?_ hτ0 hτ1
            rw [eA]
            intro k1 k2
            have k3 := stuck_ramp hac h.beg hP (stuck_way hu hd k1 k2)
            have := tick_small t1 ht k3
            linarith
    · rw [if_neg c2] at hr
      generalize (if 0 ≤ (if vE < vB then vB * vB - 2 * B.pAcc * d else vB * vB + 2 * B.pAcc * d) then
        PyMath.sqrt (if vE < vB then vB * vB - 2 * B.pAcc * d else vB * vB + 2 * B.pAcc * d) else 0) = vS at hr
      by_cases c3 : vB < vS ∧ (vS < B.speed ∨ isClose vS B.speed = true)
      · rw [if_pos c3] at hr
        cases hq : singlUp prev u B.pAcc vS vB with
        | error e => rw [hq] at hr; cases hr
        | ok ss =>
          rw [hq] at hr
          cases hr
          unfold singlUp at hq
          simp only [bind, Except.bind] at hq
          split at hq
          · cases hq
          · rename_i sA hA
            cases hq
            exact soon_one (by rw [make_dbl hA]) hτ0
      · rw [if_neg c3] at hr
        by_cases c4 : vS < vB
        · rw [if_pos c4] at hr
          generalize (PyMath.sqrt (2 * B.pAcc * d + vE * vE) : Dbl) = vA at hr
          cases hq : singlDwn prev u B.pAcc vA vE with
          | error e => rw [hq] at hr; cases hr
          | ok ss =>
            rw [hq] at hr
            cases hr
            unfold singlDwn at hq
            simp only [bind, Except.bind] at hq
            split at hq
            · cases hq
            · rename_i sA hA
              cases hq
              exact soon_one (by rw [make_dbl hA]) hτ0
        · rw [if_neg c4] at hr
          cases hr

theorem lastSeg_last {b : Block Dbl} {l : Segment Dbl} (h : b.lastSeg = .ok l) : b.segments.getLast? = some l := by
  unfold Block.lastSeg at h
  split at h
  · rename_i hh
    cases h
    exact hh
  · cases h

theorem moveMaker_soon {b b' : Block Dbl} {pb : Option (Block Dbl)} {v : Dbl} (hb : Sound b) (hv : 0 ≤ v.r)
    (hpb : ∀ p ∈ pb, ∃ l, p.lastSeg = .ok l ∧ |l.tEnd.r| ≤ 1000000) (h : moveMaker b pb v = .ok b') :
    ∃ t, Soon (lull b'.stateB.speed.r b'.stateB.pAcc.r - 1e-9) t b'.segments ∧ (pb = none → t = 0) ∧
      ∀ p ∈ pb, ∃ l, p.segments.getLast? = some l ∧ t = l.tEnd := by
  obtain ⟨A, ⟨h1, h2⟩, h3⟩ := hb
  have core : ∀ (prev : Segment Dbl) (u : Vec4 Dbl) (ur : Vec4 ℝ) (r : List (Segment Dbl) × BlockType),
      b.direction = some u → UsualMove A b.stateB u ur → |prev.tEnd.r| ≤ 1000000 →
      planMove prev u b.stateB (moveDistance A b.stateB).1 (moveDistance A b.stateB).2 v = .ok r →
      Soon (lull b.stateB.speed.r b.stateB.pAcc.r - 1e-9) prev.tEnd r.1 := by
    intro prev u ur r hu hm ht hr
    have hlen : LenHyp b.stateB.pAcc b.stateB.speed
        (if prev.velEnd.norm3 < b.stateB.speed then prev.velEnd.norm3 else b.stateB.speed) v
        (moveDistance A b.stateB).1 (moveLength A.position.real b.stateB.position.real)
        (b.stateB.speed.r * b.stateB.speed.r / b.stateB.pAcc.r) := by
      refine ⟨hm.acc, ?_, ?_, hv, hm.dist, hm.length, le_rfl, hm.ramp⟩
      · split
        · exact dbl_norm3_nonneg _
        · exact hm.speed.le
      · split
        · rename_i hlt
          exact ((Dbl.lt_iff _ _).1 hlt).le
        · exact le_rfl
    exact planMove_soon hr hlen hm.hu hm.hd hm.speed ht
  unfold moveMaker at h
  rcases h2 with ⟨u, ur, hu, hm⟩ | ⟨hd, _⟩
  · simp only [h1, hu, bind, Except.bind] at h
    cases pb with
    | none =>
      simp only at h
      split at h
      · cases h
      · rename_i r hr
        cases h
        exact ⟨0, core (Segment.initial A.position) u ur r hu hm (by simp [Segment.initial, Dbl.r_zero]) hr, fun _ => rfl, by simp⟩
    | some c =>
      obtain ⟨l, l1, l2⟩ := hpb c rfl
      simp only [l1] at h
      split at h
      · cases h
      · rename_i r hr
        cases h
        refine ⟨l.tEnd, core _ u ur r hu hm l2 hr, by simp, ?_⟩
        rintro _ ⟨⟩
        exact ⟨l, lastSeg_last l1, rfl⟩
  · simp only [h1, hd] at h
    cases h

theorem soon_mono {τ τ' : ℝ} (hτ : τ ≤ τ') : ∀ {ss : List (Segment Dbl)} {t : Dbl}, Soon τ t ss → Soon τ' t ss
  | [], _, _ => trivial
  | _ :: _, _, h => ⟨fun h1 h2 => (h.1 h1 h2).trans (by linarith), soon_mono hτ h.2⟩

theorem soon_shift {τ : ℝ} {d : Dbl} (hd : |d.r| ≤ 1000001) : ∀ {ss : List (Segment Dbl)} {t : Dbl}, Soon τ t ss →
    |t.r| ≤ 450000 → (∀ s ∈ ss, |s.tBegin.r| ≤ 450000 ∧ |s.tEnd.r| ≤ 450000) →
    Soon (τ + 1e-9) (t + d) (ss.map (Segment.shift d))
  | [], _, _, _, _ => trivial
  | s :: ss, t, h, ht, hs => by
    obtain ⟨b1, b2⟩ := hs s List.mem_cons_self
    refine ⟨fun h1 _ => ?_, soon_shift hd h.2 b2 fun x hx => hs x (List.mem_cons_of_mem _ hx)⟩
    have h3 := h.1 h1 (by have := (abs_le.1 b1).2; linarith)
    show (s.tBegin + d).r ≤ (t + d).r + (τ + 1e-9)
    have he := eps_pos
    have he' := eps_lt
    have e1 := (abs_le.1 ((Dbl.r_add s.tBegin d).abs_sub (by norm_num))).2
    have e2 := (abs_le.1 ((Dbl.r_add t d).abs_sub (by norm_num))).1
    push_cast at e1 e2
    have f1 : eps * |s.tBegin.r + d.r| ≤ eps * 1500000 := by
      gcongr
      exact (abs_add_le _ _).trans (by linarith)
    have f2 : eps * |t.r + d.r| ≤ eps * 1500000 := by
      gcongr
      exact (abs_add_le _ _).trans (by linarith)
    linarith

/-- New blocks whose segments follow each other soon. -/
def NewLull (hist : List (Option (PState Dbl) × PState Dbl)) (b : Block Dbl) : Prop :=
  New hist b ∧ (Roomy (b.ends :: hist) → ∃ t, Soon (lull b.stateB.speed.r b.stateB.pAcc.r - 1e-9) t b.segments ∧
    (hist = [] → t = 0))

/-- Blocks whose segments follow each other soon. -/
def KeptLull (hist : List (Option (PState Dbl) × PState Dbl)) (b : Block Dbl) : Prop :=
  Kept hist b ∧ (Roomy (b.ends :: hist) → ∃ t, Soon (lull b.stateB.speed.r b.stateB.pAcc.r) t b.segments ∧
    (hist = [] → t = 0))

/-- The segments of `c` follow those of `p` soon. -/
def NextLull (hist : List (Option (PState Dbl) × PState Dbl)) (p c : Block Dbl) : Prop :=
  Next hist p c ∧ (Roomy (c.ends :: p.ends :: hist) → ∃ l, p.segments.getLast? = some l ∧
    Soon (lull c.stateB.speed.r c.stateB.pAcc.r) l.tEnd c.segments)

/-- The rule for times between segments. -/
theorem lull_rule : PlanRule NewLull KeptLull NextLull where
  kept := by
    intro hist b h
    refine ⟨h.1.kept, fun hroom => ?_⟩
    obtain ⟨t, h1, h2⟩ := h.2 hroom
    exact ⟨t, soon_mono (by linarith) h1, h2⟩
  again := by
    intro hist b pb v b' hb h0 hpb h hne
    obtain ⟨g1, g2⟩ := time_rule.again hist b pb v b' hb.1 h0 (by
      intro p hp
      obtain ⟨h, e, hk⟩ := hpb p hp
      exact ⟨h, e, hk.1⟩) h hne
    have key : Roomy (b'.ends :: hist) → ∃ t, Soon (lull b'.stateB.speed.r b'.stateB.pAcc.r - 1e-9) t b'.segments ∧
        (pb = none → t = 0) ∧ ∀ p ∈ pb, ∃ l, p.segments.getLast? = some l ∧ t = l.tEnd := by
      intro hroom
      refine moveMaker_soon hb.1.1 (dbl_norm3_nonneg v) ?_ h
      intro p hp
      obtain ⟨h, rfl, hk⟩ := hpb p hp
      obtain ⟨l, l1, l2⟩ := hk.1.last
      have := l2 hroom.tail
      have := hroom.tail.1
      exact ⟨l, l1, by linarith⟩
    refine ⟨⟨g1, fun hroom => ?_⟩, ?_⟩
    · obtain ⟨t, k1, k2, k3⟩ := key hroom
      refine ⟨t, k1, fun hh => k2 ?_⟩
      cases pb with
      | none => rfl
      | some p =>
        obtain ⟨h, e, _⟩ := hpb p rfl
        rw [e] at hh
        cases hh
    · intro p hp
      refine ⟨g2 p hp, fun hroom => ?_⟩
      obtain ⟨h, rfl, hk⟩ := hpb p hp
      obtain ⟨t, k1, k2, k3⟩ := key hroom
      obtain ⟨l, l1, rfl⟩ := k3 p hp
      exact ⟨l, l1, soon_mono (by linarith) k1⟩
  shifted := by
    intro hist p b l f hp hb hl hf
    obtain ⟨s1, s2⟩ := time_rule.shifted hist p b l f hp.1 hb.1 hl hf
    have key : Roomy (b.ends :: p.ends :: hist) →
        Soon (lull b.stateB.speed.r b.stateB.pAcc.r) l.tEnd (b.timeshift (l.tEnd - f.tBegin)).segments := by
      intro hroom
      obtain ⟨l', k1, k2⟩ := hp.1.last
      rw [hl] at k1
      cases k1
      have q4 := (k2 hroom.tail).trans hroom.tail.1
      obtain ⟨_, _, f', m, h3, h4, h5, h6⟩ := hb.1
      have hf' : f' = f := by
        unfold Block.firstSeg at hf
        rw [h3] at hf
        cases hf
        rfl
      subst hf'
      obtain ⟨q1, q2, q3⟩ := h6 hroom
      have q1 := q1.trans hroom.1
      have q2 := q2.trans hroom.1
      obtain ⟨t, k1, _⟩ := hb.2 hroom
      have he := eps_pos
      have he' := eps_lt
      have e1 := (Dbl.r_sub l.tEnd f'.tBegin).abs_sub (by norm_num)
      set d := l.tEnd - f'.tBegin with hd
      have e3 := (Dbl.r_add f'.tBegin d).abs_sub (by norm_num)
      push_cast at e1 e3
      have b1 : |l.tEnd.r - f'.tBegin.r| ≤ 1000000 := (abs_sub _ _).trans (by linarith)
      have b1' : eps * |l.tEnd.r - f'.tBegin.r| ≤ eps * 1000000 := by gcongr
      have b2 : |d.r| ≤ 1000001 := by
        have := abs_add_le (d.r - (l.tEnd.r - f'.tBegin.r)) (l.tEnd.r - f'.tBegin.r)
        rw [sub_add_cancel] at this
        linarith
      have b4 : eps * |f'.tBegin.r + d.r| ≤ eps * 2000000 := by
        gcongr
        exact (abs_add_le _ _).trans (by linarith)
      have hall : ∀ s ∈ b.segments, |s.tBegin.r| ≤ 450000 ∧ |s.tEnd.r| ≤ 450000 := by
        intro s hs
        obtain ⟨a1, a2, a3⟩ := ahead_mem h5 s hs
        exact ⟨abs_between q1 q2 a1 (a2.trans a3), abs_between q1 q2 (a1.trans a2) a3⟩
      have hss : b.segments = f' :: b.segments.tail := by
        cases hh : b.segments with
        | nil => rw [hh] at h3; cases h3
        | cons x xs => rw [hh] at h3; cases h3; rfl
      show Soon _ l.tEnd (b.segments.map (Segment.shift d))
      rw [hss] at k1 ⊢
      rw [hss] at hall
      rw [List.map_cons]
      refine ⟨fun _ _ => ?_, ?_⟩
      · show (f'.tBegin + d).r ≤ _
        have hlu : 2e-9 ≤ lull b.stateB.speed.r b.stateB.pAcc.r := by
          obtain ⟨_, _⟩ := hb.1.1
          have hF : 1e-6 ≤ b.stateB.speed.r := (hroom.2 _ List.mem_cons_self).1
          unfold lull
          have : 0 ≤ 1e-9 / b.stateB.speed.r := by positivity
          have : 0 ≤ 2.5e-5 / √b.stateB.pAcc.r := by positivity
          linarith
        obtain ⟨x1, x2⟩ := abs_le.1 e1
        obtain ⟨z1, z2⟩ := abs_le.1 e3
        linarith
      · have := soon_shift (τ := lull b.stateB.speed.r b.stateB.pAcc.r - 1e-9) b2 k1.2 (hall f' List.mem_cons_self).2
          (fun s hs => hall s (List.mem_cons_of_mem _ hs))
        rw [sub_add_cancel] at this
        exact this
    refine ⟨⟨s1, fun hroom => ⟨_, key hroom, fun hh => by cases hh⟩⟩, s2, fun hroom => ⟨l, lastSeg_last hl, key hroom⟩⟩

/-- New blocks of a usual program. -/
theorem mkBlock_newLull {fw : Firmware} {states : List (PState Dbl)} (hreg : Regular (states.map PState.real))
    (hus : Usual (states.map PState.real)) {done rest : List (PState Dbl)} {s : PState Dbl}
    {hist : List (Option (PState Dbl) × PState Dbl)} {pb : Option (Block Dbl)} {b : Block Dbl}
    (hst : states = done ++ s :: rest) (h0 : pb = none → hist = [])
    (hpb : ∀ p ∈ pb, ∃ h, hist = p.ends :: h ∧ NewLull h p) (h : mkBlock fw done.getLast? s rest pb = .ok b)
    (hne : b.segments ≠ []) : NewLull hist b := by
  have hnew := mkBlock_new hreg hus hst h0 (fun p hp => by
    obtain ⟨h, e, hk⟩ := hpb p hp
    exact ⟨h, e, hk.1⟩) h hne
  refine ⟨hnew, fun hroom => ?_⟩
  clear hnew
  have hlast : ∀ p ∈ pb, ∃ l, p.lastSeg = .ok l ∧ |l.tEnd.r| ≤ 1000000 := by
    intro p hp
    obtain ⟨h, rfl, hk⟩ := hpb p hp
    obtain ⟨l, l1, l2⟩ := hk.1.kept.last
    have := l2 hroom.tail
    have := hroom.tail.1
    exact ⟨l, l1, by linarith⟩
  have hnil : hist = [] → pb = none := by
    intro hh
    cases pb with
    | none => rfl
    | some p =>
      obtain ⟨h, e, _⟩ := hpb p rfl
      rw [e] at hh
      cases hh
  have hmem : s ∈ states := by rw [hst]; simp
  have hmem' : s.real ∈ states.map PState.real := List.mem_map_of_mem hmem
  by_cases hp : s.pause = none
  · unfold mkBlock at h
    simp only [hp, bind, Except.bind] at h
    by_cases hz : (targetVel done.getLast? s).notZero = true
    · simp only [hz, if_true] at h
      cases hA : done.getLast? with
      | none =>
        rw [hA] at hz
        simp only [targetVel, dbl_zero_still] at hz
        cases hz
      | some A =>
        rw [hA] at hz h
        simp only [targetVel] at hz h
        have hpos : s.position.real ≠ A.position.real := by
          intro heq
          rw [move_nowhere_dbl heq] at hz
          cases hz
        obtain ⟨pre, hpre⟩ := List.getLast?_eq_some_iff.1 hA
        have hAmem : A ∈ states := by
          rw [hst]
          exact List.mem_append_left _ (List.mem_of_getLast? hA)
        have hsplit : states.map PState.real = pre.map PState.real ++ A.real :: s.real :: rest.map PState.real := by
          rw [hst, hpre]; simp
        obtain ⟨u, ur, u1, u2, u3, u4, u5, u6, _⟩ := move_direction_dbl hpos (hreg.speed _ hmem')
        have hm : UsualMove A s u ur := ⟨u2, u3, u5, u6, hreg.speed _ hmem', hreg.acc _ hmem', hus.ramp _ hmem',
          hus.length _ _ _ _ hsplit hpos, hus.flow _ _ _ _ hsplit hpos, hus.coord _ (List.mem_map_of_mem hAmem),
          hus.coord _ hmem'⟩
        split at h
        · cases h
        · rename_i b1 hb1
          cases h
          obtain ⟨t, k1, k2, _⟩ := moveMaker_soon ⟨A, ⟨rfl, Or.inl ⟨u, ur, u1, hm⟩⟩, fun _ => hp⟩
            (junction_nonneg_dbl fw (some A) rest hm.speed.le (hreg.jerk _ hmem')) hlast hb1
          exact ⟨t, k1, fun hh => k2 (hnil hh)⟩
    · simp only [hz, if_false] at h
      cases h
      exact absurd rfl hne
  · have hp' : s.real.pause ≠ none := by simpa [PState.real] using hp
    have hst2 : states.map PState.real = done.map PState.real ++ s.real :: rest.map PState.real := by
      rw [hst]; simp
    obtain ⟨A', hA', heq⟩ := hreg.stays _ _ _ hst2 hp'
    rw [List.getLast?_map] at hA'
    obtain ⟨A, hA, rfl⟩ := Option.map_eq_some_iff.1 hA'
    obtain ⟨p, hpp⟩ := Option.ne_none_iff_exists'.1 hp
    unfold mkBlock at h
    have hn : (connectState A s).normDir4 = none := normDir4_still (connect_rel A s) (connectState_self heq)
    simp only [hA, targetVel, move_nowhere_dbl heq, Bool.false_eq_true, if_false, hpp, bind, Except.bind] at h
    split at h
    · cases h
    · rename_i sg hs
      cases h
      cases pb with
      | none => cases hs
      | some c =>
        refine ⟨sg.tBegin, ⟨fun _ _ => ?_, trivial⟩, fun hh => absurd (hnil hh) (by simp)⟩
        have hF : 1e-6 ≤ s.speed.r := (hroom.2 _ List.mem_cons_self).1
        show sg.tBegin.r ≤ sg.tBegin.r + (lull s.speed.r s.pAcc.r - 1e-9)
        unfold lull
        have : 0 ≤ 1e-9 / s.speed.r := by positivity
        have : 0 ≤ 2.5e-5 / √s.pAcc.r := by positivity
        linarith

/-- The times between the segments of the plan of a usual program. -/
theorem plan_lulls {fw : Firmware} {states : List (PState Dbl)} (hreg : Regular (states.map PState.real))
    (hus : Usual (states.map PState.real)) {bs : List (Block Dbl)} (h : plan fw states = .ok bs) :
    (∀ n b, bs[n]? = some b → KeptLull (((bs.take n).map Block.ends).reverse) b) ∧
      ∀ n b c, bs[n]? = some b → bs[n + 1]? = some c → NextLull (((bs.take n).map Block.ends).reverse) b c :=
  lull_rule.plan (fun _ _ _ _ _ _ hst h0 hpb hb hne => mkBlock_newLull hreg hus hst h0 hpb hb hne) h

end PyGCD
