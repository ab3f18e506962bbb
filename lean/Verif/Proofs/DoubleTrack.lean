import Verif.Proofs.DoubleTimes
import Verif.Proofs.DoubleQuery

/-!
# The segments of a planned move in double precision: places, speeds and times agree
-/

set_option linter.unusedSectionVars false
set_option linter.unusedSimpArgs false

namespace PyGCD
open PyGCD.Spec Vec4

/-- The way at the mean speed agrees with the length `L` of the segment, up to rounding, with a time error of `τ`. -/
def WayAgrees (v w : ℝ) (s : Segment Dbl) (L τ : ℝ) : Prop :=
  |(v + w) / 2 * (s.tEnd.r - s.tBegin.r) - L| ≤ 200 * eps * |L| + (v + w) / 2 * τ

/-- Segment `s` of the block with pieces `Ls` from `P` along `u`. -/
def Laid (F a : ℝ) (u P : Vec4 Dbl) (Ls : List Dbl) (s : Segment Dbl) (τ : ℝ) : Prop :=
  ∃ pre L post v w, Ls = pre ++ L :: post ∧ s.posBegin = walk u P pre ∧ s.velBegin = u.mul v ∧ s.velEnd = u.mul w ∧
    Lim F a v ∧ Lim F a w ∧ WayAgrees v.r w.r s L.r τ

theorem agrees_made {v w t Δ L : Dbl} (hv : 0 ≤ v.r) (hw : 0 ≤ w.r) (h : Rel 92 ((v.r + w.r) / 2 * Δ.r) L.r)
    {s : Segment Dbl} (h0 : s.tBegin = t) (h1 : s.tEnd = t + Δ) : WayAgrees v.r w.r s L.r (2 * eps * |s.tEnd.r|) := by
  have he := eps_pos
  unfold WayAgrees
  rw [h0, h1]
  have e1 := h.abs_sub (by norm_num)
  have e2 := (Dbl.r_add t Δ).symm.abs_sub (by norm_num)
  push_cast at e1 e2
  have e3 : |(v.r + w.r) / 2 * ((t + Δ).r - t.r) - (v.r + w.r) / 2 * Δ.r| ≤ (v.r + w.r) / 2 * (2 * eps * |(t + Δ).r|) := by
    rw [← mul_sub, abs_mul, abs_of_nonneg (by positivity)]
    gcongr
    rw [abs_sub_comm]
    rw [show Δ.r - ((t + Δ).r - t.r) = t.r + Δ.r - (t + Δ).r by ring]
    linarith
  have := err_add e3 e1
  have h4 : 0 ≤ eps * |L.r| := by positivity
  linarith

theorem ramp_agrees {v w acc : Dbl} :
    Rel 92 ((v.r + w.r) / 2 * ((w - v) / acc).r) ((w - v) * (v + w) / (2 * acc)).r := by
  have h1 : Rel 2 ((w - v) / acc).r ((w.r - v.r) / acc.r) :=
    (Dbl.r_div (w - v) acc).trans ((Dbl.r_sub w v).div (Rel.refl 0 acc.r))
  have h2 := (Rel.refl 0 ((v.r + w.r) / 2)).mul h1
  have h3 : (v.r + w.r) / 2 * ((w.r - v.r) / acc.r) = (w.r * w.r - v.r * v.r) / (2 * acc.r) := by
    by_cases ha : acc.r = 0
    · simp [ha]
    · field_simp
      ring
  rw [h3] at h2
  exact (h2.trans (rel_ramp (a := w) (b := v) (acc := acc)).symm).mono (by norm_num)

theorem brake_agrees {v w acc : Dbl} :
    Rel 92 ((v.r + w.r) / 2 * ((v - w) / acc).r) ((v - w) * (w + v) / (2 * acc)).r ∧
    Rel 92 ((v.r + w.r) / 2 * ((v - w) / acc).r) ((v - w) * (v + w) / (2 * acc)).r ∧
    Rel 92 ((v.r + w.r) / 2 * ((v - w) / acc).r) ((w - v) * (w + v) / (2 * -acc)).r := by
  have h1 : Rel 2 ((v - w) / acc).r ((v.r - w.r) / acc.r) :=
    (Dbl.r_div (v - w) acc).trans ((Dbl.r_sub v w).div (Rel.refl 0 acc.r))
  have h2 := (Rel.refl 0 ((v.r + w.r) / 2)).mul h1
  have h3 : (v.r + w.r) / 2 * ((v.r - w.r) / acc.r) = (v.r * v.r - w.r * w.r) / (2 * acc.r) := by
    by_cases ha : acc.r = 0
    · simp [ha]
    · field_simp
      ring
  rw [h3] at h2
  refine ⟨(h2.trans (rel_ramp (a := v) (b := w) (acc := acc)).symm).mono (by norm_num),
    (h2.trans (rel_ramp' (a := v) (b := w) (acc := acc)).symm).mono (by norm_num), ?_⟩
  have h4 := rel_ramp' (a := w) (b := v) (acc := -acc)
  rw [Dbl.r_neg, show (w.r * w.r - v.r * v.r) / (2 * -acc.r) = (v.r * v.r - w.r * w.r) / (2 * acc.r) by
    rw [show 2 * -acc.r = -(2 * acc.r) by ring, div_neg, ← neg_div]
    ring_nf] at h4
  exact (h2.trans h4.symm).mono (by norm_num)

/-- The pieces of a planned move, and its segments along them. -/
theorem planMove_track {prev : Segment Dbl} {u : Vec4 Dbl} {ur : Vec4 ℝ} {B : PState Dbl} {d vE : Dbl} {eo : Bool} {D w : ℝ}
    {r : List (Segment Dbl) × BlockType} (hr : planMove prev u B d eo vE = .ok r)
    (h : LenHyp B.pAcc B.speed (if prev.velEnd.norm3 < B.speed then prev.velEnd.norm3 else B.speed) vE d D w)
    (hu : RelV 41 u ur) (hd : UnitDir ur eo) (hT : 0 < B.speed.r) :
    ∃ Ls, Pieces D w Ls ∧ Ls.length ≤ 3 ∧ (∀ L ∈ Ls, -(1.2e-8 + 10 * eps * D + 40 * eps * w) ≤ L.r) ∧
      ∀ s ∈ r.1, Laid B.speed.r B.pAcc.r u prev.posEnd Ls s (2 * eps * |s.tEnd.r|) := by
  have he := eps_pos
  have he' := eps_lt
  have hac := h.hacc
  have hD : 0 < D := lt_of_lt_of_le (by norm_num) h.long
  obtain ⟨d1, d2, d3, hw0, hBw⟩ := h.facts
  have hED : 0 ≤ eps * D := by positivity
  have hEw : 0 ≤ eps * w := by positivity
  have hmem : ∀ {s s' : Segment Dbl}, s' ∈ keepSeg s → s' = s := by
    intro s s' hs'
    rcases keepSeg_cases s with hk | ⟨hk, _⟩
    · rw [hk] at hs'
      simpa using hs'
    · rw [hk] at hs'
      cases hs'
  have single : ∀ {L : Dbl}, Pieces D w [L] → -(1.2e-8 + 10 * eps * D + 40 * eps * w) ≤ L.r := by
    intro L hp
    have := (abs_le.1 hp.1).1
    simp only [List.map_cons, List.map_nil, List.sum_cons, List.sum_nil, _root_.add_zero] at this
    have e : eps * D ≤ 0.001 * D := by
      apply mul_le_mul_of_nonneg_right _ hD.le
      linarith
    linarith
  unfold planMove at hr
  have hr := rescue_ok hr
  generalize hB : (if prev.velEnd.norm3 < B.speed then prev.velEnd.norm3 else B.speed) = vB at hr h
  have lB : Lim B.speed.r B.pAcc.r vB := lim_of_le h.beg h.le hac.le
  have lT : Lim B.speed.r B.pAcc.r B.speed := lim_of_le hT.le le_rfl hac.le
  by_cases c1 : (B.speed - vB) * (vB + B.speed) / (2 * B.pAcc) + (vE - B.speed) * (vE + B.speed) / (2 * -B.pAcc) < d ∧
      (0 < (B.speed - vB) * (vB + B.speed) / (2 * B.pAcc) ∨
        isClose ((B.speed - vB) * (vB + B.speed) / (2 * B.pAcc)) 0 = true) ∧
      (0 < (vE - B.speed) * (vE + B.speed) / (2 * -B.pAcc) ∨
        isClose ((vE - B.speed) * (vE + B.speed) / (2 * -B.pAcc)) 0 = true)
  · rw [if_pos c1] at hr
    obtain ⟨a1, _, a3⟩ := c1
    have lE := trap_end_lim h a3
    have hp := trap_pieces h rfl a1 a3
    refine ⟨_, hp, by simp, ?_, ?_⟩
    · have n1 : 0 ≤ ((B.speed - vB) * (vB + B.speed) / (2 * B.pAcc)).r := by
        refine (rel_ramp (a := B.speed) (b := vB) (acc := B.pAcc)).nonneg (div_nonneg ?_ (by linarith))
        have := mul_self_le_mul_self h.beg h.le
        linarith
      have n2 : -1.1e-8 ≤ ((vE - B.speed) * (vE + B.speed) / (2 * -B.pAcc)).r := by
        rcases a3 with hd | hd
        · rw [Dbl.lt_iff, Dbl.r_zero] at hd
          linarith
        · exact (abs_le.1 (close_zero_le hd)).1
      generalize (B.speed - vB) * (vB + B.speed) / (2 * B.pAcc) = up at *
      generalize (vE - B.speed) * (vE + B.speed) / (2 * -B.pAcc) = down at *
      intro L hL
      simp only [List.mem_cons, List.not_mem_nil, or_false] at hL
      rcases hL with rfl | rfl | rfl
      · linarith
      · rw [Dbl.lt_iff] at a1
        by_contra hc
        push Not at hc
        have hneg : (d - down - up).r ≤ 0 := by linarith
        have s1 := (Dbl.r_add up down).symm.abs_sub (by norm_num)
        have s2 := (Dbl.r_sub d down).abs_sub (by norm_num)
        have s3 := (Dbl.r_sub (d - down) up).symm.abs_sub (by norm_num)
        push_cast at s1 s2 s3
        have hs := hp.2
        simp only [List.map_cons, List.map_nil, List.sum_cons, List.sum_nil, _root_.add_zero] at hs
        have g1 := abs_nonneg up.r
        have g2 := abs_nonneg (d - down - up).r
        have g3 := abs_nonneg down.r
        have g4 := le_abs_self up.r
        have g5 := le_abs_self down.r
        have b1 : |(up + down).r| ≤ 1.02 * D := by
          rw [abs_le]
          have x1 := (abs_le.1 s1)
          have x2 : eps * |(up + down).r| ≤ 0.0001 * |(up + down).r| := by gcongr; linarith
          have x3 : 0 ≤ |(up + down).r| := abs_nonneg _
          constructor
          · rcases abs_cases (up + down).r with ⟨y1, y2⟩ | ⟨y1, y2⟩ <;> linarith [h.long]
          · linarith
        have b2 : |d.r - down.r| ≤ 2.2 * D := by
          refine (abs_sub _ _).trans ?_
          rw [abs_of_pos d2]
          linarith
        have b1' : eps * |(up + down).r| ≤ eps * (1.02 * D) := by gcongr
        have b2' : eps * |d.r - down.r| ≤ eps * (2.2 * D) := by gcongr
        have b3' : eps * |(d - down - up).r| ≤ eps * (1.1 * D) := by gcongr; linarith
        have x1 := (abs_le.1 s1)
        have x2 := (abs_le.1 s2)
        have x3 := (abs_le.1 s3)
        linarith
      · linarith
    · cases ht : trapezoid prev u B.pAcc B.speed vB vE d eo with
      | error e => rw [ht] at hr; cases hr
      | ok ss =>
        rw [ht] at hr
        cases hr
        unfold trapezoid at ht
        simp only [bind, Except.bind] at ht
        split at ht
        · cases ht
        · rename_i sA hA
          split at ht
          · cases ht
          · rename_i sB hB'
            split at ht
            · cases ht
            · rename_i sC hC
              cases ht
              intro s hs
              simp only [List.mem_append] at hs
              rcases hs with (hs | hs) | hs
              · rw [hmem hs, make_dbl hA]
                exact ⟨[], _, _, _, _, rfl, rfl, rfl, rfl, lB, lT,
                  agrees_made lB.1 lT.1 (ramp_agrees (v := vB) (w := B.speed)) rfl rfl⟩
              · rw [hmem hs, make_dbl hB']
                refine ⟨[_], _, _, _, _, rfl, rfl, rfl, rfl, lT, lT, agrees_made lT.1 lT.1 ?_ rfl rfl⟩
                rw [add_self_div_two]
                have hv := vConst_rel hu hd hT
                generalize (if eo = true then (u.mul B.speed).norm4 else (u.mul B.speed).norm3) = vC at hv ⊢
                generalize d - _ - _ = L
                have h1 := (Rel.refl 0 B.speed.r).mul ((Dbl.r_div L vC).trans ((Rel.refl 0 L.r).div hv))
                rw [mul_div_cancel₀ _ hT.ne'] at h1
                exact h1.mono (by norm_num)
              · rw [hmem hs, make_dbl hC]
                exact ⟨[_, _], _, _, _, _, rfl, rfl, rfl, rfl, lT, lE,
                  agrees_made lT.1 lE.1 brake_agrees.2.2 rfl rfl⟩
  · rw [if_neg c1] at hr
    by_cases c2 : vE < PyMath.sqrt (B.pAcc * d + vB * vB / 2 + vE * vE / 2) ∧
        vB < PyMath.sqrt (B.pAcc * d + vB * vB / 2 + vE * vE / 2) ∧
        (PyMath.sqrt (B.pAcc * d + vB * vB / 2 + vE * vE / 2) < B.speed ∨
          isClose (PyMath.sqrt (B.pAcc * d + vB * vB / 2 + vE * vE / 2)) B.speed = true)
    · rw [if_pos c2] at hr
      obtain ⟨a1, a2, a3⟩ := c2
      obtain ⟨lP, kP⟩ := lim_of_close (dbl_sqrt_nonneg _) hT.le a3 hac.le
      rw [Dbl.lt_iff] at a1 a2
      have hp := tri_pieces h rfl a2 a1
      generalize PyMath.sqrt (B.pAcc * d + vB * vB / 2 + vE * vE / 2) = vP at hr a1 a2 a3 lP kP hp
      have lE := lim_mono lP h.fin a1.le
      refine ⟨_, hp, by simp, ?_, ?_⟩
      · have n1 : ∀ v : Dbl, 0 ≤ v.r → v.r < vP.r → 0 ≤ ((vP - v) * (v + vP) / (2 * B.pAcc)).r := by
          intro v hv hlt
          refine (rel_ramp (a := vP) (b := v) (acc := B.pAcc)).nonneg (div_nonneg ?_ (by linarith))
          have := mul_self_le_mul_self hv hlt.le
          linarith
        intro L hL
        simp only [List.mem_cons, List.not_mem_nil, or_false] at hL
        rcases hL with rfl | rfl
        · linarith [n1 vB h.beg a2]
        · linarith [n1 vE h.fin a1]
      · cases ht : triang prev u B.pAcc vP vB vE with
        | error e => rw [ht] at hr; cases hr
        | ok ss =>
          rw [ht] at hr
          cases hr
          unfold triang at ht
          simp only [bind, Except.bind] at ht
          split at ht
          · cases ht
          · rename_i sA hA
            split at ht
            · cases ht
            · rename_i sC hC
              cases ht
              intro s hs
              simp only [List.mem_append] at hs
              rcases hs with hs | hs
              · rw [hmem hs, make_dbl hA]
                exact ⟨[], _, _, _, _, rfl, rfl, rfl, rfl, lB, lP,
                  agrees_made lB.1 lP.1 (ramp_agrees (v := vB) (w := vP)) rfl rfl⟩
              · rw [hmem hs, make_dbl hC]
                exact ⟨[_], _, _, _, _, rfl, rfl, rfl, rfl, lP, lE, agrees_made lP.1 lE.1 brake_agrees.1 rfl rfl⟩
    · rw [if_neg c2] at hr
      generalize hS : (if 0 ≤ (if vE < vB then vB * vB - 2 * B.pAcc * d else vB * vB + 2 * B.pAcc * d) then
        PyMath.sqrt (if vE < vB then vB * vB - 2 * B.pAcc * d else vB * vB + 2 * B.pAcc * d) else 0) = vS at hr
      by_cases c3 : vB < vS ∧ (vS < B.speed ∨ isClose vS B.speed = true)
      · rw [if_pos c3] at hr
        have h0 := (Dbl.lt_iff _ _).1 c3.1
        obtain ⟨lS, kS⟩ := lim_of_close (h.beg.trans h0.le) hT.le c3.2 hac.le
        have hp := up_pieces h hS.symm h0
        refine ⟨_, hp, by simp, ?_, ?_⟩
        · intro L hL
          rw [List.mem_singleton.1 hL]
          exact single hp
        · cases ht : singlUp prev u B.pAcc vS vB with
          | error e => rw [ht] at hr; cases hr
          | ok ss =>
            rw [ht] at hr
            cases hr
            unfold singlUp at ht
            simp only [bind, Except.bind] at ht
            split at ht
            · cases ht
            · rename_i sA hA
              cases ht
              intro s hs
              rw [hmem hs, make_dbl hA]
              exact ⟨[], _, _, _, _, rfl, rfl, rfl, rfl, lB, lS,
                agrees_made lB.1 lS.1 (ramp_agrees (v := vB) (w := vS)) rfl rfl⟩
      · rw [if_neg c3] at hr
        by_cases c4 : vS < vB
        · rw [if_pos c4] at hr
          have hlt := down_lt h hS.symm ((Dbl.lt_iff _ _).1 c4)
          obtain ⟨lA, kA⟩ := down_lim h (down_start h hlt c1 c2) rfl
          have lE : Lim B.speed.r B.pAcc.r vE := lim_mono lB h.fin ((Dbl.lt_iff _ _).1 hlt).le
          have hp := down_pieces h hS.symm ((Dbl.lt_iff _ _).1 c4) rfl
          generalize (PyMath.sqrt (2 * B.pAcc * d + vE * vE) : Dbl) = vA at hr lA kA hp
          refine ⟨_, hp, by simp, ?_, ?_⟩
          · intro L hL
            rw [List.mem_singleton.1 hL]
            exact single hp
          · cases ht : singlDwn prev u B.pAcc vA vE with
            | error e => rw [ht] at hr; cases hr
            | ok ss =>
              rw [ht] at hr
              cases hr
              unfold singlDwn at ht
              simp only [bind, Except.bind] at ht
              split at ht
              · cases ht
              · rename_i sA hA
                cases ht
                intro s hs
                rw [hmem hs, make_dbl hA]
                exact ⟨[], _, _, _, _, rfl, rfl, rfl, rfl, lA, lE, agrees_made lA.1 lE.1 brake_agrees.2.1 rfl rfl⟩
        · rw [if_neg c4] at hr
          cases hr

end PyGCD
