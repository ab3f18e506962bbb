import Verif.Spec.Cuts
import Verif.Props.Faster
import Verif.Props.Placement

/-!
# Property C71: cutting a straight move in two does not change the print time
-/

set_option linter.unusedSectionVars false
set_option linter.unusedSimpArgs false

namespace PyGCD
open Vec4 Spec Set

variable {fw : Firmware} {states states' : List (PState ℝ)} {bs bs' : List (Block ℝ)} {A M B : PState ℝ}

/-! ## Geometry of a cut -/

theorem Spec.Between.parts (h : Between A M B) : ∃ s, 0 < s ∧ s < 1 ∧
    M.position.sub A.position = (B.position.sub A.position).mul s ∧
    B.position.sub M.position = (B.position.sub A.position).mul (1 - s) := by
  obtain ⟨s, h0, h1, he⟩ := h.point
  refine ⟨s, h0, h1, ?_, ?_⟩ <;> rw [he] <;> ext <;> simp only [Vec4.sub, Vec4.add, Vec4.mul] <;> ring

theorem Spec.Between.lengths (h : Between A M B) :
    0 < (M.position.sub A.position).norm3 ∧ 0 < (B.position.sub M.position).norm3 ∧
    (M.position.sub A.position).norm3 + (B.position.sub M.position).norm3 = (B.position.sub A.position).norm3 := by
  obtain ⟨s, h0, h1, e1, e2⟩ := h.parts
  have hp : 0 < (B.position.sub A.position).norm3 := lt_of_le_of_ne (norm3_nonneg _) (Ne.symm h.travels)
  rw [e1, e2, norm3_mul, norm3_mul, abs_of_pos h0, abs_of_pos (by linarith : 0 < 1 - s)]
  refine ⟨mul_pos hp h0, mul_pos hp (by linarith), by ring⟩

theorem connect_scaled {A B C D : PState ℝ} {s : ℝ} (hs : 0 < s)
    (he : C.position.sub D.position = (B.position.sub A.position).mul s) (hv : C.speed = B.speed)
    (h : (B.position.sub A.position).norm3 ≠ 0) : connectState D C = connectState A B := by
  have hC : (C.position.sub D.position).norm3 ≠ 0 := by
    rw [he, norm3_mul]
    exact mul_ne_zero h (abs_pos.2 hs.ne').ne'
  rw [connectState_travel h, connectState_travel hC, he, norm3_mul, hv, abs_of_pos hs]
  have hs' := hs.ne'
  ext <;> simp only [Vec4.mul] <;> field_simp

theorem Spec.Between.connect (h : Between A M B) :
    connectState A M = connectState A B ∧ connectState M B = connectState A B := by
  obtain ⟨s, h0, h1, e1, e2⟩ := h.parts
  exact ⟨connect_scaled h0 e1 h.speed h.travels, connect_scaled (by linarith) e2 rfl h.travels⟩

/-- Cutting inside a list whose first state follows `pa`. -/
inductive CutAt : Option (PState ℝ) → List (PState ℝ) → List (PState ℝ) → Prop
  | here {A M B : PState ℝ} {post : List (PState ℝ)} (h : Between A M B) : CutAt (some A) (B :: post) (M :: B :: post)
  | later {pa : Option (PState ℝ)} {s : PState ℝ} {rest rest' : List (PState ℝ)} (h : CutAt (some s) rest rest') :
      CutAt pa (s :: rest) (s :: rest')

theorem Spec.Cut.at (h : Cut states states') (pa : Option (PState ℝ)) : CutAt pa states states' := by
  obtain ⟨pre, A, M, B, post, rfl, rfl, h⟩ := h
  induction pre generalizing pa with
  | nil => exact .later (.here h)
  | cons s pre ih => exact .later (ih _)

theorem CutAt.ne_nil {pa : Option (PState ℝ)} (h : CutAt pa states states') :
    states.isEmpty = false ∧ states'.isEmpty = false := by
  cases h <;> simp

theorem tDistance4_pos {p q : Vec4 ℝ} : 0 < p.tDistance4 q ↔ q ≠ p := by
  constructor
  · rintro h rfl
    unfold tDistance4 at h
    rw [Vec4.sub_self, norm4_zero] at h
    exact lt_irrefl _ h
  · intro h
    refine lt_of_le_of_ne (norm4_nonneg _) (Ne.symm ?_)
    intro h0
    exact h (Vec4.sub_eq_zero.1 (norm4_eq_zero.1 h0)).symm

/-- The state that decides the velocity behind a junction, before and after a cut. -/
theorem CutAt.next {pa : Option (PState ℝ)} (h : CutAt pa states states') : ∀ {X : PState ℝ},
    (∀ A ∈ pa, X.position = A.position) → pa ≠ none →
    nextTarget X states' = nextTarget X states ∨ ∃ A M B, Between A M B ∧ X.position = A.position ∧
      nextTarget X states = B ∧ nextTarget X states' = M := by
  induction h with
  | @here A M B post h =>
    intro X hX _
    have hA := hX A rfl
    obtain ⟨l1, l2, l3⟩ := h.lengths
    right
    refine ⟨A, M, B, h, hA, ?_, ?_⟩
    · unfold nextTarget
      rw [if_pos (Or.inr (tDistance4_pos.2 ?_))]
      rw [hA]
      intro he
      apply h.travels
      rw [he, Vec4.sub_self, norm3_zero]
    · unfold nextTarget
      rw [if_pos (Or.inr (tDistance4_pos.2 ?_))]
      rw [hA]
      intro he
      rw [he, Vec4.sub_self, norm3_zero] at l1
      exact lt_irrefl _ l1
  | @later pa s rest rest' h ih =>
    intro X hX hpa
    have e := h.ne_nil
    unfold nextTarget
    rw [e.1, e.2]
    by_cases hd : 0 < X.position.tDistance4 s.position
    · rw [if_pos (Or.inr hd), if_pos (Or.inr hd)]
      exact Or.inl rfl
    · have hs : s.position = X.position := by
        by_contra hc
        exact hd (tDistance4_pos.2 hc)
      rw [if_neg (by simp [hd]), if_neg (by simp [hd])]
      exact ih (by rintro _ ⟨⟩; exact hs.symm) (by simp)

/-- A cut after a junction does not change the velocities there; only the next move may be shorter. -/
theorem CutAt.velocity {X : PState ℝ} (h : CutAt (some X) states states') :
    velNext X states' = velNext X states ∧
      ((nextTarget X states').position.sub X.position).norm3 ≤ ((nextTarget X states).position.sub X.position).norm3 := by
  rcases h.next (X := X) (by rintro _ ⟨⟩; rfl) (by simp) with e | ⟨A, M, B, hb, hX, e1, e2⟩
  · unfold velNext
    rw [e]
    exact ⟨rfl, le_rfl⟩
  · unfold velNext
    rw [e1, e2, connectState_raised hX rfl rfl, hb.connect.1, connectState_raised (A' := X) (A := A) hX rfl rfl, hX]
    obtain ⟨l1, l2, l3⟩ := hb.lengths
    exact ⟨rfl, by linarith⟩

theorem calcKlipper_mono {v0 v1 : Vec4 ℝ} {d d' : ℝ} {B : PState ℝ} (h : d ≤ d') (ha : 0 ≤ B.pAcc) :
    calcKlipper v0 v1 d B ≤ calcKlipper v0 v1 d' B := by
  unfold calcKlipper
  simp only [sqrt_real, pyMin_real, pyMax_real]
  split
  · exact le_rfl
  · split
    · exact le_rfl
    · refine Real.sqrt_le_sqrt (min_le_min (min_le_min le_rfl ?_) le_rfl)
      refine mul_le_mul_of_nonneg_right (mul_le_mul_of_nonneg_right (by linarith) ?_) ha
      exact div_nonneg (Real.sqrt_nonneg _) (Real.sqrt_nonneg _)

theorem CutAt.junction {X : PState ℝ} (h : CutAt (some X) states states') (pa : Option (PState ℝ))
    (ha : 0 ≤ X.pAcc) : junctionVel fw pa X states' ≤ junctionVel fw pa X states ∧
      (fw ≠ .klipper → junctionVel fw pa X states' = junctionVel fw pa X states) := by
  obtain ⟨e, l⟩ := h.velocity
  unfold junctionVel
  rw [e]
  cases fw
  case klipper => exact ⟨calcKlipper_mono l ha, fun h => absurd rfl h⟩
  all_goals exact ⟨le_rfl, fun _ => rfl⟩

theorem Spec.Between.junction_end (h : Between A M B) (rest : List (PState ℝ)) :
    junctionVel fw (some M) B rest = junctionVel fw (some A) B rest := by
  unfold junctionVel
  simp only [targetVel, h.connect.2]

theorem axisJump_self (a : ℝ) : axisJump a a = 0 := by
  unfold axisJump
  split
  · simp
  · rename_i h
    have : a = 0 := by
      by_contra hc
      exact h (mul_self_pos.2 hc)
    simp [this]

/-- No firmware but `klipper` and the default one slows down at a cut. -/
theorem Spec.Between.junction_mid (h : Between A M B) (rest : List (PState ℝ)) (hs : 0 < B.speed) (ha : 0 < B.pAcc)
    (hj : 0 ≤ B.jerk) (hfw : fw = .marlinJd ∧ 0 < B.jerk ∨ fw = .marlinJerk ∨ fw = .mka) :
    junctionVel fw (some A) M (B :: rest) = B.speed := by
  obtain ⟨l1, l2, l3⟩ := h.lengths
  have hn : NextMove M (B :: rest) B := ⟨[], rest, rfl, by simp, by
    intro he
    rw [he, Vec4.sub_self, norm3_zero] at l2
    exact lt_irrefl _ l2⟩
  have hvel : velNext M (B :: rest) = connectState A B := by
    rw [velNext_of_nextMove hn, h.connect.2]
  have htv : targetVel (some A) M = connectState A B := h.connect.1
  have hnorm : (connectState A B).norm3 = B.speed := by rw [connectState_norm3 A B hs.le, if_neg h.travels]
  rcases hfw with ⟨rfl, hjp⟩ | rfl | rfl
  · rw [c58_marlin_jd hn l1.ne' l2.ne' (by rw [h.speed]; exact hs) hs (by rw [h.acc]; exact ha) (by rw [h.jerk]; exact hj)]
    have hturn : turn A.position M.position B.position = 0 := by
      obtain ⟨s, h0, h1, e1, e2⟩ := h.parts
      have hp : 0 < (B.position.sub A.position).norm3 := lt_of_le_of_ne (norm3_nonneg _) (Ne.symm h.travels)
      unfold turn
      rw [e1, e2, dot3_mul, norm3_mul, norm3_mul, abs_of_pos h0, abs_of_pos (by linarith : 0 < 1 - s)]
      have hd : dot3 (B.position.sub A.position) (B.position.sub A.position) = (B.position.sub A.position).norm3 ^ 2 := by
        rw [norm3_sq]
        unfold dot3
        ring
      rw [hd]
      have h1' : (1 - s) ≠ 0 := by linarith
      have h0' := h0.ne'
      have hp' := hp.ne'
      rw [show s * (1 - s) * (B.position.sub A.position).norm3 ^ 2 /
        ((B.position.sub A.position).norm3 * s * ((B.position.sub A.position).norm3 * (1 - s))) = 1 by field_simp]
      exact Real.arccos_one
    rw [hturn, h.speed, h.jerk]
    unfold marlinJd
    rw [if_neg, if_pos]
    · have := Real.pi_pos
      linarith
    · have := Real.pi_pos
      rintro (h | h)
      · exact hjp.ne' h
      · linarith
  · unfold junctionVel calcJerk
    simp only [htv, hvel, Vec4.sub_self, norm3_zero, zero_div]
    rw [if_neg (by split <;> norm_num)]
    exact hnorm
  · unfold junctionVel
    simp only [htv, hvel]
    rw [calcMKA_eq _ _ _ (by rw [h.jerk]; exact hj)]
    simp only [min_self, hnorm, if_pos hs, div_self hs.ne', _root_.mul_one, axisJump_self]
    unfold mka cap
    simp [h.jerk, hj]

/-! ## Cutting and joining drives -/

theorem Spec.Drive.cut {a vT d d' v v' T : ℝ} (h : Drive a vT (d + d') v v' T) (h0 : 0 ≤ d) (h0' : 0 ≤ d') :
    ∃ t w, Drive a vT d v w t ∧ Drive a vT d' w v' (T - t) := by
  obtain ⟨hT, x, w, hx, hL, hb, x0, xT, w0, wT⟩ := h
  have hc : ContinuousOn x (Icc 0 T) := fun t ht => (hx t ht).continuousWithinAt
  obtain ⟨t, ht, hxt⟩ := intermediate_value_Icc hT hc (show d ∈ Icc (x 0) (x T) from ⟨by linarith, by linarith⟩)
  have hsub : ∀ r ∈ Icc 0 t, r ∈ Icc 0 T := fun r hr => ⟨hr.1, hr.2.trans ht.2⟩
  have hsh : ∀ r ∈ Icc 0 (T - t), r + t ∈ Icc 0 T := fun r hr => ⟨by linarith [hr.1, ht.1], by linarith [hr.2]⟩
  refine ⟨t, w t, ⟨ht.1, x, w, fun r hr => (hx r (hsub r hr)).mono hsub, fun r hr q hq => hL r (hsub r hr) q (hsub q hq),
    fun r hr => hb r (hsub r hr), x0, hxt, w0, rfl⟩, by linarith [ht.2], fun r => x (r + t) - d, fun r => w (r + t),
    ?_, ?_, fun r hr => hb _ (hsh r hr), by simp [hxt], by simp [xT], by simp, by simp [wT]⟩
  · intro r hr
    have g1 : HasDerivWithinAt (fun r : ℝ => r + t) 1 (Icc 0 (T - t)) r :=
      ((hasDerivAt_id r).add_const t).hasDerivWithinAt
    have g2 := (hx (r + t) (hsh r hr)).comp r g1 hsh
    rw [_root_.mul_one] at g2
    exact g2.sub_const d
  · intro r hr q hq
    have := hL (r + t) (hsh r hr) (q + t) (hsh q hq)
    rwa [add_sub_add_right_eq_sub] at this

/-- Whatever motion executes the program also executes the cut program, in the same time. -/
theorem Near.cut {δ : ℝ} (hδ : 0 ≤ δ) {pa : Option (PState ℝ)} (hc : CutAt pa states states') :
    ∀ {v T : ℝ}, Near (junctionVel fw) δ pa v states T → (∀ s ∈ states, 0 < s.speed ∧ 0 < s.pAcc ∧ 0 ≤ s.jerk) →
    (fw = .marlinJd ∧ (∀ s ∈ states, 0 < s.jerk) ∨ fw = .marlinJerk ∨ fw = .mka) →
    Near (junctionVel fw) δ pa v states' T := by
  induction hc with
  | @here A M B post h =>
    intro v T hN hreg hfw
    obtain ⟨l1, l2, l3⟩ := h.lengths
    obtain ⟨r1, r2, r3⟩ := hreg B (by simp)
    cases hN with
    | idle hp hpos _ =>
      exfalso
      apply h.travels
      rw [hpos A rfl, Vec4.sub_self, norm3_zero]
    | pause hp =>
      rw [h.pauseB] at hp
      cases hp
    | filament hp h0 => exact absurd h0 h.travels
    | travel hp hne hd hlim h1 h2 hrest =>
      rw [← l3] at hd
      obtain ⟨t, w, d1, d2⟩ := hd.cut l1.le l2.le
      have hw := d1.facts r2
      have := Near.travel (limit := junctionVel fw) (δ := δ) (A := A) (B := M) (rest := B :: post) h.pause l1.ne'
        (by rw [h.acc, h.speed]; exact d1)
        (by
          rw [h.junction_mid post r1 r2 r3 (hfw.imp (fun q => ⟨q.1, q.2 B (by simp)⟩) id)]
          exact hw.2.2.2.1) le_rfl (by linarith)
        (Near.travel h.pauseB l2.ne' d2 (by rw [h.junction_end]; exact hlim) h1 h2 hrest)
      convert this using 1
      ring
  | @later pa s rest rest' h ih =>
    intro v T hN hreg hfw
    have hreg' : ∀ x ∈ rest, 0 < x.speed ∧ 0 < x.pAcc ∧ 0 ≤ x.jerk := fun x hx => hreg x (by simp [hx])
    have hfw' : fw = .marlinJd ∧ (∀ s ∈ rest, 0 < s.jerk) ∨ fw = .marlinJerk ∨ fw = .mka :=
      hfw.imp (fun q => ⟨q.1, fun x hx => q.2 x (by simp [hx])⟩) id
    have hk : fw ≠ .klipper := by
      rcases hfw with ⟨rfl, _⟩ | rfl | rfl <;> simp
    cases hN with
    | idle hp hpos hr => exact .idle hp hpos (ih hr hreg' hfw')
    | pause hp ht hr hv => exact .pause hp ht (ih hr hreg' hfw') hv
    | filament hp h0 hne hd hr hv => exact .filament hp h0 hne hd (ih hr hreg' hfw') hv
    | travel hp hne hd hlim h1 h2 hr =>
      refine .travel hp hne hd ?_ h1 h2 (ih hr hreg' hfw')
      rw [(h.junction (fw := fw) _ (hreg s (by simp)).2.1.le).2 hk]
      exact hlim

/-- Whatever motion executes the cut program is, up to the jump of the speed at the cut, a motion of the
program. -/
theorem Near.join {δ : ℝ} (hδ : 0 ≤ δ) {pa : Option (PState ℝ)} (hc : CutAt pa states states') :
    ∀ {v T : ℝ}, Near (junctionVel fw) δ pa v states' T → (∀ s ∈ states, 0 < s.pAcc) →
    ∃ B ∈ states, ∃ T', T' ≤ T + δ / B.pAcc ∧ Rough (junctionVel fw) δ δ pa v states T' := by
  induction hc with
  | @here A M B post h =>
    intro v T hN hreg
    obtain ⟨l1, l2, l3⟩ := h.lengths
    have ha := hreg B (by simp)
    refine ⟨B, by simp, ?_⟩
    have hMA : M.position ≠ A.position := by
      intro he
      rw [he, Vec4.sub_self, norm3_zero] at l1
      exact lt_irrefl _ l1
    have hBM : B.position ≠ M.position := by
      intro he
      rw [he, Vec4.sub_self, norm3_zero] at l2
      exact lt_irrefl _ l2
    cases hN with
    | idle hp hpos _ => exact absurd (hpos A rfl) hMA
    | pause hp =>
      rw [h.pause] at hp
      cases hp
    | filament hp h0 => exact absurd h0 l1.ne'
    | @travel _ _ _ w w' t T _ hp hne hd hlim h1 h2 hrest =>
      cases hrest with
      | idle hp hpos _ => exact absurd (hpos M rfl) hBM
      | pause hp =>
        rw [h.pauseB] at hp
        cases hp
      | filament hp h0 => exact absurd h0 l2.ne'
      | @travel _ _ _ v' v'' t' T' _ hp' hne' hd' hlim' h1' h2' hrest' =>
        rw [h.acc, h.speed] at hd
        obtain ⟨f0, f1, f2, f3, f4, f5⟩ := hd.facts ha
        obtain ⟨g0, g1, g2, g3, g4, g5⟩ := hd'.facts ha
        have q : 0 ≤ (w - w') / B.pAcc := div_nonneg (by linarith) ha.le
        have hmid : Drive B.pAcc B.speed ((w + w') / 2 * ((w - w') / B.pAcc)) w w' ((w - w') / B.pAcc) :=
          drive_one (k := -B.pAcc) ⟨f2, f3⟩ ⟨g0, g1⟩ q (by rw [abs_neg, abs_of_pos ha]) (by field_simp; ring)
        have c1 : 0 < B.pAcc * (M.position.sub A.position).norm3 := mul_pos ha l1
        have c2 : 0 < B.pAcc * (B.position.sub M.position).norm3 := mul_pos ha l2
        refine ⟨_, ?_, .travel h.pauseB h.travels ((hd.append hmid).append hd') ?_ ?_ ?_ ?_ h1' h2'
          (hrest'.rough hδ fun s hs => hreg s (by simp [hs]))⟩
        · have : (w - w') / B.pAcc ≤ δ / B.pAcc := div_le_div_of_nonneg_right (by linarith) ha.le
          linarith
        · have : 0 ≤ (w + w') / 2 * ((w - w') / B.pAcc) := mul_nonneg (by linarith) q
          linarith
        · rw [← l3]
          refine ramp_close (v' := w) (s' := √(v' ^ 2 + 2 * B.pAcc * (B.position.sub M.position).norm3))
            (c := 2 * B.pAcc * (M.position.sub A.position).norm3)
            (Real.sqrt_nonneg _) (Real.sqrt_nonneg _) f0 f2 (by linarith) f5 ?_ ?_ hδ
          · rw [Real.sq_sqrt (by nlinarith [sq_nonneg v']), Real.sq_sqrt (by nlinarith [sq_nonneg v'])]
            ring
          · have := Real.le_sqrt_of_sq_le g5
            linarith
        · rw [← l3]
          refine ramp_close (v' := w') (s' := √(v ^ 2 + 2 * B.pAcc * (M.position.sub A.position).norm3))
            (c := 2 * B.pAcc * (B.position.sub M.position).norm3)
            (Real.sqrt_nonneg _) (Real.sqrt_nonneg _) g2 g0 (by linarith) g4 ?_ ?_ hδ
          · rw [Real.sq_sqrt (by nlinarith [sq_nonneg v]), Real.sq_sqrt (by nlinarith [sq_nonneg v])]
            ring
          · have := Real.le_sqrt_of_sq_le f4
            linarith
        · rw [← h.junction_end]
          exact hlim'
  | @later pa s rest rest' h ih =>
    intro v T hN hreg
    have hreg' : ∀ x ∈ rest, 0 < x.pAcc := fun x hx => hreg x (by simp [hx])
    cases hN with
    | idle hp hpos hr =>
      obtain ⟨B, hB, T', h1, h2⟩ := ih hr hreg'
      exact ⟨B, by simp [hB], T', h1, .idle hp hpos h2⟩
    | pause hp ht hr hv =>
      obtain ⟨B, hB, T', h1, h2⟩ := ih hr hreg'
      exact ⟨B, by simp [hB], _, by linarith, .pause hp ht h2 hv⟩
    | filament hp h0 hne hd hr hv =>
      obtain ⟨B, hB, T', h1, h2⟩ := ih hr hreg'
      exact ⟨B, by simp [hB], _, by linarith, .filament hp h0 hne hd h2 hv⟩
    | travel hp hne hd hlim g1 g2 hr =>
      obtain ⟨B, hB, T', h1, h2⟩ := ih hr hreg'
      have ha := hreg s (by simp)
      obtain ⟨f0, f1, f2, f3, f4, f5⟩ := hd.facts ha
      refine ⟨B, by simp [hB], _, ?_, .travel hp hne hd le_rfl ?_ ?_
        (hlim.trans (h.junction (fw := fw) _ ha.le).1) g1 g2 h2⟩
      · linarith
      · have := Real.le_sqrt_of_sq_le f5
        linarith
      · have := Real.le_sqrt_of_sq_le f4
        linarith

/-! ## Cut programs are as regular as the program -/

theorem CutAt.paused {pa : Option (PState ℝ)} (h : CutAt pa states states') : ∀ {p' : List (PState ℝ)} {s : PState ℝ}
    {q' : List (PState ℝ)}, states' = p' ++ s :: q' → s.pause ≠ none → ∃ p q, states = p ++ s :: q ∧
      (∀ x ∈ p, x ∈ p') ∧ p.getLast? = p'.getLast? := by
  induction h with
  | @here A M B post h =>
    intro p' s q' he hs
    match p' with
    | [] =>
      simp only [List.nil_append, List.cons.injEq] at he
      rw [← he.1, h.pause] at hs
      exact absurd rfl hs
    | [m] =>
      simp only [List.cons_append, List.nil_append, List.cons.injEq] at he
      rw [← he.2.1, h.pauseB] at hs
      exact absurd rfl hs
    | m :: b :: p' =>
      simp only [List.cons_append, List.cons.injEq] at he
      obtain ⟨rfl, rfl, rfl⟩ := he
      exact ⟨B :: p', q', rfl, fun x hx => by simp only [List.mem_cons] at hx ⊢; tauto, by
        rw [List.getLast?_cons_cons]⟩
  | @later pa s₀ rest rest' h ih =>
    intro p' s q' he hs
    match p' with
    | [] =>
      simp only [List.nil_append, List.cons.injEq] at he
      exact ⟨[], rest, by simp [he.1], by simp, rfl⟩
    | m :: p' =>
      simp only [List.cons_append, List.cons.injEq] at he
      obtain ⟨rfl, rfl⟩ := he
      obtain ⟨p, q, e1, e2, e3⟩ := ih rfl hs
      refine ⟨s₀ :: p, q, by rw [e1]; rfl, ?_, by rw [List.getLast?_cons, List.getLast?_cons, e3]⟩
      intro x hx
      rcases List.mem_cons.1 hx with rfl | hx
      · simp
      · exact List.mem_cons_of_mem _ (e2 x hx)

theorem CutAt.members {pa : Option (PState ℝ)} (h : CutAt pa states states') :
    (∀ s ∈ states, s ∈ states') ∧ ∀ s ∈ states', s ∈ states ∨ ∃ A, ∃ B ∈ states, Between A s B := by
  induction h with
  | @here A M B post h =>
    refine ⟨fun s hs => List.mem_cons_of_mem _ hs, ?_⟩
    intro s hs
    rcases List.mem_cons.1 hs with rfl | hs
    · exact Or.inr ⟨A, B, by simp, h⟩
    · exact Or.inl hs
  | @later pa s₀ rest rest' h ih =>
    constructor
    · intro s hs
      rcases List.mem_cons.1 hs with rfl | hs
      · simp
      · exact List.mem_cons_of_mem _ (ih.1 s hs)
    · intro s hs
      rcases List.mem_cons.1 hs with rfl | hs
      · simp
      · rcases ih.2 s hs with h | ⟨A, B, hB, h⟩
        · exact Or.inl (List.mem_cons_of_mem _ h)
        · exact Or.inr ⟨A, B, List.mem_cons_of_mem _ hB, h⟩

/-- A cut does not make a regular program irregular. -/
theorem Spec.Cut.regular (h : Cut states states') (hreg : Regular states) : Regular states' where
  speed s hs := by
    rcases (h.at none).members.2 s hs with h | ⟨A, B, hB, h⟩
    · exact hreg.speed s h
    · rw [h.speed]
      exact hreg.speed B hB
  acc s hs := by
    rcases (h.at none).members.2 s hs with h | ⟨A, B, hB, h⟩
    · exact hreg.acc s h
    · rw [h.acc]
      exact hreg.acc B hB
  jerk s hs := by
    rcases (h.at none).members.2 s hs with h | ⟨A, B, hB, h⟩
    · exact hreg.jerk s h
    · rw [h.jerk]
      exact hreg.jerk B hB
  pause s hs p hp := by
    rcases (h.at none).members.2 s hs with h | ⟨A, B, hB, h⟩
    · exact hreg.pause s h p hp
    · rw [h.pause] at hp
      cases hp
  stays pre' s post' he hp := by
    obtain ⟨pre, post, e1, _, e3⟩ := (h.at none).paused he hp
    rw [← e3]
    exact hreg.stays pre s post e1 hp
  moved pre' s post' he hp := by
    obtain ⟨pre, post, e1, e2, _⟩ := (h.at none).paused he hp
    obtain ⟨x, hx, y, hy, hxy⟩ := hreg.moved pre s post e1 hp
    exact ⟨x, e2 x hx, y, e2 y hy, hxy⟩

theorem CutAt.active {pa : Option (PState ℝ)} (h : CutAt pa states states') : ∀ x ∈ Spec.active pa states',
    x ∈ Spec.active pa states ∨ ∃ A M B, Between A M B ∧ (x = (some A, M) ∨ x = (some M, B)) := by
  induction h with
  | @here A M B post h =>
    obtain ⟨l1, l2, l3⟩ := h.lengths
    have hne : ∀ {P Q : PState ℝ}, 0 < (Q.position.sub P.position).norm3 → Q.position ≠ P.position := by
      intro P Q hp he
      rw [he, Vec4.sub_self, norm3_zero] at hp
      exact lt_irrefl _ hp
    rw [active_cons_take _ (Or.inr ⟨A, rfl, hne l1⟩), active_cons_take _ (Or.inr ⟨M, rfl, hne l2⟩),
      active_cons_take _ (Or.inr ⟨A, rfl, hne (by linarith)⟩)]
    intro x hx
    rcases List.mem_cons.1 hx with rfl | hx
    · exact Or.inr ⟨A, M, B, h, Or.inl rfl⟩
    rcases List.mem_cons.1 hx with rfl | hx
    · exact Or.inr ⟨A, M, B, h, Or.inr rfl⟩
    · exact Or.inl (List.mem_cons_of_mem _ hx)
  | @later pa s rest rest' h ih =>
    intro x hx
    by_cases hact : s.pause ≠ none ∨ ∃ A, pa = some A ∧ s.position ≠ A.position
    · rw [active_cons_take _ hact] at hx ⊢
      rcases List.mem_cons.1 hx with rfl | hx
      · simp
      · rcases ih x hx with h | h
        · exact Or.inl (List.mem_cons_of_mem _ h)
        · exact Or.inr h
    · push Not at hact
      rw [active_cons_skip _ (fun A hA => hact.2 A hA) hact.1] at hx ⊢
      exact ih x hx

theorem Spec.Cut.travels (h : Cut states states') (ht : Travels states) : Travels states' := by
  intro x hx A hA hp
  rcases (h.at none).active x hx with h | ⟨A', M, B, h, rfl | rfl⟩
  · exact ht x h A hA hp
  · cases hA
    exact h.lengths.1.ne'
  · cases hA
    exact h.lengths.2.1.ne'

theorem CutAt.length {pa : Option (PState ℝ)} (h : CutAt pa states states') :
    states'.length = states.length + 1 := by
  induction h with
  | here => rfl
  | later _ ih => simp [ih]

theorem CutAt.sum {pa : Option (PState ℝ)} (h : CutAt pa states states') (hacc : ∀ s ∈ states, 0 < s.pAcc) :
    (states.map fun s => 1 / s.pAcc).sum ≤ (states'.map fun s => 1 / s.pAcc).sum := by
  induction h with
  | @here A M B post h =>
    rw [List.map_cons (a := M), List.sum_cons, h.acc]
    have := one_div_pos.2 (hacc B (by simp))
    linarith
  | later _ ih =>
    rw [List.map_cons, List.map_cons, List.sum_cons, List.sum_cons]
    have := ih fun s hs => hacc s (by simp [hs])
    linarith

/-! ## C71 -/

theorem sum_inv_nonneg (hacc : ∀ s ∈ states, 0 < s.pAcc) : 0 ≤ (states.map fun s => 1 / s.pAcc).sum := by
  apply List.sum_nonneg
  intro x hx
  obtain ⟨s, hs, rfl⟩ := List.mem_map.1 hx
  exact (one_div_pos.2 (hacc s hs)).le

theorem sum_inv_eq (k : ℝ) : (states.map fun s => 2 * k / s.pAcc).sum = 2 * k * (states.map fun s => 1 / s.pAcc).sum := by
  rw [← List.sum_map_mul_left]
  congr 1
  apply List.map_congr_left
  intro s _
  ring

/-- **C71.** With `marlin_jd`, `marlin_jerk` and `MKA`, cutting a travel move in two does not make the print
longer. With `marlin_jd` the jerk must not be zero; with `marlin_jerk` the moves must all travel. -/
theorem c71_not_longer (hreg : Regular states) (hc : Cut states states')
    (hfw : fw = .marlinJd ∧ (∀ s ∈ states, 0 < s.jerk) ∨ fw = .marlinJerk ∧ Travels states ∨ fw = .mka)
    {t t' : ℝ} (h : plan fw states = .ok bs) (ht : EndTime (Spec.path bs) t)
    (h' : plan fw states' = .ok bs') (ht' : EndTime (Spec.path bs') t') : t' ≤ t + slack states' := by
  have hreg' := hc.regular hreg
  have hN := plan_is_near hreg (by
    intro hx
    rcases hfw with ⟨rfl, _⟩ | ⟨_, h⟩ | rfl
    · cases hx
    · exact h
    · cases hx) h ht
  have hN' := hN.cut (by norm_num) (hc.at none) (fun s hs => ⟨hreg.speed s hs, hreg.acc s hs, hreg.jerk s hs⟩)
    (hfw.imp id (Or.imp And.left id))
  obtain ⟨hF, hO, hE⟩ := plan_opt hreg' h'
  obtain ⟨hg, hch, hf, _⟩ := plan_ok hreg' h'
  have hε : 0 ≤ (states'.length : ℝ) * 1e-12 := mul_nonneg (Nat.cast_nonneg _) (by norm_num)
  have := near_total (ε := states'.length * 1e-12) (by norm_num) hε hN' ⟨hF, hg, hch, hO, hE⟩
    le_rfl hreg'.acc (fun b hb => by rw [(hf b hb).2.1, zero_add]; exact hε)
  rw [endTime_sum hreg' h' ht', sum_inv_eq] at this
  have h0 := mul_nonneg hε (sum_inv_nonneg hreg'.acc)
  unfold slack
  linarith

/-- **C71.** With no firmware does cutting a travel move in two make the print shorter. With `marlin_jerk` the
moves must all travel. -/
theorem c71_not_shorter (hreg : Regular states) (hc : Cut states states') (hfw : fw = .marlinJerk → Travels states)
    {t t' : ℝ} (h : plan fw states = .ok bs) (ht : EndTime (Spec.path bs) t)
    (h' : plan fw states' = .ok bs') (ht' : EndTime (Spec.path bs') t') : t ≤ t' + slack states' := by
  have hreg' := hc.regular hreg
  have hN := plan_is_near hreg' (fun hx => hc.travels (hfw hx)) h' ht'
  obtain ⟨B, hB, T, hT, hR⟩ := hN.join (by norm_num) (hc.at none) hreg.acc
  obtain ⟨hF, hO, hE⟩ := plan_opt hreg h
  obtain ⟨hg, hch, hf, _⟩ := plan_ok hreg h
  have hε : 0 ≤ (states.length : ℝ) * 1e-12 := mul_nonneg (Nat.cast_nonneg _) (by norm_num)
  have := rough_total (ε := 3 * (states.length * 1e-12)) (e := 0) (by norm_num) (by norm_num) (by linarith) hR
    ⟨hF, hg, hch, hO, hE⟩ le_rfl (by linarith) (by linarith) hreg.acc
    (fun b hb => by rw [(hf b hb).2.1, zero_add])
  rw [endTime_sum hreg h ht, sum_inv_eq] at this
  have h0 := sum_inv_nonneg hreg.acc
  have h1 := (hc.at none).sum hreg.acc
  have h2 : 1 / B.pAcc ≤ (states.map fun s => 1 / s.pAcc).sum := by
    apply List.single_le_sum _ _ (List.mem_map_of_mem hB)
    intro x hx
    obtain ⟨s, hs, rfl⟩ := List.mem_map.1 hx
    exact (one_div_pos.2 (hreg.acc s hs)).le
  have h3 : (1 : ℝ) ≤ states.length := by
    have : 0 < states.length := List.length_pos_of_mem hB
    exact_mod_cast this
  have h4 : (1e-12 : ℝ) / B.pAcc = 1e-12 * (1 / B.pAcc) := by ring
  unfold slack
  rw [(hc.at none).length]
  push_cast
  generalize (states.map fun s => 1 / s.pAcc).sum = S at *
  generalize (states'.map fun s => 1 / s.pAcc).sum = S' at *
  generalize (states.length : ℝ) = n at *
  have h5 : S ≤ n * S := le_mul_of_one_le_left h0 h3
  have h6 : n * S ≤ (n + 1) * S' := mul_le_mul (by linarith) h1 h0 (by linarith)
  nlinarith

/-- **C71.** With `marlin_jd`, `marlin_jerk` and `MKA`, cutting travel moves does not change the print time, up
to the planner's tolerance. -/
theorem c71_cut_partial (hreg : Regular states) (hc : Cut states states')
    (hfw : fw = .marlinJd ∧ (∀ s ∈ states, 0 < s.jerk) ∨ fw = .marlinJerk ∧ Travels states ∨ fw = .mka)
    {t t' : ℝ} (h : plan fw states = .ok bs) (ht : EndTime (Spec.path bs) t)
    (h' : plan fw states' = .ok bs') (ht' : EndTime (Spec.path bs') t') : |t' - t| ≤ slack states' := by
  have h1 := c71_not_longer hreg hc hfw h ht h' ht'
  have h2 := c71_not_shorter hreg hc (by
    intro hx
    rcases hfw with ⟨rfl, _⟩ | ⟨_, h⟩ | rfl
    · cases hx
    · exact h
    · cases hx) h ht h' ht'
  rw [abs_le]
  constructor <;> linarith

theorem exists_endTime (fw : Firmware) (hreg : Regular states) (hact : active none states ≠ []) :
    ∃ bs t, plan fw states = .ok bs ∧ EndTime (Spec.path bs) t := by
  obtain ⟨_, bs, _, _, h, _⟩ := c26_correction_total fw hreg
  obtain ⟨hg, _, _, hm, _⟩ := plan_ok hreg h
  obtain ⟨l, hl⟩ : ∃ l, bs.getLast? = some l := by
    cases hx : bs.getLast? with
    | none =>
      rw [List.getLast?_eq_none_iff] at hx
      rw [← hm, hx] at hact
      exact absurd rfl hact
    | some l => exact ⟨l, rfl⟩
  have hgl := hg l (List.mem_of_getLast? hl)
  obtain ⟨_, _, s', _, _, e3, _⟩ := hgl.facts
  exact ⟨bs, s'.tEnd, h, s', by rw [getLast?_flatMap_segments hl hgl.ne_nil]; exact e3, rfl⟩

/-- The actions of a program and of the program with a cut. -/
theorem Spec.Between.actions_eq (hb : Between A M B) (pre post : List (PState ℝ)) (pa : Option (PState ℝ)) :
    ∃ l l', active pa (pre ++ A :: B :: post) = l ++ (some A, B) :: l' ∧
      active pa (pre ++ A :: M :: B :: post) = l ++ (some A, M) :: (some M, B) :: l' := by
  obtain ⟨l1, l2, l3⟩ := hb.lengths
  have hne : ∀ {P Q : PState ℝ}, 0 < (Q.position.sub P.position).norm3 → Q.position ≠ P.position := by
    intro P Q hp he
    rw [he, Vec4.sub_self, norm3_zero] at hp
    exact lt_irrefl _ hp
  have hstep : ∀ (s : PState ℝ) (pa : Option (PState ℝ)), ∃ l, ∀ rest, active pa (s :: rest) = l ++ active (some s) rest := by
    intro s pa
    by_cases hact : s.pause ≠ none ∨ ∃ A, pa = some A ∧ s.position ≠ A.position
    · exact ⟨[(pa, s)], fun rest => active_cons_take _ hact⟩
    · push Not at hact
      exact ⟨[], fun rest => active_cons_skip _ (fun A hA => hact.2 A hA) hact.1⟩
  induction pre generalizing pa with
  | nil =>
    obtain ⟨l, hl⟩ := hstep A pa
    refine ⟨l, active (some B) post, ?_, ?_⟩
    · rw [List.nil_append, hl, active_cons_take _ (Or.inr ⟨A, rfl, hne (by linarith)⟩)]
    · rw [List.nil_append, hl, active_cons_take _ (Or.inr ⟨A, rfl, hne l1⟩),
        active_cons_take _ (Or.inr ⟨M, rfl, hne l2⟩)]
  | cons s pre ih =>
    obtain ⟨l, hl⟩ := hstep s pa
    obtain ⟨l₁, l₂, e1, e2⟩ := ih (some s)
    exact ⟨l ++ l₁, l₂, by rw [List.cons_append, hl, e1, List.append_assoc],
      by rw [List.cons_append, hl, e2, List.append_assoc]⟩

theorem Spec.Cut.moves (h : Cut states states') : active none states ≠ [] ∧ active none states' ≠ [] := by
  obtain ⟨pre, A, M, B, post, rfl, rfl, h⟩ := h
  obtain ⟨l, l', e1, e2⟩ := h.actions_eq pre post none
  rw [e1, e2]
  simp

theorem slack_mono (h : Cut states states') (hreg : Regular states) : slack states ≤ slack states' := by
  have h1 := (h.at none).sum hreg.acc
  have h0 := sum_inv_nonneg hreg.acc
  unfold slack
  rw [(h.at none).length]
  push_cast
  have hn : (0 : ℝ) ≤ states.length := Nat.cast_nonneg _
  have := mul_le_mul (show (states.length : ℝ) ≤ states.length + 1 by linarith) h1 h0 (by linarith)
  linarith

theorem slack_nonneg (hreg : Regular states) : 0 ≤ slack states :=
  mul_nonneg (mul_nonneg (by norm_num) (Nat.cast_nonneg _)) (sum_inv_nonneg hreg.acc)

theorem Spec.Cuts.keeps {n : ℕ} (hc : Cuts n states states') (hreg : Regular states)
    (hfw : fw = .marlinJd ∧ (∀ s ∈ states, 0 < s.jerk) ∨ fw = .marlinJerk ∧ Travels states ∨ fw = .mka) :
    Regular states' ∧
      (fw = .marlinJd ∧ (∀ s ∈ states', 0 < s.jerk) ∨ fw = .marlinJerk ∧ Travels states' ∨ fw = .mka) := by
  induction hc with
  | none => exact ⟨hreg, hfw⟩
  | more _ hc ih =>
    obtain ⟨h1, h2⟩ := ih hreg hfw
    refine ⟨hc.regular h1, h2.imp (And.imp id fun h s hs => ?_) (Or.imp (And.imp id hc.travels) id)⟩
    rcases (hc.at Option.none).members.2 s hs with hx | ⟨A, B, hB, hx⟩
    · exact h s hx
    · rw [hx.jerk]
      exact h B hB

/-- **C71.** Any number of cuts, for example of all moves into short pieces, does not change the print time. -/
theorem c71_cuts_partial {n : ℕ} (hreg : Regular states) (hc : Cuts n states states')
    (hfw : fw = .marlinJd ∧ (∀ s ∈ states, 0 < s.jerk) ∨ fw = .marlinJerk ∧ Travels states ∨ fw = .mka)
    {t t' : ℝ} (h : plan fw states = .ok bs) (ht : EndTime (Spec.path bs) t)
    (h' : plan fw states' = .ok bs') (ht' : EndTime (Spec.path bs') t') : |t' - t| ≤ n * slack states' := by
  induction hc generalizing bs' t' with
  | none =>
    rw [h] at h'
    cases h'
    obtain ⟨s, h1, rfl⟩ := ht
    obtain ⟨s', h2, rfl⟩ := ht'
    rw [h1] at h2
    cases h2
    simp
  | @more n _ states' states'' hcs hc ih =>
    obtain ⟨r1, r2⟩ := hcs.keeps hreg hfw
    obtain ⟨bs₁, t₁, p1, p2⟩ := exists_endTime fw r1 hc.moves.1
    have e1 := ih hreg hfw h p1 p2
    have e2 := c71_cut_partial r1 hc r2 p1 p2 h' ht'
    have e3 := slack_mono hc r1
    have e4 : (n : ℝ) * slack states' ≤ n * slack states'' := mul_le_mul_of_nonneg_left e3 (Nat.cast_nonneg _)
    have e5 := abs_sub_le t' t₁ t
    push_cast
    linarith

/-- **C71.** With default junction handling, which stops at the end of every move, a cut costs exactly the
difference of the times from rest to rest. -/
theorem c71_default_law {pre post : List (PState ℝ)} (hb : Between A M B)
    (hreg : Regular (pre ++ A :: B :: post)) {t t' : ℝ}
    (h : plan .default (pre ++ A :: B :: post) = .ok bs) (ht : EndTime (Spec.path bs) t)
    (h' : plan .default (pre ++ A :: M :: B :: post) = .ok bs') (ht' : EndTime (Spec.path bs') t') :
    t' = t + moveTime B.pAcc B.speed (M.position.sub A.position).norm3 0 0 +
      moveTime B.pAcc B.speed (B.position.sub M.position).norm3 0 0 -
      moveTime B.pAcc B.speed (B.position.sub A.position).norm3 0 0 := by
  have hc : Cut (pre ++ A :: B :: post) (pre ++ A :: M :: B :: post) := ⟨pre, A, M, B, post, rfl, rfl, hb⟩
  obtain ⟨l1, l2, l3⟩ := hb.lengths
  obtain ⟨l, l', e1, e2⟩ := hb.actions_eq pre post none
  rw [c64_print_time hreg h ht, c64_print_time (hc.regular hreg) h' ht', e1, e2]
  simp only [List.map_append, List.map_cons, List.sum_append, List.sum_cons, restTime, hb.pause, hb.pauseB, hb.acc,
    hb.speed, moveLength, if_neg l1.ne', if_neg l2.ne', if_neg hb.travels]
  ring

/-! ## Klipper -/

/-- The full claim, for every firmware. -/
def C71Full : Prop := ∀ (fw : Firmware) (states states' : List (PState ℝ)) (bs bs' : List (Block ℝ)) (t t' : ℝ),
  Regular states → (∀ s ∈ states, 0 < s.jerk) → Travels states → Cut states states' →
  plan fw states = .ok bs → EndTime (Spec.path bs) t → plan fw states' = .ok bs' → EndTime (Spec.path bs') t' →
  |t' - t| ≤ slack states'

namespace Demo

/-- A state in the plane, with square corner velocity 10 mm/s. -/
noncomputable def at2 (x y : ℝ) : PState ℝ := ⟨⟨x, y, 0, 0⟩, 10, 100, 10, none, none⟩

theorem at2_norm {x y x' y' d : ℝ} (hd : 0 ≤ d) (h : (x' - x) ^ 2 + (y' - y) ^ 2 = d ^ 2) :
    ((at2 x' y').position.sub (at2 x y).position).norm3 = d := by
  have : ((at2 x' y').position.sub (at2 x y).position).norm3 ^ 2 = d ^ 2 := by
    rw [norm3_sq, ← h]
    simp [at2, Vec4.sub]
  exact (sq_eq_sq₀ (norm3_nonneg _) hd).1 this

/-- A bracket: ten millimetres to the right, then ten up. -/
noncomputable def bracket : List (PState ℝ) := [at2 0 0, at2 10 0, at2 10 10]

/-- The bracket, with a point shortly after the corner. -/
noncomputable def bracketCut : List (PState ℝ) := [at2 0 0, at2 10 0, at2 10 0.01, at2 10 10]

theorem bracket_between : Between (at2 10 0) (at2 10 0.01) (at2 10 10) where
  travels := by
    rw [at2_norm (d := 10) (by norm_num) (by norm_num)]
    norm_num
  point := ⟨0.001, by norm_num, by norm_num, by ext <;> norm_num [at2, Vec4.add, Vec4.sub, Vec4.mul]⟩
  speed := rfl
  acc := rfl
  jerk := rfl
  pause := rfl
  pauseB := rfl

theorem bracket_cut : Cut bracket bracketCut := ⟨[at2 0 0], _, _, _, [], rfl, rfl, bracket_between⟩

theorem bracket_regular : Regular bracket := by
  refine regular_moves ?_
  intro s hs
  simp only [bracket, List.mem_cons, List.not_mem_nil, or_false] at hs
  rcases hs with rfl | rfl | rfl <;> norm_num [at2]

theorem bracket_travels : Travels bracket := by
  intro x hx A hA _
  have hx' : x ∈ withPrev none bracket := List.mem_of_mem_filter hx
  simp only [withPrev, bracket, List.map_cons, List.map_nil, List.zip_cons_cons, List.zip_nil_right, List.mem_cons,
    List.not_mem_nil, or_false] at hx'
  rcases hx' with rfl | rfl | rfl
  · cases hA
  · cases hA
    show ((at2 10 0).position.sub (at2 0 0).position).norm3 ≠ 0
    rw [at2_norm (d := 10) (by norm_num) (by norm_num)]
    norm_num
  · cases hA
    show ((at2 10 10).position.sub (at2 10 0).position).norm3 ≠ 0
    rw [at2_norm (d := 10) (by norm_num) (by norm_num)]
    norm_num

/-- The corner speed of the bracket if the move after the corner goes up by `y`. -/
theorem bracket_corner {y : ℝ} (hy : 0 < y) (rest : List (PState ℝ)) :
    junctionVel .klipper (some (at2 0 0)) (at2 10 0) (at2 10 y :: rest) = min 10 (min 10 (√(100 * y / 2))) := by
  have n1 : ((at2 10 0).position.sub (at2 0 0).position).norm3 = 10 := at2_norm (by norm_num) (by norm_num)
  have n2 : ((at2 10 y).position.sub (at2 10 0).position).norm3 = y := at2_norm hy.le (by norm_num)
  have hn : NextMove (at2 10 0) (at2 10 y :: rest) (at2 10 y) := ⟨[], rest, rfl, by simp, by
    intro he
    have := congrArg Vec4.y he
    simp only [at2] at this
    exact hy.ne' this⟩
  rw [c59_klipper hn (by rw [n1]; norm_num) (by rw [n2]; exact hy.ne') (by norm_num [at2]) (by norm_num [at2])
    (by norm_num [at2]) (by norm_num [at2]), n2]
  have ht : turn (at2 0 0).position (at2 10 0).position (at2 10 y).position = Real.pi / 2 := by
    unfold turn Spec.dot3
    rw [n1, n2]
    simp [at2, Vec4.sub]
  rw [ht, c59_right_angle]
  rfl

end Demo

/-- **C71.** The full claim is wrong: with `klipper` a point shortly after a corner makes the corner slower, as
the corner speed depends on the length of the next move. -/
theorem c71_refuted : ¬ C71Full := by
  intro hF
  obtain ⟨bs, t, h, ht⟩ := exists_endTime .klipper Demo.bracket_regular Demo.bracket_cut.moves.1
  obtain ⟨bs', t', h', ht'⟩ := exists_endTime .klipper (Demo.bracket_cut.regular Demo.bracket_regular)
    Demo.bracket_cut.moves.2
  have hle := hF .klipper _ _ bs bs' t t' Demo.bracket_regular (by
    intro s hs
    simp only [Demo.bracket, List.mem_cons, List.not_mem_nil, or_false] at hs
    rcases hs with rfl | rfl | rfl <;> norm_num [Demo.at2]) Demo.bracket_travels Demo.bracket_cut h ht h' ht'
  have n1 : ((Demo.at2 10 0).position.sub (Demo.at2 0 0).position).norm3 = 10 := Demo.at2_norm (by norm_num) (by norm_num)
  have n2 : ((Demo.at2 10 10).position.sub (Demo.at2 10 0).position).norm3 = 10 :=
    Demo.at2_norm (by norm_num) (by norm_num)
  have n3 : ((Demo.at2 10 0.01).position.sub (Demo.at2 10 0).position).norm3 = 0.01 :=
    Demo.at2_norm (by norm_num) (by norm_num)
  have n4 : ((Demo.at2 10 10).position.sub (Demo.at2 10 0.01).position).norm3 = 9.99 :=
    Demo.at2_norm (by norm_num) (by norm_num)
  -- the bracket takes at most 2.1 seconds
  have hup : Drive 100 10 10 0 10 1.05 := by
    have a := drive_one (a := 100) (vT := 10) (v := 0) (v' := 10) (T := 0.1) (k := 100) (by norm_num) (by norm_num)
      (by norm_num) (by norm_num) (by norm_num)
    have b := drive_one (a := 100) (vT := 10) (v := 10) (v' := 10) (T := 0.95) (k := 0) (by norm_num) (by norm_num)
      (by norm_num) (by norm_num) (by norm_num)
    have := a.append b
    norm_num at this ⊢
    exact this
  have hdown : Drive 100 10 10 10 0 1.05 := by
    have a := drive_one (a := 100) (vT := 10) (v := 10) (v' := 0) (T := 0.1) (k := -100) (by norm_num) (by norm_num)
      (by norm_num) (by norm_num) (by norm_num)
    have b := drive_one (a := 100) (vT := 10) (v := 10) (v' := 10) (T := 0.95) (k := 0) (by norm_num) (by norm_num)
      (by norm_num) (by norm_num) (by norm_num)
    have := b.append a
    norm_num at this ⊢
    exact this
  have hS : Schedule (junctionVel .klipper) none 0 Demo.bracket (1.05 + (1.05 + 0)) := by
    refine .idle rfl (by simp) (.travel (v' := 10) rfl (by rw [n1]; norm_num) (by rw [n1]; exact hup) ?_
      (.travel (v' := 0) rfl (by rw [n2]; norm_num) (by rw [n2]; exact hdown) ?_ (.done _ _)))
    · rw [Demo.bracket_corner (by norm_num)]
      refine le_min le_rfl (le_min le_rfl (Real.le_sqrt_of_sq_le ?_))
      norm_num
    · exact (c17_junction_speed _ _ _ _ (by norm_num [Demo.at2]) (by norm_num [Demo.at2])).1
  have h1 := c55_fastest Demo.bracket_regular h hS ht
  -- with the cut it takes more than 2.12 seconds
  have hN := plan_is_near (Demo.bracket_cut.regular Demo.bracket_regular) (by simp) h' ht'
  have h2 : 2.12 ≤ t' := by
    unfold Demo.bracketCut at hN
    cases hN with
    | pause hp => cases hp
    | idle _ _ hN =>
    cases hN with
    | pause hp => cases hp
    | filament _ h0 =>
      rw [n1] at h0
      norm_num at h0
    | idle _ hpos =>
      have := congrArg Vec4.x (hpos _ rfl)
      norm_num [Demo.at2] at this
    | @travel _ _ _ v1 v2 t1 T1 _ _ _ hd1 hlim a1 a2 hN =>
    cases hN with
    | pause hp => cases hp
    | filament _ h0 =>
      rw [n3] at h0
      norm_num at h0
    | idle _ hpos =>
      have := congrArg Vec4.y (hpos _ rfl)
      norm_num [Demo.at2] at this
    | @travel _ _ _ v3 v4 t2 T2 _ _ _ hd2 _ a3 a4 hN =>
    cases hN with
    | pause hp => cases hp
    | filament _ h0 =>
      rw [n4] at h0
      norm_num at h0
    | idle _ hpos =>
      have := congrArg Vec4.y (hpos _ rfl)
      norm_num [Demo.at2] at this
    | @travel _ _ _ v5 v6 t3 T3 _ _ _ hd3 _ a5 a6 hN =>
    cases hN with
    | done =>
    rw [Demo.bracket_corner (by norm_num)] at hlim
    rw [n1] at hd1
    rw [n3] at hd2
    rw [n4] at hd3
    change Drive 100 10 _ _ _ _ at hd1
    change Drive 100 10 _ _ _ _ at hd2
    change Drive 100 10 _ _ _ _ at hd3
    have hv1 : v1 ≤ 0.71 := by
      refine hlim.trans ((min_le_right _ _).trans ((min_le_right _ _).trans ?_))
      rw [Real.sqrt_le_left (by norm_num)]
      norm_num
    obtain ⟨f0, f1, f2, f3, f4, f5⟩ := hd1.facts (by norm_num)
    obtain ⟨g0, g1, g2, g3, g4, g5⟩ := hd2.facts (by norm_num)
    obtain ⟨k0, k1, k2, k3, k4, k5⟩ := hd3.facts (by norm_num)
    have hv3 : v3 ≤ 1.59 := by
      refine (sq_le_sq₀ g2 (by norm_num)).1 ?_
      nlinarith
    have q1 := hd1.bound (m := 0) (n := t1) le_rfl hd1.1 le_rfl
    have q3 := hd3.bound (m := 0) (n := t3) le_rfl hd3.1 le_rfl
    have p1 := hd1.bound (m := 0.1) (n := t1 - 0.09) (by norm_num) (by linarith) (by linarith)
    have p3 := hd3.bound (m := 0.084) (n := t3) (by norm_num) (by linarith) le_rfl
    have := hd2.1
    norm_num at p1 p3
    linarith
  have h3 : slack Demo.bracketCut ≤ 0.01 := by
    norm_num [slack, Demo.bracketCut, Demo.at2]
  have := (abs_le.1 hle).2
  linarith

/-- The bracket with `marlin_jd`, `marlin_jerk` and `MKA`: the cut makes no difference. -/
example (hfw : fw = .marlinJd ∨ fw = .marlinJerk ∨ fw = .mka) : ∃ bs bs' t t', plan fw Demo.bracket = .ok bs ∧
    EndTime (Spec.path bs) t ∧ plan fw Demo.bracketCut = .ok bs' ∧ EndTime (Spec.path bs') t' ∧
    |t' - t| ≤ slack Demo.bracketCut := by
  obtain ⟨bs, t, h, ht⟩ := exists_endTime fw Demo.bracket_regular Demo.bracket_cut.moves.1
  obtain ⟨bs', t', h', ht'⟩ := exists_endTime fw (Demo.bracket_cut.regular Demo.bracket_regular)
    Demo.bracket_cut.moves.2
  refine ⟨bs, bs', t, t', h, ht, h', ht', c71_cut_partial Demo.bracket_regular Demo.bracket_cut ?_ h ht h' ht'⟩
  rcases hfw with rfl | rfl | rfl
  · left
    refine ⟨rfl, ?_⟩
    intro s hs
    simp only [Demo.bracket, List.mem_cons, List.not_mem_nil, or_false] at hs
    rcases hs with rfl | rfl | rfl <;> norm_num [Demo.at2]
  · exact Or.inr (Or.inl ⟨rfl, Demo.bracket_travels⟩)
  · exact Or.inr (Or.inr rfl)

/-- The tolerance for the bracket is below a nanosecond. -/
example : slack Demo.bracketCut ≤ 2e-12 := by norm_num [slack, Demo.bracketCut, Demo.at2]

end PyGCD
