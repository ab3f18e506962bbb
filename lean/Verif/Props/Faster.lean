import Verif.Spec.Faster
import Verif.Props.Corners
import Verif.Props.Stops

/-!
# Property C66: a machine that may do more does not print longer
-/

set_option linter.unusedSectionVars false
set_option linter.unusedSimpArgs false

namespace PyGCD
open Vec4 Spec Set

variable {fw : Firmware} {states : List (PState ℝ)} {bs : List (Block ℝ)}

/-! ## Junction speeds grow with the limits -/

theorem next_or_stop (B : PState ℝ) : ∀ rest : List (PState ℝ),
    (∀ x ∈ rest, x.position = B.position) ∨ ∃ C, NextMove B rest C := by
  intro rest
  induction rest with
  | nil => exact Or.inl (by simp)
  | cons s rest ih =>
    by_cases hs : s.position = B.position
    · rcases ih with h | ⟨C, pre, post, rfl, h1, h2⟩
      · left
        intro x hx
        rcases List.mem_cons.1 hx with rfl | hx
        · exact hs
        · exact h x hx
      · right
        refine ⟨C, s :: pre, post, rfl, ?_, h2⟩
        intro x hx
        rcases List.mem_cons.1 hx with rfl | hx
        · exact hs
        · exact h1 x hx
    · exact Or.inr ⟨s, [], rest, rfl, by simp, hs⟩

theorem Spec.NextMove.raised {B B' C : PState ℝ} (hB : B'.position = B.position) :
    ∀ {rest rest' : List (PState ℝ)}, List.Forall₂ (Raised fw) rest rest' → NextMove B rest C →
      ∃ C', NextMove B' rest' C' ∧ Raised fw C C' ∧ C' ∈ rest' := by
  intro rest rest' h
  induction h with
  | nil =>
    rintro ⟨pre, post, h, _⟩
    simp at h
  | @cons s s' rest rest' h1 h2 ih =>
    rintro ⟨pre, post, he, hpre, hC⟩
    cases pre with
    | nil =>
      simp only [List.nil_append, List.cons.injEq] at he
      obtain ⟨rfl, rfl⟩ := he
      exact ⟨s', ⟨[], rest', rfl, by simp, by rw [h1.position, hB]; exact hC⟩, h1, by simp⟩
    | cons p pre =>
      simp only [List.cons_append, List.cons.injEq] at he
      obtain ⟨rfl, rfl⟩ := he
      obtain ⟨C', ⟨pre', post', g1, g2, g3⟩, g4, g5⟩ := ih ⟨pre, post, rfl, fun x hx => hpre x (by simp [hx]), hC⟩
      refine ⟨C', ⟨s' :: pre', post', by rw [g1]; rfl, ?_, g3⟩, g4, by simp [g5]⟩
      intro x hx
      rcases List.mem_cons.1 hx with rfl | hx
      · rw [h1.position, hB]
        exact hpre s (by simp)
      · exact g2 x hx

theorem nextTarget_raised {B B' : PState ℝ} (hB : Raised fw B B') :
    ∀ {rest rest' : List (PState ℝ)}, List.Forall₂ (Raised fw) rest rest' →
      Raised fw (nextTarget B rest) (nextTarget B' rest') := by
  intro rest rest' h
  induction h with
  | nil => exact hB
  | @cons s s' rest rest' h1 h2 ih =>
    unfold nextTarget
    rw [hB.position, h1.position]
    have : rest.isEmpty = rest'.isEmpty := by
      cases h2 <;> rfl
    rw [this]
    split
    · exact h1
    · exact ih

theorem connectState_raised {A A' B B' : PState ℝ} (hA : A'.position = A.position)
    (hB : B'.position = B.position) (hs : B'.speed = B.speed) : connectState A' B' = connectState A B := by
  unfold connectState
  rw [hA, hB, hs]

theorem marlinJd_mono {v v' j j' φ : ℝ} (hv : 0 ≤ v) (hvv : v ≤ v') (hj : 0 ≤ j) (hjj : j ≤ j') :
    marlinJd v j φ ≤ marlinJd v' j' φ := by
  by_cases hz : j = 0
  · have : marlinJd v j φ = 0 := if_pos (Or.inl hz)
    rw [this]
    exact marlinJd_nonneg (hv.trans hvv) (hj.trans hjj)
  · have hz' : j' ≠ 0 := fun h => hz (le_antisymm (by rw [← h]; exact hjj) hj)
    unfold marlinJd
    simp only [hz, hz', false_or]
    split
    · exact le_rfl
    · split
      · exact hvv
      · exact min_le_min hvv (mul_le_mul_of_nonneg_right hjj (Real.sqrt_nonneg _))

theorem klipper_mono {v v' a a' j j' n φ : ℝ} (hv : v ≤ v') (ha : a ≤ a') (hj : j ≤ j') (hn : 0 ≤ n)
    (h0 : 0 ≤ φ) (h1 : φ ≤ Real.pi) : klipper v a j n φ ≤ klipper v' a' j' n φ := by
  obtain ⟨k0, k1⟩ := klipperLeast_mem
  unfold klipper
  split
  · exact le_rfl
  · refine min_le_min hv (min_le_min (mul_le_mul_of_nonneg_right hj (Real.sqrt_nonneg _)) (Real.sqrt_le_sqrt ?_))
    have hm : max φ klipperLeast / 2 ≤ Real.pi / 2 := by
      have : max φ klipperLeast ≤ Real.pi := max_le h1 (by linarith [Real.pi_pos])
      linarith
    have hm0 : 0 ≤ max φ klipperLeast / 2 := by
      have := le_max_right φ klipperLeast
      linarith
    exact div_le_div_of_nonneg_right (mul_le_mul_of_nonneg_right ha hn)
      (by have := Real.tan_nonneg_of_nonneg_of_le_pi_div_two hm0 hm; linarith)

theorem calcJerk_mono {v0 v1 : Vec4 ℝ} {B B' : PState ℝ} (hj : 0 ≤ B.jerk) (h : B.jerk ≤ B'.jerk)
    (hz : B.jerk = 0 → B'.jerk = 0) : calcJerk v0 v1 B ≤ calcJerk v0 v1 B' := by
  unfold calcJerk
  simp only
  by_cases h0 : B.jerk = 0
  · rw [h0, hz h0]
  · have hp : 0 < B.jerk * 2 := by
      have := lt_of_le_of_ne hj (Ne.symm h0)
      linarith
    have hp' : 0 < B'.jerk * 2 := by linarith
    rw [if_pos hp, if_pos hp']
    have hm := norm3_nonneg (v0.sub v1)
    have hq : (v0.sub v1).norm3 / (B'.jerk * 2) ≤ (v0.sub v1).norm3 / (B.jerk * 2) :=
      div_le_div_of_nonneg_left hm hp (by linarith)
    split
    · rename_i h1
      rw [norm3_div, abs_of_nonneg (by linarith)]
      split
      · rename_i h2
        rw [norm3_div, abs_of_nonneg (by linarith)]
        exact div_le_div_of_nonneg_left (norm3_nonneg _) (by linarith) hq
      · exact div_le_self (norm3_nonneg _) h1
    · rename_i h1
      rw [if_neg (by linarith)]

theorem cap_mono {j j' f f' J : ℝ} (hj : 0 ≤ j) (hjj : j ≤ j') (hf : 0 ≤ f) (hff : f ≤ f') (hJ : 0 ≤ J) :
    0 ≤ cap j f J ∧ cap j f J ≤ cap j' f' J := by
  unfold cap
  by_cases h : f * J ≤ j
  · rw [if_pos h]
    refine ⟨hf, ?_⟩
    split
    · exact hff
    · rename_i h'
      have hJp : 0 < J := by
        rcases eq_or_lt_of_le hJ with h0 | h0
        · rw [← h0, MulZeroClass.mul_zero] at h'
          exact absurd (hj.trans hjj) h'
        · exact h0
      rw [le_div_iff₀ hJp]
      linarith
  · rw [if_neg h]
    refine ⟨div_nonneg hj hJ, ?_⟩
    have hJp : 0 < J := by
      rcases eq_or_lt_of_le hJ with h0 | h0
      · rw [← h0, MulZeroClass.mul_zero] at h
        exact absurd hj h
      · exact h0
    split
    · rw [div_le_iff₀ hJp]
      nlinarith
    · exact div_le_div_of_nonneg_right hjj hJ

theorem mka_mono {V j j' a b c d : ℝ} (hV : 0 ≤ V) (hj : 0 ≤ j) (hjj : j ≤ j') (ha : 0 ≤ a) (hb : 0 ≤ b)
    (hc : 0 ≤ c) (hd : 0 ≤ d) : mka V j a b c d ≤ mka V j' a b c d := by
  unfold mka
  simp only
  obtain ⟨a0, a1⟩ := cap_mono hj hjj zero_le_one le_rfl ha
  obtain ⟨b0, b1⟩ := cap_mono hj hjj a0 a1 hb
  obtain ⟨c0, c1⟩ := cap_mono hj hjj b0 b1 hc
  obtain ⟨d0, d1⟩ := cap_mono hj hjj c0 c1 hd
  have e1 := mul_le_mul_of_nonneg_left a1 hV
  have e2 := mul_le_mul e1 b1 b0 (mul_nonneg hV (a0.trans a1))
  have e3 := mul_le_mul e2 c1 c0 (mul_nonneg (mul_nonneg hV (a0.trans a1)) (b0.trans b1))
  exact mul_le_mul e3 d1 d0 (mul_nonneg (mul_nonneg (mul_nonneg hV (a0.trans a1)) (b0.trans b1)) (c0.trans c1))

theorem junctionVel_mono {A A' B B' : PState ℝ} {rest rest' : List (PState ℝ)} (hA : Raised fw A A')
    (hB : Raised fw B B') (hr : List.Forall₂ (Raised fw) rest rest')
    (h0 : (B.position.sub A.position).norm3 ≠ 0) (hs : 0 < B.speed) (ha : 0 < B.pAcc) (hj : 0 ≤ B.jerk)
    (hrs : ∀ C ∈ rest, 0 ≤ C.speed) :
    junctionVel fw (some A) B rest ≤ junctionVel fw (some A') B' rest' := by
  have hs' := hs.trans_le hB.speed
  have ha' := ha.trans_le hB.acc
  have hj' := hj.trans hB.jerk
  have h0' : (B'.position.sub A'.position).norm3 ≠ 0 := by rw [hA.position, hB.position]; exact h0
  have hpos : 0 ≤ junctionVel fw (some A') B' rest' :=
    (c17_junction_speed fw (some A') B' rest' hs'.le hj').1
  have hsame : fw = .marlinJerk ∨ fw = .mka →
      targetVel (some A') B' = targetVel (some A) B ∧ velNext B' rest' = velNext B rest := by
    intro hfw
    have hn := nextTarget_raised hB hr
    exact ⟨connectState_raised hA.position hB.position (hB.sameSpeed hfw),
      connectState_raised hB.position hn.position (hn.sameSpeed hfw)⟩
  cases fw with
  | default => exact le_rfl
  | marlinJerk =>
    obtain ⟨e1, e2⟩ := hsame (Or.inl rfl)
    unfold junctionVel
    simp only
    rw [e1, e2]
    exact calcJerk_mono hj hB.jerk (hB.unlimited rfl)
  | mka =>
    obtain ⟨e1, e2⟩ := hsame (Or.inr rfl)
    unfold junctionVel
    simp only
    rw [e1, e2, calcMKA_eq _ _ _ hj, calcMKA_eq _ _ _ hj']
    exact mka_mono (le_min (norm3_nonneg _) (norm3_nonneg _)) hj hB.jerk (axisJump_nonneg _ _)
      (axisJump_nonneg _ _) (axisJump_nonneg _ _) (axisJump_nonneg _ _)
  | marlinJd =>
    rcases next_or_stop B rest with h | ⟨C, hC⟩
    · rw [c62_stop (by simp) _ hj (Or.inl h)]
      exact hpos
    · have hCs0 : 0 ≤ C.speed := by
        obtain ⟨pre, post, rfl, _⟩ := hC
        exact hrs C (by simp)
      obtain ⟨C', hC', hR, _⟩ := hC.raised hB.position hr
      by_cases h1 : (C.position.sub B.position).norm3 = 0
      · rw [c62_stop (by simp) _ hj (Or.inr ⟨C, hC, h1, hCs0⟩)]
        exact hpos
      rcases hCs0.eq_or_lt with hz | hCs
      · rw [junctionVel_stop (by simp) _ B rest hj (by
          rw [velNext_of_nextMove hC, connectState_norm3 B C hCs0, if_neg h1, ← hz])]
        exact hpos
      · have h1' : (C'.position.sub B'.position).norm3 ≠ 0 := by rw [hR.position, hB.position]; exact h1
        rw [c58_marlin_jd hC h0 h1 hs hCs ha hj, c58_marlin_jd hC' h0' h1' hs' (hCs.trans_le hR.speed) ha' hj',
          hA.position, hB.position, hR.position]
        exact marlinJd_mono hs.le hB.speed hj hB.jerk
  | klipper =>
    rcases next_or_stop B rest with h | ⟨C, hC⟩
    · rw [c62_stop (by simp) _ hj (Or.inl h)]
      exact hpos
    · have hCs0 : 0 ≤ C.speed := by
        obtain ⟨pre, post, rfl, _⟩ := hC
        exact hrs C (by simp)
      obtain ⟨C', hC', hR, _⟩ := hC.raised hB.position hr
      by_cases h1 : (C.position.sub B.position).norm3 = 0
      · rw [c62_stop (by simp) _ hj (Or.inr ⟨C, hC, h1, hCs0⟩)]
        exact hpos
      rcases hCs0.eq_or_lt with hz | hCs
      · rw [junctionVel_stop (by simp) _ B rest hj (by
          rw [velNext_of_nextMove hC, connectState_norm3 B C hCs0, if_neg h1, ← hz])]
        exact hpos
      · have h1' : (C'.position.sub B'.position).norm3 ≠ 0 := by rw [hR.position, hB.position]; exact h1
        rw [c59_klipper hC h0 h1 hs hCs ha hj, c59_klipper hC' h0' h1' hs' (hCs.trans_le hR.speed) ha' hj',
          hA.position, hB.position, hR.position]
        obtain ⟨t0, t1⟩ := turn_mem A.position B.position C.position
        exact klipper_mono hB.speed hB.acc hB.jerk (norm3_nonneg _) t0 t1

/-! ## Motions with small jumps of the speed -/

/-- As `Schedule`, but at a junction the speed may drop by up to `δ`. -/
inductive Near (limit : Option (PState ℝ) → PState ℝ → List (PState ℝ) → ℝ) (δ : ℝ) :
    Option (PState ℝ) → ℝ → List (PState ℝ) → ℝ → Prop
  | done (pa : Option (PState ℝ)) (v : ℝ) : Near limit δ pa v [] 0
  | idle {pa : Option (PState ℝ)} {v T : ℝ} {B : PState ℝ} {rest : List (PState ℝ)}
      (hp : B.pause = none) (hpos : ∀ A ∈ pa, B.position = A.position)
      (hrest : Near limit δ (some B) v rest T) : Near limit δ pa v (B :: rest) T
  | pause {pa : Option (PState ℝ)} {p t T v : ℝ} {B : PState ℝ} {rest : List (PState ℝ)}
      (hp : B.pause = some p) (ht : p ≤ t) (hrest : Near limit δ (some B) v rest T) (hv : v ≤ 0) :
      Near limit δ pa 0 (B :: rest) (t + T)
  | travel {A B : PState ℝ} {v v' v'' t T : ℝ} {rest : List (PState ℝ)}
      (hp : B.pause = none) (hne : (B.position.sub A.position).norm3 ≠ 0)
      (hd : Drive B.pAcc B.speed (B.position.sub A.position).norm3 v v' t)
      (hlim : v' ≤ limit (some A) B rest) (h1 : v'' ≤ v') (h2 : v' ≤ v'' + δ)
      (hrest : Near limit δ (some B) v'' rest T) :
      Near limit δ (some A) v (B :: rest) (t + T)
  | filament {A B : PState ℝ} {t T v : ℝ} {rest : List (PState ℝ)}
      (hp : B.pause = none) (h0 : (B.position.sub A.position).norm3 = 0)
      (hne : B.position.e ≠ A.position.e)
      (hd : Drive B.pAcc B.speed |B.position.e - A.position.e| 0 0 t)
      (hrest : Near limit δ (some B) v rest T) (hv : v ≤ 0) : Near limit δ (some A) 0 (B :: rest) (t + T)

theorem Spec.Schedule.near {limit : Option (PState ℝ) → PState ℝ → List (PState ℝ) → ℝ}
    {pa : Option (PState ℝ)} {v T : ℝ} (h : Schedule limit pa v states T) : Near limit 0 pa v states T := by
  induction h with
  | done => exact .done _ _
  | idle hp hpos _ ih => exact .idle hp hpos ih
  | pause hp ht _ ih => exact .pause hp ht ih le_rfl
  | travel hp hne hd hlim _ ih => exact .travel hp hne hd hlim le_rfl (by simp) ih
  | filament hp h0 hne hd _ ih => exact .filament hp h0 hne hd ih le_rfl

theorem Spec.Drive.raise {a a' vT vT' d v v' T : ℝ} (ha : a ≤ a') (hv : vT ≤ vT') (h : Drive a vT d v v' T) :
    Drive a' vT' d v v' T := by
  obtain ⟨hT, x, w, hx, hL, hb, h4⟩ := h
  exact ⟨hT, x, w, hx, fun s hs t ht => (hL s hs t ht).trans (mul_le_mul_of_nonneg_right ha (abs_nonneg _)),
    fun t ht => ⟨(hb t ht).1, (hb t ht).2.trans hv⟩, h4⟩

theorem Near.raise {δ : ℝ} {pa : Option (PState ℝ)} {v T : ℝ} (h : Near (junctionVel fw) δ pa v states T) :
    ∀ {pa' : Option (PState ℝ)} {states' : List (PState ℝ)}, Option.Rel (Raised fw) pa pa' →
      List.Forall₂ (Raised fw) states states' → (∀ s ∈ states, 0 < s.speed ∧ 0 < s.pAcc ∧ 0 ≤ s.jerk) →
      Near (junctionVel fw) δ pa' v states' T := by
  induction h with
  | done pa v =>
    intro pa' states' _ h _
    cases h
    exact .done _ _
  | @idle pa v T B rest hp hpos _ ih =>
    intro pa' states' hpa h hreg
    cases h with
    | cons h1 h2 =>
      refine .idle (by rw [h1.pause, hp]) ?_ (ih (.some h1) h2 fun s hs => hreg s (by simp [hs]))
      intro A' hA'
      cases hpa with
      | none => cases hA'
      | some hA =>
        cases hA'
        rw [h1.position, hA.position]
        exact hpos _ rfl
  | @pause pa p t T v B rest hp ht _ hv ih =>
    intro pa' states' hpa h hreg
    cases h with
    | cons h1 h2 =>
      exact .pause (by rw [h1.pause, hp]) ht (ih (.some h1) h2 fun s hs => hreg s (by simp [hs])) hv
  | @travel A B v v' v'' t T rest hp hne hd hlim g1 g2 _ ih =>
    intro pa' states' hpa h hreg
    cases h with
    | @cons _ B' _ rest' h1 h2 =>
      cases hpa with
      | @some _ A' hA =>
        obtain ⟨r1, r2, r3⟩ := hreg B (by simp)
        refine .travel (by rw [h1.pause, hp]) (by rw [h1.position, hA.position]; exact hne) ?_
          (hlim.trans (junctionVel_mono hA h1 h2 hne r1 r2 r3 fun C hC => (hreg C (by simp [hC])).1.le)) g1 g2
          (ih (.some h1) h2 fun s hs => hreg s (by simp [hs]))
        rw [h1.position, hA.position]
        exact hd.raise h1.acc h1.speed
  | @filament A B t T v rest hp h0 hne hd _ hv ih =>
    intro pa' states' hpa h hreg
    cases h with
    | @cons _ B' _ rest' h1 h2 =>
      cases hpa with
      | @some _ A' hA =>
        refine .filament (by rw [h1.pause, hp]) (by rw [h1.position, hA.position]; exact h0)
          (by rw [h1.position, hA.position]; exact hne) ?_
          (ih (.some h1) h2 fun s hs => hreg s (by simp [hs])) hv
        rw [h1.position, hA.position]
        exact hd.raise h1.acc h1.speed

/-- A drive that may begin and end slower, and go further, if it takes the time for the change of speed. -/
theorem Spec.Drive.extend {a vT d v v' T lo lo' : ℝ} (ha : 0 < a) (h : Drive a vT d v v' T) (h0 : 0 ≤ lo)
    (h1 : lo ≤ v) (h0' : 0 ≤ lo') (h1' : lo' ≤ v') :
    ∃ D, d ≤ D ∧ Drive a vT D lo lo' (T + ((v - lo) / a + (v' - lo') / a)) := by
  obtain ⟨f1, f2, f3, f4, _⟩ := h.facts ha
  have q : 0 ≤ (v - lo) / a := div_nonneg (by linarith) ha.le
  have q' : 0 ≤ (v' - lo') / a := div_nonneg (by linarith) ha.le
  have d1 : Drive a vT ((lo + v) / 2 * ((v - lo) / a)) lo v ((v - lo) / a) :=
    drive_one (k := a) ⟨h0, by linarith⟩ ⟨f1, f2⟩ q (by rw [abs_of_pos ha]) (by field_simp; ring)
  have d2 : Drive a vT ((v' + lo') / 2 * ((v' - lo') / a)) v' lo' ((v' - lo') / a) :=
    drive_one (k := -a) ⟨f3, f4⟩ ⟨h0', by linarith⟩ q' (by rw [abs_neg, abs_of_pos ha]) (by field_simp; ring)
  refine ⟨_, ?_, by
    have := (d1.append h).append d2
    rwa [show (v - lo) / a + T + (v' - lo') / a = T + ((v - lo) / a + (v' - lo') / a) by ring] at this⟩
  have e1 : 0 ≤ (lo + v) / 2 * ((v - lo) / a) := mul_nonneg (by linarith) q
  have e2 : 0 ≤ (v' + lo') / 2 * ((v' - lo') / a) := mul_nonneg (by linarith) q'
  linarith

/-- Comparing two ramps of the same length. -/
theorem ramp_close {v v' s s' c e : ℝ} (hs : 0 ≤ s) (hs' : 0 ≤ s') (hv : 0 ≤ v) (hv' : 0 ≤ v') (hc : 0 ≤ c)
    (h1 : v ^ 2 ≤ v' ^ 2 + c) (h2 : s ^ 2 = s' ^ 2 + c) (he : v' ≤ s' + e) (he0 : 0 ≤ e) : v ≤ s + e := by
  have hss : s' ≤ s := (sq_le_sq₀ hs' hs).1 (by linarith)
  by_contra hcon
  push Not at hcon
  rcases le_or_gt v' s' with h | h
  · have := (sq_le_sq₀ hv' hs').2 h
    have : v ≤ s := (sq_le_sq₀ hv hs).1 (by linarith)
    linarith
  · rcases le_or_gt v' v with h' | h'
    · have e1 : (v - s) * (v + s) ≤ (v' - s') * (v' + s') := by nlinarith
      have e2 : (v' - s') * (v' + s') ≤ (v' - s') * (v + s) := mul_le_mul_of_nonneg_left (by linarith) (by linarith)
      have e3 : (v' - s') * (v + s) < (v - s) * (v + s) := mul_lt_mul_of_pos_right (by linarith) (by linarith)
      linarith
    · linarith

/-- As `Near`, but a travel move may also go further, and its speeds may exceed what its length and the
acceleration allow by `σ`. -/
inductive Rough (limit : Option (PState ℝ) → PState ℝ → List (PState ℝ) → ℝ) (δ σ : ℝ) :
    Option (PState ℝ) → ℝ → List (PState ℝ) → ℝ → Prop
  | done (pa : Option (PState ℝ)) (v : ℝ) : Rough limit δ σ pa v [] 0
  | idle {pa : Option (PState ℝ)} {v T : ℝ} {B : PState ℝ} {rest : List (PState ℝ)}
      (hp : B.pause = none) (hpos : ∀ A ∈ pa, B.position = A.position)
      (hrest : Rough limit δ σ (some B) v rest T) : Rough limit δ σ pa v (B :: rest) T
  | pause {pa : Option (PState ℝ)} {p t T v : ℝ} {B : PState ℝ} {rest : List (PState ℝ)}
      (hp : B.pause = some p) (ht : p ≤ t) (hrest : Rough limit δ σ (some B) v rest T) (hv : v ≤ 0) :
      Rough limit δ σ pa 0 (B :: rest) (t + T)
  | travel {A B : PState ℝ} {D v v' v'' t T : ℝ} {rest : List (PState ℝ)}
      (hp : B.pause = none) (hne : (B.position.sub A.position).norm3 ≠ 0)
      (hd : Drive B.pAcc B.speed D v v' t) (hD : (B.position.sub A.position).norm3 ≤ D)
      (h4 : v ≤ √(v' ^ 2 + 2 * B.pAcc * (B.position.sub A.position).norm3) + σ)
      (h3 : v' ≤ √(v ^ 2 + 2 * B.pAcc * (B.position.sub A.position).norm3) + σ)
      (hlim : v' ≤ limit (some A) B rest) (h1 : v'' ≤ v') (h2 : v' ≤ v'' + δ)
      (hrest : Rough limit δ σ (some B) v'' rest T) :
      Rough limit δ σ (some A) v (B :: rest) (t + T)
  | filament {A B : PState ℝ} {t T v : ℝ} {rest : List (PState ℝ)}
      (hp : B.pause = none) (h0 : (B.position.sub A.position).norm3 = 0)
      (hne : B.position.e ≠ A.position.e)
      (hd : Drive B.pAcc B.speed |B.position.e - A.position.e| 0 0 t)
      (hrest : Rough limit δ σ (some B) v rest T) (hv : v ≤ 0) : Rough limit δ σ (some A) 0 (B :: rest) (t + T)

theorem Near.rough {limit : Option (PState ℝ) → PState ℝ → List (PState ℝ) → ℝ} {δ σ : ℝ} (hσ : 0 ≤ σ)
    {pa : Option (PState ℝ)} {v T : ℝ} (h : Near limit δ pa v states T) (hacc : ∀ s ∈ states, 0 < s.pAcc) :
    Rough limit δ σ pa v states T := by
  induction h with
  | done => exact .done _ _
  | idle hp hpos _ ih => exact .idle hp hpos (ih fun s hs => hacc s (by simp [hs]))
  | pause hp ht _ hv ih => exact .pause hp ht (ih fun s hs => hacc s (by simp [hs])) hv
  | travel hp hne hd hlim h1 h2 _ ih =>
    obtain ⟨f0, f1, f2, _, f3, f4⟩ := hd.facts (hacc _ (by simp))
    refine .travel hp hne hd le_rfl ?_ ?_ hlim h1 h2 (ih fun s hs => hacc s (by simp [hs]))
    · have := Real.le_sqrt_of_sq_le (x := _) f4
      linarith
    · have := Real.le_sqrt_of_sq_le (x := _) f3
      linarith
  | filament hp h0 hne hd _ hv ih => exact .filament hp h0 hne hd (ih fun s hs => hacc s (by simp [hs])) hv

theorem rough_entry {δ σ : ℝ} (hδ : 0 ≤ δ) (hσ : 0 ≤ σ) {pa : Option (PState ℝ)} {v T : ℝ}
    {states : List (PState ℝ)} (hS : Rough (junctionVel fw) δ σ pa v states T) : ∀ {bs : List (Block ℝ)},
    Opt fw pa states bs → ∀ b ∈ bs.head?, b.EntryR → v ≤ b.nIn + states.length * (δ + σ) := by
  have hlen : ∀ l : List (PState ℝ), 0 ≤ (l.length : ℝ) * (δ + σ) :=
    fun l => mul_nonneg (Nat.cast_nonneg _) (by linarith)
  induction hS with
  | done pa v =>
    intro bs h b hb _
    have := h.acts
    rw [actions] at this
    cases this
    cases hb
  | @idle _ _ _ B rest hp hpos _ ih =>
    intro bs h b hb hE
    have := ih (h.idle hp hpos) b hb hE
    rw [List.length_cons]
    push_cast
    linarith
  | pause =>
    intro bs h b hb _
    obtain ⟨_, _, _, _, _, _, _, _, _, _, _, _, h11, _⟩ := (h.good b (List.mem_of_mem_head? hb)).facts
    exact add_nonneg h11 (hlen _)
  | filament =>
    intro bs h b hb _
    obtain ⟨_, _, _, _, _, _, _, _, _, _, _, _, h11, _⟩ := (h.good b (List.mem_of_mem_head? hb)).facts
    exact add_nonneg h11 (hlen _)
  | @travel A B D v v' v'' t T rest hp hne hd hD h4 h3 hlim g1 g2 _ ih =>
    intro bs h b hb hE
    obtain ⟨b', tl, rfl, hg, ha, ho, hl, hn⟩ := h.step (Or.inr ⟨A, rfl, by
      intro he
      apply hne
      rw [he, norm3_eq_zero]
      simp [Vec4.sub]⟩)
    cases hb
    obtain ⟨rfl, u, s0, s1, hm, hu1, hin, hout, hj, hdist⟩ := travel_block hg ha hp hne
    rw [← hdist] at hD h3 h4
    obtain ⟨f0, f1, f2, _⟩ := hd.facts hm.ha
    obtain ⟨k1, k2, k3, k4, k5, k6⟩ := hm.facts
    obtain ⟨hu, hd0, _⟩ := hm.toHdr.unit
    have had : 0 < b.stateB.pAcc * (moveDistance A b.stateB).1 := mul_pos hm.ha hd0
    have hN := hlen (b.stateB :: rest)
    have hN' : 0 ≤ ((b.stateB :: rest).length : ℝ) * (δ + σ) - σ := by
      have := hlen rest
      rw [List.length_cons]
      push_cast
      linarith
    rcases hE with ⟨A', p, hd'⟩ | ⟨A', u', q0, q1, hm', hc⟩
    · rw [hd'.hpause] at hp
      cases hp
    · obtain ⟨rfl, rfl, rfl, rfl⟩ := hm.unique hm'
      rcases hc with hc | hc | hc
      · rw [hu1] at hc
        norm_num at hc
      · rw [hin, hc]
        linarith
      · have hv' : v' ≤ s1 + (((b.stateB :: rest).length : ℝ) * (δ + σ) - σ) := by
          have hexit : b.ExitR → v' ≤ s1 + (((b.stateB :: rest).length : ℝ) * (δ + σ) - σ) := by
            rintro (⟨A', p, hd'⟩ | ⟨A', u', q0, q1, hm', hc'⟩)
            · rw [hd'.hpause] at hp
              cases hp
            · obtain ⟨rfl, rfl, rfl, rfl⟩ := hm.unique hm'
              rcases hc' with hc' | hc'
              · rw [hj] at hc'
                injection hc' with hc'
                rw [← mul_inj hu hc']
                linarith
              · exfalso
                linarith
          cases tl with
          | nil => exact hexit (hn rfl)
          | cons c tl =>
            obtain ⟨l1, l2⟩ := hl c rfl
            rcases l2.2 with l | l
            · exact hexit l
            · have e1 := ih ho c rfl l
              have e2 := l1.2.1
              rw [← hout, List.length_cons]
              push_cast
              linarith
        rw [hin]
        have := ramp_close k1 k3 (Real.sqrt_nonneg _) f2 (by linarith) (Real.sq_sqrt (by nlinarith [sq_nonneg v'])).le hc hv' hN'
        linarith

theorem rough_total {δ σ ε : ℝ} (hδ : 0 ≤ δ) (hσ : 0 ≤ σ) (hε : 0 ≤ ε) {pa : Option (PState ℝ)} {v T : ℝ}
    {states : List (PState ℝ)} (hS : Rough (junctionVel fw) δ σ pa v states T) : ∀ {bs : List (Block ℝ)} {e : ℝ},
    Opt fw pa states bs → 0 ≤ e → e + states.length * σ ≤ ε → states.length * (δ + 2 * σ) ≤ ε →
    (∀ s ∈ states, 0 < s.pAcc) → (∀ b ∈ bs.head?, v ≤ b.nIn + e) →
    (bs.map fun b => b.t1 - b.t0).sum ≤ T + (states.map fun s => 2 * ε / s.pAcc).sum := by
  have hlen : ∀ (B : PState ℝ) (l : List (PState ℝ)) (e : ℝ), e + ((B :: l).length : ℝ) * σ ≤ ε →
      ((B :: l).length : ℝ) * (δ + 2 * σ) ≤ ε → (l.length : ℝ) * (δ + 2 * σ) ≤ ε ∧ e + σ + (l.length : ℝ) * σ ≤ ε ∧
      (l.length : ℝ) * (δ + σ) + δ + (l.length : ℝ) * σ ≤ ε ∧ (l.length : ℝ) * σ ≤ ε ∧ 0 ≤ (l.length : ℝ) * σ ∧
      0 ≤ (l.length : ℝ) * (δ + σ) := by
    intro B l e h h'
    rw [List.length_cons] at h h'
    push_cast at h h'
    have h1 : 0 ≤ (l.length : ℝ) * σ := mul_nonneg (Nat.cast_nonneg _) hσ
    have h2 : 0 ≤ (l.length : ℝ) * δ := mul_nonneg (Nat.cast_nonneg _) hδ
    refine ⟨?_, ?_, ?_, ?_, h1, ?_⟩ <;> linarith
  induction hS with
  | done pa v =>
    intro bs e h _ _ _ _ _
    have := h.acts
    rw [actions] at this
    cases this
    simp
  | @idle _ _ _ B rest hp hpos _ ih =>
    intro bs e h he hn hn' hacc hv
    obtain ⟨n1, n2, n3, n4, n5, n6⟩ := hlen _ _ _ hn hn'
    have := ih (h.idle hp hpos) he (by linarith) n1 (fun s hs => hacc s (by simp [hs])) hv
    have h2 : 0 ≤ 2 * ε / B.pAcc := div_nonneg (by linarith) (hacc B (by simp)).le
    rw [List.map_cons, List.sum_cons]
    linarith
  | @pause pa p t T v B rest hp ht _ hv0 ih =>
    intro bs e h he hn0 hn' hacc hv
    obtain ⟨n1, n2, n3, n4, n5, n6⟩ := hlen _ _ _ hn0 hn'
    obtain ⟨b, tl, rfl, hg, ha, ho, hl, hn⟩ := h.step (Or.inl (by rw [hp]; simp))
    have h3 : 0 ≤ 2 * ε / B.pAcc := div_nonneg (by linarith) (hacc B (by simp)).le
    rw [List.map_cons, List.sum_cons, List.map_cons, List.sum_cons]
    have h1 := ih ho le_rfl (by linarith) n1 (fun s hs => hacc s (by simp [hs])) (by
      intro c hc
      obtain ⟨_, _, _, _, _, _, _, _, _, _, _, _, h11, _⟩ := (ho.good c (List.mem_of_mem_head? hc)).facts
      linarith)
    have h2 : b.t1 - b.t0 = p := by
      rcases hg with ⟨A', u, s0, s1, hm⟩ | ⟨A', q, hd⟩
      · have := hm.hpause
        rw [ha.2.1, hp] at this
        cases this
      · have := hd.hpause
        rw [ha.2.1, hp] at this
        cases this
        obtain ⟨t, ht⟩ := hd.hseg
        simp [Block.t0, Block.t1, ht]
    linarith
  | @filament A B t T v rest hp h0 hne hd _ hv0 ih =>
    intro bs e h he hn0 hn' hacc hv
    obtain ⟨n1, n2, n3, n4, n5, n6⟩ := hlen _ _ _ hn0 hn'
    have hpos : B.position ≠ A.position := fun h => hne (congrArg Vec4.e h)
    obtain ⟨b, tl, rfl, hg, ha, ho, hl, hn⟩ := h.step (Or.inr ⟨A, rfl, hpos⟩)
    have h3 : 0 ≤ 2 * ε / B.pAcc := div_nonneg (by linarith) (hacc B (by simp)).le
    rw [List.map_cons, List.sum_cons, List.map_cons, List.sum_cons]
    have h1 := ih ho le_rfl (by linarith) n1 (fun s hs => hacc s (by simp [hs])) (by
      intro c hc
      obtain ⟨_, _, _, _, _, _, _, _, _, _, _, _, h11, _⟩ := (ho.good c (List.mem_of_mem_head? hc)).facts
      linarith)
    have h2 : b.t1 - b.t0 ≤ t := by
      obtain ⟨a1, a2, _⟩ := ha
      simp only at a1 a2
      rcases hg with ⟨A', u, s0, s1, hm⟩ | ⟨A', q, hd'⟩
      · have hA := hm.hA
        rw [a1] at hA
        cases hA
        obtain ⟨g1, g2, g3, g4, _⟩ := hm.toHdr.unit
        obtain ⟨ta, tc, td, vp, ph, _⟩ := profile_phases g1 hm.hramp hm.hprof g3
        obtain ⟨f1, f2, f3, f4, _⟩ := hm.facts
        rw [moveDistance_length, a2] at ph
        unfold moveLength at ph
        rw [if_pos h0] at ph
        exact ph.fastest (by rw [← a2]; exact hm.ha) (by rw [← a2]; exact hm.hs) f1 f1 f3 hd
      · have := hd'.hpause
        rw [a2, hp] at this
        cases this
    linarith
  | @travel A B D v v' v'' t T rest hp hne hd hD h4 h3 hlim g1 g2 hrest ih =>
    intro bs e h he hn0 hn' hacc hv
    obtain ⟨n1, n2, n3, n4, n5, n6⟩ := hlen _ _ _ hn0 hn'
    obtain ⟨b, tl, rfl, hg, ha, ho, hl, hn⟩ := h.step (Or.inr ⟨A, rfl, by
      intro he
      apply hne
      rw [he, norm3_eq_zero]
      simp [Vec4.sub]⟩)
    obtain ⟨rfl, u, s0, s1, hm, hu1, hin, hout, hj, hdist⟩ := travel_block hg ha hp hne
    rw [← hdist] at hD h3 h4
    obtain ⟨f0, f1, f2, _⟩ := hd.facts hm.ha
    obtain ⟨k1, k2, k3, k4, k5, k6⟩ := hm.facts
    obtain ⟨hu, hd0, hB, _⟩ := hm.toHdr.unit
    have had : 0 < b.stateB.pAcc * (moveDistance A b.stateB).1 := mul_pos hm.ha hd0
    have hv0 : v ≤ s0 + e := by
      rw [← hin]
      exact hv b rfl
    have hentry : ∀ c ∈ tl.head?, c.EntryR → v'' ≤ c.nIn + rest.length * (δ + σ) :=
      fun c hc hE => rough_entry hδ hσ hrest ho c hc hE
    obtain ⟨e', he', he1, he2, he3⟩ : ∃ e', 0 ≤ e' ∧ e + σ ≤ e' ∧ (rest.length : ℝ) * (δ + σ) + δ ≤ e' ∧
        e' + rest.length * σ ≤ ε := by
      rcases le_total (e + σ) ((rest.length : ℝ) * (δ + σ) + δ) with h | h
      · exact ⟨_, by linarith, h, le_rfl, n3⟩
      · exact ⟨_, by linarith, le_rfl, h, n2⟩
    have hv' : v' ≤ s1 + e' := by
      have hexit : b.ExitR → v' ≤ s1 + e' := by
        rintro (⟨A', p, hd'⟩ | ⟨A', u', q0, q1, hm', hc'⟩)
        · rw [hd'.hpause] at hp
          cases hp
        · obtain ⟨rfl, rfl, rfl, rfl⟩ := hm.unique hm'
          rcases hc' with hc' | hc'
          · rw [hj] at hc'
            injection hc' with hc'
            rw [← mul_inj hu hc']
            linarith
          · have := ramp_close k3 k1 (Real.sqrt_nonneg _) f0 (by linarith) (Real.sq_sqrt (by nlinarith [sq_nonneg v])).le
              hc' hv0 he
            linarith
      cases htl : tl with
      | nil => exact hexit (hn htl)
      | cons c tl' =>
        have hc : c ∈ tl.head? := by rw [htl]; rfl
        obtain ⟨l1, l2⟩ := hl c hc
        rcases l2.2 with l | l
        · exact hexit l
        · have e1 := hentry c hc l
          have e2 := l1.2.1
          rw [← hout]
          linarith
    have h1 := ih ho he' he3 n1 (fun s hs => hacc s (by simp [hs])) (by
      intro c hc
      obtain ⟨l1, l2⟩ := hl c hc
      rcases l2.1 with l | l
      · rw [l, hout]
        linarith
      · have := hentry c hc l
        linarith)
    obtain ⟨ta, tc, td, vp, ph, _⟩ := profile_phases hu hm.hramp hm.hprof hB
    obtain ⟨D', hD1, hD2⟩ := hd.extend hm.ha (le_min f0 k1) (min_le_left v s0) (le_min f2 k3) (min_le_left v' s1)
    have h2 := ph.fastest_far hm.ha hm.hs k1 (min_le_right _ _) (min_le_right _ _) (hD.trans hD1) hD2
    have h3 : (v - min v s0) / b.stateB.pAcc + (v' - min v' s1) / b.stateB.pAcc ≤ 2 * ε / b.stateB.pAcc := by
      rw [← add_div]
      apply div_le_div_of_nonneg_right _ hm.ha.le
      have e1 : v - min v s0 ≤ ε := by
        rcases min_choice v s0 with h | h <;> rw [h] <;> linarith
      have e2 : v' - min v' s1 ≤ ε := by
        rcases min_choice v' s1 with h | h <;> rw [h] <;> linarith
      linarith
    rw [List.map_cons, List.sum_cons, List.map_cons, List.sum_cons]
    linarith

theorem near_total {δ ε : ℝ} (hδ : 0 ≤ δ) (hε : 0 ≤ ε) {pa : Option (PState ℝ)} {v T : ℝ} {states : List (PState ℝ)}
    (hS : Near (junctionVel fw) δ pa v states T) {bs : List (Block ℝ)} (h : Opt fw pa states bs)
    (hlen : states.length * δ ≤ ε) (hacc : ∀ s ∈ states, 0 < s.pAcc) (hv : ∀ b ∈ bs.head?, v ≤ b.nIn + ε) :
    (bs.map fun b => b.t1 - b.t0).sum ≤ T + (states.map fun s => 2 * ε / s.pAcc).sum :=
  rough_total hδ le_rfl hε (hS.rough le_rfl hacc) h hε (by simp) (by simpa using hlen) hacc hv

theorem plan_near : ∀ {rest : List (PState ℝ)} {pa : Option (PState ℝ)} {v : ℝ}
    {bs : List (Block ℝ)}, (∀ s ∈ rest, 0 ≤ s.jerk) → List.Forall₂ (Acts fw) bs (actions pa rest) →
      (∀ b ∈ bs, Good b) → bs.IsChain LinkT → (∀ b ∈ bs, ∀ v ∈ b.feed, v = Vec4.zero) →
      (∀ b ∈ bs.head?, b.nIn = v) → Near (junctionVel fw) 1e-12 pa v rest (bs.map fun b => b.t1 - b.t0).sum := by
  intro rest
  induction rest with
  | nil =>
    intro pa v bs _ h _ _ _ _
    rw [actions] at h
    cases h
    exact .done pa v
  | cons B rest ih =>
    intro pa v bs hreg h hg hc hf hv
    have hreg' : ∀ s ∈ rest, 0 ≤ s.jerk := fun s hs => hreg s (by simp [hs])
    by_cases hact : B.pause ≠ none ∨ ∃ A, pa = some A ∧ B.position ≠ A.position
    · rw [actions_cons_take rest hact] at h
      cases h with
      | @cons b _ tl _ h1 h2 =>
        have hgb := hg b (by simp)
        have hb := hv b rfl
        have hnext := fun w (hw : ∀ c ∈ tl.head?, c.nIn = w) => ih (v := w) hreg' h2
          (fun c hc => hg c (by simp [hc])) hc.tail (fun c hc => hf c (by simp [hc])) hw
        have hlink : ∀ c ∈ tl.head?, LinkT b c := by
          intro c hcm
          cases tl with
          | nil => cases hcm
          | cons c' tl =>
            cases hcm
            exact (List.isChain_cons_cons.1 hc).1
        have hw : ∀ w : ℝ, ∀ c ∈ tl.head?, c.nIn = (tl.head?.map Block.nIn).getD w := by
          intro w c hcm
          cases tl with
          | nil => cases hcm
          | cons c' tl =>
            cases hcm
            rfl
        have hw0 : ∀ w, (tl.head?.map Block.nIn).getD w ≤ b.nOut ∨ (tl.head?.map Block.nIn).getD w = w := by
          intro w
          cases htl : tl with
          | nil => exact Or.inr rfl
          | cons c tl' => exact Or.inl (hlink c (by rw [htl]; rfl)).2.1
        obtain ⟨a1, a2, a3⟩ := h1
        simp only at a1 a2 a3
        rw [List.map_cons, List.sum_cons]
        rcases hgb with ⟨A, u, s0, s1, hm⟩ | ⟨A, p, hd⟩
        · obtain ⟨g1, g2, g3, g4, _⟩ := hm.toHdr.unit
          obtain ⟨f1, f2, f3, f4, _⟩ := hm.facts
          obtain ⟨q, q', e1, _, _, _, e5, _, _, _, e9, e10⟩ := hm.ends
          obtain ⟨d, d1, d2⟩ := hm.hramp.drive hm.ha.le ⟨f1, f2⟩
          have hd : d = (moveDistance A b.stateB).1 := unit_cancel g1 (p := A.position) (by rw [← d2, ← g3])
          rw [hd, moveDistance_length] at d1
          have hpa : pa = some A := a1.symm.trans hm.hA
          have hp := hm.hpause
          have hne := hm.hne
          obtain ⟨u', j1, j2⟩ := a3 (by rw [← a2]; exact hp)
          rw [hm.hdir] at j1
          cases j1
          obtain ⟨j, i1, i2⟩ := hm.hjd
          rw [j2] at i1
          injection i1 with i1
          have hj := mul_inj g1 i1
          subst a2
          subst hpa
          by_cases hz : (b.stateB.position.sub A.position).norm3 = 0
          · have hun : u.norm3 = 0 := by
              have := g1.norms.1
              rw [g4.2 hz] at this
              simpa using this
            have hj0 : junctionVel fw (some A) b.stateB rest = 0 :=
              c62_filament_stop fw rest hm.hs.le (hreg _ (by simp)) hz
            have h1 : s1 = 0 := le_antisymm (by rw [← hj, hj0] at i2; exact i2) f3
            have h0 : s0 = 0 := by
              have hfe : b.feed = some (u.mul s0) := by
                rw [Block.feed, hm.hdir, Option.map_some, hun, if_pos rfl, e1, Option.map_some, e5]
              have := hf b (by simp) _ hfe
              exact mul_inj g1 (this.trans (Vec4.mul_zero u).symm)
            rw [h0, h1, moveLength, if_pos hz] at d1
            have hv0 : v = 0 := by rw [← hb, e9, hun, MulZeroClass.zero_mul]
            rw [hv0]
            refine .filament hp hz ?_ d1 (hnext _ (hw 0)) ?_
            · intro he
              apply hne
              obtain ⟨zx, zy, zz⟩ := norm3_eq_zero.1 hz
              ext
              · exact sub_eq_zero.1 zx
              · exact sub_eq_zero.1 zy
              · exact sub_eq_zero.1 zz
              · exact he
            · rcases hw0 0 with h | h
              · rw [e10, hun, MulZeroClass.zero_mul] at h
                exact h
              · exact h.le
          · have hun : u.norm3 = 1 := by
              have := g1.norms.1
              cases hx : (moveDistance A b.stateB).2
              · rw [hx] at this
                simpa using this
              · exact absurd (g4.1 hx) hz
            rw [hun, one_mul] at e9 e10
            have hvs : v = s0 := by rw [← hb, e9]
            rw [moveLength, if_neg hz] at d1
            rw [hvs]
            refine .travel hp hz d1 (by rw [hj]; exact i2) ?_ ?_ (hnext _ (hw s1))
            · rcases hw0 s1 with h | h
              · exact h.trans e10.le
              · exact h.le
            · cases htl : tl with
              | nil =>
                show s1 ≤ s1 + 1e-12
                norm_num
              | cons c tl' =>
                have := (hlink c (by rw [htl]; rfl)).2.2.1
                rw [e10] at this
                exact this
        · obtain ⟨t, ht⟩ := hd.hseg
          have hp := hd.hpause
          rw [a2] at hp
          have e : b.t1 - b.t0 = p := by
            simp [Block.t0, Block.t1, ht]
          have hin : b.nIn = 0 := by simp [Block.nIn, ht, norm3_zero]
          have hout : b.nOut = 0 := by simp [Block.nOut, ht, norm3_zero]
          rw [e]
          have hv0 : v = 0 := by rw [← hb, hin]
          rw [hv0]
          refine .pause hp le_rfl (hnext _ (hw 0)) ?_
          rcases hw0 0 with h | h
          · rw [hout] at h
            exact h
          · exact h.le
    · push Not at hact
      obtain ⟨hp, hpos⟩ := hact
      have hpos' : ∀ A ∈ pa, B.position = A.position := fun A hA => hpos A hA
      rw [actions_cons_skip rest hpos' hp] at h
      exact .idle hp hpos' (ih hreg' h hg hc hf hv)

theorem forall₂_split {R : PState ℝ → PState ℝ → Prop} : ∀ {pre' l : List (PState ℝ)} {s' : PState ℝ}
    {post' : List (PState ℝ)}, List.Forall₂ R l (pre' ++ s' :: post') →
    ∃ pre s post, l = pre ++ s :: post ∧ List.Forall₂ R pre pre' ∧ R s s' := by
  intro pre'
  induction pre' with
  | nil =>
    intro l s' post' h
    cases h with
    | cons h1 h2 => exact ⟨[], _, _, rfl, .nil, h1⟩
  | cons p pre' ih =>
    intro l s' post' h
    cases h with
    | cons h1 h2 =>
      obtain ⟨pre, s, post, rfl, g1, g2⟩ := ih h2
      exact ⟨_ :: pre, s, post, rfl, .cons h1 g1, g2⟩

theorem forall₂_mem_right {R : PState ℝ → PState ℝ → Prop} {l l' : List (PState ℝ)}
    (h : List.Forall₂ R l l') : ∀ s' ∈ l', ∃ s ∈ l, R s s' := by
  induction h with
  | nil => simp
  | cons h1 h2 ih =>
    intro s' hs
    rcases List.mem_cons.1 hs with rfl | hs
    · exact ⟨_, by simp, h1⟩
    · obtain ⟨s, g1, g2⟩ := ih s' hs
      exact ⟨s, by simp [g1], g2⟩

theorem forall₂_mem_left {R : PState ℝ → PState ℝ → Prop} {l l' : List (PState ℝ)}
    (h : List.Forall₂ R l l') : ∀ s ∈ l, ∃ s' ∈ l', R s s' := by
  induction h with
  | nil => simp
  | cons h1 h2 ih =>
    intro s' hs
    rcases List.mem_cons.1 hs with rfl | hs
    · exact ⟨_, by simp, h1⟩
    · obtain ⟨s, g1, g2⟩ := ih s' hs
      exact ⟨s, by simp [g1], g2⟩

theorem forall₂_getLast? {R : PState ℝ → PState ℝ → Prop} {l l' : List (PState ℝ)}
    (h : List.Forall₂ R l l') : ∀ s ∈ l.getLast?, ∃ s' ∈ l'.getLast?, R s s' := by
  induction h with
  | nil => simp
  | @cons a a' l l' h1 h2 ih =>
    intro s hs
    cases h2 with
    | nil =>
      cases hs
      exact ⟨a', rfl, h1⟩
    | cons h3 h4 =>
      rw [List.getLast?_cons_cons] at hs ⊢
      exact ih s hs

/-- Raised limits do not make a regular program irregular. -/
theorem Spec.Regular.raised {states' : List (PState ℝ)} (hreg : Regular states)
    (hR : List.Forall₂ (Raised fw) states states') : Regular states' where
  speed s' hs' := by
    obtain ⟨s, hs, h⟩ := forall₂_mem_right hR s' hs'
    exact (hreg.speed s hs).trans_le h.speed
  acc s' hs' := by
    obtain ⟨s, hs, h⟩ := forall₂_mem_right hR s' hs'
    exact (hreg.acc s hs).trans_le h.acc
  jerk s' hs' := by
    obtain ⟨s, hs, h⟩ := forall₂_mem_right hR s' hs'
    exact (hreg.jerk s hs).trans h.jerk
  pause s' hs' p hp := by
    obtain ⟨s, hs, h⟩ := forall₂_mem_right hR s' hs'
    rw [h.pause] at hp
    exact hreg.pause s hs p hp
  stays pre' s' post' he hp := by
    rw [he] at hR
    obtain ⟨pre, s, post, g1, g2, g3⟩ := forall₂_split hR
    rw [g3.pause] at hp
    obtain ⟨A, hA, hpos⟩ := hreg.stays pre s post g1 hp
    obtain ⟨A', hA', h⟩ := forall₂_getLast? g2 A hA
    exact ⟨A', hA', by rw [g3.position, h.position, hpos]⟩
  moved pre' s' post' he hp := by
    rw [he] at hR
    obtain ⟨pre, s, post, g1, g2, g3⟩ := forall₂_split hR
    rw [g3.pause] at hp
    obtain ⟨x, hx, y, hy, hxy⟩ := hreg.moved pre s post g1 hp
    obtain ⟨x', hx', h1⟩ := forall₂_mem_left g2 x hx
    obtain ⟨y', hy', h2⟩ := forall₂_mem_left g2 y hy
    exact ⟨x', hx', y', hy', by rw [h1.position, h2.position]; exact hxy⟩

/-! ## C66 -/

/-- **C66.** On a machine with higher limits the print takes no longer than any motion within the old limits. -/
theorem c66_any_motion {states' : List (PState ℝ)} {bs' : List (Block ℝ)} (hreg : Regular states)
    (hR : List.Forall₂ (Raised fw) states states') {T t' : ℝ}
    (hS : Schedule (junctionVel fw) none 0 states T) (h' : plan fw states' = .ok bs')
    (ht' : EndTime (Spec.path bs') t') : t' ≤ T := by
  have hreg' := hreg.raised hR
  obtain ⟨hF, hO, hE⟩ := plan_opt hreg' h'
  obtain ⟨hg, hc, hf, _⟩ := plan_ok hreg' h'
  have hN := hS.near.raise .none hR fun s hs => ⟨hreg.speed s hs, hreg.acc s hs, hreg.jerk s hs⟩
  have := near_total (ε := 0) le_rfl le_rfl hN ⟨hF, hg, hc, hO, hE⟩ (by simp) hreg'.acc
    (fun b hb => by rw [(hf b hb).2.1]; simp)
  rw [endTime_sum hreg' h' ht'] at this
  simpa using this

/-- The plan as a motion with small jumps of the speed. -/
theorem plan_is_near (hreg : Regular states) {t : ℝ}
    (hfw : fw = .marlinJerk → ∀ x ∈ active none states, ∀ A ∈ x.1, x.2.pause = none →
      (x.2.position.sub A.position).norm3 ≠ 0)
    (h : plan fw states = .ok bs) (ht : EndTime (Spec.path bs) t) :
    Near (junctionVel fw) 1e-12 none 0 states t := by
  have hfeed : ∀ b ∈ bs, ∀ v ∈ b.feed, v = Vec4.zero := by
    by_cases hx : fw = .marlinJerk
    · intro b hb v hv
      rcases (plan_ok hreg h).1 b hb with ⟨A, u, s0, s1, hm⟩ | ⟨A, p, hd⟩
      · have hmem : (b.stateA, b.stateB) ∈ active none states := by
          rw [← (plan_ok hreg h).2.2.2.1]
          exact List.mem_map_of_mem hb
        have := hfw hx _ hmem A hm.hA hm.hpause
        obtain ⟨g1, g2, g3, g4, _⟩ := hm.toHdr.unit
        rw [Block.feed_none hm.hdir] at hv
        · cases hv
        · have hn := g1.norms.1
          cases hy : (moveDistance A b.stateB).2
          · rw [hy] at hn
            simpa using hn
          · exact absurd (g4.1 hy) this
      · obtain ⟨t, ht⟩ := hd.hseg
        unfold Block.feed at hv
        split at hv
        · rw [ht] at hv
          cases hv
          rfl
        · cases hv
    · exact plan_feed hreg hx h
  have hN := plan_near (fw := fw) hreg.jerk (plan_opt hreg h).1 (plan_ok hreg h).1
    (plan_ok hreg h).2.1 hfeed (fun b hb => ((plan_ok hreg h).2.2.1 b hb).2.1)
  rw [endTime_sum hreg h ht] at hN
  exact hN

/-- **C66.** Raising accelerations, jerks and feedrates (for `marlin_jerk` and `MKA`: accelerations and jerks)
does not make the print longer, up to the tolerance of `1e-12` mm/s that the planner leaves at each junction.
With `marlin_jerk` the moves must all travel. -/
theorem c66_raised_limits {states' : List (PState ℝ)} {bs' : List (Block ℝ)} (hreg : Regular states)
    (hR : List.Forall₂ (Raised fw) states states') {t t' : ℝ}
    (hfw : fw = .marlinJerk → ∀ x ∈ active none states, ∀ A ∈ x.1, x.2.pause = none →
      (x.2.position.sub A.position).norm3 ≠ 0)
    (h : plan fw states = .ok bs) (ht : EndTime (Spec.path bs) t)
    (h' : plan fw states' = .ok bs') (ht' : EndTime (Spec.path bs') t') :
    t' ≤ t + 2e-12 * states.length * (states'.map fun s => 1 / s.pAcc).sum := by
  have hreg' := hreg.raised hR
  obtain ⟨hF, hO, hE⟩ := plan_opt hreg' h'
  obtain ⟨hg, hc, hf, _⟩ := plan_ok hreg' h'
  have hN := plan_is_near hreg hfw h ht
  have hN' := hN.raise .none hR fun s hs => ⟨hreg.speed s hs, hreg.acc s hs, hreg.jerk s hs⟩
  have hε : 0 ≤ (states.length : ℝ) * 1e-12 := mul_nonneg (Nat.cast_nonneg _) (by norm_num)
  have := near_total (ε := states.length * 1e-12) (by norm_num) hε hN' ⟨hF, hg, hc, hO, hE⟩
    (by rw [hR.length_eq]) hreg'.acc (fun b hb => by rw [(hf b hb).2.1, zero_add]; exact hε)
  rw [endTime_sum hreg' h' ht'] at this
  have e : (states'.map fun s => 2 * ((states.length : ℝ) * 1e-12) / s.pAcc).sum =
      2e-12 * states.length * (states'.map fun s => 1 / s.pAcc).sum := by
    rw [← List.sum_map_mul_left]
    congr 1
    apply List.map_congr_left
    intro s _
    norm_num
    ring
  rw [e] at this
  exact this

/-- The example program on a machine that is twice as fast in every respect. -/
example : ∃ states' bs bs' t t', List.Forall₂ (Raised .klipper) Demo.prog states' ∧
    plan .klipper Demo.prog = .ok bs ∧ EndTime (Spec.path bs) t ∧
    plan .klipper states' = .ok bs' ∧ EndTime (Spec.path bs') t' ∧
    t' ≤ t + 2e-12 * Demo.prog.length * (states'.map fun s => 1 / s.pAcc).sum ∧ t' ≤ 20 := by
  have hR : List.Forall₂ (Raised .klipper) Demo.prog
      (Demo.prog.map fun s => { s with speed := 2 * s.speed, pAcc := 2 * s.pAcc, jerk := 2 * s.jerk }) := by
    rw [List.forall₂_map_right_iff]
    rw [List.forall₂_same]
    intro s hs
    have h1 := Demo.regular.speed s hs
    have h2 := Demo.regular.acc s hs
    have h3 := Demo.regular.jerk s hs
    exact ⟨rfl, rfl, by simp only; linarith, by simp only; linarith, by simp only; linarith, by simp, by simp⟩
  have hend : ∀ {states}, Regular states → states ≠ [] → (active none states).length = 4 →
      ∃ bs t, plan .klipper states = .ok bs ∧ EndTime (Spec.path bs) t := by
    intro states hreg _ hact
    obtain ⟨_, bs, _, _, h, _⟩ := c26_correction_total .klipper hreg
    obtain ⟨hg, _, _, hm, _⟩ := plan_ok hreg h
    obtain ⟨l, hl⟩ : ∃ l, bs.getLast? = some l := by
      cases hx : bs.getLast? with
      | none =>
        rw [List.getLast?_eq_none_iff] at hx
        rw [← hm, hx] at hact
        cases hact
      | some l => exact ⟨l, rfl⟩
    have hgl := hg l (List.mem_of_getLast? hl)
    obtain ⟨_, _, s', _, _, e3, _⟩ := hgl.facts
    exact ⟨bs, s'.tEnd, h, s', by rw [getLast?_flatMap_segments hl hgl.ne_nil]; exact e3, rfl⟩
  obtain ⟨bs, t, h, ht⟩ := hend Demo.regular (by simp [Demo.prog]) (by rw [Demo.active_prog]; rfl)
  obtain ⟨bs', t', h', ht'⟩ := hend (Demo.regular.raised hR) (by simp [Demo.prog]) (by
    have : ∀ {l l' : List (PState ℝ)} {pa pa' : Option (PState ℝ)}, List.Forall₂ (Raised .klipper) l l' →
        Option.Rel (Raised .klipper) pa pa' → (active pa l).length = (active pa' l').length := by
      intro l l' pa pa' hl
      induction hl generalizing pa pa' with
      | nil => intro _; rfl
      | @cons s s' l l' h1 h2 ih =>
        intro hpa
        by_cases hact : s.pause ≠ none ∨ ∃ A, pa = some A ∧ s.position ≠ A.position
        · rw [active_cons_take _ hact, active_cons_take, List.length_cons, List.length_cons, ih (.some h1)]
          rw [h1.pause, h1.position]
          refine hact.imp id ?_
          rintro ⟨A, rfl, hA⟩
          cases hpa with
          | some h => exact ⟨_, rfl, by rw [h.position]; exact hA⟩
        · push Not at hact
          rw [active_cons_skip _ (fun A hA => hact.2 A hA) hact.1, active_cons_skip, ih (.some h1)]
          · intro A' hA'
            cases hpa with
            | none => cases hA'
            | some h =>
              cases hA'
              rw [h1.position, h.position]
              exact hact.2 _ rfl
          · rw [h1.pause]
            exact hact.1
    rw [← this hR .none, Demo.active_prog]
    rfl)
  exact ⟨_, bs, bs', t, t', hR, h, ht, h', ht', c66_raised_limits Demo.regular hR (by simp) h ht h' ht',
    c66_any_motion Demo.regular hR (Demo.schedule _) h' ht'⟩

end PyGCD
