import Verif.Spec.Scaling
import Verif.Props.Cuts

/-!
# Property C72: the print time is consistent with units
-/

set_option linter.unusedSectionVars false
set_option linter.unusedSimpArgs false

namespace PyGCD
open Vec4 Spec Set

variable {fw : Firmware} {states states' : List (PState ℝ)} {bs bs' : List (Block ℝ)} {k r : ℝ}

/-! ## Junction speeds scale -/

theorem scaled_sub (p q : Vec4 ℝ) (c : ℝ) : (p.mul c).sub (q.mul c) = (p.sub q).mul c := by
  ext <;> simp only [Vec4.sub, Vec4.mul] <;> ring

theorem connectState_scaled (hk : 0 < k) (A B : PState ℝ) :
    connectState (scaled k r A) (scaled k r B) = (connectState A B).mul (k * r) := by
  unfold connectState
  simp only [scaled, scaled_sub, norm3_mul, pyAbs_real, abs_mul, abs_abs, abs_of_pos hk]
  have e : ((B.position.sub A.position).mul k).e = (B.position.sub A.position).e * k := rfl
  rw [e, abs_mul, abs_of_pos hk]
  have hp : ∀ x : ℝ, 0 < |x| * k ↔ 0 < |x| := fun x => by rw [mul_pos_iff_of_pos_right hk]
  simp only [hp]
  have hk' := hk.ne'
  split
  · ext <;> simp only [Vec4.div, Vec4.mul] <;> rw [mul_div_mul_right _ _ hk'] <;> ring
  · split
    · ext <;> simp only [Vec4.div, Vec4.mul] <;> rw [mul_div_mul_right _ _ hk'] <;> ring
    · ext <;> simp [Vec4.zero, Vec4.mul]

theorem targetVel_scaled (hk : 0 < k) (A : Option (PState ℝ)) (B : PState ℝ) :
    targetVel (A.map (scaled k r)) (scaled k r B) = (targetVel A B).mul (k * r) := by
  cases A with
  | none => ext <;> simp [targetVel, Vec4.zero, Vec4.mul]
  | some A => exact connectState_scaled hk A B

theorem nextTarget_scaled (hk : 0 < k) (B : PState ℝ) (rest : List (PState ℝ)) :
    nextTarget (scaled k r B) (rest.map (scaled k r)) = scaled k r (nextTarget B rest) := by
  induction rest with
  | nil => rfl
  | cons n rest ih =>
    rw [List.map_cons, nextTarget, nextTarget, ih]
    have : (0 < (scaled k r B).position.tDistance4 (scaled k r n).position) ↔
        0 < B.position.tDistance4 n.position := by
      simp only [scaled, tDistance4, scaled_sub, norm4_mul, abs_of_pos hk]
      rw [mul_pos_iff_of_pos_right hk]
    rw [List.isEmpty_map]
    simp only [this]
    split <;> rfl

theorem calcJD_scaled (hk : 0 < k) (hr : 0 < r) (v0 v1 : Vec4 ℝ) (B : PState ℝ) (ha : 0 < B.pAcc) :
    calcJD (v0.mul (k * r)) (v1.mul (k * r)) (scaled k r B) = calcJD v0 v1 B * (k * r) := by
  have hc : 0 < k * r := mul_pos hk hr
  unfold calcJD
  have e0 : (scaled k r B).jerk = 0 ↔ B.jerk = 0 := by
    simp [scaled, hk.ne', hr.ne']
  by_cases hj : B.jerk = 0
  · rw [if_pos (e0.2 hj), if_pos hj, MulZeroClass.zero_mul]
  rw [if_neg (mt e0.1 hj), if_neg hj]
  simp only [norm3_mul, abs_of_pos hc]
  have e1 : ∀ v : Vec4 ℝ, v.norm3 * (k * r) = 0 ↔ v.norm3 = 0 := by
    intro v
    simp [hk.ne', hr.ne']
  simp only [e1]
  have e2 : (-(v0.mul (k * r)).x * (v1.mul (k * r)).x + -(v0.mul (k * r)).y * (v1.mul (k * r)).y +
      -(v0.mul (k * r)).z * (v1.mul (k * r)).z) / (v0.norm3 * (k * r) * (v1.norm3 * (k * r))) =
      (-v0.x * v1.x + -v0.y * v1.y + -v0.z * v1.z) / (v0.norm3 * v1.norm3) := by
    rw [show v0.norm3 * (k * r) * (v1.norm3 * (k * r)) = v0.norm3 * v1.norm3 * (k * r) ^ 2 by ring,
      show -(v0.mul (k * r)).x * (v1.mul (k * r)).x + -(v0.mul (k * r)).y * (v1.mul (k * r)).y +
      -(v0.mul (k * r)).z * (v1.mul (k * r)).z = (-v0.x * v1.x + -v0.y * v1.y + -v0.z * v1.z) * (k * r) ^ 2 by
        simp only [Vec4.mul]; ring]
    exact mul_div_mul_right _ _ (pow_ne_zero 2 hc.ne')
  simp only [e2]
  generalize (-v0.x * v1.x + -v0.y * v1.y + -v0.z * v1.z) / (v0.norm3 * v1.norm3) = c
  generalize (if c < 1 then PyMath.sqrt ((1 - c) / 2) else 0 : ℝ) = s
  have e3 : PyMath.sqrt ((scaled k r B).pAcc * (0.4 * (scaled k r B).jerk * (scaled k r B).jerk / (scaled k r B).pAcc *
      s / (1 - s))) = PyMath.sqrt (B.pAcc * (0.4 * B.jerk * B.jerk / B.pAcc * s / (1 - s))) * (k * r) := by
    simp only [scaled, sqrt_real]
    rw [show B.pAcc * (k * r ^ 2) * (0.4 * (B.jerk * (k * r)) * (B.jerk * (k * r)) / (B.pAcc * (k * r ^ 2)) * s / (1 - s)) =
      B.pAcc * (0.4 * B.jerk * B.jerk / B.pAcc * s / (1 - s)) * (k * r) ^ 2 by
        have := ha.ne'
        have := hk.ne'
        have := hr.ne'
        rw [mul_div_assoc _ s, mul_div_assoc _ s]
        generalize s / (1 - s) = q
        field_simp, Real.sqrt_mul' _ (sq_nonneg _), Real.sqrt_sq hc.le]
  have e5 : (scaled k r B).speed = B.speed * (k * r) := rfl
  simp only [e3, e5]
  generalize PyMath.sqrt (B.pAcc * (0.4 * B.jerk * B.jerk / B.pAcc * s / (1 - s))) = w
  have e4 : w * (k * r) < B.speed * (k * r) ↔ w < B.speed := by rw [mul_lt_mul_iff_left₀ hc]
  simp only [e4]
  split
  · rw [MulZeroClass.zero_mul]
  · split
    · split
      · split <;> rfl
      · rw [MulZeroClass.zero_mul]
    · rfl

theorem calcJerk_scaled (hk : 0 < k) (hr : 0 < r) (v0 v1 : Vec4 ℝ) (B : PState ℝ) :
    calcJerk (v0.mul (k * r)) (v1.mul (k * r)) (scaled k r B) = calcJerk v0 v1 B * (k * r) := by
  have hc : 0 < k * r := mul_pos hk hr
  unfold calcJerk
  simp only [scaled_sub, norm3_mul, abs_of_pos hc, norm3_div]
  have e1 : (0 < (scaled k r B).jerk * 2) ↔ 0 < B.jerk * 2 := by
    simp only [scaled]
    rw [mul_pos_iff_of_pos_right two_pos, mul_pos_iff_of_pos_right hc, mul_pos_iff_of_pos_right two_pos]
  have e2 : (v0.sub v1).norm3 * (k * r) / ((scaled k r B).jerk * 2) = (v0.sub v1).norm3 / (B.jerk * 2) := by
    simp only [scaled]
    rw [show B.jerk * (k * r) * 2 = B.jerk * 2 * (k * r) by ring]
    exact mul_div_mul_right _ _ hc.ne'
  simp only [e1, e2]
  have e3 : ∀ a b : ℝ, a * (k * r) * b = a * b * (k * r) := fun a b => by ring
  have e4 : ∀ a b : ℝ, a * (k * r) / b = a / b * (k * r) := fun a b => by ring
  split <;> (split <;> first | rfl | simp only [e3, e4] | ring)

theorem calcKlipper_scaled (hk : 0 < k) (hr : 0 < r) (v0 v1 : Vec4 ℝ) (d : ℝ) (B : PState ℝ) (ha : 0 < B.pAcc)
    (hs : 0 ≤ B.speed) :
    calcKlipper (v0.mul (k * r)) (v1.mul (k * r)) (d * k) (scaled k r B) = calcKlipper v0 v1 d B * (k * r) := by
  have hc : 0 < k * r := mul_pos hk hr
  have e1 : ∀ v : Vec4 ℝ, v.norm3 * (k * r) = 0 ↔ v.norm3 = 0 := by
    intro v
    simp [hk.ne', hr.ne']
  have e2 : ∀ v : Vec4 ℝ, (v.mul (k * r)).div (v.norm3 * (k * r)) = v.div v.norm3 := by
    intro v
    ext <;> simp only [Vec4.div, Vec4.mul] <;> exact mul_div_mul_right _ _ hc.ne'
  unfold calcKlipper
  simp only [norm3_mul, abs_of_pos hc, e1, e2]
  generalize pyMax (_ : ℝ) _ = c
  split
  · rw [MulZeroClass.zero_mul]
  split
  · rw [MulZeroClass.zero_mul]
  simp only [scaled, sqrt_real, pyMin_real]
  generalize √(0.5 * (1 - c)) = s
  generalize s / √(0.5 * (1 + c)) = q
  rw [← Real.sqrt_sq hc.le, ← Real.sqrt_mul' _ (sq_nonneg _), Real.sqrt_sq hc.le, min_mul_of_nonneg _ _ (sq_nonneg _),
    min_mul_of_nonneg _ _ (sq_nonneg _)]
  congr 1
  have := ha.ne'
  have := hk.ne'
  have := hr.ne'
  congr 1
  · congr 1
    · rw [mul_div_assoc _ s, mul_div_assoc _ s]
      generalize s / (1 - s) = p
      field_simp
    · ring
  · ring

theorem mka_scaled {c V j a b d e : ℝ} (hc : 0 < c) :
    mka (V * c) (j * c) (c * a) (c * b) (c * d) (c * e) = mka V j a b d e * c := by
  have h : ∀ f J, cap (j * c) f (c * J) = cap j f J := by
    intro f J
    unfold cap
    have e1 : f * (c * J) ≤ j * c ↔ f * J ≤ j := by
      rw [show f * (c * J) = f * J * c by ring, mul_le_mul_iff_left₀ hc]
    have e2 : j * c / (c * J) = j / J := by rw [mul_comm j c, mul_div_mul_left _ _ hc.ne']
    simp only [e1, e2]
  unfold mka
  simp only [h]
  ring

theorem calcMKA_scaled (hk : 0 < k) (hr : 0 < r) (v0 v1 : Vec4 ℝ) (B : PState ℝ) (hj : 0 ≤ B.jerk) :
    calcMKA (v0.mul (k * r)) (v1.mul (k * r)) (scaled k r B) = calcMKA v0 v1 B * (k * r) := by
  have hc : 0 < k * r := mul_pos hk hr
  rw [calcMKA_eq _ _ _ hj, calcMKA_eq _ _ _ (show 0 ≤ (scaled k r B).jerk from mul_nonneg hj hc.le)]
  simp only [norm3_mul, abs_of_pos hc, ← min_mul_of_nonneg _ _ hc.le]
  have e1 : 0 < min v0.norm3 v1.norm3 * (k * r) ↔ 0 < min v0.norm3 v1.norm3 := mul_pos_iff_of_pos_right hc
  simp only [e1, mul_div_mul_right _ _ hc.ne']
  generalize (if 0 < min v0.norm3 v1.norm3 then min v0.norm3 v1.norm3 / v0.norm3 else 0 : ℝ) = f
  have e2 : ∀ a b : ℝ, axisJump (a * (k * r)) (b * (k * r) * f) = (k * r) * axisJump a (b * f) := by
    intro a b
    rw [← axisJump_mul hc]
    congr 1 <;> ring
  simp only [Vec4.mul, e2, scaled]
  exact mka_scaled hc

theorem junctionVel_scaled (hk : 0 < k) (hr : 0 < r) (A : Option (PState ℝ)) (B : PState ℝ) (rest : List (PState ℝ))
    (hs : 0 ≤ B.speed) (ha : 0 < B.pAcc) (hj : 0 ≤ B.jerk) :
    junctionVel fw (A.map (scaled k r)) (scaled k r B) (rest.map (scaled k r)) = junctionVel fw A B rest * (k * r) := by
  unfold junctionVel
  simp only [velNext, targetVel_scaled hk, nextTarget_scaled hk, connectState_scaled hk]
  cases fw with
  | marlinJd => exact calcJD_scaled hk hr _ _ _ ha
  | klipper =>
    have : ((scaled k r (nextTarget B rest)).position.sub (scaled k r B).position).norm3 =
        ((nextTarget B rest).position.sub B.position).norm3 * k := by
      simp only [scaled, scaled_sub, norm3_mul, abs_of_pos hk]
    simp only [this]
    exact calcKlipper_scaled hk hr _ _ _ _ ha hs
  | marlinJerk => exact calcJerk_scaled hk hr _ _ _
  | mka => exact calcMKA_scaled hk hr _ _ _ hj
  | default => exact (MulZeroClass.zero_mul _).symm

/-! ## Motions scale -/

theorem Spec.Drive.scaled {a vT d v v' T : ℝ} (hk : 0 < k) (hr : 0 < r) (h : Drive a vT d v v' T) :
    Drive (a * (k * r ^ 2)) (vT * (k * r)) (d * k) (v * (k * r)) (v' * (k * r)) (T / r) := by
  obtain ⟨hT, x, w, hx, hL, hb, x0, xT, w0, wT⟩ := h
  have hc : 0 < k * r := mul_pos hk hr
  have hmem : ∀ t ∈ Icc 0 (T / r), r * t ∈ Icc 0 T := by
    intro t ht
    refine ⟨mul_nonneg hr.le ht.1, ?_⟩
    have := (le_div_iff₀ hr).1 ht.2
    linarith
  have hrT : r * (T / r) = T := by field_simp
  refine ⟨div_nonneg hT hr.le, fun t => x (r * t) * k, fun t => w (r * t) * (k * r), ?_, ?_, ?_, by simp [x0],
    by simp only [hrT, xT], by simp [w0], by simp only [hrT, wT]⟩
  · intro t ht
    have g1 : HasDerivWithinAt (fun t : ℝ => r * t) r (Icc 0 (T / r)) t := by
      have := ((hasDerivAt_id t).const_mul r).hasDerivWithinAt (s := Icc 0 (T / r))
      rwa [_root_.mul_one] at this
    have g2 := ((hx (r * t) (hmem t ht)).comp t g1 hmem).mul_const k
    have e : w (r * t) * r * k = w (r * t) * (k * r) := by ring
    rw [e] at g2
    exact g2
  · intro s hs t ht
    have := mul_le_mul_of_nonneg_right (hL _ (hmem s hs) _ (hmem t ht)) hc.le
    rw [← mul_sub, abs_mul, abs_of_pos hr] at this
    rw [← sub_mul, abs_mul, abs_of_pos hc]
    calc |w (r * t) - w (r * s)| * (k * r) ≤ a * (r * |t - s|) * (k * r) := this
      _ = a * (k * r ^ 2) * |t - s| := by ring
  · intro t ht
    have := hb _ (hmem t ht)
    exact ⟨mul_nonneg this.1 hc.le, mul_le_mul_of_nonneg_right this.2 hc.le⟩

theorem Near.scaled (hk : 0 < k) (hr : 0 < r) {δ : ℝ} {pa : Option (PState ℝ)} {v T : ℝ}
    (h : Near (junctionVel fw) δ pa v states T) (hreg : ∀ s ∈ states, 0 < s.speed ∧ 0 < s.pAcc ∧ 0 ≤ s.jerk) :
    Near (junctionVel fw) (δ * (k * r)) (pa.map (Spec.scaled k r)) (v * (k * r)) (states.map (Spec.scaled k r)) (T / r) := by
  have hc : 0 < k * r := mul_pos hk hr
  have hdist : ∀ A B : PState ℝ, ((Spec.scaled k r B).position.sub (Spec.scaled k r A).position).norm3 =
      (B.position.sub A.position).norm3 * k := by
    intro A B
    simp only [Spec.scaled, scaled_sub, norm3_mul, abs_of_pos hk]
  induction h with
  | done => simpa using .done _ _
  | idle hp hpos _ ih =>
    refine .idle (by simp [Spec.scaled, hp]) ?_ (ih fun s hs => hreg s (by simp [hs]))
    intro A hA
    obtain ⟨A, hA', rfl⟩ := Option.mem_map.1 hA
    simp only [Spec.scaled, hpos A hA']
  | @pause pa p t T v B rest hp ht _ hv ih =>
    rw [add_div, MulZeroClass.zero_mul]
    exact .pause (p := p / r) (by simp [Spec.scaled, hp]) (div_le_div_of_nonneg_right ht hr.le)
      (ih fun s hs => hreg s (by simp [hs])) (mul_nonpos_of_nonpos_of_nonneg hv hc.le)
  | @travel A B v v' v'' t T rest hp hne hd hlim h1 h2 _ ih =>
    obtain ⟨r1, r2, r3⟩ := hreg B (by simp)
    rw [add_div]
    refine .travel (v' := v' * (k * r)) (by simp [Spec.scaled, hp]) ?_ ?_ ?_
      (mul_le_mul_of_nonneg_right h1 hc.le) ?_ (ih fun s hs => hreg s (by simp [hs]))
    · rw [hdist]
      exact mul_ne_zero hne hk.ne'
    · rw [hdist]
      exact hd.scaled hk hr
    · have := junctionVel_scaled (fw := fw) hk hr (some A) B rest r1.le r2 r3
      rw [Option.map_some] at this
      rw [this]
      exact mul_le_mul_of_nonneg_right hlim hc.le
    · have := mul_le_mul_of_nonneg_right h2 hc.le
      linarith
  | @filament A B t T v rest hp h0 hne hd _ hv ih =>
    rw [add_div, MulZeroClass.zero_mul]
    refine .filament (by simp [Spec.scaled, hp]) (by rw [hdist, h0, MulZeroClass.zero_mul]) ?_ ?_
      (ih fun s hs => hreg s (by simp [hs])) (mul_nonpos_of_nonpos_of_nonneg hv hc.le)
    · simp only [Spec.scaled, Vec4.mul]
      intro he
      exact hne (mul_right_cancel₀ hk.ne' he)
    · have := hd.scaled hk hr
      rw [MulZeroClass.zero_mul] at this
      have e : |(Spec.scaled k r B).position.e - (Spec.scaled k r A).position.e| = |B.position.e - A.position.e| * k := by
        simp only [Spec.scaled, Vec4.mul]
        rw [← sub_mul, abs_mul, abs_of_pos hk]
      rw [e]
      exact this

/-! ## Scaled programs -/

theorem scaled_scaled (hk : 0 < k) (hr : 0 < r) (s : PState ℝ) : scaled k⁻¹ r⁻¹ (scaled k r s) = s := by
  have hk' := hk.ne'
  have hr' := hr.ne'
  obtain ⟨⟨x, y, z, e⟩, v, a, j, p, l⟩ := s
  unfold scaled Vec4.mul
  have hp : (p.map (· / r)).map (· / r⁻¹) = p := by
    cases p with
    | none => rfl
    | some p =>
      simp only [Option.map_some]
      congr 1
      field_simp
  simp only [hp, PState.mk.injEq, Vec4.mk.injEq]
  refine ⟨⟨?_, ?_, ?_, ?_⟩, ?_, ?_, ?_, trivial, trivial⟩ <;> field_simp

theorem map_scaled_scaled (hk : 0 < k) (hr : 0 < r) (l : List (PState ℝ)) :
    (l.map (scaled k r)).map (scaled k⁻¹ r⁻¹) = l := by
  rw [List.map_map]
  have : scaled k⁻¹ r⁻¹ ∘ scaled k r = id := by
    funext s
    exact scaled_scaled hk hr s
  rw [this, List.map_id]

theorem mul_inj_pos (hk : 0 < k) {p q : Vec4 ℝ} : p.mul k = q.mul k ↔ p = q := by
  constructor
  · intro h
    have h' := hk.ne'
    have hx := congrArg Vec4.x h
    have hy := congrArg Vec4.y h
    have hz := congrArg Vec4.z h
    have he := congrArg Vec4.e h
    ext
    · exact mul_right_cancel₀ h' hx
    · exact mul_right_cancel₀ h' hy
    · exact mul_right_cancel₀ h' hz
    · exact mul_right_cancel₀ h' he
  · rintro rfl
    rfl

theorem Spec.Regular.scaled (hreg : Regular states) (hk : 0 < k) (hr : 0 < r) : Regular (states.map (Spec.scaled k r)) where
  speed s hs := by
    obtain ⟨s, hs', rfl⟩ := List.mem_map.1 hs
    exact mul_pos (hreg.speed s hs') (mul_pos hk hr)
  acc s hs := by
    obtain ⟨s, hs', rfl⟩ := List.mem_map.1 hs
    exact mul_pos (hreg.acc s hs') (mul_pos hk (pow_pos hr 2))
  jerk s hs := by
    obtain ⟨s, hs', rfl⟩ := List.mem_map.1 hs
    exact mul_nonneg (hreg.jerk s hs') (mul_pos hk hr).le
  pause s hs p hp := by
    obtain ⟨s, hs', rfl⟩ := List.mem_map.1 hs
    obtain ⟨q, hq, rfl⟩ := Option.mem_map.1 hp
    exact div_nonneg (hreg.pause s hs' q hq) hr.le
  stays pre s post he hp := by
    obtain ⟨p, q, rfl, rfl, e2⟩ := List.map_eq_append_iff.1 he
    obtain ⟨s, q, rfl, rfl, rfl⟩ := List.map_eq_cons_iff.1 e2
    obtain ⟨A, hA, hpos⟩ := hreg.stays p s q rfl (by
      intro hx
      apply hp
      simp [Spec.scaled, hx])
    exact ⟨Spec.scaled k r A, by rw [List.getLast?_map, hA]; rfl, by simp only [Spec.scaled, hpos]⟩
  moved pre s post he hp := by
    obtain ⟨p, q, rfl, rfl, e2⟩ := List.map_eq_append_iff.1 he
    obtain ⟨s, q, rfl, rfl, rfl⟩ := List.map_eq_cons_iff.1 e2
    obtain ⟨x, hx, y, hy, hxy⟩ := hreg.moved p s q rfl (by
      intro hx
      apply hp
      simp [Spec.scaled, hx])
    exact ⟨_, List.mem_map_of_mem hx, _, List.mem_map_of_mem hy, fun e => hxy ((mul_inj_pos hk).1 e)⟩

theorem active_scaled (hk : 0 < k) (l : List (PState ℝ)) (pa : Option (PState ℝ)) :
    active (pa.map (scaled k r)) (l.map (scaled k r)) = (active pa l).map fun x => (x.1.map (scaled k r), scaled k r x.2) := by
  induction l generalizing pa with
  | nil => rfl
  | cons s l ih =>
    rw [List.map_cons]
    have hs : (scaled k r s).pause ≠ none ↔ s.pause ≠ none := by simp [scaled]
    by_cases hact : s.pause ≠ none ∨ ∃ A, pa = some A ∧ s.position ≠ A.position
    · rw [active_cons_take _ hact, active_cons_take, List.map_cons, ← ih (some s), Option.map_some]
      refine hact.imp hs.2 ?_
      rintro ⟨A, rfl, hA⟩
      exact ⟨scaled k r A, rfl, fun e => hA ((mul_inj_pos hk).1 e)⟩
    · push Not at hact
      rw [active_cons_skip _ (fun A hA => hact.2 A hA) hact.1, active_cons_skip, ← ih (some s), Option.map_some]
      · intro A hA
        obtain ⟨A, hA', rfl⟩ := Option.mem_map.1 hA
        exact (mul_inj_pos hk).2 (hact.2 A hA')
      · simp [scaled, hact.1]

theorem Spec.Travels.scaled (h : Travels states) (hk : 0 < k) : Travels (states.map (Spec.scaled k r)) := by
  intro x hx A hA hp
  have := active_scaled (r := r) hk states none
  rw [Option.map_none] at this
  rw [this] at hx
  obtain ⟨y, hy, rfl⟩ := List.mem_map.1 hx
  obtain ⟨A, hA', rfl⟩ := Option.mem_map.1 hA
  have h1 := h y hy A hA' (by simpa [Spec.scaled] using hp)
  simp only [Spec.scaled, scaled_sub, norm3_mul]
  exact mul_ne_zero h1 (abs_pos.2 hk.ne').ne'

/-! ## C72 -/

theorem scaled_le (hreg : Regular states) (hk : 0 < k) (hr : 0 < r) (hfw : fw = .marlinJerk → Travels states) {t t' : ℝ}
    (h : plan fw states = .ok bs) (ht : EndTime (Spec.path bs) t)
    (h' : plan fw (states.map (scaled k r)) = .ok bs') (ht' : EndTime (Spec.path bs') t') :
    t' ≤ t / r + 2e-12 * (k * r) * states.length * ((states.map (scaled k r)).map fun s => 1 / s.pAcc).sum := by
  have hreg' := hreg.scaled hk hr
  have hc : 0 < k * r := mul_pos hk hr
  have hN := (plan_is_near hreg hfw h ht).scaled hk hr fun s hs => ⟨hreg.speed s hs, hreg.acc s hs, hreg.jerk s hs⟩
  rw [Option.map_none, MulZeroClass.zero_mul] at hN
  obtain ⟨hF, hO, hE⟩ := plan_opt hreg' h'
  obtain ⟨hg, hch, hf, _⟩ := plan_ok hreg' h'
  have hε : 0 ≤ (states.length : ℝ) * (1e-12 * (k * r)) :=
    mul_nonneg (Nat.cast_nonneg _) (mul_nonneg (by norm_num) hc.le)
  have := near_total (ε := states.length * (1e-12 * (k * r))) (mul_nonneg (by norm_num) hc.le) hε hN
    ⟨hF, hg, hch, hO, hE⟩ (by rw [List.length_map]) hreg'.acc
    (fun b hb => by rw [(hf b hb).2.1, zero_add]; exact hε)
  rw [endTime_sum hreg' h' ht', sum_inv_eq] at this
  linarith

/-- **C72.** If all lengths are multiplied by `k` and everything happens `r` times as fast (so speeds and jerks
by `k r`, accelerations by `k r²`, pauses by `1 / r`), the print takes `1 / r` of the time, up to the planner's
tolerance of `1e-12` mm/s per junction. With `marlin_jerk` the moves must all travel. -/
theorem c72_scaled (hreg : Regular states) (hk : 0 < k) (hr : 0 < r) (hfw : fw = .marlinJerk → Travels states) {t t' : ℝ}
    (h : plan fw states = .ok bs) (ht : EndTime (Spec.path bs) t)
    (h' : plan fw (states.map (scaled k r)) = .ok bs') (ht' : EndTime (Spec.path bs') t') :
    |t' - t / r| ≤
      2e-12 * max 1 (k * r) * states.length * ((states.map (scaled k r)).map fun s => 1 / s.pAcc).sum := by
  have hreg' := hreg.scaled hk hr
  have hc : 0 < k * r := mul_pos hk hr
  have h1 := scaled_le hreg hk hr hfw h ht h' ht'
  have h2 := scaled_le (k := k⁻¹) (r := r⁻¹) hreg' (inv_pos.2 hk) (inv_pos.2 hr) (fun hx => (hfw hx).scaled hk) h' ht'
    (by rw [map_scaled_scaled hk hr]; exact h) ht
  rw [map_scaled_scaled hk hr, List.length_map] at h2
  have hS : ((states.map (scaled k r)).map fun s => 1 / s.pAcc).sum =
      (states.map fun s => 1 / s.pAcc).sum / (k * r ^ 2) := by
    rw [List.map_map, div_eq_mul_inv, ← List.sum_map_mul_right]
    congr 1
    apply List.map_congr_left
    intro s _
    simp only [Function.comp, scaled]
    rw [one_div, mul_inv, one_div]
  have h0 := sum_inv_nonneg hreg'.acc
  have hn : (0 : ℝ) ≤ states.length := Nat.cast_nonneg _
  have h3 : t / r ≤ t' + 2e-12 * states.length * ((states.map (scaled k r)).map fun s => 1 / s.pAcc).sum := by
    have := div_le_div_of_nonneg_right h2 hr.le
    rw [add_div, div_inv_eq_mul, mul_div_cancel_right₀ _ hr.ne'] at this
    rw [hS]
    refine this.trans (le_of_eq ?_)
    have := hk.ne'
    have := hr.ne'
    field_simp
  generalize ((states.map (scaled k r)).map fun s => 1 / s.pAcc).sum = S at *
  have hnS : 0 ≤ (states.length : ℝ) * S := mul_nonneg hn h0
  have m1 := mul_le_mul_of_nonneg_right (le_max_left 1 (k * r)) hnS
  have m2 := mul_le_mul_of_nonneg_right (le_max_right 1 (k * r)) hnS
  rw [abs_le]
  constructor <;> linarith

/-- The example program in inches instead of millimetres: the same time. -/
example (hfw : fw ≠ .marlinJerk) : ∃ bs bs' t t', plan fw Demo.prog = .ok bs ∧ EndTime (Spec.path bs) t ∧
    plan fw (Demo.prog.map (scaled (1 / 25.4) 1)) = .ok bs' ∧ EndTime (Spec.path bs') t' ∧ |t' - t| ≤ 1e-10 := by
  have hreg := Demo.regular.scaled (k := 1 / 25.4) (r := 1) (by norm_num) (by norm_num)
  obtain ⟨bs, t, h, ht⟩ := exists_endTime fw Demo.regular (by rw [Demo.active_prog]; simp)
  obtain ⟨bs', t', h', ht'⟩ := exists_endTime fw hreg (by
    have := active_scaled (k := 1 / 25.4) (r := 1) (by norm_num) Demo.prog none
    rw [Option.map_none] at this
    rw [this, Demo.active_prog]
    simp)
  refine ⟨bs, bs', t, t', h, ht, h', ht', ?_⟩
  have := c72_scaled (k := 1 / 25.4) (r := 1) Demo.regular (by norm_num) (by norm_num) (fun hx => absurd hx hfw)
    h ht h' ht'
  rw [div_one] at this
  refine this.trans ?_
  norm_num [Demo.prog, Demo.s0, Demo.s1, Demo.s2, Demo.s3, Demo.s4, scaled]

end PyGCD
