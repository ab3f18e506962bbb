import Verif.Spec.Corners
import Verif.Proofs.PlanLemmas

/-!
# C58 to C61: how fast each firmware takes a corner
-/

set_option linter.unusedSectionVars false
set_option linter.unusedSimpArgs false

namespace PyGCD
open Vec4 Spec

theorem dot3_le (a b : Vec4 ℝ) : |dot3 a b| ≤ a.norm3 * b.norm3 := by
  have h := mul_nonneg (norm3_nonneg a) (norm3_nonneg b)
  refine abs_le_of_sq_le_sq ?_ h
  rw [mul_pow, norm3_sq, norm3_sq, dot3]
  nlinarith [sq_nonneg (a.x * b.y - a.y * b.x), sq_nonneg (a.x * b.z - a.z * b.x),
    sq_nonneg (a.y * b.z - a.z * b.y)]

theorem cos_turn (A B C : Vec4 ℝ) : Real.cos (turn A B C) =
    dot3 (B.sub A) (C.sub B) / ((B.sub A).norm3 * (C.sub B).norm3) := by
  have h := dot3_le (B.sub A) (C.sub B)
  have h0 := mul_nonneg (norm3_nonneg (B.sub A)) (norm3_nonneg (C.sub B))
  have h1 : |dot3 (B.sub A) (C.sub B) / ((B.sub A).norm3 * (C.sub B).norm3)| ≤ 1 := by
    rw [abs_div, abs_of_nonneg h0]
    exact div_le_one_of_le₀ h h0
  rw [abs_le] at h1
  exact Real.cos_arccos h1.1 h1.2

theorem turn_mem (A B C : Vec4 ℝ) : 0 ≤ turn A B C ∧ turn A B C ≤ Real.pi :=
  ⟨Real.arccos_nonneg _, Real.arccos_le_pi _⟩

theorem connectState_travel {A B : PState ℝ} (h : (B.position.sub A.position).norm3 ≠ 0) :
    connectState A B = (B.position.sub A.position).mul (B.speed / (B.position.sub A.position).norm3) := by
  unfold connectState
  simp only [pyAbs_real]
  rw [if_pos (abs_pos.2 h)]
  ext <;> simp only [Vec4.div, Vec4.mul] <;> ring

theorem dot3_mul (a b : Vec4 ℝ) (s t : ℝ) : dot3 (a.mul s) (b.mul t) = s * t * dot3 a b := by
  simp only [dot3, Vec4.mul]
  ring

/-- Scalar product and norms of the two velocities at a corner. -/
theorem corner_velocities {A B C : PState ℝ} (h0 : (B.position.sub A.position).norm3 ≠ 0)
    (h1 : (C.position.sub B.position).norm3 ≠ 0) (hB : 0 < B.speed) (hC : 0 < C.speed) :
    (connectState A B).norm3 = B.speed ∧ (connectState B C).norm3 = C.speed ∧
      dot3 (connectState A B) (connectState B C) =
        B.speed * C.speed * Real.cos (turn A.position B.position C.position) := by
  refine ⟨by rw [connectState_norm3 A B hB.le, if_neg h0], by rw [connectState_norm3 B C hC.le, if_neg h1], ?_⟩
  rw [connectState_travel h0, connectState_travel h1, dot3_mul, cos_turn]
  field_simp

theorem nextTarget_of_nextMove {B C : PState ℝ} {rest : List (PState ℝ)} (h : NextMove B rest C) :
    nextTarget B rest = C := by
  obtain ⟨pre, post, rfl, hpre, hC⟩ := h
  induction pre with
  | nil =>
    show nextTarget B (C :: post) = C
    unfold nextTarget
    rw [if_pos]
    right
    refine lt_of_le_of_ne (norm4_nonneg _) (Ne.symm ?_)
    intro h0
    exact hC (Vec4.sub_eq_zero.1 (norm4_eq_zero.1 h0)).symm
  | cons s pre ih =>
    show nextTarget B (s :: (pre ++ C :: post)) = C
    unfold nextTarget
    rw [if_neg, ih fun x hx => hpre x (by simp [hx])]
    rintro (h | h)
    · simp at h
    · rw [hpre s (by simp)] at h
      unfold tDistance4 at h
      rw [Vec4.sub_self, norm4_zero] at h
      exact lt_irrefl _ h

theorem velNext_of_nextMove {B C : PState ℝ} {rest : List (PState ℝ)} (h : NextMove B rest C) :
    velNext B rest = connectState B C := by
  unfold velNext
  rw [nextTarget_of_nextMove h]

variable {A B C : PState ℝ} {rest : List (PState ℝ)}

/-! ## C58: Marlin with junction deviation -/

theorem cos_half_turn {φ : ℝ} (h0 : 0 ≤ φ) (h1 : φ ≤ Real.pi) :
    Real.cos (φ / 2) = √((1 + Real.cos φ) / 2) :=
  Real.cos_half (by linarith [Real.pi_pos]) h1

/-- **C58.** The corner speed of `marlin_jd` depends on the turning angle by the law of junction deviation. -/
theorem c58_marlin_jd (hnext : NextMove B rest C) (h0 : (B.position.sub A.position).norm3 ≠ 0)
    (h1 : (C.position.sub B.position).norm3 ≠ 0) (hB : 0 < B.speed) (hC : 0 < C.speed) (hacc : 0 < B.pAcc)
    (hj : 0 ≤ B.jerk) :
    junctionVel .marlinJd (some A) B rest =
      marlinJd B.speed B.jerk (turn A.position B.position C.position) := by
  obtain ⟨n0, n1, hdot⟩ := corner_velocities h0 h1 hB hC
  obtain ⟨t0, t1⟩ := turn_mem A.position B.position C.position
  unfold junctionVel
  simp only [targetVel, velNext_of_nextMove hnext]
  unfold calcJD marlinJd
  simp only [sqrt_real, sin_real, pi_real, n0, n1]
  by_cases hz : B.jerk = 0
  · rw [if_pos hz, if_pos (Or.inl hz)]
  rw [if_neg hz, if_neg (by rintro (h | h) <;> linarith)]
  generalize hφ : turn A.position B.position C.position = φ at hdot t0 t1
  have hc : (-(connectState A B).x * (connectState B C).x + -(connectState A B).y * (connectState B C).y +
      -(connectState A B).z * (connectState B C).z) / (B.speed * C.speed) = -Real.cos φ := by
    rw [show -(connectState A B).x * (connectState B C).x + -(connectState A B).y * (connectState B C).y +
      -(connectState A B).z * (connectState B C).z = -dot3 (connectState A B) (connectState B C) by
        unfold dot3; ring, hdot]
    field_simp
  rw [hc]
  have hs : (if -Real.cos φ < 1 then √((1 - -Real.cos φ) / 2) else 0) = Real.cos (φ / 2) := by
    rw [cos_half_turn t0 t1, sub_neg_eq_add]
    split
    · rfl
    · rename_i h
      have : Real.cos φ = -1 := le_antisymm (by linarith) (Real.neg_one_le_cos φ)
      rw [this]
      norm_num
  rw [hs]
  have hpi := Real.pi_pos
  have e1 : Real.sin ((180 - 18) * Real.pi / (2 * 180)) = Real.cos (Real.pi / 20) := by
    rw [← Real.sin_pi_div_two_sub]
    congr 1
    ring
  have e2 : Real.sin (18 * Real.pi / (2 * 180)) = Real.cos (9 * Real.pi / 20) := by
    rw [← Real.sin_pi_div_two_sub]
    congr 1
    ring
  rw [e1, e2]
  have c1 : Real.cos (φ / 2) < Real.cos (Real.pi / 20) ↔ Real.pi / 10 < φ := by
    rw [Real.strictAntiOn_cos.lt_iff_gt ⟨by linarith, by linarith⟩ ⟨by linarith, by linarith⟩]
    constructor <;> intro h <;> linarith
  have c2 : Real.cos (9 * Real.pi / 20) < Real.cos (φ / 2) ↔ φ < 9 * Real.pi / 10 := by
    rw [Real.strictAntiOn_cos.lt_iff_gt ⟨by linarith, by linarith⟩ ⟨by linarith, by linarith⟩]
    constructor <;> intro h <;> linarith
  simp only [c1, c2]
  by_cases g1 : 9 * Real.pi / 10 ≤ φ
  · rw [if_pos (by linarith), if_neg (not_lt.2 g1), if_pos (Or.inr g1)]
  rw [if_neg (show ¬ (B.jerk = 0 ∨ 9 * Real.pi / 10 ≤ φ) from fun h => h.elim hz g1)]
  by_cases g2 : φ ≤ Real.pi / 10
  · rw [if_neg (not_lt.2 g2), if_pos g2]
  rw [if_pos (not_le.1 g2), if_pos (not_le.1 g1), if_neg g2]
  have hv : √(B.pAcc * (0.4 * B.jerk * B.jerk / B.pAcc * Real.cos (φ / 2) / (1 - Real.cos (φ / 2)))) =
      B.jerk * √(0.4 * Real.cos (φ / 2) / (1 - Real.cos (φ / 2))) := by
    rw [show B.pAcc * (0.4 * B.jerk * B.jerk / B.pAcc * Real.cos (φ / 2) / (1 - Real.cos (φ / 2))) =
      B.jerk ^ 2 * (0.4 * Real.cos (φ / 2) / (1 - Real.cos (φ / 2))) by
        field_simp, Real.sqrt_mul (sq_nonneg _), Real.sqrt_sq hj]
  rw [hv]
  split
  · rw [min_eq_right (le_of_lt (by assumption))]
  · rw [min_eq_left (by linarith)]

/-! ## C59: Klipper -/

theorem klipperLeast_mem : 0 < klipperLeast ∧ klipperLeast < Real.pi / 2 := by
  unfold klipperLeast
  constructor
  · exact Real.arccos_pos.2 (by norm_num)
  · rw [Real.arccos_lt_pi_div_two]
    norm_num

theorem cos_klipperLeast : Real.cos klipperLeast = 0.999999 :=
  Real.cos_arccos (by norm_num) (by norm_num)

/-- **C59.** The corner speed of `klipper`: no faster than the feedrate, the circle through the corner that
gives speed `jerk` at a right angle, and the circle that touches the next move in its middle. -/
theorem c59_klipper (hnext : NextMove B rest C) (h0 : (B.position.sub A.position).norm3 ≠ 0)
    (h1 : (C.position.sub B.position).norm3 ≠ 0) (hB : 0 < B.speed) (hC : 0 < C.speed) (hacc : 0 < B.pAcc)
    (hj : 0 ≤ B.jerk) :
    junctionVel .klipper (some A) B rest =
      klipper B.speed B.pAcc B.jerk (C.position.sub B.position).norm3
        (turn A.position B.position C.position) := by
  obtain ⟨n0, n1, hdot⟩ := corner_velocities h0 h1 hB hC
  obtain ⟨t0, t1⟩ := turn_mem A.position B.position C.position
  obtain ⟨k0, k1⟩ := klipperLeast_mem
  have hpi := Real.pi_pos
  unfold junctionVel
  simp only [targetVel, velNext_of_nextMove hnext, nextTarget_of_nextMove hnext]
  unfold calcKlipper klipper
  simp only [sqrt_real, n0, n1, pyMax_real, pyMin_real]
  rw [if_neg (by rintro (h | h) <;> linarith)]
  generalize hφ : turn A.position B.position C.position = φ at hdot t0 t1
  have hc : -(((connectState A B).div B.speed).x * ((connectState B C).div C.speed).x +
      ((connectState A B).div B.speed).y * ((connectState B C).div C.speed).y +
      ((connectState A B).div B.speed).z * ((connectState B C).div C.speed).z) = -Real.cos φ := by
    rw [show ((connectState A B).div B.speed).x * ((connectState B C).div C.speed).x +
      ((connectState A B).div B.speed).y * ((connectState B C).div C.speed).y +
      ((connectState A B).div B.speed).z * ((connectState B C).div C.speed).z =
      dot3 (connectState A B) (connectState B C) / (B.speed * C.speed) by
        unfold dot3 Vec4.div; field_simp, hdot]
    field_simp
  rw [hc]
  generalize hψ : max φ klipperLeast = ψ
  have hψ0 : 0 < ψ := by rw [← hψ]; exact lt_of_lt_of_le k0 (le_max_right _ _)
  have hψ1 : ψ ≤ Real.pi := by rw [← hψ]; exact max_le t1 (by linarith)
  have hmax : max (-Real.cos φ) (-0.999999) = -Real.cos ψ := by
    rw [← hψ, ← cos_klipperLeast]
    rcases le_total φ klipperLeast with h | h
    · rw [max_eq_right h, max_eq_right]
      exact neg_le_neg (Real.cos_le_cos_of_nonneg_of_le_pi t0 (by linarith) h)
    · rw [max_eq_left h, max_eq_left]
      exact neg_le_neg (Real.cos_le_cos_of_nonneg_of_le_pi k0.le t1 h)
  rw [hmax]
  have hcond : (0.999999 < -Real.cos ψ) ↔ Real.pi - klipperLeast < φ := by
    have e : (0.999999 : ℝ) < -Real.cos ψ ↔ Real.cos ψ < Real.cos (Real.pi - klipperLeast) := by
      rw [Real.cos_pi_sub, cos_klipperLeast]
      constructor <;> intro h <;> linarith
    rw [e, Real.strictAntiOn_cos.lt_iff_gt ⟨hψ0.le, hψ1⟩ ⟨by linarith, by linarith⟩, ← hψ]
    constructor
    · intro h
      rcases lt_max_iff.1 h with h | h
      · exact h
      · linarith
    · intro h
      exact lt_max_of_lt_left h
  simp only [hcond]
  by_cases hbig : Real.pi - klipperLeast < φ
  · rw [if_pos hbig, if_pos hbig]
  rw [if_neg hbig, if_neg hbig]
  have hφψ : ψ ≤ Real.pi - klipperLeast := by
    rw [← hψ]
    exact max_le (not_lt.1 hbig) (by linarith)
  have hs : √(0.5 * (1 - -Real.cos ψ)) = Real.cos (ψ / 2) := by
    rw [cos_half_turn hψ0.le hψ1]
    congr 1
    ring
  have hs2 : √(0.5 * (1 + -Real.cos ψ)) = Real.sin (ψ / 2) := by
    have hn : 0 ≤ Real.sin (ψ / 2) := Real.sin_nonneg_of_nonneg_of_le_pi (by linarith) (by linarith)
    rw [← Real.sqrt_sq hn, Real.sin_sq_eq_half_sub]
    congr 1
    rw [show 2 * (ψ / 2) = ψ by ring]
    ring
  rw [hs, hs2]
  have hcpos : 0 < Real.cos (ψ / 2) := Real.cos_pos_of_mem_Ioo ⟨by linarith, by linarith⟩
  have hspos : 0 < Real.sin (ψ / 2) := Real.sin_pos_of_pos_of_lt_pi (by linarith) (by linarith)
  have hc1 : 0 < 1 - Real.cos (ψ / 2) := by
    have : Real.cos (ψ / 2) < Real.cos 0 :=
      Real.strictAntiOn_cos ⟨le_refl _, hpi.le⟩ ⟨by linarith, by linarith⟩ (by linarith)
    rw [Real.cos_zero] at this
    linarith
  have hsqrt2 : 0 < √2 - 1 := by
    have : (1 : ℝ) < √2 := by
      rw [Real.lt_sqrt (by norm_num)]
      norm_num
    linarith
  have e1 : B.pAcc * (B.jerk * B.jerk * (√2 - 1) / B.pAcc * Real.cos (ψ / 2) / (1 - Real.cos (ψ / 2))) =
      B.jerk ^ 2 * ((√2 - 1) * Real.cos (ψ / 2) / (1 - Real.cos (ψ / 2))) := by
    field_simp
  have e2 : 0.5 * (C.position.sub B.position).norm3 * (Real.cos (ψ / 2) / Real.sin (ψ / 2)) * B.pAcc =
      B.pAcc * (C.position.sub B.position).norm3 / (2 * Real.tan (ψ / 2)) := by
    rw [Real.tan_eq_sin_div_cos]
    field_simp
    norm_num
  rw [e1, e2]
  have m : Monotone Real.sqrt := Real.sqrt_monotone
  rw [m.map_min, m.map_min, Real.sqrt_mul (sq_nonneg _), Real.sqrt_sq hj, Real.sqrt_mul_self hB.le,
    min_comm]

/-- **C59.** At a right angle the corner speed of `klipper` is the jerk setting (the square corner velocity),
unless the feedrate or a short next move asks for less. -/
theorem c59_right_angle (speed acc jerk next : ℝ) :
    klipper speed acc jerk next (Real.pi / 2) = min speed (min jerk (√(acc * next / 2))) := by
  obtain ⟨k0, k1⟩ := klipperLeast_mem
  unfold klipper
  rw [if_neg (by linarith), max_eq_left k1.le, show Real.pi / 2 / 2 = Real.pi / 4 by ring, Real.cos_pi_div_four,
    Real.tan_pi_div_four, mul_one]
  congr 2
  have h2 : (√2 : ℝ) ^ 2 = 2 := Real.sq_sqrt (by norm_num)
  have h3 : (1 : ℝ) < √2 := by
    rw [Real.lt_sqrt (by norm_num)]
    norm_num
  have h4 : √2 < (2 : ℝ) := by nlinarith
  have h5 : (√2 - 1) * (√2 / 2) / (1 - √2 / 2) = 1 := by
    rw [div_eq_one_iff_eq (by linarith)]
    nlinarith
  rw [h5, Real.sqrt_one, mul_one]

/-! ## C60: Marlin with classic jerk -/

theorem norm3_sub (a b : Vec4 ℝ) : (a.sub b).norm3 = √(a.norm3 ^ 2 + b.norm3 ^ 2 - 2 * dot3 a b) := by
  rw [norm3_sq, norm3_sq]
  unfold norm3 dot3
  rw [sqrt_real]
  congr 1
  simp only [Vec4.sub]
  ring

/-- **C60.** The corner speed of `marlin_jerk`. -/
theorem c60_marlin_jerk (hnext : NextMove B rest C) (h0 : (B.position.sub A.position).norm3 ≠ 0)
    (h1 : (C.position.sub B.position).norm3 ≠ 0) (hB : 0 < B.speed) (hC : 0 < C.speed) :
    junctionVel .marlinJerk (some A) B rest =
      marlinJerk B.speed C.speed B.jerk (turn A.position B.position C.position) := by
  obtain ⟨n0, n1, hdot⟩ := corner_velocities h0 h1 hB hC
  unfold junctionVel
  simp only [targetVel, velNext_of_nextMove hnext]
  unfold calcJerk marlinJerk
  have hjump : ((connectState A B).sub (connectState B C)).norm3 =
      jump B.speed C.speed (turn A.position B.position C.position) := by
    rw [norm3_sub, n0, n1, hdot]
    unfold jump
    congr 1
    ring
  simp only [hjump, n0]
  generalize jump B.speed C.speed _ = j
  by_cases hj : 0 < B.jerk
  · rw [if_pos (show (0 : ℝ) < B.jerk * 2 by linarith)]
    by_cases h2 : 2 * B.jerk ≤ j
    · have hjp : 0 < j := by linarith
      rw [if_pos ((one_le_div (by linarith)).2 (by linarith)), if_pos ⟨hj, h2⟩, norm3_div, n0,
        abs_of_pos (by positivity)]
      field_simp
    · rw [if_neg, if_neg (fun h => h2 h.2)]
      rw [not_le, div_lt_one (by linarith)]
      linarith [not_le.1 h2]
  · rw [if_neg (show ¬ (0 : ℝ) < B.jerk * 2 by linarith), if_neg (by norm_num), if_neg (fun h => hj h.1)]

/-- **C60.** If two moves have the same feedrate, the velocity changes at the corner by at most twice the jerk
setting. -/
theorem c60_velocity_change {speed jerk φ : ℝ} (hs : 0 < speed) (hj : 0 < jerk) :
    jump (marlinJerk speed speed jerk φ) (marlinJerk speed speed jerk φ) φ ≤ 2 * jerk := by
  have hscale : ∀ v : ℝ, 0 ≤ v → jump v v φ = v / speed * jump speed speed φ := by
    intro v hv
    unfold jump
    rw [show v ^ 2 + v ^ 2 - 2 * v * v * Real.cos φ =
      (v / speed) ^ 2 * (speed ^ 2 + speed ^ 2 - 2 * speed * speed * Real.cos φ) by field_simp,
      Real.sqrt_mul (sq_nonneg _), Real.sqrt_sq (by positivity)]
  unfold marlinJerk
  by_cases h : 0 < jerk ∧ 2 * jerk ≤ jump speed speed φ
  · have hjp : 0 < jump speed speed φ := by linarith [h.2]
    rw [if_pos h, hscale _ (by positivity)]
    apply le_of_eq
    field_simp
  · rw [if_neg h]
    by_contra hc
    exact h ⟨hj, by linarith⟩

/-! ## Sharper corners are slower -/

theorem div_one_sub_mono {c c' : ℝ} (h : c ≤ c') (h1 : c' < 1) : c / (1 - c) ≤ c' / (1 - c') := by
  rw [div_le_div_iff₀ (by linarith) (by linarith)]
  nlinarith

theorem cos_half_lt_one {φ : ℝ} (h0 : 0 < φ) (h1 : φ ≤ Real.pi) : Real.cos (φ / 2) < 1 := by
  have : Real.cos (φ / 2) < Real.cos 0 :=
    Real.strictAntiOn_cos ⟨le_refl _, Real.pi_pos.le⟩ ⟨by linarith, by linarith⟩ (by linarith)
  rwa [Real.cos_zero] at this

theorem cos_half_anti {φ ψ : ℝ} (h0 : 0 ≤ φ) (h : φ ≤ ψ) (h1 : ψ ≤ Real.pi) :
    Real.cos (ψ / 2) ≤ Real.cos (φ / 2) :=
  Real.cos_le_cos_of_nonneg_of_le_pi (by linarith) (by linarith [Real.pi_pos]) (by linarith)

theorem marlinJd_nonneg {speed jerk φ : ℝ} (hs : 0 ≤ speed) (hj : 0 ≤ jerk) : 0 ≤ marlinJd speed jerk φ := by
  unfold marlinJd
  split
  · exact le_refl _
  split
  · exact hs
  · exact le_min hs (mul_nonneg hj (Real.sqrt_nonneg _))

/-- **C58.** The sharper the corner, the slower `marlin_jd` takes it. -/
theorem c58_sharper_slower {speed jerk φ ψ : ℝ} (hs : 0 ≤ speed) (hj : 0 ≤ jerk) (h0 : 0 ≤ φ) (h : φ ≤ ψ)
    (h1 : ψ ≤ Real.pi) : marlinJd speed jerk ψ ≤ marlinJd speed jerk φ := by
  have hn := @marlinJd_nonneg speed jerk φ hs hj
  unfold marlinJd at hn ⊢
  by_cases g1 : jerk = 0 ∨ 9 * Real.pi / 10 ≤ ψ
  · rw [if_pos g1]
    exact hn
  rw [if_neg g1]
  have g2 : ¬ (jerk = 0 ∨ 9 * Real.pi / 10 ≤ φ) := by
    rintro (h | h)
    · exact g1 (Or.inl h)
    · exact g1 (Or.inr (by linarith))
  rw [if_neg g2]
  by_cases g3 : φ ≤ Real.pi / 10
  · rw [if_pos g3]
    split
    · exact le_refl _
    · exact min_le_left _ _
  rw [if_neg g3, if_neg (fun h' => g3 (le_trans h h'))]
  have hpi := Real.pi_pos
  refine min_le_min_left _ (mul_le_mul_of_nonneg_left (Real.sqrt_le_sqrt ?_) hj)
  rw [mul_div_assoc, mul_div_assoc]
  exact mul_le_mul_of_nonneg_left (div_one_sub_mono (cos_half_anti h0 h h1)
    (cos_half_lt_one (by linarith [not_le.1 g3]) (by linarith))) (by norm_num)

/-- **C59.** The sharper the corner, the slower `klipper` takes it. -/
theorem c59_sharper_slower {speed acc jerk next φ ψ : ℝ} (hs : 0 ≤ speed) (hj : 0 ≤ jerk) (ha : 0 ≤ acc)
    (hn : 0 ≤ next) (h : φ ≤ ψ) : klipper speed acc jerk next ψ ≤ klipper speed acc jerk next φ := by
  obtain ⟨k0, k1⟩ := klipperLeast_mem
  have hpi := Real.pi_pos
  have hnn : 0 ≤ klipper speed acc jerk next φ := by
    unfold klipper
    split
    · exact le_refl _
    · exact le_min hs (le_min (mul_nonneg hj (Real.sqrt_nonneg _)) (Real.sqrt_nonneg _))
  unfold klipper at hnn ⊢
  by_cases g1 : Real.pi - klipperLeast < ψ
  · rw [if_pos g1]
    exact hnn
  rw [if_neg g1, if_neg (fun h' => g1 (lt_of_lt_of_le h' h))]
  have hm : max φ klipperLeast ≤ max ψ klipperLeast := max_le_max_right _ h
  have hm0 : 0 < max φ klipperLeast := lt_of_lt_of_le k0 (le_max_right _ _)
  have hm1 : max ψ klipperLeast ≤ Real.pi - klipperLeast := max_le (not_lt.1 g1) (by linarith)
  have hsqrt2 : (0 : ℝ) ≤ √2 - 1 := by
    have : (1 : ℝ) ≤ √2 := by
      rw [Real.one_le_sqrt]
      norm_num
    linarith
  refine min_le_min_left _ (min_le_min ?_ ?_)
  · refine mul_le_mul_of_nonneg_left (Real.sqrt_le_sqrt ?_) hj
    rw [mul_div_assoc, mul_div_assoc]
    exact mul_le_mul_of_nonneg_left (div_one_sub_mono (cos_half_anti hm0.le hm (by linarith))
      (cos_half_lt_one hm0 (by linarith))) hsqrt2
  · refine Real.sqrt_le_sqrt (div_le_div_of_nonneg_left (mul_nonneg ha hn) ?_ ?_)
    · have := Real.tan_pos_of_pos_of_lt_pi_div_two (show 0 < max φ klipperLeast / 2 by linarith) (by linarith)
      linarith
    · have : Real.tan (max φ klipperLeast / 2) ≤ Real.tan (max ψ klipperLeast / 2) :=
        Real.strictMonoOn_tan.monotoneOn ⟨by linarith, by linarith⟩ ⟨by linarith, by linarith⟩ (by linarith)
      linarith

/-- **C60.** The sharper the corner, the slower `marlin_jerk` takes it. -/
theorem c60_sharper_slower {speed next jerk φ ψ : ℝ} (hs : 0 ≤ speed) (hn : 0 ≤ next) (h0 : 0 ≤ φ)
    (h : φ ≤ ψ) (h1 : ψ ≤ Real.pi) : marlinJerk speed next jerk ψ ≤ marlinJerk speed next jerk φ := by
  have hj : jump speed next φ ≤ jump speed next ψ := by
    unfold jump
    refine Real.sqrt_le_sqrt ?_
    have := Real.cos_le_cos_of_nonneg_of_le_pi h0 h1 h
    have := mul_le_mul_of_nonneg_left this (mul_nonneg hs hn)
    linarith
  unfold marlinJerk
  by_cases g1 : 0 < jerk ∧ 2 * jerk ≤ jump speed next φ
  · have hp : 0 < jump speed next φ := by linarith [g1.1, g1.2]
    rw [if_pos g1, if_pos ⟨g1.1, le_trans g1.2 hj⟩]
    exact mul_le_mul_of_nonneg_left (div_le_div_of_nonneg_left (by linarith [g1.1]) hp hj) hs
  · rw [if_neg g1]
    split
    · rename_i g2
      have hp : 0 < jump speed next ψ := by linarith [g2.1, g2.2]
      exact mul_le_of_le_one_right hs ((div_le_one hp).2 g2.2)
    · exact le_refl _

/-! ## C61: MKA -/

/-- The velocity change of one axis as MKA measures it. -/
noncomputable def axisJerk (a b : ℝ) : ℝ :=
  if a < b then (if 0 < a ∨ b < 0 then b - a else max b (-a))
  else (if a < 0 ∨ 0 < b then a - b else max (-b) a)

theorem axisJerk_ge (a b : ℝ) : |a - b| ≤ 2 * axisJerk a b := by
  unfold axisJerk
  rw [abs_le]
  split
  · split
    · constructor <;> linarith
    · have := le_max_left b (-a)
      have := le_max_right b (-a)
      constructor <;> linarith
  · split
    · constructor <;> linarith
    · have := le_max_left (-b) a
      have := le_max_right (-b) a
      constructor <;> linarith

theorem axisJerk_le (a b : ℝ) : axisJerk a b ≤ max |a| |b| := by
  unfold axisJerk
  have h1 := le_abs_self a
  have h2 := le_abs_self b
  have h3 := neg_le_abs a
  have h4 := neg_le_abs b
  have h5 := le_max_left |a| |b|
  have h6 := le_max_right |a| |b|
  split
  · split
    · rename_i h
      rcases h with h | h <;> linarith
    · exact max_le (by linarith) (by linarith)
  · split
    · rename_i h
      rcases h with h | h <;> linarith
    · exact max_le (by linarith) (by linarith)

theorem axisJerk_nonneg (a b : ℝ) : 0 ≤ axisJerk a b := by
  have := axisJerk_ge a b
  have := abs_nonneg (a - b)
  linarith

/-- What stays true in the loop over the axes. -/
def MkaInv (V : ℝ) (s : MkaAcc ℝ) : Prop :=
  0 ≤ s.vFactor ∧ s.vFactor ≤ 1 ∧ 0 ≤ s.vMaxJunc ∧ s.vMaxJunc ≤ V * s.vFactor ∧ (s.limFlag = false → s.vFactor = 1)

theorem mkaStep_spec {j fac V : ℝ} {s : MkaAcc ℝ} (hj : 0 ≤ j) (hV : 0 ≤ V) (h : MkaInv V s) (a b : ℝ) :
    MkaInv V (mkaStep j fac s a b) ∧ (mkaStep j fac s a b).vFactor ≤ s.vFactor ∧
      (mkaStep j fac s a b).vFactor * |a - b * fac| ≤ 2 * j ∧
      (s.limFlag = false → max |a| |b * fac| ≤ j → mkaStep j fac s a b = s) := by
  obtain ⟨f0, f1, m0, m1, hl⟩ := h
  have hVm : s.vMaxJunc ≤ V := le_trans m1 (mul_le_of_le_one_right hV f1)
  have e1 : (if s.limFlag = true then a * s.vFactor else a) = s.vFactor * a := by
    cases hf : s.limFlag
    · simp [hl hf]
    · simp [mul_comm]
  have e2 : (if s.limFlag = true then b * fac * s.vFactor else b * fac) = s.vFactor * (b * fac) := by
    cases hf : s.limFlag
    · simp [hl hf]
    · simp [mul_comm]
  have hstep : mkaStep j fac s a b =
      (let s' := if j < axisJerk (s.vFactor * a) (s.vFactor * (b * fac)) then
        { s with vFactor := s.vFactor * (j / axisJerk (s.vFactor * a) (s.vFactor * (b * fac))), limFlag := true }
        else s
       if s'.limFlag then { s' with vMaxJunc := s'.vMaxJunc * s'.vFactor } else s') := by
    unfold mkaStep
    simp only [e1, e2, pyMax_real]
    rfl
  rw [hstep]
  have hge := axisJerk_ge (s.vFactor * a) (s.vFactor * (b * fac))
  have habs : |s.vFactor * a - s.vFactor * (b * fac)| = s.vFactor * |a - b * fac| := by
    rw [← mul_sub, abs_mul, abs_of_nonneg f0]
  rw [habs] at hge
  by_cases hlt : j < axisJerk (s.vFactor * a) (s.vFactor * (b * fac))
  · have hp : 0 < axisJerk (s.vFactor * a) (s.vFactor * (b * fac)) := lt_of_le_of_lt hj hlt
    have q0 : 0 ≤ j / axisJerk (s.vFactor * a) (s.vFactor * (b * fac)) := div_nonneg hj hp.le
    have q1 : j / axisJerk (s.vFactor * a) (s.vFactor * (b * fac)) ≤ 1 := (div_le_one hp).2 hlt.le
    simp only [hlt, if_true]
    refine ⟨⟨mul_nonneg f0 q0, mul_le_one₀ f1 q0 q1, mul_nonneg m0 (mul_nonneg f0 q0),
      mul_le_mul_of_nonneg_right hVm (mul_nonneg f0 q0), by simp⟩, mul_le_of_le_one_right f0 q1, ?_, ?_⟩
    · have : s.vFactor * (j / axisJerk (s.vFactor * a) (s.vFactor * (b * fac))) * |a - b * fac| =
          (s.vFactor * |a - b * fac|) / axisJerk (s.vFactor * a) (s.vFactor * (b * fac)) * j := by ring
      rw [this]
      have : (s.vFactor * |a - b * fac|) / axisJerk (s.vFactor * a) (s.vFactor * (b * fac)) ≤ 2 := by
        rw [div_le_iff₀ hp]
        exact hge
      exact mul_le_mul_of_nonneg_right this hj
    · intro hf hm
      have := axisJerk_le (s.vFactor * a) (s.vFactor * (b * fac))
      rw [hl hf, one_mul, one_mul] at this
      rw [hl hf, one_mul, one_mul] at hlt
      linarith
  · simp only [hlt, if_false]
    cases hf : s.limFlag
    · simp only [Bool.false_eq_true, if_false]
      exact ⟨⟨f0, f1, m0, m1, hl⟩, le_refl _, by linarith [not_lt.1 hlt], fun _ _ => trivial⟩
    · simp only [if_true]
      refine ⟨⟨f0, f1, mul_nonneg m0 f0, mul_le_mul_of_nonneg_right hVm f0, by simp [hf]⟩, le_refl _,
        by linarith [not_lt.1 hlt], by simp [hf]⟩

theorem calcMKA_spec (v0 v1 : Vec4 ℝ) (B : PState ℝ) (hj : 0 ≤ B.jerk) :
    ∃ f, calcMKA v0 v1 B ≤ min v0.norm3 v1.norm3 * f ∧ 0 ≤ f ∧ f ≤ 1 ∧
      (let fac := if 0 < min v0.norm3 v1.norm3 then min v0.norm3 v1.norm3 / v0.norm3 else 0
       f * |v0.x - v1.x * fac| ≤ 2 * B.jerk ∧ f * |v0.y - v1.y * fac| ≤ 2 * B.jerk ∧
       f * |v0.z - v1.z * fac| ≤ 2 * B.jerk ∧ f * |v0.e - v1.e * fac| ≤ 2 * B.jerk ∧
       (max |v0.x| |v1.x * fac| ≤ B.jerk → max |v0.y| |v1.y * fac| ≤ B.jerk →
        max |v0.z| |v1.z * fac| ≤ B.jerk → max |v0.e| |v1.e * fac| ≤ B.jerk →
        calcMKA v0 v1 B = min v0.norm3 v1.norm3)) := by
  unfold calcMKA
  simp only [pyMin_real]
  generalize hV : min v0.norm3 v1.norm3 = V
  have hV0 : 0 ≤ V := by rw [← hV]; exact le_min (norm3_nonneg _) (norm3_nonneg _)
  generalize (if 0 < V then V / v0.norm3 else 0 : ℝ) = fac
  have i0 : MkaInv V ⟨1, false, V⟩ := ⟨zero_le_one, le_refl _, hV0, (mul_one V).ge, fun _ => rfl⟩
  obtain ⟨i1, a1, b1, c1⟩ := mkaStep_spec (fac := fac) hj hV0 i0 v0.x v1.x
  obtain ⟨i2, a2, b2, c2⟩ := mkaStep_spec (fac := fac) hj hV0 i1 v0.y v1.y
  obtain ⟨i3, a3, b3, c3⟩ := mkaStep_spec (fac := fac) hj hV0 i2 v0.z v1.z
  obtain ⟨i4, a4, b4, c4⟩ := mkaStep_spec (fac := fac) hj hV0 i3 v0.e v1.e
  refine ⟨_, i4.2.2.2.1, i4.1, i4.2.1, ?_, ?_, ?_, b4, ?_⟩
  · exact le_trans (mul_le_mul_of_nonneg_right (le_trans a4 (le_trans a3 a2)) (abs_nonneg _)) b1
  · exact le_trans (mul_le_mul_of_nonneg_right (le_trans a4 a3) (abs_nonneg _)) b2
  · exact le_trans (mul_le_mul_of_nonneg_right a4 (abs_nonneg _)) b3
  · intro hx hy hz he
    have d1 := c1 rfl hx
    rw [d1] at c2 c3 c4 ⊢
    have d2 := c2 rfl hy
    rw [d2] at c3 c4 ⊢
    have d3 := c3 rfl hz
    rw [d3] at c4 ⊢
    rw [c4 rfl he]

/-- **C61.** With `MKA` a corner between moves of equal feedrate is taken so slowly that no axis, the filament
included, changes its velocity by more than twice the jerk setting. -/
theorem c61_mka_axes (hnext : NextMove B rest C) (h0 : (B.position.sub A.position).norm3 ≠ 0)
    (h1 : (C.position.sub B.position).norm3 ≠ 0) (hB : 0 < B.speed) (hC : C.speed = B.speed)
    (hj : 0 ≤ B.jerk) :
    let u := (B.position.sub A.position).div (B.position.sub A.position).norm3
    let w := (C.position.sub B.position).div (C.position.sub B.position).norm3
    let v := junctionVel .mka (some A) B rest
    v ≤ B.speed ∧ |v * u.x - v * w.x| ≤ 2 * B.jerk ∧ |v * u.y - v * w.y| ≤ 2 * B.jerk ∧
      |v * u.z - v * w.z| ≤ 2 * B.jerk ∧ |v * u.e - v * w.e| ≤ 2 * B.jerk := by
  intro u w v
  obtain ⟨n0, n1, -⟩ := corner_velocities h0 h1 hB (by rw [hC]; exact hB)
  have hv : v = calcMKA (connectState A B) (connectState B C) B := by
    show junctionVel .mka (some A) B rest = _
    unfold junctionVel
    simp only [targetVel, velNext_of_nextMove hnext]
  obtain ⟨f, e1, f0, f1, e2, e3, e4, e5, -⟩ := calcMKA_spec (connectState A B) (connectState B C) B hj
  rw [n0, n1, hC, min_self] at e1
  rw [n0, n1, hC, min_self, if_pos hB, div_self hB.ne'] at e2 e3 e4 e5
  rw [← hv] at e1
  have hvn : 0 ≤ v := by
    rw [hv]
    exact (calcMKA_bounds _ _ _ hj).1
  have q0 : connectState A B = u.mul B.speed := by
    rw [connectState_travel h0]
    ext <;> simp only [u, Vec4.div, Vec4.mul] <;> ring
  have q1 : connectState B C = w.mul B.speed := by
    rw [connectState_travel h1, hC]
    ext <;> simp only [w, Vec4.div, Vec4.mul] <;> ring
  rw [q0, q1] at e2 e3 e4 e5
  have key : ∀ a b : ℝ, f * |a * B.speed - b * B.speed * 1| ≤ 2 * B.jerk → |v * a - v * b| ≤ 2 * B.jerk := by
    intro a b h
    refine le_trans ?_ h
    rw [mul_one, ← sub_mul, abs_mul, abs_of_pos hB, ← mul_sub, abs_mul, abs_of_nonneg hvn]
    have := mul_le_mul_of_nonneg_right e1 (abs_nonneg (a - b))
    linarith
  exact ⟨le_trans e1 (mul_le_of_le_one_right hB.le f1), key _ _ e2, key _ _ e3, key _ _ e4, key _ _ e5⟩

/-- **C61.** With `MKA` a corner whose velocities are below the jerk setting on every axis is taken at the
feedrate of the move, if both feedrates are equal. -/
theorem c61_mka_full_speed (hnext : NextMove B rest C) (h0 : (B.position.sub A.position).norm3 ≠ 0)
    (h1 : (C.position.sub B.position).norm3 ≠ 0) (hB : 0 < B.speed) (hC : C.speed = B.speed)
    (hj : 0 ≤ B.jerk)
    (hsmall : ∀ d : Vec4 ℝ, d = (B.position.sub A.position).div (B.position.sub A.position).norm3 ∨
      d = (C.position.sub B.position).div (C.position.sub B.position).norm3 →
      |d.x| * B.speed ≤ B.jerk ∧ |d.y| * B.speed ≤ B.jerk ∧ |d.z| * B.speed ≤ B.jerk ∧
        |d.e| * B.speed ≤ B.jerk) :
    junctionVel .mka (some A) B rest = B.speed := by
  obtain ⟨n0, n1, -⟩ := corner_velocities h0 h1 hB (by rw [hC]; exact hB)
  have hv : junctionVel .mka (some A) B rest = calcMKA (connectState A B) (connectState B C) B := by
    unfold junctionVel
    simp only [targetVel, velNext_of_nextMove hnext]
  obtain ⟨f, -, -, -, -, -, -, -, e⟩ := calcMKA_spec (connectState A B) (connectState B C) B hj
  rw [n0, n1, hC, min_self, if_pos hB, div_self hB.ne', mul_one, mul_one, mul_one, mul_one] at e
  obtain ⟨x0, y0, z0, w0⟩ := hsmall _ (Or.inl rfl)
  obtain ⟨x1, y1, z1, w1⟩ := hsmall _ (Or.inr rfl)
  have q0 : connectState A B =
      ((B.position.sub A.position).div (B.position.sub A.position).norm3).mul B.speed := by
    rw [connectState_travel h0]
    ext <;> simp only [Vec4.div, Vec4.mul] <;> ring
  have q1 : connectState B C =
      ((C.position.sub B.position).div (C.position.sub B.position).norm3).mul B.speed := by
    rw [connectState_travel h1, hC]
    ext <;> simp only [Vec4.div, Vec4.mul] <;> ring
  have habs : ∀ a : ℝ, |a * B.speed| = |a| * B.speed := fun a => by rw [abs_mul, abs_of_pos hB]
  rw [hv]
  apply e <;> rw [q0, q1] <;> simp only [Vec4.mul, habs] <;> apply max_le <;> assumption

theorem axisJerk_eq (a b : ℝ) : axisJerk a b = axisJump a b := by
  unfold axisJerk axisJump
  split
  · rename_i h
    split
    · rename_i h'
      rw [if_pos, abs_of_neg (by linarith)]
      · ring
      · rcases h' with h' | h'
        · exact mul_pos h' (by linarith)
        · exact mul_pos_of_neg_of_neg (by linarith) h'
    · rename_i h'
      push Not at h'
      rw [if_neg (not_lt.2 (mul_nonpos_of_nonpos_of_nonneg h'.1 h'.2)), abs_of_nonpos h'.1, abs_of_nonneg h'.2,
        max_comm]
  · rename_i h
    split
    · rename_i h'
      rw [if_pos, abs_of_nonneg (by linarith)]
      rcases h' with h' | h'
      · exact mul_pos_of_neg_of_neg h' (by linarith)
      · exact mul_pos (by linarith) h'
    · rename_i h'
      push Not at h'
      rw [if_neg (not_lt.2 (mul_nonpos_of_nonneg_of_nonpos h'.1 h'.2)), abs_of_nonneg h'.1, abs_of_nonpos h'.2,
        max_comm]

theorem axisJump_mul {f : ℝ} (hf : 0 < f) (a b : ℝ) : axisJump (f * a) (f * b) = f * axisJump a b := by
  unfold axisJump
  have e : (0 < f * a * (f * b)) ↔ 0 < a * b := by
    rw [show f * a * (f * b) = (f * f) * (a * b) by ring]
    exact mul_pos_iff_of_pos_left (mul_pos hf hf)
  simp only [e]
  split
  · rw [← mul_sub, abs_mul, abs_of_pos hf]
  · rw [abs_mul, abs_mul, abs_of_pos hf, mul_max_of_nonneg _ _ hf.le]

theorem axisJump_nonneg (a b : ℝ) : 0 ≤ axisJump a b := by
  rw [← axisJerk_eq]
  exact axisJerk_nonneg a b

/-- What stays true in the loop over the axes, exactly. -/
def MkaEq (f V : ℝ) (s : MkaAcc ℝ) : Prop :=
  0 ≤ f ∧ s.vFactor = f ∧ s.vMaxJunc = V ∧ (s.limFlag = false → f = 1)

theorem mkaStep_eq {j fac f V : ℝ} {s : MkaAcc ℝ} (hj : 0 ≤ j) (h : MkaEq f V s) (a b : ℝ) :
    MkaEq (cap j f (axisJump a (b * fac))) (V * cap j f (axisJump a (b * fac))) (mkaStep j fac s a b) := by
  obtain ⟨f0, hf, hV, hl⟩ := h
  have e1 : (if s.limFlag = true then a * s.vFactor else a) = s.vFactor * a := by
    cases hx : s.limFlag
    · simp [hf, hl hx]
    · simp [mul_comm]
  have e2 : (if s.limFlag = true then b * fac * s.vFactor else b * fac) = s.vFactor * (b * fac) := by
    cases hx : s.limFlag
    · simp [hf, hl hx]
    · simp [mul_comm]
  have hstep : mkaStep j fac s a b =
      (let s' := if j < axisJerk (s.vFactor * a) (s.vFactor * (b * fac)) then
        { s with vFactor := s.vFactor * (j / axisJerk (s.vFactor * a) (s.vFactor * (b * fac))), limFlag := true }
        else s
       if s'.limFlag then { s' with vMaxJunc := s'.vMaxJunc * s'.vFactor } else s') := by
    unfold mkaStep
    simp only [e1, e2, pyMax_real]
    rfl
  rw [hstep, axisJerk_eq, hf]
  generalize b * fac = c
  have hmul : axisJump (f * a) (f * c) = f * axisJump a c := by
    rcases eq_or_lt_of_le f0 with h0 | h0
    · rw [← h0]
      simp [axisJump]
    · exact axisJump_mul h0 a c
  rw [hmul]
  have hJ := axisJump_nonneg a c
  by_cases hlt : j < f * axisJump a c
  · have hfp : f ≠ 0 := by
      rintro rfl
      rw [MulZeroClass.zero_mul] at hlt
      linarith
    have hJp : axisJump a c ≠ 0 := by
      intro h
      rw [h, MulZeroClass.mul_zero] at hlt
      linarith
    have hcap : cap j f (axisJump a c) = j / axisJump a c := if_neg (not_le.2 hlt)
    have hq : f * (j / (f * axisJump a c)) = j / axisJump a c := by
      field_simp
    simp only [hlt, if_true, hcap, hq]
    exact ⟨div_nonneg hj hJ, rfl, by rw [hV], by simp⟩
  · have hcap : cap j f (axisJump a c) = f := if_pos (not_lt.1 hlt)
    simp only [hlt, if_false, hcap]
    cases hx : s.limFlag
    · simp only [Bool.false_eq_true, if_false]
      exact ⟨f0, hf, by rw [hV, hl hx, mul_one], hl⟩
    · simp only [if_true]
      exact ⟨f0, hf, by rw [hV, hf], by simp [hx]⟩

theorem calcMKA_eq (v0 v1 : Vec4 ℝ) (B : PState ℝ) (hj : 0 ≤ B.jerk) :
    calcMKA v0 v1 B =
      (let V := min v0.norm3 v1.norm3
       let fac := if 0 < V then V / v0.norm3 else 0
       mka V B.jerk (axisJump v0.x (v1.x * fac)) (axisJump v0.y (v1.y * fac)) (axisJump v0.z (v1.z * fac))
        (axisJump v0.e (v1.e * fac))) := by
  unfold calcMKA
  simp only [pyMin_real]
  generalize hV : min v0.norm3 v1.norm3 = V
  generalize (if 0 < V then V / v0.norm3 else 0 : ℝ) = fac
  have i0 : MkaEq 1 V ⟨1, false, V⟩ := ⟨zero_le_one, rfl, rfl, fun _ => rfl⟩
  have i1 := mkaStep_eq (fac := fac) hj i0 v0.x v1.x
  have i2 := mkaStep_eq (fac := fac) hj i1 v0.y v1.y
  have i3 := mkaStep_eq (fac := fac) hj i2 v0.z v1.z
  have i4 := mkaStep_eq (fac := fac) hj i3 v0.e v1.e
  exact i4.2.2.1

/-- **C61.** The corner speed of `MKA`, exactly: the smaller of the two feedrates, reduced for each axis in
turn. The change of an axis is measured between the incoming velocity at its feedrate and the outgoing velocity
at its feedrate times the ratio of the smaller to the incoming feedrate. -/
theorem c61_mka_law (hnext : NextMove B rest C) (h0 : (B.position.sub A.position).norm3 ≠ 0)
    (h1 : (C.position.sub B.position).norm3 ≠ 0) (hB : 0 < B.speed) (hC : 0 < C.speed) (hj : 0 ≤ B.jerk)
    {u w : Vec4 ℝ} (hu : B.position = A.position.add (u.mul (B.position.sub A.position).norm3))
    (hw : C.position = B.position.add (w.mul (C.position.sub B.position).norm3)) :
    junctionVel .mka (some A) B rest =
      (let v := min B.speed C.speed
       let change := fun a b => axisJump (B.speed * a) (C.speed * (v / B.speed) * b)
       mka v B.jerk (change u.x w.x) (change u.y w.y) (change u.z w.z) (change u.e w.e)) := by
  obtain ⟨n0, n1, _⟩ := corner_velocities h0 h1 hB hC
  unfold junctionVel
  simp only [targetVel, velNext_of_nextMove hnext]
  rw [calcMKA_eq _ _ _ hj, n0, n1]
  simp only
  rw [if_pos (lt_min hB hC)]
  have q : ∀ {A B : PState ℝ} {u : Vec4 ℝ}, (B.position.sub A.position).norm3 ≠ 0 →
      B.position = A.position.add (u.mul (B.position.sub A.position).norm3) →
      connectState A B = u.mul B.speed := by
    intro A B u h hu
    rw [connectState_travel h]
    generalize (B.position.sub A.position).norm3 = d at h hu
    have : B.position.sub A.position = u.mul d := by
      rw [hu]
      ext <;> simp only [Vec4.sub, Vec4.add, Vec4.mul] <;> ring
    rw [this]
    ext <;> simp only [Vec4.mul] <;> field_simp
  rw [q h0 hu, q h1 hw]
  simp only [Vec4.mul]
  have r : ∀ a b c : ℝ, axisJump (a * B.speed) (b * C.speed * c) = axisJump (B.speed * a) (C.speed * c * b) := by
    intro a b c
    congr 1 <;> ring
  rw [r, r, r, r]

/-! ## C62: standstill -/

/-- **C62.** The junction behind the move to `B` is taken at standstill when no later state of the program is
elsewhere, or when the next move is without travel (filament only). This holds for all firmwares but
`marlin_jerk`; see `c62_marlin_jerk_end`. -/
theorem c62_stop {fw : Firmware} (hfw : fw ≠ .marlinJerk) (A : Option (PState ℝ)) (hj : 0 ≤ B.jerk)
    (h : (∀ x ∈ rest, x.position = B.position) ∨
      ∃ C, NextMove B rest C ∧ (C.position.sub B.position).norm3 = 0 ∧ 0 ≤ C.speed) :
    junctionVel fw A B rest = 0 := by
  apply junctionVel_stop hfw A B rest hj
  rcases h with h | ⟨C, hC, hd, hs⟩
  · rw [velNext_stop h]
    exact norm3_eq_zero.2 ⟨rfl, rfl, rfl⟩
  · rw [velNext_of_nextMove hC, connectState_norm3 B C hs, if_pos hd]

/-- **C62.** A filament-only move ends at standstill with every firmware. -/
theorem c62_filament_stop (fw : Firmware) (rest : List (PState ℝ)) (hs : 0 ≤ B.speed) (hj : 0 ≤ B.jerk)
    (hd : (B.position.sub A.position).norm3 = 0) : junctionVel fw (some A) B rest = 0 := by
  apply junctionVel_eonly fw _ B rest hj
  show (connectState A B).norm3 = 0
  rw [connectState_norm3 A B hs, if_pos hd]

/-- **C62.** `marlin_jerk` keeps up to twice the jerk at the end of the program, and the whole feedrate if the
jerk is zero. -/
theorem c62_marlin_jerk_end (hs : 0 < B.speed) (hj : 0 ≤ B.jerk)
    (hd : (B.position.sub A.position).norm3 ≠ 0) (h : ∀ x ∈ rest, x.position = B.position) :
    junctionVel .marlinJerk (some A) B rest = if B.jerk = 0 then B.speed else min B.speed (2 * B.jerk) := by
  have h0 : (connectState A B).norm3 = B.speed := by rw [connectState_norm3 A B hs.le, if_neg hd]
  unfold junctionVel
  simp only [targetVel, velNext_stop h]
  unfold calcJerk
  simp only
  rw [show (connectState A B).sub Vec4.zero = connectState A B by ext <;> simp [Vec4.sub, Vec4.zero], h0]
  by_cases hz : B.jerk = 0
  · simp [hz, h0]
  · have hp : 0 < B.jerk := lt_of_le_of_ne hj (Ne.symm hz)
    rw [if_pos (show 0 < B.jerk * 2 by linarith), if_neg hz]
    by_cases hc : 1 ≤ B.speed / (B.jerk * 2)
    · rw [if_pos hc, norm3_div, h0, abs_of_pos (by positivity), min_eq_right]
      · field_simp
      · rw [le_div_iff₀ (by linarith)] at hc
        linarith
    · rw [if_neg hc, min_eq_left]
      rw [le_div_iff₀ (by linarith)] at hc
      linarith

/-! ## A concrete corner -/

/-- Three points with a right angle, 10 mm each. -/
def Demo.corner (x y e : ℝ) : PState ℝ := ⟨⟨x, y, 0, e⟩, 20, 1000, 5, none, none⟩

theorem Demo.corner_facts : (((Demo.corner 10 0 1).position.sub (Demo.corner 0 0 0).position).norm3 = 10) ∧
    (((Demo.corner 10 10 2).position.sub (Demo.corner 10 0 1).position).norm3 = 10) ∧
    turn (Demo.corner 0 0 0).position (Demo.corner 10 0 1).position (Demo.corner 10 10 2).position =
      Real.pi / 2 ∧
    NextMove (Demo.corner 10 0 1) [Demo.corner 10 0 1, Demo.corner 10 10 2, Demo.corner 0 0 0]
      (Demo.corner 10 10 2) := by
  have h1 : ((Demo.corner 10 0 1).position.sub (Demo.corner 0 0 0).position).norm3 = 10 := by
    unfold norm3
    rw [sqrt_real, Real.sqrt_eq_iff_mul_self_eq_of_pos (by norm_num)]
    norm_num [Demo.corner, Vec4.sub]
  have h2 : ((Demo.corner 10 10 2).position.sub (Demo.corner 10 0 1).position).norm3 = 10 := by
    unfold norm3
    rw [sqrt_real, Real.sqrt_eq_iff_mul_self_eq_of_pos (by norm_num)]
    norm_num [Demo.corner, Vec4.sub]
  refine ⟨h1, h2, ?_, [Demo.corner 10 0 1], [Demo.corner 0 0 0], rfl, by simp, ?_⟩
  · unfold turn
    rw [h1, h2]
    simp [dot3, Demo.corner, Vec4.sub]
  · simp [Demo.corner]

/-- The right angle with every firmware: `klipper` takes it with the jerk, `marlin_jd` slower than the
feedrate, `marlin_jerk` with `20 · 10 / (20 √2)`, and `MKA` changes no axis velocity by more than twice the
jerk. -/
example : let A := Demo.corner 0 0 0
    let B := Demo.corner 10 0 1
    let rest := [Demo.corner 10 0 1, Demo.corner 10 10 2, Demo.corner 0 0 0]
    junctionVel .klipper (some A) B rest = 5 ∧
    junctionVel .marlinJd (some A) B rest = marlinJd 20 5 (Real.pi / 2) ∧
    junctionVel .marlinJerk (some A) B rest = 20 * (10 / √800) ∧
    junctionVel .mka (some A) B rest ≤ 10 ∧
    junctionVel .default (some A) B rest = 0 := by
  intro A B rest
  obtain ⟨h1, h2, h3, hn⟩ := Demo.corner_facts
  have n1 : (B.position.sub A.position).norm3 ≠ 0 := by rw [h1]; norm_num
  have n2 : ((Demo.corner 10 10 2).position.sub B.position).norm3 ≠ 0 := by rw [h2]; norm_num
  have s1 : 0 < B.speed := by norm_num [B, Demo.corner]
  refine ⟨?_, ?_, ?_, ?_, rfl⟩
  · rw [c59_klipper hn n1 n2 s1 (by norm_num [Demo.corner]) (by norm_num [B, Demo.corner])
      (by norm_num [B, Demo.corner]), h3, c59_right_angle, h2]
    simp only [B, Demo.corner]
    have h5 : (5 : ℝ) ≤ √(1000 * 10 / 2) := by
      rw [Real.le_sqrt (by norm_num)]
      all_goals norm_num
    rw [min_eq_left h5]
    norm_num
  · rw [c58_marlin_jd hn n1 n2 s1 (by norm_num [Demo.corner]) (by norm_num [B, Demo.corner])
      (by norm_num [B, Demo.corner]), h3]
    simp [B, Demo.corner]
  · rw [c60_marlin_jerk hn n1 n2 s1 (by norm_num [Demo.corner]), h3]
    have h : jump 20 20 (Real.pi / 2) = √800 := by
      unfold jump
      rw [Real.cos_pi_div_two]
      norm_num
    simp only [marlinJerk, B, Demo.corner, h]
    rw [if_pos]
    · norm_num
    · refine ⟨by norm_num, ?_⟩
      rw [Real.le_sqrt (by norm_num)]
      all_goals norm_num
  · obtain ⟨-, hx, -⟩ := c61_mka_axes hn n1 n2 s1 rfl (by norm_num [B, Demo.corner])
    have hx' := (abs_le.1 hx).2
    rw [h1, h2] at hx'
    generalize junctionVel .mka (some A) B rest = v at hx' ⊢
    norm_num [Demo.corner, Vec4.sub, Vec4.div, A] at hx'
    exact hx'

/-- `MKA` multiplies the reduction of the first axis once more for every later axis: the right-angled corner at
20 mm/s with jerk 5 mm/s, where a quarter of the speed would do, is taken with less than 0.08 mm/s. -/
example : junctionVel .mka (some (Demo.corner 0 0 0)) (Demo.corner 10 0 1) [Demo.corner 10 10 2] = 20 / 4 ^ 4 := by
  obtain ⟨h1, h2, -⟩ := Demo.corner_facts
  have hn : NextMove (Demo.corner 10 0 1) [Demo.corner 10 10 2] (Demo.corner 10 10 2) :=
    ⟨[], [], rfl, by simp, by simp [Demo.corner]⟩
  rw [c61_mka_law (u := ⟨1, 0, 0, 0.1⟩) (w := ⟨0, 1, 0, 0.1⟩) hn (by rw [h1]; norm_num) (by rw [h2]; norm_num)
    (by norm_num [Demo.corner]) (by norm_num [Demo.corner]) (by norm_num [Demo.corner])
    (by rw [h1]; ext <;> norm_num [Demo.corner, Vec4.add, Vec4.mul])
    (by rw [h2]; ext <;> norm_num [Demo.corner, Vec4.add, Vec4.mul])]
  norm_num [mka, cap, axisJump, Demo.corner]

/-- A corner that `MKA` takes at full speed: the jerk is not smaller than the feedrate. -/
example (hAB : (B.position.sub A.position).norm3 ≠ 0) (hBC : (C.position.sub B.position).norm3 ≠ 0)
    (hn : NextMove B rest C) (hs : 0 < B.speed) (hC : C.speed = B.speed) (hj : B.speed ≤ B.jerk)
    (hA : A.position.e = B.position.e) (hE : B.position.e = C.position.e) :
    junctionVel .mka (some A) B rest = B.speed := by
  have unit : ∀ v : Vec4 ℝ, v.norm3 ≠ 0 → v.e = 0 → |(v.div v.norm3).x| ≤ 1 ∧ |(v.div v.norm3).y| ≤ 1 ∧
      |(v.div v.norm3).z| ≤ 1 ∧ |(v.div v.norm3).e| ≤ 1 := by
    intro v hv he
    have hp : 0 < v.norm3 := lt_of_le_of_ne (norm3_nonneg v) (Ne.symm hv)
    have hsq := norm3_sq v
    have one : ∀ a : ℝ, a ^ 2 ≤ v.norm3 ^ 2 → |a / v.norm3| ≤ 1 := by
      intro a ha
      rw [abs_div, abs_of_pos hp]
      exact div_le_one_of_le₀ (abs_le_of_sq_le_sq ha hp.le) hp.le
    refine ⟨one _ ?_, one _ ?_, one _ ?_, ?_⟩
    · nlinarith [sq_nonneg v.y, sq_nonneg v.z]
    · nlinarith [sq_nonneg v.x, sq_nonneg v.z]
    · nlinarith [sq_nonneg v.x, sq_nonneg v.y]
    · simp [Vec4.div, he]
  refine c61_mka_full_speed hn hAB hBC hs hC (hs.le.trans hj) ?_
  have fin : ∀ a : ℝ, |a| ≤ 1 → |a| * B.speed ≤ B.jerk := fun a ha => by nlinarith
  rintro d (rfl | rfl)
  · obtain ⟨q1, q2, q3, q4⟩ := unit _ hAB (by simp [Vec4.sub, hA])
    exact ⟨fin _ q1, fin _ q2, fin _ q3, fin _ q4⟩
  · obtain ⟨q1, q2, q3, q4⟩ := unit _ hBC (by simp [Vec4.sub, hE])
    exact ⟨fin _ q1, fin _ q2, fin _ q3, fin _ q4⟩

/-- The last two points of the corner: all firmwares but `marlin_jerk` stop, which keeps 10 of 20 mm/s. -/
example : (∀ fw, fw ≠ .marlinJerk → junctionVel fw (some (Demo.corner 0 0 0)) (Demo.corner 10 0 1) [] = 0) ∧
    junctionVel .marlinJerk (some (Demo.corner 0 0 0)) (Demo.corner 10 0 1) [] = 10 := by
  obtain ⟨h1, -⟩ := Demo.corner_facts
  refine ⟨fun fw hfw => c62_stop hfw _ (by norm_num [Demo.corner]) (Or.inl (by simp)), ?_⟩
  rw [c62_marlin_jerk_end (by norm_num [Demo.corner]) (by norm_num [Demo.corner]) (by rw [h1]; norm_num)
    (by simp)]
  norm_num [Demo.corner]

end PyGCD
