import Verif.Props.UnusualCuts
import Verif.Spec.Tuning

/-!
# Property C124: how much size, feedrates and accelerations can matter

Every motion for one program is, stretched in space and time, a motion for the other.
-/

set_option linter.unusedSectionVars false
set_option linter.unusedSimpArgs false

namespace PyGCD
open Vec4 Spec

variable {fw : Firmware} {states : List (PState ℝ)} {bs bs' : List (Block ℝ)} {c f g j r : ℝ}

/-! ## Junction speeds -/

theorem nextTarget_same {φ : PState ℝ → PState ℝ} (hφ : ∀ s, (φ s).position = s.position) (B : PState ℝ) :
    ∀ rest : List (PState ℝ), nextTarget (φ B) (rest.map φ) = φ (nextTarget B rest)
  | [] => rfl
  | n :: rest => by
    rw [List.map_cons, nextTarget, nextTarget, hφ, hφ, nextTarget_same hφ B rest]
    simp only [List.isEmpty_map]
    split_ifs <;> rfl

/-- The junction speed only depends on place, feedrate, jerk, and with `marlin_jd` and `klipper` on the acceleration. -/
theorem junctionVel_same {φ : PState ℝ → PState ℝ} (hp : ∀ s, (φ s).position = s.position) (hs : ∀ s, (φ s).speed = s.speed)
    (hj : ∀ s, (φ s).jerk = s.jerk) (ha : (fw = .marlinJerk ∨ fw = .mka) ∨ ∀ s, (φ s).pAcc = s.pAcc)
    (A B : PState ℝ) (rest : List (PState ℝ)) :
    junctionVel fw (some (φ A)) (φ B) (rest.map φ) = junctionVel fw (some A) B rest := by
  have e1 : targetVel (some (φ A)) (φ B) = targetVel (some A) B := by
    simp only [targetVel, connectState, hp, hs]
  have e2 : velNext (φ B) (rest.map φ) = velNext B rest := by
    simp only [velNext, nextTarget_same hp, connectState, hp, hs]
  have e3 : ((nextTarget (φ B) (rest.map φ)).position.sub (φ B).position) = ((nextTarget B rest).position.sub B.position) := by
    rw [nextTarget_same hp, hp, hp]
  unfold junctionVel
  simp only [e1, e2, e3]
  have h1 := hs B
  have h2 := hj B
  have h3 : (fw = .marlinJerk ∨ fw = .mka) ∨ (φ B).pAcc = B.pAcc := ha.imp_right fun h => h B
  generalize φ B = B' at h1 h2 h3
  generalize targetVel (some A) B = v0
  generalize velNext B rest = v1
  generalize ((nextTarget B rest).position.sub B.position).norm3 = d
  obtain ⟨p, v, a, jk, pa, l⟩ := B
  obtain ⟨p', v', a', jk', pa', l'⟩ := B'
  simp only at h1 h2 h3
  subst h1 h2
  cases fw with
  | default => rfl
  | marlinJd =>
    have h3 : a' = a := by simpa using h3
    subst h3
    rfl
  | klipper =>
    have h3 : a' = a := by simpa using h3
    subst h3
    rfl
  | marlinJerk => rfl
  | mka => rfl

theorem tuned_raised {f g j f' g' j' : ℝ} (s : PState ℝ) (hs : 0 ≤ s.speed) (ha : 0 ≤ s.pAcc) (hj : 0 ≤ s.jerk) (h1 : f ≤ f')
    (h2 : g ≤ g') (h3 : j ≤ j') (h4 : fw = .marlinJerk ∨ fw = .mka → f' = f) (h5 : 0 < j) :
    Raised fw (tuned c f g j s) (tuned c f' g' j' s) where
  position := rfl
  pause := rfl
  acc := mul_le_mul_of_nonneg_left h2 ha
  jerk := mul_le_mul_of_nonneg_left h3 hj
  speed := mul_le_mul_of_nonneg_left h1 hs
  sameSpeed h := by simp only [tuned, h4 h]
  unlimited _ h := by
    have : s.jerk = 0 := (mul_eq_zero.1 h).resolve_right h5.ne'
    simp [tuned, this]

/-- With `marlin_jerk`, raising all feedrates alike does not lower the junction speed. -/
theorem calcJerk_faster {v0 v1 : Vec4 ℝ} {B B' : PState ℝ} {a : ℝ} (ha : 1 ≤ a) (hB : B'.jerk = B.jerk) :
    calcJerk v0 v1 B ≤ calcJerk (v0.mul a) (v1.mul a) B' := by
  have a0 : 0 < a := by linarith
  have e : ((v0.mul a).sub (v1.mul a)).norm3 = (v0.sub v1).norm3 * a := by
    rw [scaled_sub, norm3_mul, abs_of_pos a0]
  have hn := norm3_nonneg v0
  have hm := norm3_nonneg (v0.sub v1)
  unfold calcJerk
  simp only [hB, e]
  by_cases hj : 0 < B.jerk * 2
  · rw [if_pos hj, if_pos hj]
    have hq : (v0.sub v1).norm3 * a / (B.jerk * 2) = (v0.sub v1).norm3 / (B.jerk * 2) * a := by ring
    rw [hq]
    set q := (v0.sub v1).norm3 / (B.jerk * 2) with hq'
    have q0 : 0 ≤ q := div_nonneg hm hj.le
    by_cases h1 : 1 ≤ q
    · rw [if_pos h1, if_pos (by nlinarith), norm3_div, norm3_div, norm3_mul, abs_of_pos a0, abs_of_nonneg q0,
        abs_of_nonneg (mul_nonneg q0 a0.le), mul_div_mul_right _ _ a0.ne']
    · rw [if_neg h1]
      by_cases h2 : 1 ≤ q * a
      · rw [if_pos h2, norm3_div, norm3_mul, abs_of_pos a0, abs_of_nonneg (mul_nonneg q0 a0.le), le_div_iff₀ (by linarith)]
        push Not at h1
        nlinarith [mul_le_mul_of_nonneg_left h1.le (mul_nonneg hn a0.le)]
      · rw [if_neg h2, norm3_mul, abs_of_pos a0]
        nlinarith
  · rw [if_neg hj, if_neg hj, if_neg (by norm_num), if_neg (by norm_num), norm3_mul, abs_of_pos a0]
    nlinarith

theorem connectState_faster {A B : PState ℝ} {f g j f' g' j' : ℝ} (hf : f ≠ 0) :
    connectState (tuned c f' g' j' A) (tuned c f' g' j' B) = (connectState (tuned c f g j A) (tuned c f g j B)).mul (f' / f) := by
  simp only [connectState, tuned]
  generalize (if 0 < pyAbs _ then _ else _ : Vec4 ℝ) = u
  ext <;> simp only [Vec4.mul] <;> field_simp

theorem nextTarget_tuned {f g j : ℝ} (hc : 0 < c) (B : PState ℝ) : ∀ rest : List (PState ℝ),
    nextTarget (tuned c f g j B) (rest.map (tuned c f g j)) = tuned c f g j (nextTarget B rest)
  | [] => rfl
  | n :: rest => by
    have e : 0 < (tuned c f g j B).position.tDistance4 (tuned c f g j n).position ↔ 0 < B.position.tDistance4 n.position := by
      simp only [tuned, tDistance4, scaled_sub, norm4_mul, abs_of_pos hc]
      rw [mul_pos_iff_of_pos_right hc]
    rw [List.map_cons, nextTarget, nextTarget, nextTarget_tuned hc B rest, List.isEmpty_map]
    simp only [e]
    split <;> rfl

theorem jerk_faster {f g j f' g' : ℝ} (hc : 0 < c) (hf : 0 < f) (h : f ≤ f') (A B : PState ℝ) (rest : List (PState ℝ)) :
    junctionVel .marlinJerk (some (tuned c f g j A)) (tuned c f g j B) (rest.map (tuned c f g j)) ≤
      junctionVel .marlinJerk (some (tuned c f' g' j A)) (tuned c f' g' j B) (rest.map (tuned c f' g' j)) := by
  unfold junctionVel
  simp only [targetVel, velNext, nextTarget_tuned hc]
  have e1 := connectState_faster (c := c) (A := A) (B := B) (f := f) (g := g) (j := j) (f' := f') (g' := g') (j' := j) hf.ne'
  have e2 := connectState_faster (c := c) (A := B) (B := nextTarget B rest) (f := f) (g := g) (j := j) (f' := f') (g' := g')
    (j' := j) hf.ne'
  rw [e1, e2]
  exact calcJerk_faster ((one_le_div hf).2 h) rfl

theorem junctionVel_tuned (hR : Room fw c f g j r) (A B : PState ℝ) (rest : List (PState ℝ))
    (h0 : (B.position.sub A.position).norm3 ≠ 0) (hB : 0 < B.speed)
    (hsens : ∀ s ∈ A :: B :: rest, 0 ≤ s.speed ∧ 0 < s.pAcc ∧ 0 ≤ s.jerk) :
    junctionVel fw (some A) B rest * (c * r) ≤
      junctionVel fw (some (tuned c f g j A)) (tuned c f g j B) (rest.map (tuned c f g j)) := by
  obtain ⟨_, b2, b3⟩ := hsens B (by simp)
  have hcr := mul_pos hR.size hR.rate
  have hf := hcr.trans_le hR.speed
  have h0' : ∀ a : ℝ, ((B.position.mul c).sub (A.position.mul c)).norm3 ≠ 0 := by
    intro _
    rw [scaled_sub, norm3_mul, abs_of_pos hR.size]
    exact mul_ne_zero h0 hR.size.ne'
  have mono : ∀ {f' g' j' : ℝ}, 0 < f' → 0 < g' → 0 < j' → f' ≤ f → g' ≤ g → j' ≤ j →
      (fw = .marlinJerk ∨ fw = .mka → f = f') →
      junctionVel fw (some (tuned c f' g' j' A)) (tuned c f' g' j' B) (rest.map (tuned c f' g' j')) ≤
        junctionVel fw (some (tuned c f g j A)) (tuned c f g j B) (rest.map (tuned c f g j)) := by
    intro f' g' j' p1 p2 p3 q1 q2 q3 q4
    have hr : ∀ s ∈ A :: B :: rest, Raised fw (tuned c f' g' j' s) (tuned c f g j s) := fun s hs =>
      tuned_raised s (hsens s hs).1 (hsens s hs).2.1.le (hsens s hs).2.2 q1 q2 q3 q4 p3
    refine junctionVel_mono (hr A (by simp)) (hr B (by simp)) ?_ (h0' 0) (mul_pos hB p1) (mul_pos b2 p2)
      (mul_nonneg b3 p3.le) ?_
    · rw [List.forall₂_map_left_iff, List.forall₂_map_right_iff, List.forall₂_same]
      exact fun s hs => hr s (by simp [hs])
    · intro C hC
      obtain ⟨s, hs, rfl⟩ := List.mem_map.1 hC
      exact mul_nonneg (hsens s (by simp [hs])).1 p1.le
  have hg : 0 < g := (mul_pos hR.size (pow_pos hR.rate 2)).trans_le hR.acc
  have alike : fw = .marlinJerk ∨ fw = .mka → ∀ {f : ℝ}, 0 < f →
      junctionVel fw (some (tuned c f g f A)) (tuned c f g f B) (rest.map (tuned c f g f)) =
        junctionVel fw (some A) B rest * f := by
    intro hfw f hf
    have hx : 0 < f / c := div_pos hf hR.size
    have e1 := junctionVel_scaled (fw := fw) hR.size hx (some A) B rest hB.le b2 b3
    rw [mul_div_cancel₀ _ hR.size.ne'] at e1
    have e2 := junctionVel_same (fw := fw) (φ := fun s => { s with pAcc := s.pAcc / (c * (f / c) ^ 2) * g, pause := none })
      (fun _ => rfl) (fun _ => rfl) (fun _ => rfl) (Or.inl hfw) (scaled c (f / c) A) (scaled c (f / c) B)
      (rest.map (scaled c (f / c)))
    have e3 := junctionVel_same (fw := fw) (φ := fun s => { s with pause := none }) (fun _ => rfl) (fun _ => rfl) (fun _ => rfl)
      (Or.inl hfw) (tuned c f g f A) (tuned c f g f B) (rest.map (tuned c f g f))
    have e4 : ∀ s : PState ℝ, ({ scaled c (f / c) s with
        pAcc := (scaled c (f / c) s).pAcc / (c * (f / c) ^ 2) * g, pause := none } : PState ℝ) =
        { tuned c f g f s with pause := none } := by
      intro s
      simp only [scaled, tuned, PState.mk.injEq, true_and, and_true]
      have : 0 < c * (f / c) ^ 2 := mul_pos hR.size (pow_pos hx 2)
      exact ⟨by rw [mul_div_cancel₀ _ hR.size.ne'], by rw [mul_div_cancel_right₀ _ this.ne'],
        by rw [mul_div_cancel₀ _ hR.size.ne']⟩
    simp only [List.map_map, Function.comp_def, e4] at e2 e3
    rw [e3] at e2
    rw [e2]
    exact e1
  by_cases hfw : fw = .marlinJerk ∨ fw = .mka
  · rcases hfw with rfl | rfl
    · rw [← alike (Or.inl rfl) hcr]
      exact (jerk_faster hR.size hcr hR.speed A B rest).trans (mono hf hg hcr le_rfl le_rfl hR.jerk fun _ => rfl)
    · have := mono (g' := g) hf hg hf le_rfl le_rfl (hR.both rfl) fun _ => rfl
      rw [alike (Or.inr rfl) hf] at this
      exact (mul_le_mul_of_nonneg_left hR.speed (c17_junction_speed .mka (some A) B rest hB.le b3).1).trans this
  · have e1 := junctionVel_scaled (fw := fw) hR.size hR.rate (some A) B rest hB.le b2 b3
    have e2 := junctionVel_same (fw := fw) (φ := fun s => { s with pause := none }) (fun _ => rfl) (fun _ => rfl) (fun _ => rfl)
      (Or.inr fun _ => rfl) (scaled c r A) (scaled c r B) (rest.map (scaled c r))
    have e3 := junctionVel_same (fw := fw) (φ := fun s => { s with pause := none }) (fun _ => rfl) (fun _ => rfl) (fun _ => rfl)
      (Or.inr fun _ => rfl) (tuned c (c * r) (c * r ^ 2) (c * r) A) (tuned c (c * r) (c * r ^ 2) (c * r) B)
      (rest.map (tuned c (c * r) (c * r ^ 2) (c * r)))
    simp only [List.map_map, Function.comp_def] at e2 e3
    rw [← e1, Option.map_some, ← e2]
    exact e3.le.trans (mono hcr (mul_pos hR.size (pow_pos hR.rate 2)) hcr hR.speed hR.acc hR.jerk fun h => absurd h hfw)

/-! ## Motions -/

/-- The step `x'` is `x` made `c` times as large, with room for a motion that is `r` times as fast. -/
structure Looser (limit : Option (PState ℝ) → PState ℝ → List (PState ℝ) → ℝ) (c r : ℝ) (x x' : Step × List (PState ℝ)) :
    Prop where
  pause : x'.1.B.pause = x.1.B.pause
  src : x'.1.src = x.1.src.mul c
  dst : x'.1.dst = x.1.dst.mul c
  acc : x.1.B.pAcc * (c * r ^ 2) ≤ x'.1.B.pAcc
  speed : x.1.B.speed * (c * r) ≤ x'.1.B.speed
  lim : x.1.B.pause = none → (x.1.dst.sub x.1.src).norm3 ≠ 0 →
    limit (some x.1.A) x.1.B x.2 * (c * r) ≤ limit (some x'.1.A) x'.1.B x'.2

/-- The pauses among some steps. -/
noncomputable def stepPauses (xs : List (Step × List (PState ℝ))) : ℝ := (xs.map fun x => x.1.B.pause.getD 0).sum

theorem Spec.Timetable.looser {limit : Option (PState ℝ) → PState ℝ → List (PState ℝ) → ℝ} (hc : 0 < c) (hr : 0 < r) {v T : ℝ}
    {xs : List (Step × List (PState ℝ))} (h : Timetable limit v xs T) :
    ∀ {xs' : List (Step × List (PState ℝ))}, List.Forall₂ (Looser limit c r) xs xs' →
      Timetable limit (v * (c * r)) xs' ((T - stepPauses xs) / r + stepPauses xs) := by
  have hcr : 0 < c * r := mul_pos hc hr
  have hdist : ∀ p q : Vec4 ℝ, ((p.mul c).sub (q.mul c)).norm3 = (p.sub q).norm3 * c := by
    intro p q
    rw [scaled_sub, norm3_mul, abs_of_pos hc]
  induction h with
  | done v =>
    intro xs' h
    cases h
    simpa [stepPauses] using .done _
  | @pause x behind tl p t T hp ht _ ih =>
    intro xs' h
    cases h with
    | @cons _ x' _ _ h1 h2 =>
      obtain ⟨x', b'⟩ := x'
      have ih := ih h2
      rw [MulZeroClass.zero_mul] at ih ⊢
      have e : (t + T - stepPauses ((x, behind) :: tl)) / r + stepPauses ((x, behind) :: tl) =
          ((t - p) / r + p) + ((T - stepPauses tl) / r + stepPauses tl) := by
        simp only [stepPauses, List.map_cons, List.sum_cons, hp, Option.getD_some]
        ring
      rw [e]
      exact .pause (h1.pause.trans hp) (by have := div_nonneg (sub_nonneg.2 ht) hr.le; linarith) ih
  | @travel x behind tl v v' t T hp hne hd hlim _ ih =>
    intro xs' h
    cases h with
    | @cons _ x' _ _ h1 h2 =>
      obtain ⟨x', b'⟩ := x'
      have e : (t + T - stepPauses ((x, behind) :: tl)) / r + stepPauses ((x, behind) :: tl) =
          t / r + ((T - stepPauses tl) / r + stepPauses tl) := by
        simp only [stepPauses, List.map_cons, List.sum_cons, hp, Option.getD_none]
        ring
      rw [e]
      have h3 := h1.src
      have h4 := h1.dst
      simp only at h3 h4
      refine .travel (v' := v' * (c * r)) (h1.pause.trans hp) ?_ ?_ ?_ (ih h2)
      · rw [h3, h4, hdist]
        exact mul_ne_zero hne hc.ne'
      · rw [h3, h4, hdist]
        exact (hd.scaled hc hr).raise h1.acc h1.speed
      · exact (mul_le_mul_of_nonneg_right hlim hcr.le).trans (h1.lim hp hne)
  | @filament x behind tl t T hp h0 hne hd _ ih =>
    intro xs' h
    cases h with
    | @cons _ x' _ _ h1 h2 =>
      obtain ⟨x', b'⟩ := x'
      have ih := ih h2
      rw [MulZeroClass.zero_mul] at ih ⊢
      have e : (t + T - stepPauses ((x, behind) :: tl)) / r + stepPauses ((x, behind) :: tl) =
          t / r + ((T - stepPauses tl) / r + stepPauses tl) := by
        simp only [stepPauses, List.map_cons, List.sum_cons, hp, Option.getD_none]
        ring
      rw [e]
      have h3 := h1.src
      have h4 := h1.dst
      simp only at h3 h4
      refine .filament (h1.pause.trans hp) (by rw [h3, h4, hdist, h0, MulZeroClass.zero_mul]) ?_ ?_ ih
      · rw [h3, h4]
        intro he
        exact hne (mul_right_cancel₀ hc.ne' he)
      · have := (hd.scaled hc hr).raise h1.acc h1.speed
        rw [MulZeroClass.zero_mul] at this
        have e : |x'.dst.e - x'.src.e| = |x.dst.e - x.src.e| * c := by
          rw [h3, h4]
          simp only [Vec4.mul]
          rw [← sub_mul, abs_mul, abs_of_pos hc]
        rw [e]
        exact this

theorem tasks_tuned (hR : Room fw c f g j r) : ∀ (states : List (PState ℝ)) (here : Option (Vec4 ℝ)) (A : Option (PState ℝ)),
    (∀ s ∈ states, 0 ≤ s.speed ∧ 0 < s.pAcc ∧ 0 ≤ s.jerk) → (∀ s ∈ A, 0 ≤ s.speed ∧ 0 < s.pAcc ∧ 0 ≤ s.jerk) →
    List.Forall₂ (Looser (junctionVel fw) c r) (tasks here A states)
      (tasks (here.map (·.mul c)) (A.map (tuned c f g j)) (states.map (tuned c f g j)))
  | [], here, A, _, _ => by
    rw [List.map_nil, tasks, tasks]
    exact .nil
  | s :: rest, here, none, hs, _ => by
    rw [List.map_cons, Option.map_none, tasks, tasks]
    exact tasks_tuned hR rest here (some s) (fun x hx => hs x (by simp [hx])) (fun x hx => hs x (by
      cases hx
      simp))
  | s :: rest, here, some A, hs, hA => by
    rw [List.map_cons, Option.map_some, tasks, tasks]
    simp only
    have hs' : ∀ x ∈ rest, 0 ≤ x.speed ∧ 0 < x.pAcc ∧ 0 ≤ x.jerk := fun x hx => hs x (by simp [hx])
    have hA' : ∀ x ∈ some s, 0 ≤ x.speed ∧ 0 < x.pAcc ∧ 0 ≤ x.jerk := fun x hx => hs x (by
      cases hx
      simp)
    obtain ⟨r1, r2, r3⟩ := hs s (by simp)
    have hf : 0 < f := (mul_pos hR.size hR.rate).trans_le hR.speed
    have e0 : (here.map (·.mul c)).getD (tuned c f g j A).position = (here.getD A.position).mul c := by
      cases here <;> rfl
    have e1 : (tuned c f g j s).pause ≠ none ↔ s.pause ≠ none := Iff.rfl
    have e2 : Executes (tuned c f g j A) (tuned c f g j s) ↔ Executes A s := by
      unfold Executes
      exact and_congr Iff.rfl (and_congr (not_congr (mul_inj_pos hR.size)) (mul_pos_iff_of_pos_right hf))
    rw [e0]
    by_cases hp : s.pause ≠ none
    · rw [if_pos hp, if_pos (e1.2 hp)]
      exact .cons ⟨rfl, rfl, rfl, mul_le_mul_of_nonneg_left hR.acc r2.le, mul_le_mul_of_nonneg_left hR.speed r1,
        fun h => absurd h hp⟩ (tasks_tuned hR rest here (some s) hs' hA')
    · rw [if_neg hp, if_neg (mt e1.1 hp)]
      by_cases hx : Executes A s
      · rw [if_pos hx, if_pos (e2.2 hx)]
        have e3 : ((here.getD A.position).mul c).add ((tuned c f g j s).position.sub (tuned c f g j A).position) =
            ((here.getD A.position).add (s.position.sub A.position)).mul c := by
          ext <;> simp only [tuned, Vec4.add, Vec4.sub, Vec4.mul] <;> ring
        rw [e3]
        refine .cons ⟨rfl, rfl, rfl, mul_le_mul_of_nonneg_left hR.acc r2.le, mul_le_mul_of_nonneg_left hR.speed r1, ?_⟩
          (tasks_tuned hR rest (some _) (some s) hs' hA')
        intro _ hn
        refine junctionVel_tuned hR A s rest ?_ hx.2.2 ?_
        · intro h0
          apply hn
          have : ((here.getD A.position).add (s.position.sub A.position)).sub (here.getD A.position) =
              s.position.sub A.position := by
            ext <;> simp [Vec4.add, Vec4.sub]
          simp only [this]
          exact h0
        · intro x hx
          rcases List.mem_cons.1 hx with rfl | hx
          · exact hA _ rfl
          · exact hs x hx
      · rw [if_neg hx, if_neg (mt e2.1 hx)]
        exact tasks_tuned hR rest here (some s) hs' hA'

theorem stepPauses_tasks : ∀ (states : List (PState ℝ)) (here : Option (Vec4 ℝ)) (A : PState ℝ),
    stepPauses (tasks here (some A) states) = (states.map fun s => s.pause.getD 0).sum
  | [], here, A => by
    rw [tasks]
    rfl
  | s :: rest, here, A => by
    rw [tasks]
    simp only
    by_cases hp : s.pause ≠ none
    · rw [if_pos hp, stepPauses, List.map_cons, List.sum_cons, List.map_cons, List.sum_cons,
        ← stepPauses_tasks rest here s, stepPauses]
    · rw [if_neg hp, List.map_cons, List.sum_cons]
      have hp' : s.pause = none := by simpa using hp
      rw [hp', Option.getD_none, _root_.zero_add]
      by_cases hx : Executes A s
      · rw [if_pos hx, ← stepPauses_tasks rest (some ((here.getD A.position).add (s.position.sub A.position))) s, stepPauses,
          List.map_cons, List.sum_cons]
        simp [hp', stepPauses]
      · rw [if_neg hx, stepPauses_tasks rest here s]

theorem stepPauses_program (states : List (PState ℝ)) : stepPauses (tasks none none states) = pauseTime states := by
  cases states with
  | nil =>
    rw [tasks]
    rfl
  | cons s rest =>
    rw [tasks, stepPauses_tasks]
    rfl

theorem pauseTime_tuned (states : List (PState ℝ)) : pauseTime (states.map (tuned c f g j)) = pauseTime states := by
  simp [pauseTime, ← List.map_tail, Function.comp_def, tuned]

/-- **C124, the shortest possible times.** If the factors leave room for a motion that is `r` times as fast, the shortest
possible time, apart from the pauses, becomes at most `1 / r` of what it was. -/
theorem c124_least (hsens : Sensible states) (hR : Room fw c f g j r) {m m' : ℝ}
    (hm : IsLeast {T | Timetable (junctionVel fw) 0 (tasks none none states) T} m)
    (hm' : IsLeast {T | Timetable (junctionVel fw) 0 (tasks none none (states.map (tuned c f g j))) T} m') :
    m' - pauseTime states ≤ (m - pauseTime states) / r := by
  have h1 := Spec.Timetable.looser hR.size hR.rate hm.1 (tasks_tuned hR states none none
    (fun s hs => ⟨hsens.speed s hs, hsens.acc s hs, hsens.jerk s hs⟩) (by simp))
  rw [MulZeroClass.zero_mul, stepPauses_program] at h1
  have := hm'.2 h1
  linarith

theorem Spec.Sensible.tuned (hsens : Sensible states) (hf : 0 ≤ f) (hg : 0 < g) (hj : 0 ≤ j) :
    Sensible (states.map (Spec.tuned c f g j)) where
  speed s hs := by
    obtain ⟨s, hs', rfl⟩ := List.mem_map.1 hs
    exact mul_nonneg (hsens.speed s hs') hf
  acc s hs := by
    obtain ⟨s, hs', rfl⟩ := List.mem_map.1 hs
    exact mul_pos (hsens.acc s hs') hg
  jerk s hs := by
    obtain ⟨s, hs', rfl⟩ := List.mem_map.1 hs
    exact mul_nonneg (hsens.jerk s hs') hj

theorem Spec.Executes.tuned {A B : PState ℝ} (h : Executes A B) (hc : 0 < c) (hf : 0 < f) :
    Executes (Spec.tuned c f g j A) (Spec.tuned c f g j B) :=
  ⟨h.1, fun e => h.2.1 ((mul_inj_pos hc).1 e), mul_pos h.2.2 hf⟩

theorem Spec.PausesFollow.tuned (h : PausesFollow states) (hc : 0 < c) (hf : 0 < f) :
    PausesFollow (states.map (Spec.tuned c f g j)) := by
  intro pre s post he p hp
  obtain ⟨l1, l2, rfl, rfl, e3⟩ := List.map_eq_append_iff.1 he
  obtain ⟨s', l3, rfl, rfl, rfl⟩ := List.map_eq_cons_iff.1 e3
  obtain ⟨h0, l, A, B, r, rfl, hx⟩ := h l1 s' l3 rfl p hp
  exact ⟨h0, l.map (Spec.tuned c f g j), Spec.tuned c f g j A, Spec.tuned c f g j B, r.map (Spec.tuned c f g j), by simp,
    Spec.Executes.tuned (g := g) (j := j) hx hc hf⟩

theorem tuned_back (hc : 0 < c) (hf : 0 < f) (hg : 0 < g) (hj : 0 < j) (states : List (PState ℝ)) :
    (states.map (tuned c f g j)).map (tuned c⁻¹ f⁻¹ g⁻¹ j⁻¹) = states := by
  rw [List.map_map]
  conv_rhs => rw [← List.map_id states]
  refine List.map_congr_left fun s _ => ?_
  obtain ⟨⟨x, y, z, e⟩, v, a, jk, pa, l⟩ := s
  simp [tuned, Vec4.mul, mul_inv_cancel_right₀, hc.ne', hf.ne', hg.ne', hj.ne']

/-- **C124.** A program and the program with other factors are planned or rejected alike. -/
theorem c124_plannable (hsens : Sensible states) (hc : 0 < c) (hf : 0 < f) (hg : 0 < g) (hj : 0 < j) :
    (∃ bs, plan fw (states.map (tuned c f g j)) = .ok bs) ↔ ∃ bs, plan fw states = .ok bs := by
  rw [c86_plannable fw hsens, c86_plannable fw (hsens.tuned hf.le hg hj.le)]
  constructor
  · intro h
    have := h.tuned (g := g⁻¹) (j := j⁻¹) (inv_pos.2 hc) (inv_pos.2 hf)
    rwa [tuned_back hc hf hg hj] at this
  · exact fun h => h.tuned hc hf

theorem forall₂_partner {α β : Type} {R : α → β → Prop} {l : List α} {l' : List β} (h : List.Forall₂ R l l') :
    ∀ y ∈ l', ∃ x ∈ l, R x y := by
  induction h with
  | nil => simp
  | @cons a b l l' h1 _ ih =>
    intro y hy
    rcases List.mem_cons.1 hy with rfl | hy
    · exact ⟨a, by simp, h1⟩
    · obtain ⟨x, hx, h2⟩ := ih y hy
      exact ⟨x, by simp [hx], h2⟩

theorem tasksTravel_tuned (h : TasksTravel states) (hc : 0 < c) (hf : 0 < f) (hg : 0 < g) (hj : 0 < j)
    (hsens : Sensible states) : TasksTravel (states.map (tuned c f g j)) := by
  have hx : ∃ r, Room .default c f g j r := by
    refine ⟨min (f / c) (min (g / (c * (f / c))) (j / c)), hc, ?_, ?_, ?_, ?_, by simp⟩
    · exact lt_min (div_pos hf hc) (lt_min (div_pos hg (mul_pos hc (div_pos hf hc))) (div_pos hj hc))
    · rw [mul_comm, ← le_div_iff₀ hc]
      exact min_le_left _ _
    · set r := min (f / c) (min (g / (c * (f / c))) (j / c)) with hr
      have r0 : 0 < r := lt_min (div_pos hf hc) (lt_min (div_pos hg (mul_pos hc (div_pos hf hc))) (div_pos hj hc))
      have r1 : r ≤ f / c := min_le_left _ _
      have r2 : r ≤ g / (c * (f / c)) := (min_le_right _ _).trans (min_le_left _ _)
      have r3 := (le_div_iff₀ (mul_pos hc (div_pos hf hc))).1 r2
      calc c * r ^ 2 = r * (c * r) := by ring
        _ ≤ r * (c * (f / c)) := mul_le_mul_of_nonneg_left (mul_le_mul_of_nonneg_left r1 hc.le) r0.le
        _ ≤ g := r3
    · rw [mul_comm, ← le_div_iff₀ hc]
      exact (min_le_right _ _).trans (min_le_right _ _)
  obtain ⟨r, hR⟩ := hx
  have hL := tasks_tuned hR states none none
    (fun s hs => ⟨hsens.speed s hs, hsens.acc s hs, hsens.jerk s hs⟩) (by simp)
  intro x' hx' hp
  obtain ⟨x, hx, hl⟩ := forall₂_partner hL x' hx'
  rw [hl.src, hl.dst, scaled_sub, norm3_mul]
  exact mul_ne_zero (h x hx (hl.pause ▸ hp)) (abs_pos.2 hc.ne').ne'

/-- **C124.** If the factors leave room for a motion that is `r` times as fast, the print, apart from the pauses, takes at
most `1 / r` of the time it took, up to the planner's tolerance. -/
theorem c124_tuned (hsens : Sensible states) (hR : Room fw c f g j r) (hfw : fw = .marlinJerk → TasksTravel states) {t t' : ℝ}
    (h : plan fw states = .ok bs) (ht : EndTime (Spec.path bs) t)
    (h' : plan fw (states.map (tuned c f g j)) = .ok bs') (ht' : EndTime (Spec.path bs') t') :
    t' - pauseTime states ≤ (t + slack states - pauseTime states) / r := by
  have hcr := mul_pos hR.size hR.rate
  have hsens' : Sensible (states.map (tuned c f g j)) := hsens.tuned (hcr.trans_le hR.speed).le
    ((mul_pos hR.size (pow_pos hR.rate 2)).trans_le hR.acc) (hcr.trans_le hR.jerk).le
  obtain ⟨m, hm, _, h2⟩ := c121_print_time hsens h ht
  obtain ⟨m', hm', h3, _⟩ := c121_print_time hsens' h' ht'
  have h4 := c124_least hsens hR hm hm'
  have h5 := div_le_div_of_nonneg_right (sub_le_sub_right (h2 hfw) (pauseTime states)) hR.rate.le
  linarith

theorem slack_tuned (states : List (PState ℝ)) : slack (states.map (tuned c f 1 j)) = slack states := by
  simp [slack, tuned, Function.comp_def]

/-- **C124, the other way round.** -/
theorem tuned_lower (hsens : Sensible states) (hc : 0 < c) (hf : 0 < f) (hg : 0 < g) (hj : 0 < j)
    (hR : Room fw c⁻¹ f⁻¹ g⁻¹ j⁻¹ r) (hfw : fw = .marlinJerk → TasksTravel states) {t t' : ℝ}
    (h : plan fw states = .ok bs) (ht : EndTime (Spec.path bs) t)
    (h' : plan fw (states.map (tuned c f g j)) = .ok bs') (ht' : EndTime (Spec.path bs') t') :
    r * (t - pauseTime states) ≤ t' + slack (states.map (tuned c f g j)) - pauseTime states := by
  have := c124_tuned (hsens.tuned hf.le hg hj.le) hR (fun hx => tasksTravel_tuned (hfw hx) hc hf hg hj hsens) h' ht'
    (by rw [tuned_back hc hf hg hj]; exact h) ht
  rw [pauseTime_tuned, le_div_iff₀ hR.rate] at this
  linarith

/-- **C124, size.** A part that is `c ≥ 1` times as large takes at least `√c` and at most `c` times as long, apart from the
pauses and up to the planner's tolerance. -/
theorem c124_size (hsens : Sensible states) (hc : 1 ≤ c) (hfw : fw = .marlinJerk → TasksTravel states) {t t' : ℝ}
    (h : plan fw states = .ok bs) (ht : EndTime (Spec.path bs) t)
    (h' : plan fw (states.map (tuned c 1 1 1)) = .ok bs') (ht' : EndTime (Spec.path bs') t') :
    √c * (t - pauseTime states) ≤ t' - pauseTime states + slack states ∧
      t' - pauseTime states ≤ c * (t - pauseTime states + slack states) := by
  have c0 : 0 < c := by linarith
  have s1 : 1 ≤ √c := Real.one_le_sqrt.2 hc
  have s2 : √c ^ 2 = c := Real.sq_sqrt c0.le
  constructor
  · have := tuned_lower hsens c0 one_pos one_pos one_pos (r := √c)
      ⟨inv_pos.2 c0, by linarith, by
        rw [inv_one, inv_mul_le_iff₀ c0, mul_one]
        nlinarith, by rw [s2, inv_mul_cancel₀ c0.ne', inv_one], by
        rw [inv_one, inv_mul_le_iff₀ c0, mul_one]
        nlinarith, fun _ => le_rfl⟩ hfw h ht h' ht'
    rw [slack_tuned] at this
    linarith
  · have := c124_tuned hsens (r := c⁻¹) ⟨c0, inv_pos.2 c0, by rw [mul_inv_cancel₀ c0.ne'], by
        rw [pow_two, ← mul_assoc, mul_inv_cancel₀ c0.ne', _root_.one_mul]
        exact inv_le_one_of_one_le₀ hc, by rw [mul_inv_cancel₀ c0.ne'], fun _ => le_rfl⟩ hfw h ht h' ht'
    rw [div_inv_eq_mul] at this
    linarith

/-- **C124, feedrates.** Feedrates `f ≥ 1` times as high make a print at most `f` times as fast, apart from the pauses and up
to the planner's tolerance; except with `MKA` they do not make it slower. -/
theorem c124_feedrates (hsens : Sensible states) (hf : 1 ≤ f) (hfw : fw = .marlinJerk → TasksTravel states) {t t' : ℝ}
    (h : plan fw states = .ok bs) (ht : EndTime (Spec.path bs) t)
    (h' : plan fw (states.map (tuned 1 f 1 1)) = .ok bs') (ht' : EndTime (Spec.path bs') t') :
    (t - pauseTime states) / f ≤ t' - pauseTime states + slack states ∧
      (fw ≠ .mka → t' ≤ t + slack states) := by
  have f0 : 0 < f := by linarith
  have hi : f⁻¹ ≤ 1 := inv_le_one_of_one_le₀ hf
  have hi0 := inv_pos.2 f0
  constructor
  · have := tuned_lower hsens one_pos f0 one_pos one_pos (r := f⁻¹)
      ⟨by norm_num, hi0, by simp, by
        rw [inv_one, _root_.one_mul]
        nlinarith, by simpa using hi, fun _ => by simpa using hi⟩ hfw h ht h' ht'
    rw [slack_tuned, inv_mul_eq_div] at this
    linarith
  · intro h1
    have := c124_tuned hsens (r := 1) ⟨one_pos, one_pos, by simpa using hf, by simp, by simp,
      fun hx => absurd hx h1⟩ hfw h ht h' ht'
    rw [div_one] at this
    linarith

/-- **C124, accelerations.** Accelerations `g ≥ 1` times as high make a print at most `√g` times as fast, apart from the
pauses, and not slower, up to the planner's tolerance. -/
theorem c124_accelerations (hsens : Sensible states) (hg : 1 ≤ g) (hfw : fw = .marlinJerk → TasksTravel states) {t t' : ℝ}
    (h : plan fw states = .ok bs) (ht : EndTime (Spec.path bs) t)
    (h' : plan fw (states.map (tuned 1 1 g 1)) = .ok bs') (ht' : EndTime (Spec.path bs') t') :
    (t - pauseTime states) / √g ≤ t' - pauseTime states + slack (states.map (tuned 1 1 g 1)) ∧ t' ≤ t + slack states := by
  have g0 : 0 < g := by linarith
  have s1 : 1 ≤ √g := Real.one_le_sqrt.2 hg
  have s0 : 0 < √g := by linarith
  have hi : (√g)⁻¹ ≤ 1 := inv_le_one_of_one_le₀ s1
  constructor
  · have := tuned_lower hsens one_pos one_pos g0 one_pos (r := (√g)⁻¹)
      ⟨by norm_num, inv_pos.2 s0, by simpa using hi, by
        rw [inv_one, _root_.one_mul, inv_pow, Real.sq_sqrt g0.le], by simpa using hi, fun _ => le_rfl⟩ hfw h ht h' ht'
    rw [inv_mul_eq_div] at this
    linarith
  · have := c124_tuned hsens (r := 1) ⟨one_pos, one_pos, by simp, by simpa using hg, by simp, fun _ => le_rfl⟩ hfw h ht h' ht'
    rw [div_one] at this
    linarith

/-- **C124, jerk.** Jerk settings `j ≥ 1` times as high do not make a print slower, up to the planner's tolerance, and except
with `MKA` at most `j` times as fast, apart from the pauses. -/
theorem c124_jerk (hsens : Sensible states) (hj : 1 ≤ j) (hfw : fw = .marlinJerk → TasksTravel states) {t t' : ℝ}
    (h : plan fw states = .ok bs) (ht : EndTime (Spec.path bs) t)
    (h' : plan fw (states.map (tuned 1 1 1 j)) = .ok bs') (ht' : EndTime (Spec.path bs') t') :
    (fw ≠ .mka → (t - pauseTime states) / j ≤ t' - pauseTime states + slack states) ∧ t' ≤ t + slack states := by
  have j0 : 0 < j := by linarith
  have hi : j⁻¹ ≤ 1 := inv_le_one_of_one_le₀ hj
  have hi0 := inv_pos.2 j0
  constructor
  · intro h1
    have := tuned_lower hsens one_pos one_pos one_pos j0 (r := j⁻¹)
      ⟨by norm_num, hi0, by simpa using hi, by
        rw [inv_one, _root_.one_mul]
        nlinarith, by simp, fun hx => absurd hx h1⟩ hfw h ht h' ht'
    rw [slack_tuned, inv_mul_eq_div] at this
    linarith
  · have := c124_tuned hsens (r := 1) ⟨one_pos, one_pos, by simp, by simp, by simpa using hj, fun _ => hj⟩ hfw h ht h' ht'
    rw [div_one] at this
    linarith

/-! ## Higher feedrates with `MKA` -/

/-- A place, reached with 10 mm/s. The jerk is 10 mm/s. -/
noncomputable def Demo.calm (x y : ℝ) : PState ℝ := ⟨⟨x, y, 0, 0⟩, 10, 100, 10, none, none⟩

theorem Demo.calm_norm {x y x' y' : ℝ} (f : ℝ) (h : (x' - x) ^ 2 + (y' - y) ^ 2 = 1) :
    ((tuned 1 f 1 1 (Demo.calm x' y')).position.sub (tuned 1 f 1 1 (Demo.calm x y)).position).norm3 = 1 := by
  unfold norm3
  rw [sqrt_real, Real.sqrt_eq_one]
  simp only [Demo.calm, tuned, Vec4.sub, Vec4.mul]
  linarith

/-- A corner of two moves of 1 mm. -/
noncomputable def Demo.elbow : List (PState ℝ) := [Demo.calm 0 0, Demo.calm 1 0, Demo.calm 1 1]

theorem Demo.elbow_sensible : Sensible Demo.elbow := by
  refine ⟨?_, ?_, ?_⟩ <;> intro s hs <;> simp only [Demo.elbow, List.mem_cons, List.not_mem_nil, or_false] at hs <;>
    rcases hs with rfl | rfl | rfl <;> norm_num [Demo.calm]

theorem Demo.elbow_tasks {f : ℝ} (hf : 0 < f) : tasks none none (Demo.elbow.map (tuned 1 f 1 1)) =
    [(⟨tuned 1 f 1 1 (Demo.calm 0 0), tuned 1 f 1 1 (Demo.calm 1 0), (tuned 1 f 1 1 (Demo.calm 0 0)).position,
        (tuned 1 f 1 1 (Demo.calm 1 0)).position⟩, [tuned 1 f 1 1 (Demo.calm 1 1)]),
      (⟨tuned 1 f 1 1 (Demo.calm 1 0), tuned 1 f 1 1 (Demo.calm 1 1), (tuned 1 f 1 1 (Demo.calm 1 0)).position,
        (tuned 1 f 1 1 (Demo.calm 1 1)).position⟩, [])] := by
  have x1 : Executes (tuned 1 f 1 1 (Demo.calm 0 0)) (tuned 1 f 1 1 (Demo.calm 1 0)) :=
    ⟨rfl, by simp [tuned, Demo.calm, Vec4.mul], by simp [tuned, Demo.calm, hf]⟩
  have x2 : Executes (tuned 1 f 1 1 (Demo.calm 1 0)) (tuned 1 f 1 1 (Demo.calm 1 1)) :=
    ⟨rfl, by simp [tuned, Demo.calm, Vec4.mul], by simp [tuned, Demo.calm, hf]⟩
  have e : ∀ p q : Vec4 ℝ, p.add (q.sub p) = q := by
    intro p q
    ext <;> simp [Vec4.add, Vec4.sub]
  simp only [Demo.elbow, List.map_cons, List.map_nil]
  rw [tasks, tasks]
  simp only
  rw [if_neg (by simp [tuned, Demo.calm]), if_pos x1, tasks]
  simp only
  rw [if_neg (by simp [tuned, Demo.calm]), if_pos x2, tasks]
  simp only [Option.getD_none, Option.getD_some, e]

theorem Demo.elbow_speed {f : ℝ} (hf : 0 < f) :
    junctionVel .mka (some (tuned 1 f 1 1 (Demo.calm 0 0))) (tuned 1 f 1 1 (Demo.calm 1 0)) [tuned 1 f 1 1 (Demo.calm 1 1)] =
      Spec.mka (10 * f) 10 (10 * f) (10 * f) 0 0 := by
  have n1 := Demo.calm_norm (x := 0) (y := 0) (x' := 1) (y' := 0) f (by norm_num)
  have n2 := Demo.calm_norm (x := 1) (y := 0) (x' := 1) (y' := 1) f (by norm_num)
  have hn : NextMove (tuned 1 f 1 1 (Demo.calm 1 0)) [tuned 1 f 1 1 (Demo.calm 1 1)] (tuned 1 f 1 1 (Demo.calm 1 1)) :=
    ⟨[], [], rfl, by simp, by simp [tuned, Demo.calm, Vec4.mul]⟩
  have hs : ∀ x y, (tuned 1 f 1 1 (Demo.calm x y)).speed = 10 * f := fun _ _ => rfl
  rw [c61_mka_law (u := ⟨1, 0, 0, 0⟩) (w := ⟨0, 1, 0, 0⟩) hn (by rw [n1]; norm_num) (by rw [n2]; norm_num)
    (by rw [hs]; linarith) (by rw [hs]; linarith) (by norm_num [tuned, Demo.calm])
    (by rw [n1]; ext <;> norm_num [tuned, Demo.calm, Vec4.add, Vec4.mul])
    (by rw [n2]; ext <;> norm_num [tuned, Demo.calm, Vec4.add, Vec4.mul])]
  simp only [hs, min_self]
  have hj : (tuned 1 f 1 1 (Demo.calm 1 0)).jerk = 10 := by norm_num [tuned, Demo.calm]
  have hx : 10 * f / (10 * f) = 1 := div_self (by positivity)
  have ha : |10 * f| = 10 * f := abs_of_pos (by positivity)
  have hm : max (10 * f) 0 = 10 * f := max_eq_left (by positivity)
  have hm' : max 0 (10 * f) = 10 * f := max_eq_right (by positivity)
  simp only [hj, hx, axisJump, mul_one, MulZeroClass.mul_zero, MulZeroClass.zero_mul, lt_irrefl, if_false, ha, abs_zero, hm, hm',
    max_self]

/-- **C124** does not go further: with `MKA` the corner takes longer at twice the feedrate. -/
theorem c124_mka_slower : ∃ bs bs' t t', plan .mka Demo.elbow = .ok bs ∧ EndTime (Spec.path bs) t ∧
    plan .mka (Demo.elbow.map (tuned 1 2 1 1)) = .ok bs' ∧ EndTime (Spec.path bs') t' ∧ t + 0.05 ≤ t' := by
  have e1 : Demo.elbow.map (tuned 1 1 1 1) = Demo.elbow := by
    simp [Demo.elbow, tuned, Demo.calm, Vec4.mul]
  have hs := Demo.elbow_sensible
  have hs' : Sensible (Demo.elbow.map (tuned 1 2 1 1)) := hs.tuned (by norm_num) one_pos zero_le_one
  have hf : PausesFollow Demo.elbow := by
    intro pre s post he p hp
    have hm : s ∈ Demo.elbow := by rw [he]; simp
    simp only [Demo.elbow, List.mem_cons, List.not_mem_nil, or_false] at hm
    rcases hm with rfl | rfl | rfl <;> cases hp
  have hx : Executes (Demo.calm 0 0) (Demo.calm 1 0) := ⟨rfl, by simp [Demo.calm], by norm_num [Demo.calm]⟩
  obtain ⟨bs, t, h, ht⟩ := exists_endTime_sensible .mka hs hf ⟨[], _, _, _, rfl, hx⟩
  obtain ⟨bs', t', h', ht'⟩ := exists_endTime_sensible .mka hs' (hf.tuned one_pos two_pos)
    ⟨[], _, _, _, rfl, hx.tuned one_pos two_pos⟩
  refine ⟨bs, bs', t, t', h, ht, h', ht', ?_⟩
  have n1 := fun f => Demo.calm_norm (x := 0) (y := 0) (x' := 1) (y' := 0) f (by norm_num)
  have n2 := fun f => Demo.calm_norm (x := 1) (y := 0) (x' := 1) (y' := 1) f (by norm_num)
  have lo : t ≤ 0.3 := by
    have hT : Timetable (junctionVel .mka) 0 (tasks none none Demo.elbow) (0.15 + (0.15 + 0)) := by
      rw [← e1, Demo.elbow_tasks one_pos]
      have d : Drive 100 10 1 0 10 0.15 :=
        Phases.drive (ta := 0.1) (tc := 0.05) (td := 0) (vp := 10) (by norm_num)
          ⟨by norm_num, by norm_num, by norm_num, by norm_num, by norm_num, by norm_num, by norm_num, by norm_num⟩
          (by norm_num) (by norm_num) (by norm_num)
      have d' : Drive 100 10 1 10 0 0.15 :=
        Phases.drive (ta := 0) (tc := 0.05) (td := 0.1) (vp := 10) (by norm_num)
          ⟨by norm_num, by norm_num, by norm_num, by norm_num, by norm_num, by norm_num, by norm_num, by norm_num⟩
          (by norm_num) (by norm_num) (by norm_num)
      have hp : ∀ x y, (tuned 1 1 1 1 (Demo.calm x y)).pAcc = 100 := by intro x y; norm_num [tuned, Demo.calm]
      have hv : ∀ x y, (tuned 1 1 1 1 (Demo.calm x y)).speed = 10 := by intro x y; norm_num [tuned, Demo.calm]
      refine .travel (v' := 10) rfl (by simp only [n1]; norm_num) (by simp only [n1, hp, hv]; exact d) ?_
        (.travel (v' := 0) rfl (by simp only [n2]; norm_num) (by simp only [n2, hp, hv]; exact d') ?_ (.done _))
      · simp only
        rw [Demo.elbow_speed one_pos]
        norm_num [Spec.mka, cap]
      · exact (c17_junction_speed .mka _ _ _ (by rw [hv]; norm_num) (by norm_num [tuned, Demo.calm])).1
    have := c118_fastest hs h hT ht
    norm_num at this ⊢
    linarith
  have hi : 0.36 ≤ t' + slack (Demo.elbow.map (tuned 1 2 1 1)) := by
    obtain ⟨m, hm, _, h2⟩ := c121_print_time hs' h' ht'
    refine le_trans ?_ (h2 (by simp))
    have hT : Timetable _ _ _ _ := hm.1
    rw [Demo.elbow_tasks two_pos] at hT
    have hp : ∀ x y, (tuned 1 2 1 1 (Demo.calm x y)).pAcc = 100 := by intro x y; norm_num [tuned, Demo.calm]
    have hv : ∀ x y, (tuned 1 2 1 1 (Demo.calm x y)).speed = 20 := by intro x y; norm_num [tuned, Demo.calm]
    have slowly : ∀ {v v' T : ℝ}, Drive 100 20 1 v v' T → v + v' ≤ 1.25 → 0.18 ≤ T := by
      intro v v' T hd hvv
      have T0 : 0 ≤ T := hd.1
      have := hd.bound (m := T / 2) (n := T / 2) (by linarith) le_rfl (by linarith)
      by_contra hlt
      push Not at hlt
      nlinarith
    cases hT with
    | pause hp => cases hp
    | filament _ h0 =>
      simp only [n1] at h0
      norm_num at h0
    | @travel _ _ _ _ v' a T _ _ hd hlim htl =>
      simp only [n1, hp, hv] at hd
      simp only at hlim
      rw [Demo.elbow_speed two_pos] at hlim
      norm_num [Spec.mka, cap] at hlim
      have q1 := slowly hd (by linarith)
      cases htl with
      | pause hp => cases hp
      | filament _ h0 =>
        simp only [n2] at h0
        norm_num at h0
      | @travel _ _ _ _ v'' b T _ _ hd' hlim' htl =>
        simp only [n2, hp, hv] at hd'
        cases htl
        have : v'' ≤ 0 := by
          simp only at hlim'
          exact hlim'.trans (c62_stop (by simp) _ (by norm_num [tuned, Demo.calm]) (Or.inl (by simp))).le
        have q2 := slowly hd' (by linarith)
        norm_num at q1 q2 ⊢
        linarith
  have sl : slack (Demo.elbow.map (tuned 1 2 1 1)) ≤ 0.001 := by
    norm_num [slack, Demo.elbow, tuned, Demo.calm]
  norm_num at lo hi sl ⊢
  linarith

/-- The example with lost moves, twice as large, meets the hypotheses of `c124_size`: it can be planned, with its pause. -/
example : ∃ bs bs', plan .klipper Demo.lossy = .ok bs ∧ plan .klipper (Demo.lossy.map (tuned 2 1 1 1)) = .ok bs' := by
  obtain ⟨bs, h⟩ := (c86_plannable .klipper Demo.lossy_sensible).2 Demo.lossy_follow
  obtain ⟨bs', h'⟩ := (c124_plannable (fw := .klipper) (c := 2) Demo.lossy_sensible (by norm_num) one_pos one_pos one_pos).2 ⟨bs, h⟩
  exact ⟨bs, bs', h, h'⟩

end PyGCD
