import Verif.Spec.Rest
import Verif.Proofs.DoubleProfile
import Verif.Props.Stops
import Verif.Props.Plannable
import Verif.Props.Query

/-!
# Blocks that begin and end at rest follow the closed formulas
-/

set_option linter.unusedSectionVars false
set_option linter.unusedSimpArgs false

namespace PyGCD
open PyGCD.Spec Vec4

/-- The top speed of a move from rest to rest. -/
theorem rest_top {a v D : ℝ} (ha : 0 < a) (hv : 0 < v) (hD : 0 < D) :
    0 < min v √(a * D) ∧ min v √(a * D) / a ≤ D / min v √(a * D) := by
  have haD : 0 < a * D := by positivity
  have h0 : 0 < min v √(a * D) := lt_min hv (Real.sqrt_pos.2 haD)
  refine ⟨h0, ?_⟩
  rw [div_le_div_iff₀ ha h0]
  have h1 : min v √(a * D) ≤ √(a * D) := min_le_right _ _
  calc min v √(a * D) * min v √(a * D) ≤ √(a * D) * √(a * D) := by gcongr
    _ = D * a := by rw [Real.mul_self_sqrt haD.le, mul_comm]

theorem restWay_up {a v D x : ℝ} (h0 : 0 ≤ x) (h1 : x ≤ min v √(a * D) / a) : restWay a v D x = a * x ^ 2 / 2 := by
  unfold restWay
  simp only
  by_cases h : x ≤ 0
  · rw [if_pos h, show x = 0 by linarith]
    ring
  · rw [if_neg h, if_pos h1]

theorem restWay_cruise {a v D x : ℝ} (ha : 0 < a) (hv : 0 < v) (hD : 0 < D) (h0 : min v √(a * D) / a ≤ x)
    (h1 : x ≤ D / min v √(a * D)) :
    restWay a v D x = min v √(a * D) * x - min v √(a * D) ^ 2 / (2 * a) := by
  obtain ⟨hw, _⟩ := rest_top ha hv hD
  by_cases h : x ≤ min v √(a * D) / a
  · have hx : x = min v √(a * D) / a := le_antisymm h h0
    rw [restWay_up (h0.trans' (by positivity)) h, hx]
    field_simp
    ring
  · unfold restWay
    simp only
    rw [if_neg (by have := div_pos hw ha; linarith), if_neg h, if_pos h1]

theorem restWay_down {a v D x : ℝ} (ha : 0 < a) (hv : 0 < v) (hD : 0 < D) (h0 : D / min v √(a * D) ≤ x)
    (h1 : x ≤ D / min v √(a * D) + min v √(a * D) / a) :
    restWay a v D x = D - a * (D / min v √(a * D) + min v √(a * D) / a - x) ^ 2 / 2 := by
  obtain ⟨hw, hle⟩ := rest_top ha hv hD
  by_cases h : x ≤ D / min v √(a * D)
  · have hx : x = D / min v √(a * D) := le_antisymm h h0
    rw [restWay_cruise ha hv hD (hle.trans h0) h, hx]
    field_simp
    ring
  · unfold restWay
    simp only
    have := div_pos hw ha
    rw [if_neg (by linarith), if_neg (by linarith), if_neg h, if_pos h1]

theorem restWay_end {a v D x : ℝ} (ha : 0 < a) (hv : 0 < v) (hD : 0 < D)
    (h0 : D / min v √(a * D) + min v √(a * D) / a ≤ x) : restWay a v D x = D := by
  obtain ⟨hw, hle⟩ := rest_top ha hv hD
  have hp := div_pos hw ha
  by_cases h : x ≤ D / min v √(a * D) + min v √(a * D) / a
  · have hx := le_antisymm h h0
    rw [restWay_down ha hv hD (by linarith) h, hx]
    ring
  · unfold restWay
    simp only
    rw [if_neg (by linarith), if_neg (by linarith), if_neg (by linarith), if_neg h]

theorem restWay_begin {a v D x : ℝ} (h : x ≤ 0) : restWay a v D x = 0 := by
  unfold restWay
  simp only
  rw [if_pos h]

theorem restSpeed_up {a v D x : ℝ} (ha : 0 < a) (hv : 0 < v) (hD : 0 < D) (h0 : 0 ≤ x)
    (h1 : x ≤ min v √(a * D) / a) : restSpeed a v D x = a * x := by
  obtain ⟨hw, hle⟩ := rest_top ha hv hD
  unfold restSpeed
  simp only
  have e1 : a * x ≤ min v √(a * D) := by rw [le_div_iff₀ ha] at h1; linarith
  have e2 : a * x ≤ a * (D / min v √(a * D) + min v √(a * D) / a - x) := by gcongr; linarith
  rw [min_eq_left e2, min_eq_right e1, max_eq_right (by positivity)]

theorem restSpeed_cruise {a v D x : ℝ} (ha : 0 < a) (hv : 0 < v) (hD : 0 < D) (h0 : min v √(a * D) / a ≤ x)
    (h1 : x ≤ D / min v √(a * D)) : restSpeed a v D x = min v √(a * D) := by
  obtain ⟨hw, hle⟩ := rest_top ha hv hD
  unfold restSpeed
  simp only
  have e1 : min v √(a * D) ≤ a * x := by rw [div_le_iff₀ ha] at h0; linarith
  have e2 : min v √(a * D) ≤ a * (D / min v √(a * D) + min v √(a * D) / a - x) := by
    calc min v √(a * D) = a * (min v √(a * D) / a) := by field_simp
      _ ≤ _ := by gcongr; linarith
  rw [min_eq_left (le_min e1 e2), max_eq_right hw.le]

theorem restSpeed_down {a v D x : ℝ} (ha : 0 < a) (hv : 0 < v) (hD : 0 < D) (h0 : D / min v √(a * D) ≤ x)
    (h1 : x ≤ D / min v √(a * D) + min v √(a * D) / a) :
    restSpeed a v D x = a * (D / min v √(a * D) + min v √(a * D) / a - x) := by
  obtain ⟨hw, hle⟩ := rest_top ha hv hD
  unfold restSpeed
  simp only
  have e1 : a * (D / min v √(a * D) + min v √(a * D) / a - x) ≤ min v √(a * D) := by
    calc _ ≤ a * (min v √(a * D) / a) := by gcongr; linarith
      _ = _ := by field_simp
  have e2 : a * (D / min v √(a * D) + min v √(a * D) / a - x) ≤ a * x := by gcongr; linarith
  rw [min_eq_right e2, min_eq_right e1, max_eq_right (mul_nonneg ha.le (by linarith))]

/-- The two formulas for the way agree. -/
theorem restDist_eq {a v D : ℝ} (ha : 0 < a) (hv : 0 < v) (hD : 0 < D) (x : ℝ) :
    restDist a v D x = restWay a v D x := by
  obtain ⟨hw, hle⟩ := rest_top ha hv hD
  have hp := div_pos hw ha
  have hq := div_pos hD hw
  unfold restDist
  rw [topSpeed_rest]
  rcases le_total x 0 with h | h
  · rw [restWay_begin h, covered_of_nonpos hq.le h, MulZeroClass.mul_zero]
  rcases le_total x (min v √(a * D) / a) with h1 | h1
  · rw [restWay_up h h1, covered, ramped_on h h1, ramped_of_nonpos (by linarith)]
    field_simp
    ring
  rcases le_total x (D / min v √(a * D)) with h2 | h2
  · rw [restWay_cruise ha hv hD h1 h2, covered, ramped_after hp.le h1, ramped_of_nonpos (by linarith)]
    field_simp
    ring
  rcases le_total x (D / min v √(a * D) + min v √(a * D) / a) with h3 | h3
  · rw [restWay_down ha hv hD h2 h3, covered, ramped_after hp.le h1, ramped_on (by linarith) (by linarith)]
    field_simp
    ring
  · rw [restWay_end ha hv hD h3, covered_end hp.le hq.le h3]
    field_simp

/-- A segment with constant acceleration. -/
theorem slope_values {u p p₁ : Vec4 ℝ} {t₁ t₂ v₁ v₂ k t : ℝ} (ht : t₁ < t₂) (hv : v₂ = v₁ + k * (t₂ - t₁)) (h1 : t₁ ≤ t)
    (h2 : t ≤ t₂) :
    (⟨t₁, t₂, p, u.mul v₁, p₁, u.mul v₂⟩ : Segment ℝ).getVelocity t = .ok (u.mul (v₁ + k * (t - t₁))) ∧
    (⟨t₁, t₂, p, u.mul v₁, p₁, u.mul v₂⟩ : Segment ℝ).getPosition t =
      .ok (p.add (u.mul (v₁ * (t - t₁) + k * (t - t₁) ^ 2 / 2))) := by
  have hne := (sub_pos.2 ht).ne'
  have e : (⟨t₁, t₂, p, u.mul v₁, p₁, u.mul v₂⟩ : Segment ℝ).getVelocity t = .ok (u.mul (v₁ + k * (t - t₁))) := by
    unfold Segment.getVelocity
    simp only
    rw [if_neg (by push Not; exact ⟨h1, h2⟩), if_pos (sub_pos.2 ht), hv]
    congr 1
    ext <;> simp only [Vec4.add, Vec4.mul, Vec4.sub, Vec4.div] <;> field_simp <;> ring
  refine ⟨e, ?_⟩
  unfold Segment.getPosition
  simp only
  rw [if_neg (by push Not; exact ⟨h1, h2⟩), e]
  simp only [bind, Except.bind]
  congr 1
  ext <;> simp only [Vec4.add, Vec4.mul, Vec4.div] <;> ring

variable {u : Vec4 ℝ} {eo : Bool} {a vT : ℝ}

/-- A move from rest to rest. -/
theorem rest_values (hu : UnitDir u eo) (ha : 0 < a) (hvT : 0 < vT) {l : List (Segment ℝ)} {p p' : Vec4 ℝ} {t₀ t' d : ℝ}
    (h : Ramp u a vT p t₀ 0 l p' t' 0) (hl : Profile u a vT l) (hd : p' = p.add (u.mul d)) (hd0 : 0 < d)
    {s : Segment ℝ} (hs : s ∈ l) {t : ℝ} (ht : s.tBegin ≤ t) (ht' : t ≤ s.tEnd) :
    s.getVelocity t = .ok (u.mul (restSpeed a vT d (t - t₀))) ∧
      s.getPosition t = .ok (p.add (u.mul (restWay a vT d (t - t₀)))) := by
  obtain ⟨l1, l2, l3, rfl, h1, h2, h3, -⟩ := hl
  obtain ⟨q, r, w, hr, hr3⟩ := h.split
  obtain ⟨q1, r1, w1, hr1, hr2⟩ := hr.split
  obtain ⟨a1, a2, a3⟩ := up_ramp hu hr1 h1
  obtain ⟨b1, b2, b3, b4⟩ := cruise_ramp hu hr2 h2
  obtain ⟨c1, c2, c3⟩ := down_ramp hu hr3 h3
  subst b2
  have hw1 : w ≤ vT := by
    cases hr1 with
    | nil => exact hvT.le
    | cons g1 g2 g3 g4 g5 g6 g7 =>
      rename_i ss
      cases ss with
      | nil =>
        cases g7
        exact g2.2
      | cons s ss => exact (Ramp.le_of_cons g7)
  have hph : Phases a vT d 0 0 (t' - t₀) (r1 - t₀) (r - r1) (t' - r) w := by
    refine ⟨by linarith, by linarith, by linarith, a2, c2, fun h => b3 (by linarith), by ring, ?_⟩
    refine unit_cancel hu (p := p) ?_
    rw [← hd, c3, b4, a3, add_mul_add, add_mul_add]
    congr 2
    ring
  obtain ⟨_, hw⟩ := hph.time ha hd0 le_rfl hw1
  rw [topSpeed_rest] at hw
  obtain ⟨hw0, hle⟩ := rest_top ha hvT hd0
  have e1 : r1 - t₀ = min vT √(a * d) / a := by
    rw [← hw, a2]
    field_simp
    ring
  have e3 : t' - r = min vT √(a * d) / a := by
    rw [← hw, c2]
    field_simp
    ring
  have e2 : r - t₀ = d / min vT √(a * d) := by
    rw [eq_div_iff hw0.ne', ← hw]
    have := hph.hd
    have x1 : r1 - t₀ = w / a := by rw [e1, hw]
    have x3 : t' - r = w / a := by rw [e3, hw]
    rw [x1, x3] at this
    have x2 : r - t₀ = w / a + (r - r1) := by linarith
    rw [x2, this]
    field_simp
    ring
  have hsum : ∀ t, d / min vT √(a * d) + min vT √(a * d) / a - (t - t₀) = t' - t := fun t => by
    rw [← e2, ← e3]
    ring
  rcases List.mem_append.1 hs with hs | hs
  · rcases List.mem_append.1 hs with hs | hs
    · obtain ⟨l, l', rfl⟩ := List.append_of_mem hs
      obtain ⟨q2, r2, w2, g, g'⟩ := hr1.split
      obtain ⟨d1, d2, d3⟩ := up_ramp hu g (fun s hs => h1 s (by simp [hs]))
      have hacc := h1 s (by simp)
      have hlate : s.tEnd ≤ r1 := by
        cases g' with
        | cons k1 k2 k3 k4 k5 k6 k7 => exact (up_ramp hu k7 (fun s hs => h1 s (by simp [hs]))).1
      cases g' with
      | cons k1 k2 k3 k4 k5 k6 k7 =>
        simp only [mul_add_mul] at hacc
        simp only at ht ht' hlate
        obtain ⟨v1, v2⟩ := slope_values (u := u) (p := q2) k3 (mul_inj hu hacc) ht ht'
        have hx0 : 0 ≤ t - t₀ := by linarith
        have hx1 : t - t₀ ≤ min vT √(a * d) / a := by linarith
        rw [v1, v2, restSpeed_up ha hvT hd0 hx0 hx1, restWay_up hx0 hx1, d3, d2, add_mul_add]
        constructor
        · congr 2
          ring
        · congr 3
          ring
    · obtain ⟨l, l', rfl⟩ := List.append_of_mem hs
      obtain ⟨q2, r2, w2, g, g'⟩ := hr2.split
      obtain ⟨d1, d2, d3, d4⟩ := cruise_ramp hu g (fun s hs => h2 s (by simp [hs]))
      have hacc := h2 s (by simp)
      have hlate : s.tEnd ≤ r := by
        cases g' with
        | cons k1 k2 k3 k4 k5 k6 k7 => exact (cruise_ramp hu k7 (fun s hs => h2 s (by simp [hs]))).1
      subst d2
      cases g' with
      | cons k1 k2 k3 k4 k5 k6 k7 =>
        rename_i w3 p3 _ _
        simp only at ht ht' hlate hacc
        have y1 := mul_inj hu hacc.1
        have y2 := mul_inj hu hacc.2
        obtain ⟨v1, v2⟩ := slope_values (u := u) (p := q2) (p₁ := p3) (k := 0) (v₁ := w2) (v₂ := w3) k3
          (by rw [y1, y2]; ring) ht ht'
        have hx0 : min vT √(a * d) / a ≤ t - t₀ := by linarith
        have hx1 : t - t₀ ≤ d / min vT √(a * d) := by linarith
        rw [v1, v2, restSpeed_cruise ha hvT hd0 hx0 hx1, restWay_cruise ha hvT hd0 hx0 hx1, d4, a3, ← hw, add_mul_add,
          add_mul_add]
        constructor
        · congr 2
          ring
        · congr 3
          have x1 : r1 - t₀ = w2 / a := by rw [e1, hw]
          have x2 : t - t₀ = (r1 - t₀) + (t - r1) := by ring
          rw [x2, x1]
          field_simp
          ring
  · obtain ⟨l, l', rfl⟩ := List.append_of_mem hs
    obtain ⟨q2, r2, w2, g, g'⟩ := hr3.split
    obtain ⟨d1, d2, d3⟩ := down_ramp hu g (fun s hs => h3 s (by simp [hs]))
    obtain ⟨f1, f2, f3⟩ := down_ramp hu g' (fun s hs => h3 s (by simp at hs; rcases hs with rfl | hs <;> simp [*]))
    have hacc := h3 s (by simp)
    have hlate : s.tEnd ≤ t' := by
      cases g' with
      | cons k1 k2 k3 k4 k5 k6 k7 => exact (down_ramp hu k7 (fun s hs => h3 s (by simp [hs]))).1
    cases g' with
    | cons k1 k2 k3 k4 k5 k6 k7 =>
      rename_i w3 p3 _
      simp only [mul_add_mul] at hacc
      simp only at ht ht' hlate
      have y := mul_inj hu hacc
      obtain ⟨v1, v2⟩ := slope_values (u := u) (p := q2) (p₁ := p3) (k := -a) (v₁ := w2) (v₂ := w3) k3
        (by rw [y]; ring) ht ht'
      have hx0 : d / min vT √(a * d) ≤ t - t₀ := by linarith
      have hx1 : t - t₀ ≤ d / min vT √(a * d) + min vT √(a * d) / a := by linarith
      rw [v1, v2, restSpeed_down ha hvT hd0 hx0 hx1, restWay_down ha hvT hd0 hx0 hx1, hsum]
      constructor
      · congr 2
        rw [f2]
        ring
      · have hq : q2 = p.add (u.mul (d - a * (t' - r2) ^ 2 / 2)) := by
          have : q2.add (u.mul (0 * (t' - r2) + a * (t' - r2) ^ 2 / 2)) = p.add (u.mul d) := by rw [← f3, hd]
          rw [Vec4.ext_iff] at this ⊢
          simp only [Vec4.add, Vec4.mul] at this ⊢
          obtain ⟨n1, n2, n3, n4⟩ := this
          refine ⟨by linarith, by linarith, by linarith, by linarith⟩
        rw [hq, add_mul_add]
        congr 3
        rw [f2]
        ring

theorem moveTime_rest {a v D : ℝ} (ha : 0 < a) (hv : 0 < v) (hD : 0 < D) :
    moveTime a v D 0 0 = D / min v √(a * D) + min v √(a * D) / a := by
  obtain ⟨hw, _⟩ := rest_top ha hv hD
  unfold moveTime
  rw [topSpeed_rest]
  simp only
  field_simp
  ring

theorem Spec.Ramp.times {p p' : Vec4 ℝ} {t t' v v' : ℝ} {ss : List (Segment ℝ)} (h : Ramp u a vT p t v ss p' t' v') :
    t ≤ t' ∧ ∀ s ∈ ss, t ≤ s.tBegin ∧ s.tEnd ≤ t' := by
  induction h with
  | nil p t v => exact ⟨le_rfl, by simp⟩
  | @cons t t₁ v v₁ t' v' p p₁ p' ss hv hv₁ ht hacc hpos hp hrest ih =>
    obtain ⟨h1, h2⟩ := ih
    refine ⟨by linarith, ?_⟩
    intro s hs
    rcases List.mem_cons.1 hs with rfl | hs
    · exact ⟨le_rfl, h1⟩
    · obtain ⟨h3, h4⟩ := h2 s hs
      exact ⟨by linarith, h4⟩

/-- An action that moves a distance or waits. -/
structure Act (a : Option (PState ℝ) × PState ℝ) (A : PState ℝ) : Prop where
  from_ : a.1 = some A
  acc : a.2.pause = none → 0 < a.2.pAcc
  speed : a.2.pause = none → 0 < a.2.speed
  len : a.2.pause = none → 0 < moveLength A.position a.2.position
  stay : ∀ p, a.2.pause = some p → a.2.position = A.position ∧ 0 ≤ p

theorem Act.begin {a : Option (PState ℝ) × PState ℝ} {A : PState ℝ} (h : Act a A) {x : ℝ} (hx : x ≤ 0) :
    restPoint a x = (A.position, Vec4.zero) := by
  obtain ⟨a1, B⟩ := a
  obtain ⟨h1, h2, h3, h4, h5⟩ := h
  simp only at h1 h2 h3 h4 h5
  subst h1
  unfold restPoint
  cases hp : B.pause with
  | some p => simp only [hp]
  | none =>
    have hT : 0 ≤ restSpeed B.pAcc B.speed (moveLength A.position B.position) x := le_max_left _ _
    have h0 : restSpeed B.pAcc B.speed (moveLength A.position B.position) x = 0 := by
      apply le_antisymm _ hT
      apply max_le le_rfl
      refine (min_le_right _ _).trans ((min_le_left _ _).trans ?_)
      exact mul_nonpos_of_nonneg_of_nonpos (h2 hp).le hx
    simp only [hp, restWay_begin hx, h0, zero_div, Vec4.mul_zero, Vec4.add_zero]

theorem Act.finish {a : Option (PState ℝ) × PState ℝ} {A : PState ℝ} (h : Act a A) {x : ℝ} (hx : restTime a ≤ x) :
    restPoint a x = (a.2.position, Vec4.zero) := by
  obtain ⟨a1, B⟩ := a
  obtain ⟨h1, h2, h3, h4, h5⟩ := h
  simp only at h1 h2 h3 h4 h5
  subst h1
  unfold restPoint
  cases hp : B.pause with
  | some p =>
    simp only [hp, (h5 p hp).1]
  | none =>
    unfold restTime at hx
    simp only [hp] at hx
    have ha := h2 hp
    have hv := h3 hp
    have hD := h4 hp
    rw [moveTime_rest ha hv hD] at hx
    have h0 : restSpeed B.pAcc B.speed (moveLength A.position B.position) x = 0 := by
      apply le_antisymm _ (le_max_left _ _)
      apply max_le le_rfl
      refine (min_le_right _ _).trans ((min_le_right _ _).trans ?_)
      exact mul_nonpos_of_nonneg_of_nonpos ha.le (by linarith)
    simp only [hp, restWay_end ha hv hD hx, h0, zero_div, Vec4.mul_zero, div_self hD.ne', Prod.mk.injEq, and_true]
    ext <;> simp [Vec4.add, Vec4.mul, Vec4.sub]

theorem Act.time {a : Option (PState ℝ) × PState ℝ} {A : PState ℝ} (h : Act a A) : 0 ≤ restTime a := by
  obtain ⟨a1, B⟩ := a
  obtain ⟨h1, h2, h3, h4, h5⟩ := h
  simp only at h1 h2 h3 h4 h5
  subst h1
  unfold restTime
  cases hp : B.pause with
  | some p =>
    simp only [hp]
    exact (h5 p hp).2
  | none =>
    have ha := h2 hp
    have hv := h3 hp
    have hD := h4 hp
    simp only [hp]
    rw [moveTime_rest ha hv hD]
    obtain ⟨hw, _⟩ := rest_top ha hv hD
    positivity

/-- The blocks that begin and end at rest are actions. -/
theorem Block.AtRest.act {b : Block ℝ} (h : b.AtRest) : ∃ A, Act (b.stateA, b.stateB) A := by
  rcases h with ⟨A, u, h⟩ | ⟨A, p, h⟩
  · refine ⟨A, h.hA, fun _ => h.ha, fun _ => h.hs, fun _ => ?_, fun p hp => ?_⟩
    · rw [← moveDistance_length]
      exact h.toHdr.unit.2.1
    · have hp' : b.stateB.pause = some p := hp
      rw [h.hpause] at hp'
      cases hp'
  · have hne : b.stateB.pause ≠ none := by rw [h.hpause]; simp
    refine ⟨A, h.hA, fun hp => absurd hp hne, fun hp => absurd hp hne, fun hp => absurd hp hne, ?_⟩
    intro q hq
    have hq' : b.stateB.pause = some q := hq
    rw [h.hpause] at hq'
    cases hq'
    exact ⟨h.hpos, h.hp⟩

/-- Inside a block that begins and ends at rest. -/
theorem Block.AtRest.values {b : Block ℝ} (h : b.AtRest) {s : Segment ℝ} (hs : s ∈ b.segments) :
    (b.t0 ≤ s.tBegin ∧ s.tEnd ≤ b.t1) ∧ ∀ t, Covers s t →
      s.getVelocity t = .ok (restPoint (b.stateA, b.stateB) (t - b.t0)).2 ∧
      s.getPosition t = .ok (restPoint (b.stateA, b.stateB) (t - b.t0)).1 := by
  rcases h with ⟨A, u, h⟩ | ⟨A, p, h⟩
  · obtain ⟨u1, u2, u3, _, _⟩ := h.toHdr.unit
    rw [moveDistance_length] at u2 u3
    refine ⟨h.hramp.times.2 s hs, fun t ht => ?_⟩
    obtain ⟨r1, r2⟩ := rest_values u1 h.ha h.hs h.hramp h.hprof u3 u2 hs ht.1 ht.2
    have hd : b.stateB.position.sub A.position = u.mul (moveLength A.position b.stateB.position) := by
      generalize moveLength A.position b.stateB.position = L at u3
      rw [u3]
      ext <;> simp [Vec4.sub, Vec4.add, Vec4.mul]
    unfold restPoint
    rw [h.hA, r1, r2]
    simp only [h.hpause, hd]
    have hL := u2.ne'
    constructor
    · congr 1
      ext <;> simp only [Vec4.mul] <;> field_simp
    · congr 2
      ext <;> simp only [Vec4.mul] <;> field_simp
  · obtain ⟨t₁, e⟩ := h.hseg
    have hs' := hs
    rw [e, List.mem_singleton] at hs'
    have hp := h.hp
    refine ⟨?_, fun t ht => ?_⟩
    · rw [hs']
      unfold Block.t0 Block.t1
      rw [e]
      simp
    · subst hs'
      unfold restPoint
      rw [h.hA]
      simp only [h.hpause]
      have e1 : (⟨t₁, t₁ + p, A.position, Vec4.zero, A.position, Vec4.zero⟩ : Segment ℝ).getVelocity t = .ok Vec4.zero := by
        unfold Segment.getVelocity
        rw [if_neg (by push Not; exact ht)]
        simp only
        congr 1
        by_cases hc : 0 < t₁ + p - t₁
        · rw [if_pos hc]
          ext <;> simp [Vec4.add, Vec4.mul, Vec4.sub, Vec4.div, Vec4.zero]
        · rw [if_neg hc]
          ext <;> simp [Vec4.add, Vec4.mul, Vec4.zero]
      refine ⟨e1, ?_⟩
      unfold Segment.getPosition
      rw [if_neg (by push Not; exact ht), e1]
      simp only [bind, Except.bind]
      congr 1
      ext <;> simp [Vec4.add, Vec4.mul, Vec4.div, Vec4.zero]

/-- Blocks that begin and end at rest, one after the other. -/
theorem rest_path : ∀ {bs : List (Block ℝ)}, (∀ b ∈ bs, b.AtRest) → bs.IsChain LinkT → ∀ f ∈ bs.head?,
    ∀ s ∈ unpack bs, f.t0 ≤ s.tBegin ∧ ∀ t, Covers s t → ∃ p v, s.getVelocity t = .ok v ∧ s.getPosition t = .ok p ∧
      restMotion (bs.map fun b => (b.stateA, b.stateB)) (t - f.t0) = some (p, v) := by
  intro bs
  induction bs with
  | nil => intro _ _ f hf; cases hf
  | cons b bs ih =>
    intro hr hc f hf s hs
    cases hf
    have hb := hr b List.mem_cons_self
    obtain ⟨A, hact⟩ := hb.act
    have hT := AtRest.time hb
    have hT0 := hact.time
    rw [unpack, List.flatMap_cons, List.mem_append] at hs
    simp only [List.map_cons, restMotion]
    rcases hs with hs | hs
    · obtain ⟨⟨h1, h2⟩, h3⟩ := hb.values hs
      refine ⟨h1, fun t ht => ?_⟩
      obtain ⟨h4, h5⟩ := h3 t ht
      refine ⟨_, _, h4, h5, ?_⟩
      rw [if_pos (by linarith [ht.2])]
    · cases bs with
      | nil => simp at hs
      | cons c bs =>
        rw [List.isChain_cons_cons] at hc
        obtain ⟨h1, h2⟩ := ih (fun b hb => hr b (List.mem_cons_of_mem _ hb)) hc.2 c rfl s hs
        have ht0 : c.t0 = b.t1 := hc.1.2.2.2
        refine ⟨by linarith, fun t ht => ?_⟩
        obtain ⟨p, v, h3, h4, h5⟩ := h2 t ht
        refine ⟨p, v, h3, h4, ?_⟩
        by_cases hcase : t - b.t0 ≤ restTime (b.stateA, b.stateB)
        · rw [if_pos hcase]
          have hcr := hr c (by simp)
          obtain ⟨C, hcact⟩ := hcr.act
          have hx : t - c.t0 = 0 := by linarith [ht.1]
          rw [hx, List.map_cons, restMotion, if_pos hcact.time, hcact.begin le_rfl] at h5
          rw [← h5, hact.finish (by linarith)]
          have hl := hc.1.1
          have hC : c.stateA = some C := hcact.from_
          rw [hC, Option.map_some, Option.some.injEq] at hl
          rw [hl]
        · rw [if_neg hcase, ← h5]
          congr 1
          linarith

end PyGCD
