import Verif.Proofs.RestMotion

/-!
# The closed formulas for motions from rest to rest change no faster than the feedrate
-/

set_option linter.unusedSectionVars false
set_option linter.unusedSimpArgs false

namespace PyGCD
open PyGCD.Spec Vec4

theorem covered_time {r m : ℝ} (hr : 0 ≤ r) (x y : ℝ) : |covered r m r x - covered r m r y| ≤ |x - y| := by
  have key : ∀ x y : ℝ, x ≤ y → |covered r m r x - covered r m r y| ≤ |x - y| := by
    intro x y h
    obtain ⟨h1, h2⟩ := ramped_step hr h
    obtain ⟨h3, h4⟩ := ramped_step hr (show x - m ≤ y - m by linarith)
    unfold covered
    rw [abs_sub_comm x y, abs_of_nonneg (show 0 ≤ y - x by linarith), abs_le]
    constructor <;> linarith
  rcases le_total x y with h | h
  · exact key x y h
  · rw [abs_sub_comm, abs_sub_comm x y]
    exact key y x h

theorem restWay_time {a v D : ℝ} (ha : 0 < a) (hv : 0 < v) (hD : 0 < D) (x y : ℝ) :
    |restWay a v D x - restWay a v D y| ≤ v * |x - y| := by
  obtain ⟨hw, _⟩ := rest_top ha hv hD
  rw [← restDist_eq ha hv hD, ← restDist_eq ha hv hD]
  unfold restDist
  rw [topSpeed_rest, ← mul_sub, abs_mul, abs_of_pos hw]
  have h1 := covered_time (m := D / min v √(a * D)) (div_pos hw ha).le x y
  have h2 : min v √(a * D) ≤ v := min_le_left _ _
  gcongr

/-- One of the four coordinates. -/
structure Coord (c : Vec4 ℝ → ℝ) : Prop where
  lin : ∀ p u l, c (p.add (Vec4.mul u l)) = c p + c u * l
  sub : ∀ p q, c (Vec4.sub p q) = c p - c q

theorem coord_x : Coord Vec4.x := ⟨fun _ _ _ => rfl, fun _ _ => rfl⟩
theorem coord_y : Coord Vec4.y := ⟨fun _ _ _ => rfl, fun _ _ => rfl⟩
theorem coord_z : Coord Vec4.z := ⟨fun _ _ _ => rfl, fun _ _ => rfl⟩
theorem coord_e : Coord Vec4.e := ⟨fun _ _ _ => rfl, fun _ _ => rfl⟩

/-- The coordinate changes no more than the length of the way. -/
def Slower (c : Vec4 ℝ → ℝ) (a : Option (PState ℝ) × PState ℝ) : Prop :=
  ∀ A, a.1 = some A → |c a.2.position - c A.position| ≤ moveLength A.position a.2.position

theorem norm_coord (p : Vec4 ℝ) : |p.x| ≤ p.norm3 ∧ |p.y| ≤ p.norm3 ∧ |p.z| ≤ p.norm3 := by
  have h := norm3_sq p
  have h0 := norm3_nonneg p
  refine ⟨?_, ?_, ?_⟩ <;> refine abs_le_of_sq_le_sq ?_ h0 <;> rw [h] <;> nlinarith [sq_nonneg p.x, sq_nonneg p.y, sq_nonneg p.z]

theorem slower_xyz (a : Option (PState ℝ) × PState ℝ) : Slower Vec4.x a ∧ Slower Vec4.y a ∧ Slower Vec4.z a := by
  have key : ∀ A : PState ℝ, (a.2.position.sub A.position).norm3 ≤ moveLength A.position a.2.position := by
    intro A
    unfold moveLength
    split
    · rename_i h
      rw [h]
      exact abs_nonneg _
    · exact le_rfl
  refine ⟨fun A _ => ?_, fun A _ => ?_, fun A _ => ?_⟩
  · exact (norm_coord (a.2.position.sub A.position)).1.trans (key A)
  · exact (norm_coord (a.2.position.sub A.position)).2.1.trans (key A)
  · exact (norm_coord (a.2.position.sub A.position)).2.2.trans (key A)

/-- Inside one action. -/
theorem Act.lipschitz {a : Option (PState ℝ) × PState ℝ} {A : PState ℝ} (h : Act a A) {c : Vec4 ℝ → ℝ} (hc : Coord c)
    (hs : Slower c a) {V : ℝ} (hV : a.2.speed ≤ V) (hV0 : 0 ≤ V) (x y : ℝ) :
    |c (restPoint a x).1 - c (restPoint a y).1| ≤ V * |x - y| := by
  obtain ⟨a1, B⟩ := a
  obtain ⟨h1, h2, h3, h4, h5⟩ := h
  have hs := hs A h1
  simp only at h1 h2 h3 h4 h5 hs hV
  subst h1
  unfold restPoint
  cases hp : B.pause with
  | some p =>
    simp only [hp, sub_self, abs_zero]
    positivity
  | none =>
    have hD := h4 hp
    have hw := restWay_time (h2 hp) (h3 hp) hD x y
    simp only [hp]
    generalize moveLength A.position B.position = D at *
    rw [hc.lin, hc.lin, hc.sub]
    rw [show c A.position + (c B.position - c A.position) * (restWay B.pAcc B.speed D x / D) -
      (c A.position + (c B.position - c A.position) * (restWay B.pAcc B.speed D y / D)) =
      ((c B.position - c A.position) / D) * (restWay B.pAcc B.speed D x - restWay B.pAcc B.speed D y) by ring]
    rw [abs_mul, abs_div, abs_of_pos hD]
    have : |c B.position - c A.position| / D ≤ 1 := (div_le_one hD).2 hs
    calc _ ≤ 1 * (B.speed * |x - y|) := by gcongr
      _ ≤ V * |x - y| := by rw [one_mul]; gcongr

/-- Actions one after the other. -/
structure ActList (acts : List (Option (PState ℝ) × PState ℝ)) : Prop where
  each : ∀ a ∈ acts, ∃ A, Act a A
  link : acts.IsChain fun a b => b.1.map PState.position = some a.2.position

theorem ActList.tail {a : Option (PState ℝ) × PState ℝ} {acts : List (Option (PState ℝ) × PState ℝ)}
    (h : ActList (a :: acts)) : ActList acts :=
  ⟨fun b hb => h.each b (List.mem_cons_of_mem _ hb), h.link.tail⟩

/-- The rest begins where the first action ends. -/
theorem ActList.next {a : Option (PState ℝ) × PState ℝ} {acts : List (Option (PState ℝ) × PState ℝ)}
    (h : ActList (a :: acts)) (hne : acts ≠ []) : restMotion acts 0 = some (a.2.position, Vec4.zero) := by
  cases acts with
  | nil => exact absurd rfl hne
  | cons b acts =>
    obtain ⟨B, hB⟩ := h.each b (by simp)
    have hl := (List.isChain_cons_cons.1 h.link).1
    rw [hB.from_, Option.map_some, Option.some.injEq] at hl
    rw [restMotion, if_pos hB.time, hB.begin le_rfl, hl]

/-- The time after the first action. -/
theorem ActList.later {a : Option (PState ℝ) × PState ℝ} {acts : List (Option (PState ℝ) × PState ℝ)}
    (h : ActList (a :: acts)) {x : ℝ} (hx : 0 ≤ x) {p v : Vec4 ℝ} (hm : restMotion acts x = some (p, v)) :
    restMotion (a :: acts) (x + restTime a) = some (p, v) := by
  rcases hx.lt_or_eq with hx | hx
  · rw [restMotion, if_neg (by linarith), add_sub_cancel_right, hm]
  · subst hx
    obtain ⟨A, hA⟩ := h.each a (by simp)
    have hne : acts ≠ [] := by
      rintro rfl
      simp [restMotion] at hm
    rw [h.next hne] at hm
    rw [_root_.zero_add, restMotion, if_pos le_rfl, hA.finish le_rfl, ← hm]

theorem ActList.lipschitz {c : Vec4 ℝ → ℝ} (hc : Coord c) {V : ℝ} (hV0 : 0 ≤ V) :
    ∀ {acts : List (Option (PState ℝ) × PState ℝ)}, ActList acts → (∀ a ∈ acts, Slower c a) → (∀ a ∈ acts, a.2.speed ≤ V) →
    ∀ {x y : ℝ} {p v q w : Vec4 ℝ}, x ≤ y → restMotion acts x = some (p, v) → restMotion acts y = some (q, w) →
    |c p - c q| ≤ V * (y - x) := by
  intro acts
  induction acts with
  | nil => intro _ _ _ x y p v q w _ hp; simp [restMotion] at hp
  | cons a acts ih =>
    intro h hs hV x y p v q w hxy hp hq
    obtain ⟨A, hA⟩ := h.each a (by simp)
    have hs' := hs a (by simp)
    have hV' := hV a (by simp)
    have ih := @ih h.tail (fun a ha => hs a (by simp [ha])) (fun a ha => hV a (by simp [ha]))
    rw [restMotion] at hp hq
    by_cases hx : x ≤ restTime a
    · rw [if_pos hx, Option.some.injEq] at hp
      have ep : p = (restPoint a x).1 := by rw [hp]
      by_cases hy : y ≤ restTime a
      · rw [if_pos hy, Option.some.injEq] at hq
        have eq : q = (restPoint a y).1 := by rw [hq]
        have := hA.lipschitz hc hs' hV' hV0 x y
        rw [ep, eq]
        rwa [abs_sub_comm x y, abs_of_nonneg (show 0 ≤ y - x by linarith)] at this
      · rw [if_neg hy] at hq
        have hy := not_le.1 hy
        have hne : acts ≠ [] := by
          rintro rfl
          simp [restMotion] at hq
        have i1 := ih (by linarith) (h.next hne) hq
        have i2 := hA.lipschitz hc hs' hV' hV0 x (restTime a)
        rw [hA.finish le_rfl, ← ep, abs_sub_comm x, abs_of_nonneg (show 0 ≤ restTime a - x by linarith)] at i2
        simp only at i2
        have := abs_sub_le (c p) (c a.2.position) (c q)
        linarith
    · rw [if_neg hx] at hp
      have hx := not_le.1 hx
      rw [if_neg (by linarith)] at hq
      have := ih (by linarith) hp hq
      linarith

theorem ActList.near {c : Vec4 ℝ → ℝ} (hc : Coord c) {V : ℝ} (hV0 : 0 ≤ V)
    {acts : List (Option (PState ℝ) × PState ℝ)} (h : ActList acts) (hs : ∀ a ∈ acts, Slower c a)
    (hV : ∀ a ∈ acts, a.2.speed ≤ V) {x y : ℝ} {p v q w : Vec4 ℝ} (hp : restMotion acts x = some (p, v))
    (hq : restMotion acts y = some (q, w)) : |c p - c q| ≤ V * |x - y| := by
  rcases le_total x y with hxy | hxy
  · rw [abs_sub_comm x y, abs_of_nonneg (show 0 ≤ y - x by linarith)]
    exact h.lipschitz hc hV0 hs hV hxy hp hq
  · rw [abs_sub_comm, abs_of_nonneg (show 0 ≤ x - y by linarith)]
    exact h.lipschitz hc hV0 hs hV hxy hq hp

end PyGCD
