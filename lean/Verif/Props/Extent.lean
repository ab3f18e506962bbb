import Verif.Props.Query

/-!
# Properties C36 to C38: extents, maximum speed, sampling
-/

set_option linter.unusedSectionVars false
set_option linter.unusedSimpArgs false

namespace PyGCD
open Vec4 Spec

variable {fw : Firmware} {states : List (PState ℝ)} {bs : List (Block ℝ)}

/-! ## Minimum and maximum of a list -/

theorem listMin_spec (a : ℝ) (l : List ℝ) :
    (∀ x ∈ a :: l, listMin a l ≤ x) ∧ listMin a l ∈ a :: l := by
  unfold listMin
  induction l generalizing a with
  | nil => simp
  | cons b l ih =>
    obtain ⟨h1, h2⟩ := ih (pyMin a b)
    rw [List.foldl_cons]
    rw [pyMin_real] at *
    constructor
    · intro x hx
      simp only [List.mem_cons] at hx
      rcases hx with rfl | rfl | hx
      · exact le_trans (h1 (min x b) (by simp)) (min_le_left _ _)
      · exact le_trans (h1 (min a x) (by simp)) (min_le_right _ _)
      · exact h1 x (by simp [hx])
    · rcases List.mem_cons.1 h2 with h2 | h2
      · rw [h2]
        rcases min_choice a b with h | h <;> rw [h] <;> simp
      · simp [h2]

theorem listMax_spec (a : ℝ) (l : List ℝ) :
    (∀ x ∈ a :: l, x ≤ listMax a l) ∧ listMax a l ∈ a :: l := by
  unfold listMax
  induction l generalizing a with
  | nil => simp
  | cons b l ih =>
    obtain ⟨h1, h2⟩ := ih (pyMax a b)
    rw [List.foldl_cons]
    rw [pyMax_real] at *
    constructor
    · intro x hx
      simp only [List.mem_cons] at hx
      rcases hx with rfl | rfl | hx
      · exact le_trans (le_max_left _ _) (h1 (max x b) (by simp))
      · exact le_trans (le_max_right _ _) (h1 (max a x) (by simp))
      · exact h1 x (by simp [hx])
    · rcases List.mem_cons.1 h2 with h2 | h2
      · rw [h2]
        rcases max_choice a b with h | h <;> rw [h] <;> simp
      · simp [h2]

/-! ## C36 -/

/-- The points whose extent is computed are the end points of the extruding blocks. -/
theorem mem_extrudingPoints {p : Vec4 ℝ} : p ∈ extrudingPoints bs ↔
    ∃ b ∈ bs, b.isExtruding = true ∧
      (b.stateA.map PState.position = some p ∨ b.stateB.position = p) := by
  unfold extrudingPoints
  simp only [List.mem_append, List.mem_filterMap, List.mem_map, List.mem_filter, and_assoc]
  constructor
  · rintro (⟨b, hb, he, h⟩ | ⟨b, hb, he, h⟩)
    · exact ⟨b, hb, he, Or.inl h⟩
    · exact ⟨b, hb, he, Or.inr h⟩
  · rintro ⟨b, hb, he, h | h⟩
    · exact Or.inl ⟨b, hb, he, h⟩
    · exact Or.inr ⟨b, hb, he, h⟩

/-- The extent in terms of the blocks marked as extruding. -/
theorem extent_of_blocks (hreg : Regular states) (h : plan fw states = .ok bs) {own : String}
    {u : Option String} {f : ℝ} (hf : simScaling (u.getD own) = .ok f) :
    ((∀ b ∈ bs, b.isExtruding = false) → extrusionExtent bs own u = .error .valueError) ∧
    ((∃ b ∈ bs, b.isExtruding = true) → ∃ lo hi, extrusionExtent bs own u = .ok (lo, hi) ∧
      (∀ b ∈ bs, b.isExtruding = true → ∀ s ∈ b.segments, ∀ t p, s.getPosition t = .ok p →
        (lo.x ≤ p.x * f ∧ p.x * f ≤ hi.x) ∧ (lo.y ≤ p.y * f ∧ p.y * f ≤ hi.y) ∧
          (lo.z ≤ p.z * f ∧ p.z * f ≤ hi.z)) ∧
      ∀ c : Vec4 ℝ → ℝ, c = Vec4.x ∨ c = Vec4.y ∨ c = Vec4.z →
        (∃ b ∈ bs, b.isExtruding = true ∧ ∃ p, (b.stateA.map PState.position = some p ∨
          b.stateB.position = p) ∧ c lo = c p * f) ∧
        ∃ b ∈ bs, b.isExtruding = true ∧ ∃ p, (b.stateA.map PState.position = some p ∨
          b.stateB.position = p) ∧ c hi = c p * f) := by
  have hfp := simScaling_pos hf
  constructor
  · intro hno
    have : extrudingPoints bs = [] := by
      apply List.eq_nil_iff_forall_not_mem.2
      intro p hp
      obtain ⟨b, hb, he, _⟩ := mem_extrudingPoints.1 hp
      rw [hno b hb] at he
      cases he
    unfold extrusionExtent
    rw [this]
  · rintro ⟨b₀, hb₀, he₀⟩
    cases hp : extrudingPoints bs with
    | nil =>
      have : b₀.stateB.position ∈ extrudingPoints bs :=
        mem_extrudingPoints.2 ⟨b₀, hb₀, he₀, Or.inr rfl⟩
      rw [hp] at this
      cases this
    | cons q qs =>
      refine ⟨(vecFold listMin q qs).mul f, (vecFold listMax q qs).mul f, ?_, ?_, ?_⟩
      · unfold extrusionExtent
        rw [hp]
        simp only [hf, bind, Except.bind]
      · intro b hb he s hs t p hpos
        obtain ⟨A, c, hA, hc0, hc1, hpe⟩ := c29_straight hreg h hb hs hpos
        have hAm : A.position ∈ q :: qs := by
          rw [← hp]
          exact mem_extrudingPoints.2 ⟨b, hb, he, Or.inl (by rw [hA]; rfl)⟩
        have hBm : b.stateB.position ∈ q :: qs := by
          rw [← hp]
          exact mem_extrudingPoints.2 ⟨b, hb, he, Or.inr rfl⟩
        have key : ∀ (k : Vec4 ℝ → ℝ), k p = k A.position + (k b.stateB.position - k A.position) * c →
            listMin (k q) (qs.map k) * f ≤ k p * f ∧ k p * f ≤ listMax (k q) (qs.map k) * f := by
          intro k hk
          have m1 := (listMin_spec (k q) (qs.map k)).1 (k A.position)
            (by rw [← List.map_cons]; exact List.mem_map.2 ⟨_, hAm, rfl⟩)
          have m2 := (listMin_spec (k q) (qs.map k)).1 (k b.stateB.position)
            (by rw [← List.map_cons]; exact List.mem_map.2 ⟨_, hBm, rfl⟩)
          have m3 := (listMax_spec (k q) (qs.map k)).1 (k A.position)
            (by rw [← List.map_cons]; exact List.mem_map.2 ⟨_, hAm, rfl⟩)
          have m4 := (listMax_spec (k q) (qs.map k)).1 (k b.stateB.position)
            (by rw [← List.map_cons]; exact List.mem_map.2 ⟨_, hBm, rfl⟩)
          have e : k p = k A.position * (1 - c) + k b.stateB.position * c := by rw [hk]; ring
          have hc' : 0 ≤ 1 - c := by linarith
          constructor
          · refine mul_le_mul_of_nonneg_right ?_ hfp.le
            rw [e]
            nlinarith [mul_le_mul_of_nonneg_right m1 hc', mul_le_mul_of_nonneg_right m2 hc0]
          · refine mul_le_mul_of_nonneg_right ?_ hfp.le
            rw [e]
            nlinarith [mul_le_mul_of_nonneg_right m3 hc', mul_le_mul_of_nonneg_right m4 hc0]
        exact ⟨key Vec4.x (by rw [hpe]; rfl), key Vec4.y (by rw [hpe]; rfl), key Vec4.z (by rw [hpe]; rfl)⟩
      · have key : ∀ (k : Vec4 ℝ → ℝ) (v : ℝ), v ∈ k q :: qs.map k →
            ∃ b ∈ bs, b.isExtruding = true ∧ ∃ p, (b.stateA.map PState.position = some p ∨
              b.stateB.position = p) ∧ v * f = k p * f := by
          intro k v hv
          rw [← List.map_cons, ← hp] at hv
          obtain ⟨p, hp', hk⟩ := List.mem_map.1 hv
          obtain ⟨b, hb, he, hpb⟩ := mem_extrudingPoints.1 hp'
          exact ⟨b, hb, he, p, hpb, by rw [hk]⟩
        rintro c (rfl | rfl | rfl)
        · exact ⟨key _ _ (listMin_spec _ _).2, key _ _ (listMax_spec _ _).2⟩
        · exact ⟨key _ _ (listMin_spec _ _).2, key _ _ (listMax_spec _ _).2⟩
        · exact ⟨key _ _ (listMin_spec _ _).2, key _ _ (listMax_spec _ _).2⟩

/-- A block is marked as extruding iff its move pushes filament; and the moves of the program that do are
exactly those of the marked blocks. -/
theorem extruding_blocks (hreg : Regular states) (h : plan fw states = .ok bs) :
    (∀ b ∈ bs, b.isExtruding = true ↔ ∃ A, b.stateA = some A ∧ A.position.e < b.stateB.position.e) ∧
    ∀ A B, ExtrudingMove states A B ↔ ∃ b ∈ bs, b.isExtruding = true ∧ b.stateA = some A ∧ b.stateB = B := by
  have h1 : ∀ b ∈ bs, b.isExtruding = true ↔ ∃ A, b.stateA = some A ∧ A.position.e < b.stateB.position.e := by
    intro b hb
    rcases (plan_ok hreg h).1 b hb with ⟨A, _, _, _, hm⟩ | ⟨A, _, hd⟩
    · rw [hm.hext, decide_eq_true_iff]
      constructor
      · exact fun h => ⟨A, hm.hA, h⟩
      · rintro ⟨A', h1, h2⟩
        rw [hm.hA, Option.some.injEq] at h1
        rw [h1]
        exact h2
    · rw [hd.hext]
      simp only [Bool.false_eq_true, false_iff, not_exists, not_and]
      intro A' h1 h2
      rw [hd.hA, Option.some.injEq] at h1
      rw [hd.hpos, h1] at h2
      exact lt_irrefl _ h2
  refine ⟨h1, fun A B => ?_⟩
  have h28 := c28_blocks hreg h
  constructor
  · rintro ⟨hm, he⟩
    have : (some A, B) ∈ active none states := by
      unfold active
      rw [List.mem_filter]
      refine ⟨hm, ?_⟩
      rw [decide_eq_true_iff]
      refine Or.inr ⟨A, rfl, ?_⟩
      intro hc
      simp only at hc
      rw [hc] at he
      exact lt_irrefl _ he
    rw [← h28] at this
    obtain ⟨b, hb, hab⟩ := List.mem_map.1 this
    rw [Prod.mk.injEq] at hab
    exact ⟨b, hb, (h1 b hb).2 ⟨A, hab.1, by rw [hab.2]; exact he⟩, hab⟩
  · rintro ⟨b, hb, he, hA, hB⟩
    have : (b.stateA, b.stateB) ∈ active none states := by
      rw [← h28]
      exact List.mem_map.2 ⟨b, hb, rfl⟩
    rw [hA, hB] at this
    refine ⟨(List.mem_filter.1 this).1, ?_⟩
    obtain ⟨A', h2, h3⟩ := (h1 b hb).1 he
    rw [hA, Option.some.injEq] at h2
    rw [h2, ← hB]
    exact h3

/-- **C36.** The extent encloses every position reported while a move of the program pushes filament, scaled
like the extent; each of its six bounds is a coordinate of an end point of such a move; and it raises exactly
if the program has none. -/
theorem c36_extent (hreg : Regular states) (h : plan fw states = .ok bs) {own : String}
    {u : Option String} {f : ℝ} (hf : InUnit (u.getD own) f) :
    ((∀ A B, ¬ ExtrudingMove states A B) → extrusionExtent bs own u = .error .valueError) ∧
    ((∃ A B, ExtrudingMove states A B) → ∃ lo hi, extrusionExtent bs own u = .ok (lo, hi) ∧
      (∀ b ∈ bs, ∀ A, ExtrudingMove states A b.stateB → b.stateA = some A →
        ∀ s ∈ b.segments, ∀ t p, s.getPosition t = .ok p →
        (lo.x ≤ p.x * f ∧ p.x * f ≤ hi.x) ∧ (lo.y ≤ p.y * f ∧ p.y * f ≤ hi.y) ∧
          (lo.z ≤ p.z * f ∧ p.z * f ≤ hi.z)) ∧
      ∀ c : Vec4 ℝ → ℝ, c = Vec4.x ∨ c = Vec4.y ∨ c = Vec4.z →
        (∃ A B, ExtrudingMove states A B ∧ (c lo = c A.position * f ∨ c lo = c B.position * f)) ∧
        ∃ A B, ExtrudingMove states A B ∧ (c hi = c A.position * f ∨ c hi = c B.position * f)) := by
  replace hf := hf.scaling
  obtain ⟨e1, e2⟩ := extruding_blocks hreg h
  obtain ⟨h1, h2⟩ := extent_of_blocks hreg h (own := own) (u := u) hf
  constructor
  · intro hno
    apply h1
    intro b hb
    rw [← Bool.not_eq_true]
    intro hc
    obtain ⟨A, hA, _⟩ := (e1 b hb).1 hc
    exact hno A b.stateB ((e2 _ _).2 ⟨b, hb, hc, hA, rfl⟩)
  · rintro ⟨A, B, hAB⟩
    obtain ⟨b, hb, he, _⟩ := (e2 A B).1 hAB
    obtain ⟨lo, hi, a1, a2, a3⟩ := h2 ⟨b, hb, he⟩
    have key : ∀ (c : Vec4 ℝ → ℝ) (v : ℝ), (∃ b ∈ bs, b.isExtruding = true ∧
        ∃ p, (b.stateA.map PState.position = some p ∨ b.stateB.position = p) ∧ v = c p * f) →
        ∃ A B, ExtrudingMove states A B ∧ (v = c A.position * f ∨ v = c B.position * f) := by
      rintro c v ⟨b, hb, he, p, hp, hv⟩
      obtain ⟨A, hA, _⟩ := (e1 b hb).1 he
      refine ⟨A, b.stateB, (e2 _ _).2 ⟨b, hb, he, hA, rfl⟩, ?_⟩
      rcases hp with hp | hp
      · rw [hA] at hp
        simp only [Option.map_some, Option.some.injEq] at hp
        rw [hp]
        exact Or.inl hv
      · rw [hp]
        exact Or.inr hv
    refine ⟨lo, hi, a1, ?_, ?_⟩
    · intro b hb A hA hbA
      exact a2 b hb ((e1 b hb).2 ⟨A, hbA, hA.2⟩)
    · intro c hc
      exact ⟨key c _ (a3 c hc).1, key c _ (a3 c hc).2⟩

/-! ## C37 -/

/-- Component wise absolute value. -/
noncomputable def absVec (u : Vec4 ℝ) : Vec4 ℝ := ⟨|u.x|, |u.y|, |u.z|, |u.e|⟩

theorem absVec_norm3 (u : Vec4 ℝ) : (absVec u).norm3 = u.norm3 := by
  rw [← pow_left_inj₀ (norm3_nonneg _) (norm3_nonneg _) two_ne_zero, norm3_sq, norm3_sq]
  simp [absVec, sq_abs]

theorem maxAbs4_mul (u : Vec4 ℝ) {m w : ℝ} (hw : 0 ≤ w) :
    maxAbs4 ((absVec u).mul m) (u.mul w) = (absVec u).mul (max m w) := by
  unfold maxAbs4 absVec
  simp only [pyMax_real, pyAbs_real, Vec4.mul, abs_mul, abs_of_nonneg hw]
  congr 1 <;> rw [mul_max_of_nonneg _ _ (abs_nonneg _)]

theorem maxVel_fold {u : Vec4 ℝ} : ∀ (ss : List (Segment ℝ)),
    (∀ s ∈ ss, ∃ w w₁, 0 ≤ w ∧ 0 ≤ w₁ ∧ s.velBegin = u.mul w ∧ s.velEnd = u.mul w₁) → ∀ m, 0 ≤ m →
    ∃ W, ss.foldl (fun m s => maxAbs4 (maxAbs4 m s.velBegin) s.velEnd) ((absVec u).mul m) =
        (absVec u).mul W ∧ m ≤ W ∧
      (∀ s ∈ ss, ∀ w, 0 ≤ w → s.velBegin = u.mul w ∨ s.velEnd = u.mul w → w ≤ W ∨ u = Vec4.zero) ∧
      (W = m ∨ ∃ s ∈ ss, s.velBegin = u.mul W ∨ s.velEnd = u.mul W) := by
  intro ss
  induction ss with
  | nil => intro _ m _; exact ⟨m, rfl, le_refl _, by simp, Or.inl rfl⟩
  | cons s ss ih =>
    intro hss m hm
    obtain ⟨w, w₁, h1, h2, h3, h4⟩ := hss s (by simp)
    obtain ⟨W, e1, e2, e3, e4⟩ := ih (fun x hx => hss x (by simp [hx])) (max (max m w) w₁)
      (le_trans hm (le_trans (le_max_left _ _) (le_max_left _ _)))
    refine ⟨W, ?_, ?_, ?_, ?_⟩
    · rw [List.foldl_cons, h3, h4, maxAbs4_mul u h1, maxAbs4_mul u h2, e1]
    · exact le_trans (le_trans (le_max_left _ _) (le_max_left _ _)) e2
    · intro x hx v hv hvx
      rcases List.mem_cons.1 hx with rfl | hx
      · have hcancel : ∀ a b : ℝ, u.mul a = u.mul b → a = b ∨ u = Vec4.zero := by
          intro a b hab
          by_cases hu : u = Vec4.zero
          · exact Or.inr hu
          · left
            by_contra hne
            apply hu
            have hx := congrArg Vec4.x hab
            have hy := congrArg Vec4.y hab
            have hz := congrArg Vec4.z hab
            have he := congrArg Vec4.e hab
            simp only [Vec4.mul] at hx hy hz he
            ext
            · exact (mul_eq_mul_left_iff.1 hx).resolve_left hne
            · exact (mul_eq_mul_left_iff.1 hy).resolve_left hne
            · exact (mul_eq_mul_left_iff.1 hz).resolve_left hne
            · exact (mul_eq_mul_left_iff.1 he).resolve_left hne
        rcases hvx with hvx | hvx
        · rw [h3] at hvx
          rcases hcancel _ _ hvx with rfl | h
          · exact Or.inl (le_trans (le_trans (le_max_right _ _) (le_max_left _ _)) e2)
          · exact Or.inr h
        · rw [h4] at hvx
          rcases hcancel _ _ hvx with rfl | h
          · exact Or.inl (le_trans (le_max_right _ _) e2)
          · exact Or.inr h
      · exact e3 x hx v hv hvx
    · rcases e4 with h | ⟨x, hx, h⟩
      · rcases max_choice (max m w) w₁ with h' | h'
        · rcases max_choice m w with h'' | h''
          · left
            rw [h, h', h'']
          · right
            exact ⟨s, by simp, Or.inl (by rw [h, h', h'', h3])⟩
        · right
          exact ⟨s, by simp, Or.inr (by rw [h, h', h4])⟩
      · exact Or.inr ⟨x, by simp [hx], h⟩

/-- The maximum velocity of a moving block: bounds the travel speed at all times, and is one of the
vertex speeds. -/
theorem block_maxVel {b : Block ℝ} {A : PState ℝ} {u : Vec4 ℝ} {s0 s1 : ℝ} (hm : MoveB b A u s0 s1) :
    (∀ s ∈ b.segments, ∀ t v, s.getVelocity t = .ok v → v.norm3 ≤ b.maxVel.norm3) ∧
      ∃ s ∈ b.segments, b.maxVel.norm3 = s.velBegin.norm3 ∨ b.maxVel.norm3 = s.velEnd.norm3 := by
  obtain ⟨L, _, _, hL⟩ := hm.hramp.mem
  obtain ⟨hu, _⟩ := hm.toHdr.unit
  obtain ⟨W, e1, e2, e3, e4⟩ := maxVel_fold (u := u) b.segments (by
    intro s hs
    obtain ⟨w, w₁, l, l₁, g⟩ := hL s hs
    exact ⟨w, w₁, g.hw.1, g.hw₁.1, g.hvb, g.hve⟩) 0 (le_refl _)
  rw [Vec4.mul_zero] at e1
  have hmv : b.maxVel = (absVec u).mul W := e1
  have hu0 : u ≠ Vec4.zero := by
    intro h
    have h1 := hu.norms.2.1
    rw [h, norm4_eq_zero.2 rfl] at h1
    linarith
  have hn : b.maxVel.norm3 = u.norm3 * W := by
    rw [hmv, norm3_mul, absVec_norm3, abs_of_nonneg e2]
  constructor
  · intro s hs t v hv
    obtain ⟨w, w₁, l, l₁, g⟩ := hL s hs
    have hd := getVelocity_defined hv
    rw [g.getVelocity hd, Except.ok.injEq] at hv
    have hb := g.speed_bounds hd
    have hww := (e3 s hs w g.hw.1 (Or.inl g.hvb)).resolve_right hu0
    have hww₁ := (e3 s hs w₁ g.hw₁.1 (Or.inr g.hve)).resolve_right hu0
    have hsp : SegOn.speed s w w₁ t ≤ W := by
      have hg : SegOn u b.stateB.pAcc (max w w₁) A.position L s w w₁ l l₁ :=
        { g with hw := ⟨g.hw.1, le_max_left _ _⟩, hw₁ := ⟨g.hw₁.1, le_max_right _ _⟩ }
      exact le_trans (hg.speed_bounds hd).2 (max_le hww hww₁)
    rw [← hv, norm3_mul, abs_of_nonneg hb.1, hn]
    exact mul_le_mul_of_nonneg_left hsp (norm3_nonneg _)
  · rcases e4 with rfl | ⟨s, hs, h⟩
    · obtain ⟨s, hs⟩ := List.exists_mem_of_ne_nil _ hm.ne_nil
      obtain ⟨w, w₁, l, l₁, g⟩ := hL s hs
      have := (e3 s hs w g.hw.1 (Or.inl g.hvb)).resolve_right hu0
      refine ⟨s, hs, Or.inl ?_⟩
      rw [hn, g.hvb, norm3_mul, le_antisymm this g.hw.1, abs_zero]
    · refine ⟨s, hs, ?_⟩
      rcases h with h | h
      · left
        rw [hn, h, norm3_mul, abs_of_nonneg e2]
      · right
        rw [hn, h, norm3_mul, abs_of_nonneg e2]

/-- The maximum velocity in terms of the blocks marked as extruding. -/
theorem maxVel_of_blocks (hreg : Regular states) (h : plan fw states = .ok bs) {own : String}
    {u : Option String} {f : ℝ} (hf : simScaling (u.getD own) = .ok f) :
    ((∀ b ∈ bs, b.isExtruding = false) → extrusionMaxVel bs own u = .error .valueError) ∧
    ((∃ b ∈ bs, b.isExtruding = true) → ∃ m, extrusionMaxVel bs own u = .ok m ∧
      (∀ b ∈ bs, b.isExtruding = true → ∀ s ∈ b.segments, ∀ t v, s.getVelocity t = .ok v →
        f * v.norm3 ≤ m) ∧
      ∃ b ∈ bs, b.isExtruding = true ∧ ∃ s ∈ b.segments,
        m = f * s.velBegin.norm3 ∨ m = f * s.velEnd.norm3) := by
  have hfp := simScaling_pos hf
  have hmove : ∀ b ∈ bs, b.isExtruding = true → ∃ A u s0 s1, MoveB b A u s0 s1 := by
    intro b hb he
    rcases (plan_ok hreg h).1 b hb with h | ⟨A, p, h⟩
    · exact h
    · rw [h.hext] at he
      cases he
  constructor
  · intro hno
    have : (bs.filter (·.isExtruding)).map (fun b => b.maxVel.norm3) = [] := by
      rw [List.map_eq_nil_iff, List.filter_eq_nil_iff]
      intro b hb
      rw [hno b hb]
      simp
    unfold extrusionMaxVel
    rw [this]
  · rintro ⟨b₀, hb₀, he₀⟩
    have hmem : ∀ b ∈ bs, b.isExtruding = true →
        b.maxVel.norm3 ∈ (bs.filter (·.isExtruding)).map (fun b => b.maxVel.norm3) := by
      intro b hb he
      exact List.mem_map.2 ⟨b, List.mem_filter.2 ⟨hb, he⟩, rfl⟩
    cases hl : (bs.filter (·.isExtruding)).map (fun b => b.maxVel.norm3) with
    | nil =>
      have := hmem b₀ hb₀ he₀
      rw [hl] at this
      cases this
    | cons v vs =>
      refine ⟨f * listMax v vs, ?_, ?_, ?_⟩
      · unfold extrusionMaxVel
        rw [hl]
        simp only [hf, bind, Except.bind]
      · intro b hb he s hs t w hw
        obtain ⟨A, d, s0, s1, hm⟩ := hmove b hb he
        have h1 := (block_maxVel hm).1 s hs t w hw
        have h2 := (listMax_spec v vs).1 b.maxVel.norm3 (by rw [← hl]; exact hmem b hb he)
        exact mul_le_mul_of_nonneg_left (le_trans h1 h2) hfp.le
      · have h2 := (listMax_spec v vs).2
        rw [← hl] at h2
        obtain ⟨b, hb, he⟩ := List.mem_map.1 h2
        obtain ⟨hb, hbe⟩ := List.mem_filter.1 hb
        obtain ⟨A, d, s0, s1, hm⟩ := hmove b hb hbe
        obtain ⟨s, hs, hv⟩ := (block_maxVel hm).2
        refine ⟨b, hb, hbe, s, hs, ?_⟩
        rw [← he]
        rcases hv with hv | hv
        · left; rw [hv]
        · right; rw [hv]

/-- **C37.** `extrusion_max_vel` bounds the travel speed at every time of every move of the program that
pushes filament, is attained at an end of a segment of such a move, and raises exactly if the program has none.
-/
theorem c37_max_vel (hreg : Regular states) (h : plan fw states = .ok bs) {own : String}
    {u : Option String} {f : ℝ} (hf : InUnit (u.getD own) f) :
    ((∀ A B, ¬ ExtrudingMove states A B) → extrusionMaxVel bs own u = .error .valueError) ∧
    ((∃ A B, ExtrudingMove states A B) → ∃ m, extrusionMaxVel bs own u = .ok m ∧
      (∀ b ∈ bs, ∀ A, ExtrudingMove states A b.stateB → b.stateA = some A →
        ∀ s ∈ b.segments, ∀ t v, s.getVelocity t = .ok v → f * v.norm3 ≤ m) ∧
      ∃ b ∈ bs, ∃ A, ExtrudingMove states A b.stateB ∧ b.stateA = some A ∧ ∃ s ∈ b.segments,
        m = f * s.velBegin.norm3 ∨ m = f * s.velEnd.norm3) := by
  replace hf := hf.scaling
  obtain ⟨e1, e2⟩ := extruding_blocks hreg h
  obtain ⟨h1, h2⟩ := maxVel_of_blocks hreg h (own := own) (u := u) hf
  constructor
  · intro hno
    apply h1
    intro b hb
    rw [← Bool.not_eq_true]
    intro hc
    obtain ⟨A, hA, _⟩ := (e1 b hb).1 hc
    exact hno A b.stateB ((e2 _ _).2 ⟨b, hb, hc, hA, rfl⟩)
  · rintro ⟨A, B, hAB⟩
    obtain ⟨b, hb, he, _⟩ := (e2 A B).1 hAB
    obtain ⟨m, a1, a2, b', hb', he', a3⟩ := h2 ⟨b, hb, he⟩
    obtain ⟨A', hA', _⟩ := (e1 b' hb').1 he'
    refine ⟨m, a1, ?_, b', hb', A', (e2 _ _).2 ⟨b', hb', he', hA', rfl⟩, hA', a3⟩
    intro b hb A hA hbA
    exact a2 b hb ((e1 b hb).2 ⟨A, hbA, hA.2⟩)

/-! ## C38 -/

theorem keepWarm_found {path : List (Segment ℝ)} {t : ℝ} {last : Nat} {nx : Option (Segment ℝ)}
    (hnx : path[last + 1]? = nx) : ∀ (rest : List (Segment ℝ)), Part rest → ∀ {s l : Segment ℝ},
    rest.head? = some s → rest.getLast? = some l → s.tBegin ≤ t → t ≤ l.tEnd →
    (∀ y ∈ rest.tail, ∃ n, nx = some n ∧ n.tBegin ≤ y.tBegin) → (∀ n ∈ nx, s.tEnd ≤ t → n.tBegin ≤ t) → ∀ i,
    ∃ r, keepWarm path t last i rest = .ok r ∧ i ≤ r.2 ∧ rest[r.2 - i]? = some r.1 ∧ Covers r.1 t := by
  intro rest
  induction rest with
  | nil => intro _ s l h; cases h
  | cons x rest ih =>
    intro hp s l hs hl h1 h2 hy hn i
    cases hs
    unfold keepWarm
    by_cases hc : x.tBegin ≤ t ∧ t ≤ x.tEnd
    · rw [if_pos hc]
      exact ⟨_, rfl, le_refl _, by simp, hc⟩
    · rw [if_neg hc]
      have hlt : x.tEnd < t := by
        by_contra hn
        push Not at hn
        exact hc ⟨h1, hn⟩
      rw [if_pos hlt.le, hnx]
      cases rest with
      | nil =>
        simp only [List.getLast?_singleton, Option.some.injEq] at hl
        subst hl
        linarith
      | cons y rest =>
        rw [List.getLast?_cons_cons] at hl
        have h3 := (List.isChain_cons_cons.1 hp.time).1
        obtain ⟨n, rfl, hny⟩ := hy y (by simp)
        have hnt := hn n rfl hlt.le
        simp only [if_neg (not_lt.2 hnt)]
        obtain ⟨r, r1, r2, r3, r4⟩ := ih hp.tail rfl hl (by rw [h3]; exact hlt.le) h2
          (fun z hz => hy z (by simp only [List.tail_cons] at hz ⊢; simp [hz]))
          (fun n' hn' _ => by cases hn'; exact hnt) (i + 1)
        refine ⟨r, r1, by omega, ?_, r4⟩
        rw [show r.2 - i = (r.2 - (i + 1)) + 1 by omega, List.getElem?_cons_succ]
        exact r3

theorem findKeep_found {path : List (Segment ℝ)} (h : Timeline path) {T : ℝ} (hT : EndTime path T) {t : ℝ}
    {idx : Nat} {s : Segment ℝ} (hs : path[idx]? = some s) (h1 : s.tBegin ≤ t) (h2 : t ≤ T) :
    ∃ r, findKeep path t (some idx) = .ok r ∧ path[r.2]? = some r.1 ∧ Covers r.1 t := by
  obtain ⟨l, hl, rfl⟩ := hT
  have hf : useFresh path t (some idx) = false := useFresh_false.2 ⟨idx, s, rfl, hs, h1⟩
  have hp := h.part.drop idx
  have htail : (path.drop idx).tail = path.drop (idx + 1) := by
    rw [List.tail_drop]
  have hcons : path.drop idx = s :: path.drop (idx + 1) := by
    obtain ⟨hi, he⟩ := List.getElem?_eq_some_iff.1 hs
    rw [List.drop_eq_getElem_cons hi, he]
  obtain ⟨r, r1, r2, r3, r4⟩ := keepWarm_found (path := path) (t := t) (last := idx) rfl (path.drop idx) hp
    (by rw [head?_drop', hs]) (by rw [getLast?_drop' hs, hl]) h1 h2 (by
      intro y hy
      rw [htail] at hy
      cases hd : path.drop (idx + 1) with
      | nil => rw [hd] at hy; cases hy
      | cons n rest =>
        have hn : path[idx + 1]? = some n := by rw [← head?_drop', hd]; rfl
        refine ⟨n, hn, ?_⟩
        rw [hd] at hy
        rcases List.mem_cons.1 hy with rfl | hy
        · exact le_refl _
        · have hpn := h.part.drop (idx + 1)
          rw [hd] at hpn
          have := hpn.le y hy
          have := hpn.duration n (by simp)
          linarith) (by
      intro n hn hst
      have hn' : (path.drop (idx + 1)).head? = some n := by rw [head?_drop']; exact hn
      cases hd : path.drop (idx + 1) with
      | nil => rw [hd] at hn'; cases hn'
      | cons n' rest =>
        rw [hd] at hn'
        cases hn'
        rw [hcons, hd] at hp
        rw [(List.isChain_cons_cons.1 hp.time).1]
        exact hst) idx
  refine ⟨r, ?_, ?_, r4⟩
  · unfold findKeep
    rw [hf]
    simpa using r1
  · rw [List.getElem?_drop] at r3
    rw [← r3]
    congr 1
    omega

theorem sampleLoop_ok {path : List (Segment ℝ)} (h : Timeline path) {T : ℝ} (hT : EndTime path T) :
    ∀ (ts : List ℝ) (idx : Nat) (s : Segment ℝ), path[idx]? = some s → (∀ t ∈ ts, s.tBegin ≤ t ∧ t ≤ T) →
    ts.Pairwise (· ≤ ·) → ∃ vals, sampleLoop path idx ts = .ok vals ∧
      List.Forall₂ (fun t vp => ∃ s ∈ path, Covers s t ∧ s.getVelocity t = .ok vp.1 ∧
        s.getPosition t = .ok vp.2) ts vals := by
  intro ts
  induction ts with
  | nil => intro idx s _ _ _; exact ⟨[], rfl, .nil⟩
  | cons t ts ih =>
    intro idx s hs hts hsort
    obtain ⟨h1, h2⟩ := hts t (by simp)
    obtain ⟨hst, hsort'⟩ := List.pairwise_cons.1 hsort
    obtain ⟨r, r1, r2, r3⟩ := findKeep_found h hT hs h1 h2
    obtain ⟨v, hv⟩ := getVelocity_total r3
    obtain ⟨p, hp⟩ := getPosition_total r3
    obtain ⟨vals, q1, q2⟩ := ih r.2 r.1 r2
      (fun t' ht' => ⟨le_trans r3.1 (hst t' ht'), (hts t' (by simp [ht'])).2⟩) hsort'
    refine ⟨(v, p) :: vals, ?_, .cons ⟨r.1, List.mem_of_getElem? r2, r3, hv, hp⟩ q2⟩
    simp only [sampleLoop, r1, hv, hp, q1, bind, Except.bind]

/-- Sampling a timeline. -/
theorem Spec.Timeline.sampling (htl : Timeline (unpack bs)) {T : ℝ}
    (hT : EndTime (Spec.path bs) T) {ts : List ℝ} (hts : ∀ t ∈ ts, 0 ≤ t ∧ t ≤ T)
    (hsort : ts.Pairwise (· ≤ ·)) :
    ∃ vals, sampleLoop (unpack bs) 0 ts = .ok vals ∧
      List.Forall₂ (fun t vp => ∃ s ∈ Spec.path bs, Covers s t ∧ s.getVelocity t = .ok vp.1 ∧
        s.getPosition t = .ok vp.2) ts vals := by
  simp only [path_eq] at *
  obtain ⟨s', h2, h3⟩ := hT
  cases h1 : (unpack bs).head? with
  | none =>
    rw [List.head?_eq_none_iff] at h1
    rw [h1] at h2
    cases h2
  | some s =>
  refine sampleLoop_ok htl (T := T) ⟨s', h2, h3⟩ ts 0 s (by rw [← List.head?_eq_getElem?]; exact h1)
    ?_ hsort
  intro t ht
  rw [htl.start s h1]
  exact hts t ht

/-- **C38.** Sampling a planned path at any non-decreasing times within the print succeeds, and every sample
is what a segment containing that time reports. -/
theorem c38_sampling (hreg : Regular states) (h : plan fw states = .ok bs) {T : ℝ}
    (hT : EndTime (Spec.path bs) T) {ts : List ℝ} (hts : ∀ t ∈ ts, 0 ≤ t ∧ t ≤ T)
    (hsort : ts.Pairwise (· ≤ ·)) :
    ∃ vals, sampleLoop (unpack bs) 0 ts = .ok vals ∧
      List.Forall₂ (fun t vp => ∃ s ∈ Spec.path bs, Covers s t ∧ s.getVelocity t = .ok vp.1 ∧
        s.getPosition t = .ok vp.2) ts vals :=
  (plan_timeline hreg h).sampling hT hts hsort

/-- Sampling a timeline at its vertices. -/
theorem Spec.Timeline.constrained (htl : Timeline (unpack bs)) {T : ℝ}
    (hT : EndTime (Spec.path bs) T) :
    ∃ vals, sampleLoop (unpack bs) 0 (constrainedTimes (unpack bs)) = .ok vals ∧
      vals.length = (Spec.path bs).length + 1 ∧
      List.Forall₂ (fun t vp => ∃ s ∈ Spec.path bs, Covers s t ∧ s.getVelocity t = .ok vp.1 ∧
        s.getPosition t = .ok vp.2) (0 :: (Spec.path bs).map Segment.tEnd) vals := by
  have hT' := hT
  simp only [path_eq] at *
  obtain ⟨s', h2, h3⟩ := hT
  have hle : ∀ x ∈ unpack bs, 0 ≤ x.tEnd ∧ x.tEnd ≤ T := by
    intro x hx
    have h4 := htl.nonneg x hx
    have h5 := htl.duration x hx
    refine ⟨by linarith, ?_⟩
    cases hu : unpack bs with
    | nil => rw [hu] at hx; cases hx
    | cons y ys =>
      have hp := htl.part
      rw [hu] at h2
      rw [hu] at hp hx
      rw [← h3]
      exact hp.le_last h2 x hx
  have hT0 : 0 ≤ T := by
    rw [← h3]
    exact (hle s' (List.mem_of_getLast? h2)).1
  obtain ⟨vals, q1, q2⟩ := htl.sampling hT' (ts := constrainedTimes (unpack bs)) (by
    intro t ht
    rcases List.mem_cons.1 ht with rfl | ht
    · exact ⟨le_refl _, hT0⟩
    · obtain ⟨x, hx, rfl⟩ := List.mem_map.1 ht
      exact hle x hx) (by
    unfold constrainedTimes
    rw [List.pairwise_cons]
    constructor
    · intro t ht
      obtain ⟨x, hx, rfl⟩ := List.mem_map.1 ht
      exact (hle x hx).1
    · have : ∀ {path : List (Segment ℝ)}, Part path → (path.map Segment.tEnd).Pairwise (· ≤ ·) := by
        intro path hp
        induction path with
        | nil => simp
        | cons y ys ih =>
          rw [List.map_cons, List.pairwise_cons]
          refine ⟨?_, ih hp.tail⟩
          intro t ht
          obtain ⟨x, hx, rfl⟩ := List.mem_map.1 ht
          have := hp.le x hx
          have := hp.duration x (by simp [hx])
          linarith
      exact this htl.part)
  refine ⟨vals, q1, ?_, q2⟩
  rw [← q2.length_eq]
  simp [constrainedTimes]

/-- **C38, the default sampling.** The times of `time_steps="constrained"` are such times, so `plot_vel`
always gets one sample per segment end, and one at the start. -/
theorem c38_constrained (hreg : Regular states) (h : plan fw states = .ok bs) {T : ℝ}
    (hT : EndTime (Spec.path bs) T) :
    ∃ vals, sampleLoop (unpack bs) 0 (constrainedTimes (unpack bs)) = .ok vals ∧
      vals.length = (Spec.path bs).length + 1 ∧
      List.Forall₂ (fun t vp => ∃ s ∈ Spec.path bs, Covers s t ∧ s.getVelocity t = .ok vp.1 ∧
        s.getPosition t = .ok vp.2) (0 :: (Spec.path bs).map Segment.tEnd) vals :=
  (plan_timeline hreg h).constrained hT

/-! ## The demo program extrudes -/

/-- The first move of the demo program extrudes. -/
theorem Demo.extrudes (fw : Firmware) : ∃ bs, plan fw Demo.prog = .ok bs ∧ ∃ b ∈ bs, b.isExtruding = true := by
  obtain ⟨_, bs, _, _, h, _⟩ := c26_correction_total fw Demo.regular
  have h28 := c28_blocks Demo.regular h
  rw [Demo.active_prog] at h28
  refine ⟨bs, h, ?_⟩
  cases bs with
  | nil => cases h28
  | cons b tl =>
    simp only [List.map_cons, List.cons.injEq, Prod.mk.injEq] at h28
    refine ⟨b, by simp, ?_⟩
    rcases (plan_ok Demo.regular h).1 b (by simp) with ⟨A, u, s0, s1, hm⟩ | ⟨A, p, hm⟩
    · rw [hm.hext]
      have hA := hm.hA
      rw [h28.1.1, Option.some.injEq] at hA
      rw [h28.1.2, ← hA]
      norm_num [Demo.s0, Demo.s1]
    · have := hm.hpause
      rw [h28.1.2] at this
      cases this

example (fw : Firmware) : ∃ bs lo hi m, plan fw Demo.prog = .ok bs ∧
    extrusionExtent bs "SI" none = .ok (lo, hi) ∧ extrusionMaxVel bs "SI" (some "inch") = .ok m := by
  obtain ⟨bs, h, b, hb, hext⟩ := Demo.extrudes fw
  obtain ⟨A, hA, _⟩ := ((extruding_blocks Demo.regular h).1 b hb).1 hext
  have he : ∃ A B, ExtrudingMove Demo.prog A B :=
    ⟨A, b.stateB, ((extruding_blocks Demo.regular h).2 _ _).2 ⟨b, hb, hext, hA, rfl⟩⟩
  obtain ⟨lo, hi, h1, _⟩ := (c36_extent Demo.regular h (own := "SI") (u := none) (f := 1 / 1000)
    (by simp [InUnit])).2 he
  obtain ⟨m, h2, _⟩ := (c37_max_vel Demo.regular h (own := "SI") (u := some "inch") (f := 1 / 25.4)
    (by simp [InUnit])).2 he
  exact ⟨bs, lo, hi, m, h, h1, h2⟩

example (fw : Firmware) : ∃ bs vals, plan fw Demo.prog = .ok bs ∧
    sampleLoop (unpack bs) 0 (constrainedTimes (unpack bs)) = .ok vals ∧
      vals.length = (Spec.path bs).length + 1 := by
  obtain ⟨bs, T, h, hT, _⟩ := Demo.end_time fw
  obtain ⟨vals, h1, h2, _⟩ := c38_constrained Demo.regular h hT
  exact ⟨bs, vals, h, h1, h2⟩

end PyGCD
