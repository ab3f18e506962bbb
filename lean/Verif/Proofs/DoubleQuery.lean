import Verif.Proofs.DoubleRun
import Verif.Proofs.RestLipschitz

/-!
# Queries to a program in double precision
-/

set_option linter.unusedSectionVars false
set_option linter.unusedSimpArgs false

namespace PyGCD
open PyGCD.Spec Vec4

/-! ## The searches -/

theorem searchFresh_dbl {t : Dbl} : ∀ {path : List (Segment Dbl)} {i : Nat} {r : Segment Dbl × Nat},
    searchFresh t i path = some r → r.1 ∈ path ∧ r.1.tBegin.r ≤ t.r ∧ t.r < r.1.tEnd.r := by
  intro path
  induction path with
  | nil => intro i r h; cases h
  | cons s path ih =>
    intro i r h
    unfold searchFresh at h
    split at h
    · rename_i hc
      cases h
      rw [Dbl.le_iff, Dbl.lt_iff] at hc
      exact ⟨by simp, hc⟩
    · obtain ⟨h2, h3⟩ := ih h
      exact ⟨List.mem_cons_of_mem _ h2, h3⟩

theorem searchFresh_none_dbl {t : Dbl} : ∀ {path : List (Segment Dbl)} {i : Nat}, searchFresh t i path = none →
    ∀ s ∈ path, ¬(s.tBegin.r ≤ t.r ∧ t.r < s.tEnd.r) := by
  intro path
  induction path with
  | nil => intro i _ s hs; cases hs
  | cons s path ih =>
    intro i h
    unfold searchFresh at h
    split at h
    · cases h
    · rename_i hc
      rw [Dbl.le_iff, Dbl.lt_iff] at hc
      intro s' hs'
      rcases List.mem_cons.1 hs' with rfl | hs'
      · exact hc
      · exact ih h s' hs'

theorem searchWarm_dbl {t : Dbl} : ∀ {path : List (Segment Dbl)} {i : Nat} {r : Segment Dbl × Nat},
    searchWarm t i path = some r → r.1 ∈ path ∧ r.1.tBegin.r ≤ t.r ∧ t.r ≤ r.1.tEnd.r := by
  intro path
  induction path with
  | nil => intro i r h; cases h
  | cons s path ih =>
    intro i r h
    unfold searchWarm at h
    split at h
    · rename_i hc
      cases h
      rw [Dbl.le_iff, Dbl.le_iff] at hc
      exact ⟨by simp, hc⟩
    · obtain ⟨h2, h3⟩ := ih h
      exact ⟨List.mem_cons_of_mem _ h2, h3⟩

/-- Whatever a search returns is a segment of the path that contains the time. -/
theorem findSegment_dbl {path : List (Segment Dbl)} {t : Dbl} {last : Option Nat} {s : Segment Dbl} {i : Nat}
    (h : findSegment path t last = .ok (some (s, i))) : s ∈ path ∧ s.tBegin.r ≤ t.r ∧ t.r ≤ s.tEnd.r := by
  unfold findSegment at h
  split at h
  · cases h
  · split at h
    · cases h
    · split at h
      · split at h
        · rename_i r hr
          simp only [Except.ok.injEq, Option.some.injEq] at h
          subst h
          obtain ⟨h2, h3, h4⟩ := searchFresh_dbl hr
          exact ⟨h2, h3, h4.le⟩
        · cases h
      · split at h
        · rename_i r hr
          simp only [Except.ok.injEq, Option.some.injEq] at h
          subst h
          obtain ⟨h2, h3⟩ := searchWarm_dbl hr
          exact ⟨List.mem_of_mem_drop h2, h3⟩
        · cases h

theorem rounded_mul_one {a : Dbl} (h : Dbl.Rounded a) : a * 1 = a := by
  show (⟨rnd (a.val * rnd ((1 : ℕ) : ℚ))⟩ : Dbl) = a
  have h1 : rnd ((1 : ℕ) : ℚ) = 1 := by decide +kernel
  rw [h1, mul_one]
  cases a
  simp only [Dbl.mk.injEq]
  exact h

/-- The position that `get_values` reports in millimetres. -/
theorem getValues_dbl {path : List (Segment Dbl)} {t : Dbl} {last : Option Nat} {v p : Vec4 Dbl}
    (h : (getValues path "SImm" none t last).1 = .ok (v, p)) :
    ∃ s ∈ path, s.tBegin.r ≤ t.r ∧ t.r ≤ s.tEnd.r ∧ s.getPosition t = .ok p := by
  unfold getValues at h
  split at h
  · cases h
  · cases h
  · rename_i s i hs
    obtain ⟨h1, h2, h3⟩ := findSegment_dbl hs
    refine ⟨s, h1, h2, h3, ?_⟩
    cases hv : s.getVelocity t with
    | error e =>
      simp only [hv, bind, Except.bind] at h
      cases h
    | ok w =>
      have hp : ∃ q, s.getPosition t = .ok q ∧ Dbl.Rounded q.x ∧ Dbl.Rounded q.y ∧ Dbl.Rounded q.z ∧ Dbl.Rounded q.e := by
        unfold Segment.getPosition
        rw [if_neg (by rw [Dbl.lt_iff, Dbl.lt_iff]; push Not; exact ⟨h2, h3⟩), hv]
        simp only [bind, Except.bind]
        exact ⟨_, rfl, Dbl.rounded_add _ _, Dbl.rounded_add _ _, Dbl.rounded_add _ _, Dbl.rounded_add _ _⟩
      obtain ⟨q, q1, q2, q3, q4, q5⟩ := hp
      have hf : (simScaling ((none : Option String).getD "SImm") : Except PyErr Dbl) = .ok 1 := by
        unfold simScaling
        rw [if_neg (by decide), if_pos (by rfl)]
      simp only [hv, q1, hf, bind, Except.bind, Except.ok.injEq, Prod.mk.injEq] at h
      rw [q1, ← h.2]
      congr 1
      ext1 <;> simp only [Vec4.mul]
      · exact (rounded_mul_one q2).symm
      · exact (rounded_mul_one q3).symm
      · exact (rounded_mul_one q4).symm
      · exact (rounded_mul_one q5).symm

/-! ## The inside of a block -/

theorem mid_order {R : Segment Dbl → Segment Dbl → Prop} (hR : ∀ g g', R g g' → g.tEnd.r ≤ g'.tBegin.r) :
    ∀ {segs : List (Segment Dbl)}, (∀ g ∈ segs, g.tBegin.r ≤ g.tEnd.r) → segs.IsChain R → ∀ {s s' : Segment Dbl},
    segs.head? = some s → segs.getLast? = some s' → s.tBegin.r ≤ s'.tEnd.r ∧
      ∀ g ∈ segs, s.tBegin.r ≤ g.tBegin.r ∧ g.tEnd.r ≤ s'.tEnd.r := by
  intro segs
  induction segs with
  | nil => intro _ _ s s' h; cases h
  | cons x segs ih =>
    intro ho hc s s' hs hs'
    cases hs
    have hx := ho x (by simp)
    cases segs with
    | nil =>
      cases hs'
      refine ⟨hx, ?_⟩
      intro g hg
      rw [List.mem_singleton.1 hg]
      exact ⟨le_rfl, le_rfl⟩
    | cons y segs =>
      rw [List.isChain_cons_cons] at hc
      rw [List.getLast?_cons_cons] at hs'
      obtain ⟨i1, i2⟩ := ih (fun g hg => ho g (List.mem_cons_of_mem _ hg)) hc.2 rfl hs'
      have h1 := hR _ _ hc.1
      refine ⟨by linarith, ?_⟩
      intro g hg
      rcases List.mem_cons.1 hg with rfl | hg
      · exact ⟨le_rfl, by linarith⟩
      · obtain ⟨i3, i4⟩ := i2 g hg
        exact ⟨by linarith, i4⟩

theorem MoveMid.ordered {prev : Segment Dbl} {ur : Vec4 ℝ} {f : ℝ → ℝ} {v : ℝ} {segs : List (Segment Dbl)}
    (h : MoveMid prev ur f v segs) {s s' : Segment Dbl} (hs : segs.head? = some s) (hs' : segs.getLast? = some s') :
    s.tBegin.r ≤ s'.tEnd.r ∧ ∀ g ∈ segs, s.tBegin.r ≤ g.tBegin.r ∧ g.tEnd.r ≤ s'.tEnd.r := by
  refine mid_order ?_ h.order h.gaps hs hs'
  rintro g g' (h | ⟨_, _, h, _⟩)
  · rw [h]
  · exact h

theorem actDist_time {a : Option (PState ℝ) × PState ℝ} {A : PState ℝ} (h : Act a A) {V : ℝ} (hV : a.2.speed ≤ V)
    (hV0 : 0 ≤ V) (x y : ℝ) : |actDist a x - actDist a y| ≤ V * |x - y| := by
  obtain ⟨a1, B⟩ := a
  obtain ⟨h1, h2, h3, h4, h5⟩ := h
  simp only at h1 h2 h3 h4 h5 hV
  subst h1
  unfold actDist
  cases hp : B.pause with
  | some p =>
    simp only [hp, _root_.sub_self, abs_zero]
    positivity
  | none =>
    simp only [hp]
    rw [restDist_eq (h2 hp) (h3 hp) (h4 hp), restDist_eq (h2 hp) (h3 hp) (h4 hp)]
    refine (restWay_time (h2 hp) (h3 hp) (h4 hp) x y).trans ?_
    gcongr

/-- The way of an action, at any time. -/
theorem actDist_clamp {a : Option (PState ℝ) × PState ℝ} {A : PState ℝ} (h : Act a A) (x : ℝ) :
    actDist a x = actDist a (max 0 (min x (restTime a))) := by
  have hT := h.time
  obtain ⟨a1, B⟩ := a
  obtain ⟨h1, h2, h3, h4, h5⟩ := h
  simp only at h1 h2 h3 h4 h5
  subst h1
  unfold actDist
  cases hp : B.pause with
  | some p => simp only [hp]
  | none =>
    have e : restTime (some A, B) = moveTime B.pAcc B.speed (moveLength A.position B.position) 0 0 := by
      unfold restTime
      simp only [hp]
    rw [moveTime_rest (h2 hp) (h3 hp) (h4 hp)] at e
    rw [e] at hT ⊢
    simp only [hp]
    rw [restDist_eq (h2 hp) (h3 hp) (h4 hp), restDist_eq (h2 hp) (h3 hp) (h4 hp)]
    rcases le_total x 0 with hx | hx
    · rw [min_eq_left (by linarith), max_eq_left hx, restWay_begin hx, restWay_begin le_rfl]
    · rcases le_total x (moveLength A.position B.position / min B.speed √(B.pAcc * moveLength A.position B.position) +
        min B.speed √(B.pAcc * moveLength A.position B.position) / B.pAcc) with h6 | h6
      · rw [min_eq_left h6, max_eq_right hx]
      · rw [min_eq_right h6, max_eq_right hT, restWay_end (h2 hp) (h3 hp) (h4 hp) h6,
          restWay_end (h2 hp) (h3 hp) (h4 hp) le_rfl]

/-- Positions of an action in terms of the way. -/
theorem Act.point {a : Option (PState ℝ) × PState ℝ} {A : PState ℝ} (h : Act a A) {ur : Vec4 ℝ} {D : ℝ}
    (hd : a.2.position.sub A.position = ur.mul D) (hD : a.2.pause = none → D = moveLength A.position a.2.position ∧ 0 < D)
    (x : ℝ) : (restPoint a x).1 = A.position.add (ur.mul (actDist a x)) := by
  obtain ⟨a1, B⟩ := a
  obtain ⟨h1, h2, h3, h4, h5⟩ := h
  simp only at h1 h2 h3 h4 h5 hd hD
  subst h1
  unfold restPoint actDist
  cases hp : B.pause with
  | some p =>
    simp only [hp, Vec4.mul_zero, Vec4.add_zero]
  | none =>
    obtain ⟨e1, e2⟩ := hD hp
    simp only [hp]
    rw [← restDist_eq (h2 hp) (h3 hp) (h4 hp), hd, ← e1]
    congr 1
    ext <;> simp only [Vec4.mul] <;> field_simp

theorem coord_close {q P A u f f₁ δ κ η : ℝ} (h1 : |q - (P + u * f)| ≤ δ) (h2 : |P - A| ≤ κ) (h3 : |u| ≤ 1)
    (h4 : |f - f₁| ≤ η) : |q - (A + u * f₁)| ≤ δ + κ + η := by
  have h5 : |u * (f - f₁)| ≤ η := by
    rw [abs_mul]
    calc |u| * |f - f₁| ≤ 1 * |f - f₁| := by gcongr
      _ ≤ η := by rw [one_mul]; exact h4
  rw [show q - (A + u * f₁) = (q - (P + u * f)) + (P - A) + u * (f - f₁) by ring]
  refine (abs_add_le _ _).trans ?_
  have := abs_add_le (q - (P + u * f)) (P - A)
  linarith

/-- Within `δ` in x, y and z, and also in e if `ext`. -/
structure Close (δ : ℝ) (ext : Prop) (p : Vec4 Dbl) (q : Vec4 ℝ) : Prop where
  x : |p.x.r - q.x| ≤ δ
  y : |p.y.r - q.y| ≤ δ
  z : |p.z.r - q.z| ≤ δ
  e : ext → |p.e.r - q.e| ≤ δ

theorem Inside.near {k : ℕ} {S : ℝ} {b : Block Dbl} {a : Option (PState ℝ) × PState ℝ} (h : Inside k S b a)
    {A : PState ℝ} (hA : Act a A) {s' : Segment Dbl} (hs' : b.segments.getLast? = some s')
    (harr : Arrived s' a.2.position (k + 1) (S + restTime a)) (hS : 0 ≤ S) {V : ℝ} (hV : a.2.speed ≤ V) (hV0 : 0 ≤ V)
    {ext : Prop} (hext : ext → Slower Vec4.e a) {g : Segment Dbl} (hg : g ∈ b.segments) {t : Dbl}
    (ht : g.tBegin.r ≤ t.r) (ht' : t.r ≤ g.tEnd.r) :
    ∃ q x, g.getPosition t = .ok q ∧ 0 ≤ x ∧ x ≤ restTime a ∧
      |t.r - S - x| ≤ (k + 1) * 1e-9 + 1e-12 * (S + restTime a) ∧
      Close (2e-7 + 1e-9 * V + k * 1e-8 + V * (k * 1e-9 + 1e-12 * S)) ext q (restPoint a x).1 := by
  obtain ⟨prev, ur, D, A', s, h1, h2, h3, h4, h5, h6, h7, h8⟩ := h
  have hAA : A' = A := by
    have := hA.from_
    rw [h1] at this
    cases this
    rfl
  subst hAA
  have hT := hA.time
  obtain ⟨o1, o2⟩ := h8.ordered h6 hs'
  obtain ⟨o3, o4⟩ := o2 g hg
  obtain ⟨q, q1, q2⟩ := h8.near g hg t ht ht'
  have hb := abs_le.1 h2.time
  have hb' := abs_le.1 harr.time
  push_cast at hb'
  rw [h7] at o3
  have hk : (0 : ℝ) ≤ k := Nat.cast_nonneg k
  refine ⟨q, max 0 (min (t.r - S) (restTime a)), q1, le_max_left _ _, max_le hT (min_le_right _ _), ?_, ?_⟩
  · rcases le_total (t.r - S) 0 with hx | hx
    · rw [min_eq_left (by linarith), max_eq_left hx, abs_le]
      constructor <;> linarith
    · rcases le_total (t.r - S) (restTime a) with hy | hy
      · rw [min_eq_left hy, max_eq_right hx, _root_.sub_self, abs_zero]
        positivity
      · rw [min_eq_right hy, max_eq_right hT, abs_le]
        constructor <;> linarith
  · have hf : |actDist a (t.r - prev.tEnd.r) - actDist a (max 0 (min (t.r - S) (restTime a)))| ≤
        V * (k * 1e-9 + 1e-12 * S) := by
      rw [← actDist_clamp hA]
      refine (actDist_time hA hV hV0 _ _).trans ?_
      rw [show t.r - prev.tEnd.r - (t.r - S) = -(prev.tEnd.r - S) by ring, abs_neg]
      have := h2.time
      gcongr
    have hδ : 2e-7 + 1e-9 * a.2.speed ≤ 2e-7 + 1e-9 * V := by linarith
    have hu : ∀ c : Vec4 ℝ → ℝ, Coord c → (c Vec4.zero = 0) → Slower c a → |c ur| ≤ 1 := by
      intro c hc hz hsl
      by_cases hp : a.2.pause = none
      · obtain ⟨e1, e2⟩ := h4 hp
        have h9 := hsl A' h1
        rw [← e1, ← hc.sub, h3] at h9
        have h10 := hc.lin Vec4.zero ur D
        have h11 : (Vec4.zero : Vec4 ℝ).add (ur.mul D) = ur.mul D := by
          ext <;> simp [Vec4.add, Vec4.zero]
        rw [h11, hz, _root_.zero_add] at h10
        rw [h10, abs_mul, abs_of_pos e2] at h9
        by_contra hcon
        nlinarith [not_le.1 hcon]
      · rw [h5 hp, hz, abs_zero]
        norm_num
    obtain ⟨sx, sy, sz⟩ := slower_xyz a
    have ux := hu _ coord_x rfl sx
    have uy := hu _ coord_y rfl sy
    have uz := hu _ coord_z rfl sz
    rw [hA.point h3 h4]
    refine ⟨coord_close (q2.x.trans hδ) h2.px ux hf, coord_close (q2.y.trans hδ) h2.py uy hf,
      coord_close (q2.z.trans hδ) h2.pz uz hf, fun hx => ?_⟩
    have ue := hu _ coord_e rfl (hext hx)
    exact coord_close ((q2.e ue).trans hδ) h2.pe ue hf

theorem Close.mono {δ δ' : ℝ} {ext : Prop} {p : Vec4 Dbl} {q : Vec4 ℝ} (h : Close δ ext p q) (hδ : δ ≤ δ') :
    Close δ' ext p q :=
  ⟨h.x.trans hδ, h.y.trans hδ, h.z.trans hδ, fun hx => (h.e hx).trans hδ⟩

theorem ActList.total {acts : List (Option (PState ℝ) × PState ℝ)} (h : ActList acts) : 0 ≤ (acts.map restTime).sum := by
  apply List.sum_nonneg
  intro x hx
  obtain ⟨a, ha, rfl⟩ := List.mem_map.1 hx
  obtain ⟨A, hA⟩ := h.each a ha
  exact hA.time

/-- The positions of a program in double precision are those of the closed formulas at nearly the same time. -/
theorem Tracks.query {k : ℕ} {S : ℝ} {bs : List (Block Dbl)} {acts : List (Option (PState ℝ) × PState ℝ)}
    (h : Tracks k S bs acts) {V : ℝ} (hV0 : 0 ≤ V) {ext : Prop} :
    0 ≤ S → ActList acts → (∀ a ∈ acts, a.2.speed ≤ V) → (ext → ∀ a ∈ acts, Slower Vec4.e a) →
    ∀ g ∈ unpack bs, ∀ t : Dbl, g.tBegin.r ≤ t.r → t.r ≤ g.tEnd.r →
    ∃ q x p v, g.getPosition t = .ok q ∧ 0 ≤ x ∧
      |t.r - S - x| ≤ (k + bs.length) * 1e-9 + 1e-12 * (S + (acts.map restTime).sum) ∧
      restMotion acts x = some (p, v) ∧
      Close (2e-7 + 1e-9 * V + (k + bs.length) * 1e-8 +
        V * ((k + bs.length) * 1e-9 + 1e-12 * (S + (acts.map restTime).sum))) ext q p := by
  induction h with
  | done k S =>
    intro _ _ _ _ g hg
    simp [unpack] at hg
  | @step k S b bs a acts s' h1 h2 h3 h4 h5 h6 ih =>
    intro hS hact hV hext g hg t ht ht'
    obtain ⟨A, hA⟩ := hact.each a (by simp)
    have hT := hA.time
    have hsum := hact.tail.total
    have hlen : (0 : ℝ) ≤ bs.length := Nat.cast_nonneg _
    have hk : (0 : ℝ) ≤ k := Nat.cast_nonneg _
    rw [unpack, List.flatMap_cons, List.mem_append] at hg
    simp only [List.map_cons, List.sum_cons, List.length_cons]
    push_cast
    rcases hg with hg | hg
    · obtain ⟨q, x, q1, q2, q3, q4, q5⟩ := h5.near hA h3 h4 hS (hV a (by simp)) hV0
        (fun hx => hext hx a (by simp)) hg ht ht'
      refine ⟨q, x, (restPoint a x).1, (restPoint a x).2, q1, q2, ?_, ?_, ?_⟩
      · refine q4.trans ?_
        linarith
      · rw [restMotion, if_pos q3]
      · refine q5.mono ?_
        have : V * (k * 1e-9 + 1e-12 * S) ≤
            V * ((k + (bs.length + 1)) * 1e-9 + 1e-12 * (S + (restTime a + (acts.map restTime).sum))) := by
          gcongr <;> linarith
        linarith
    · obtain ⟨q, x, p, v, q1, q2, q3, q4, q5⟩ := ih (by linarith) hact.tail (fun a ha => hV a (by simp [ha]))
        (fun hx a ha => hext hx a (by simp [ha])) g hg t ht ht'
      push_cast at q3 q5
      refine ⟨q, x + restTime a, p, v, q1, by linarith, ?_, hact.later q2 q4, ?_⟩
      · rw [show t.r - S - (x + restTime a) = t.r - (S + restTime a) - x by ring]
        refine q3.trans (le_of_eq ?_)
        ring
      · refine q5.mono (le_of_eq ?_)
        ring

/-! ## Gaps -/

/-- Between the begin and the end of a path there is a segment for every time, or the time is in a gap. -/
theorem path_cover {Q : Segment Dbl → Segment Dbl → Prop} {t : ℝ} : ∀ {segs : List (Segment Dbl)},
    (segs.IsChain fun g g' => g'.tBegin = g.tEnd ∨ Q g g') → ∀ {s s' : Segment Dbl}, segs.head? = some s →
    segs.getLast? = some s' → s.tBegin.r ≤ t → t < s'.tEnd.r →
    (∃ g ∈ segs, g.tBegin.r ≤ t ∧ t < g.tEnd.r) ∨
      ∃ g ∈ segs, ∃ g' ∈ segs, Q g g' ∧ g.tEnd.r ≤ t ∧ t < g'.tBegin.r := by
  intro segs
  induction segs with
  | nil => intro _ s s' h; cases h
  | cons x segs ih =>
    intro hc s s' hs hs' h0 h1
    cases hs
    by_cases hx : t < x.tEnd.r
    · exact .inl ⟨x, by simp, h0, hx⟩
    have hx := not_lt.1 hx
    cases segs with
    | nil =>
      rw [List.getLast?_singleton, Option.some.injEq] at hs'
      subst hs'
      linarith
    | cons y segs =>
      rw [List.isChain_cons_cons] at hc
      rw [List.getLast?_cons_cons] at hs'
      by_cases hy : y.tBegin.r ≤ t
      · rcases ih hc.2 rfl hs' hy h1 with ⟨g, i1, i2⟩ | ⟨g, i1, g', i2, i3⟩
        · exact .inl ⟨g, by simp [i1], i2⟩
        · exact .inr ⟨g, List.mem_cons_of_mem _ i1, g', List.mem_cons_of_mem _ i2, i3⟩
      · have hy := not_le.1 hy
        rcases hc.1 with h | h
        · rw [h] at hy
          linarith
        · exact .inr ⟨x, by simp, y, by simp, h, hx, hy⟩

/-- A segment is missing in the block, and a query at the time `t` falls into the gap. -/
def GapAt (b : Block Dbl) (v : ℝ) (t : ℝ) : Prop :=
  ∃ g g', b.segments = [g, g'] ∧ g'.posBegin = g.posEnd ∧ g.tEnd.r ≤ t ∧ t < g'.tBegin.r ∧
    (g'.tBegin.r - g.tEnd.r) * v ≤ 4e-7

theorem Inside.cover {k : ℕ} {S : ℝ} {b : Block Dbl} {a : Option (PState ℝ) × PState ℝ} (h : Inside k S b a)
    {s s' : Segment Dbl} (hs : b.segments.head? = some s) (hs' : b.segments.getLast? = some s') {t : ℝ}
    (h0 : s.tBegin.r ≤ t) (h1 : t < s'.tEnd.r) :
    (∃ g ∈ b.segments, g.tBegin.r ≤ t ∧ t < g.tEnd.r) ∨ GapAt b a.2.speed t := by
  obtain ⟨prev, ur, D, A', s₀, _, _, _, _, _, _, _, h8⟩ := h
  rcases path_cover h8.gaps hs hs' h0 h1 with h | ⟨g, _, g', _, ⟨h2, h3, _, h5⟩, h6, h7⟩
  · exact .inl h
  · exact .inr ⟨g, g', h2, h3, h6, h7, h5⟩

theorem Tracks.cover {k : ℕ} {S : ℝ} {bs : List (Block Dbl)} {acts : List (Option (PState ℝ) × PState ℝ)}
    (h : Tracks k S bs acts) : bs.IsChain Meets → ∀ {b b' : Block Dbl} {s s' : Segment Dbl}, bs.head? = some b →
    b.segments.head? = some s → bs.getLast? = some b' → b'.segments.getLast? = some s' → ∀ {t : ℝ}, s.tBegin.r ≤ t →
    t < s'.tEnd.r → (∃ g ∈ unpack bs, g.tBegin.r ≤ t ∧ t < g.tEnd.r) ∨ ∃ b ∈ bs, GapAt b b.stateB.speed.r t := by
  induction h with
  | done k S => intro _ b b' s s' hb; cases hb
  | @step k S b bs a acts l h1 h2 h3 h4 h5 h6 ih =>
    intro hc b₀ b' s s' hb hs hb' hs' t ht ht'
    cases hb
    have hsp : a.2.speed = b.stateB.speed.r := by
      rw [← h2]
      rfl
    by_cases hl : t < l.tEnd.r
    · rcases h5.cover hs h3 ht hl with ⟨g, h7, h8⟩ | h7
      · exact .inl ⟨g, by rw [unpack, List.flatMap_cons, List.mem_append]; exact .inl h7, h8⟩
      · rw [hsp] at h7
        exact .inr ⟨b, by simp, h7⟩
    · have hl := not_lt.1 hl
      cases bs with
      | nil =>
        rw [List.getLast?_singleton, Option.some.injEq] at hb'
        subst hb'
        rw [h3] at hs'
        cases hs'
        linarith
      | cons c bs =>
        rw [List.isChain_cons_cons] at hc
        obtain ⟨l', f, m1, m2, m3, _⟩ := hc.1
        rw [h3] at m1
        cases m1
        rw [List.getLast?_cons_cons] at hb'
        rcases ih hc.2 rfl m2 hb' hs' (by rw [m3]; exact hl) ht' with ⟨g, h7, h8⟩ | ⟨b₁, h7, h8⟩
        · exact .inl ⟨g, by rw [unpack, List.flatMap_cons, List.mem_append]; exact .inr h7, h8⟩
        · exact .inr ⟨b₁, List.mem_cons_of_mem _ h7, h8⟩

end PyGCD
