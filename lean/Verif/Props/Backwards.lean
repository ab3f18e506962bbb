import Verif.Spec.Backwards
import Verif.Props.LongPieces

/-!
# Property C89: following a path backwards takes equally long
-/

set_option linter.unusedSectionVars false
set_option linter.unusedSimpArgs false

namespace PyGCD
open Vec4 Spec Set

variable {fw : Firmware} {states states' : List (PState ℝ)} {bs bs' : List (Block ℝ)}

/-! ## The relation -/

theorem Spec.Backwards.symm {p q : List (PState ℝ)} (h : Backwards p q) : Backwards q p := by
  obtain ⟨h1, h2, h3, h4, h5⟩ := h
  exact ⟨by rw [h1, List.reverse_reverse], by rw [h2, List.reverse_reverse], by rw [h3, List.reverse_reverse],
    by rw [h4, List.reverse_reverse], by rw [h5, List.reverse_reverse]⟩

theorem Spec.Backwards.length {p q : List (PState ℝ)} (h : Backwards p q) : q.length = p.length := by
  have := congrArg List.length h.positions
  simpa using this

theorem Spec.Backwards.single {A : PState ℝ} {q : List (PState ℝ)} (h : Backwards [A] q) :
    ∃ A', q = [A'] ∧ A'.position = A.position ∧ A'.jerk = A.jerk := by
  have hl := h.length
  obtain ⟨A', rfl⟩ := List.length_eq_one_iff.1 hl
  exact ⟨A', rfl, by simpa using h.positions, by simpa using h.jerks⟩

/-- The last state of the reversed program. -/
theorem Spec.Backwards.step {A B : PState ℝ} {rest q : List (PState ℝ)} (h : Backwards (A :: B :: rest) q) :
    ∃ front A', q = front ++ [A'] ∧ Backwards (B :: rest) front ∧ A'.position = A.position ∧ A'.jerk = A.jerk ∧
      A'.speed = B.speed ∧ A'.pAcc = B.pAcc ∧ A'.pause = B.pause := by
  have hl := h.length
  rcases List.eq_nil_or_concat q with rfl | ⟨front, A', rfl⟩
  · simp at hl
  rw [List.concat_eq_append] at *
  have hne : front ≠ [] := by
    rintro rfl
    simp at hl
  obtain ⟨h1, h2, h3, h4, h5⟩ := h
  rw [List.tail_append_of_ne_nil hne] at h3 h4 h5
  simp only [List.map_append, List.map_cons, List.map_nil, List.tail_cons, List.reverse_cons] at h1 h2 h3 h4 h5
  obtain ⟨a1, b1⟩ := List.append_inj' h1 (by simp)
  obtain ⟨a2, b2⟩ := List.append_inj' h2 (by simp)
  obtain ⟨a3, b3⟩ := List.append_inj' h3 (by simp)
  obtain ⟨a4, b4⟩ := List.append_inj' h4 (by simp)
  obtain ⟨a5, b5⟩ := List.append_inj' h5 (by simp)
  refine ⟨front, A', rfl, ⟨?_, ?_, ?_, ?_, ?_⟩, by simpa using b1, by simpa using b2, by simpa using b3,
    by simpa using b4, by simpa using b5⟩
  · rw [a1]
    simp
  · rw [a2]
    simp
  · rw [a3, List.tail_cons]
  · rw [a4, List.tail_cons]
  · rw [a5, List.tail_cons]

theorem Spec.Backwards.steady {p q : List (PState ℝ)} (h : Backwards p q) (hs : SteadyJerk p) : SteadyJerk q := by
  have key : ∀ l : List (PState ℝ), SteadyJerk l ↔ ((l.map (·.position)).zip (l.map (·.jerk))).IsChain
      fun x y => x.1 = y.1 → x.2 = y.2 := by
    intro l
    rw [List.zip_map', List.isChain_map]
    rfl
  rw [key] at hs ⊢
  have e : (q.map (·.position)).zip (q.map (·.jerk)) = ((p.map (·.position)).zip (p.map (·.jerk))).reverse := by
    rw [h.positions, h.jerks, List.zip_map', ← List.map_reverse, ← List.map_reverse, ← List.map_reverse,
      List.zip_map']
  rw [e, List.isChain_reverse]
  exact hs.imp fun x y hxy he => (hxy he.symm).symm

theorem Spec.Backwards.uniform {p q : List (PState ℝ)} (h : Backwards p q) {V : ℝ} (hs : ∀ s ∈ p.tail, s.speed = V) :
    ∀ s ∈ q.tail, s.speed = V := by
  intro s hs'
  have : s.speed ∈ q.tail.map (·.speed) := List.mem_map_of_mem hs'
  rw [h.speeds, List.mem_reverse] at this
  obtain ⟨x, hx, e⟩ := List.mem_map.1 this
  rw [← e]
  exact hs x hx

/-! ## Driving backwards -/

theorem Spec.Drive.reverse {a vT d v v' T : ℝ} (h : Drive a vT d v v' T) : Drive a vT d v' v T := by
  obtain ⟨hT, x, w, hx, hL, hb, x0, xT, w0, wT⟩ := h
  have hm : ∀ t ∈ Icc 0 T, T - t ∈ Icc 0 T := fun t ht => ⟨by linarith [ht.2], by linarith [ht.1]⟩
  refine ⟨hT, fun t => d - x (T - t), fun t => w (T - t), ?_, ?_, fun t ht => hb _ (hm t ht), by simp [xT],
    by simp [x0], by simp [wT], by simp [w0]⟩
  · intro t ht
    have h1 := hx _ (hm t ht)
    have h2 : HasDerivWithinAt (fun t => T - t) (-1) (Icc 0 T) t := by
      simpa using ((hasDerivAt_id t).const_sub T).hasDerivWithinAt
    have h3 := (h1.scomp t h2 hm).const_sub d
    simpa using h3
  · intro s hs t ht
    have := hL _ (hm s hs) _ (hm t ht)
    rw [show T - t - (T - s) = -(t - s) by ring, abs_neg] at this
    exact this

/-! ## The corner in the other direction -/

theorem norm3_flip (a b : Vec4 ℝ) : (a.sub b).norm3 = (b.sub a).norm3 := by
  have h : (a.sub b).norm3 ^ 2 = (b.sub a).norm3 ^ 2 := by
    rw [norm3_sq, norm3_sq]
    simp only [Vec4.sub]
    ring
  exact (sq_eq_sq₀ (norm3_nonneg _) (norm3_nonneg _)).1 h

theorem turn_symm (A B C : Vec4 ℝ) : turn A B C = turn C B A := by
  unfold turn Spec.dot3
  rw [norm3_flip B A, norm3_flip C B, mul_comm (A.sub B).norm3]
  congr 2
  simp only [Vec4.sub]
  ring

theorem axisJump_symm (a b : ℝ) : axisJump a b = axisJump (-b) (-a) := by
  unfold axisJump
  rw [neg_mul_neg, mul_comm b a, abs_neg, abs_neg, max_comm, show -b - -a = a - b by ring]

theorem marlinJd_speed {s s' j φ v : ℝ} (h : v ≤ marlinJd s j φ) (h' : v ≤ s') : v ≤ marlinJd s' j φ := by
  unfold marlinJd at h ⊢
  split
  · rename_i hc
    rwa [if_pos hc] at h
  · rename_i hc
    rw [if_neg hc] at h
    split
    · exact h'
    · rename_i hc'
      rw [if_neg hc'] at h
      exact le_min h' (h.trans (min_le_right _ _))

theorem calcKlipper_le_free (v0 v1 : Vec4 ℝ) {d : ℝ} {B : PState ℝ} (ha : 0 < B.pAcc) :
    calcKlipper v0 v1 d B ≤ klipperFree v0 v1 B :=
  (calcKlipper_mono (le_max_left d (roomLength B)) ha.le).trans (calcKlipper_long v0 v1 ha (le_max_right _ _)).le

/-- The direction of a travel move. -/
theorem connect_dir {P Q : PState ℝ} (h : (Q.position.sub P.position).norm3 ≠ 0) (hs : 0 < Q.speed) :
    (connectState P Q).norm3 = Q.speed ∧
      (connectState P Q).div Q.speed = (Q.position.sub P.position).div (Q.position.sub P.position).norm3 := by
  refine ⟨by rw [connectState_norm3 P Q hs.le, if_neg h], ?_⟩
  rw [connectState_travel h]
  have := hs.ne'
  ext <;> simp only [Vec4.mul, Vec4.div] <;> field_simp

/-- `klipper` in front of long moves allows the same at a corner from both sides. -/
theorem klipperFree_symm {Z A C Z' A' C' : PState ℝ} {v : ℝ} (hZ : Z'.position = Z.position)
    (hA : A'.position = A.position) (hC : C'.position = C.position) (hj : A'.jerk = A.jerk)
    (hA0 : 0 < A.speed) (hC0 : 0 < C.speed) (hZ0 : 0 < Z'.speed) (hA0' : 0 < A'.speed)
    (h0 : (A.position.sub Z.position).norm3 ≠ 0) (h1 : (C.position.sub A.position).norm3 ≠ 0)
    (hv : v ≤ klipperFree (connectState Z A) (connectState A C) A) (hvC : v ≤ A'.speed) :
    v ≤ klipperFree (connectState C' A') (connectState A' Z') A' := by
  have h0' : (A'.position.sub C'.position).norm3 ≠ 0 := by rwa [hA, hC, norm3_flip]
  have h1' : (Z'.position.sub A'.position).norm3 ≠ 0 := by rwa [hA, hZ, norm3_flip]
  obtain ⟨a1, a2⟩ := connect_dir h0 hA0
  obtain ⟨b1, b2⟩ := connect_dir h1 hC0
  obtain ⟨c1, c2⟩ := connect_dir h0' hA0'
  obtain ⟨d1, d2⟩ := connect_dir h1' hZ0
  unfold klipperFree at hv ⊢
  simp only [a1, b1, hA0.ne', hC0.ne', or_self, if_false] at hv
  simp only [c1, d1, hA0'.ne', hZ0.ne', or_self, if_false]
  rw [a2, b2] at hv
  rw [c2, d2, hA, hC, hZ, norm3_flip A.position C.position, norm3_flip Z.position A.position, hj]
  have hdot : ∀ n m : ℝ, ((A.position.sub C.position).div m).x * ((Z.position.sub A.position).div n).x +
      ((A.position.sub C.position).div m).y * ((Z.position.sub A.position).div n).y +
      ((A.position.sub C.position).div m).z * ((Z.position.sub A.position).div n).z =
      ((A.position.sub Z.position).div n).x * ((C.position.sub A.position).div m).x +
      ((A.position.sub Z.position).div n).y * ((C.position.sub A.position).div m).y +
      ((A.position.sub Z.position).div n).z * ((C.position.sub A.position).div m).z := by
    intro n m
    simp only [Vec4.div, Vec4.sub]
    ring
  rw [hdot]
  generalize -(((A.position.sub Z.position).div (A.position.sub Z.position).norm3).x *
      ((C.position.sub A.position).div (C.position.sub A.position).norm3).x +
      ((A.position.sub Z.position).div (A.position.sub Z.position).norm3).y *
      ((C.position.sub A.position).div (C.position.sub A.position).norm3).y +
      ((A.position.sub Z.position).div (A.position.sub Z.position).norm3).z *
      ((C.position.sub A.position).div (C.position.sub A.position).norm3).z) = c at *
  split
  · rename_i hc
    rwa [if_pos hc] at hv
  · rename_i hc
    rw [if_neg hc] at hv
    by_cases hv0 : v ≤ 0
    · exact hv0.trans (Real.sqrt_nonneg _)
    · push Not at hv0
      refine Real.le_sqrt_of_sq_le (le_min ?_ ?_)
      · exact ((Real.le_sqrt' hv0).1 hv).trans (min_le_left _ _)
      · exact (sq_le_sq₀ hv0.le hA0'.le).2 hvC

/-- The firmwares for which a corner looks the same from both sides. -/
def Mirror (fw : Firmware) (states : List (PState ℝ)) : Prop :=
  fw = .marlinJd ∨ fw = .default ∨ fw = .mka ∧ (∃ V, ∀ s ∈ states, s.speed = V) ∨ fw = .klipper

/-- A speed that is allowed at the corner from `Z` over `A` to `C` is allowed at the corner from `C` over `A` to
`Z`. -/
theorem corner_symm {Z A C Z' A' C' : PState ℝ} {rest rest' : List (PState ℝ)} {v : ℝ}
    (hfw : Mirror fw [A, C]) (hn : NextMove A rest C) (hn' : NextMove A' rest' Z') (hZ : Z'.position = Z.position)
    (hA : A'.position = A.position) (hC : C'.position = C.position) (hZs : Z'.speed = A.speed)
    (hAs : A'.speed = C.speed) (hj : A'.jerk = A.jerk) (hj0 : 0 ≤ A.jerk) (hA0 : 0 < A.speed) (hC0 : 0 < C.speed)
    (ha : 0 < A.pAcc) (ha' : 0 < A'.pAcc)
    (h0 : (A.position.sub Z.position).norm3 ≠ 0) (h1 : (C.position.sub A.position).norm3 ≠ 0)
    (hk : fw = .klipper → roomLength A' ≤ (A.position.sub Z.position).norm3)
    (hv : v ≤ junctionVel fw (some Z) A rest) (hvC : v ≤ C.speed) : v ≤ junctionVel fw (some C') A' rest' := by
  have h0' : (A'.position.sub C'.position).norm3 ≠ 0 := by rwa [hA, hC, norm3_flip]
  have h1' : (Z'.position.sub A'.position).norm3 ≠ 0 := by rwa [hA, hZ, norm3_flip]
  rcases hfw with rfl | rfl | ⟨rfl, V, hV⟩ | rfl
  · rw [c58_marlin_jd hn h0 h1 hA0 hC0 ha hj0] at hv
    rw [c58_marlin_jd hn' h0' h1' (by rwa [hAs]) (by rwa [hZs]) ha' (by rwa [hj]), hAs, hj, hA, hC, hZ, ← turn_symm]
    exact marlinJd_speed hv hvC
  · refine hv.trans (le_trans ?_ (c17_junction_speed _ _ _ _ (by rw [hAs]; exact hC0.le) (by rwa [hj])).1)
    exact le_of_eq rfl
  · have eA : A.speed = V := hV A (by simp)
    have eC : C.speed = V := hV C (by simp)
    have dir : ∀ {P Q : PState ℝ}, (Q.position.sub P.position).norm3 ≠ 0 →
        Q.position = P.position.add (((Q.position.sub P.position).div (Q.position.sub P.position).norm3).mul
          (Q.position.sub P.position).norm3) := by
      intro P Q h
      generalize (Q.position.sub P.position).norm3 = n at h
      ext <;> simp only [Vec4.add, Vec4.mul, Vec4.div, Vec4.sub] <;> (field_simp; ring)
    rw [c61_mka_law hn h0 h1 hA0 hC0 hj0 (dir h0) (dir h1)] at hv
    rw [c61_mka_law hn' h0' h1' (by rwa [hAs]) (by rwa [hZs]) (by rwa [hj]) (dir h0') (dir h1')]
    refine hv.trans (le_of_eq ?_)
    have hVne : V ≠ 0 := by rw [← eA]; exact hA0.ne'
    simp only [hAs, hZs, hj, hA, hC, hZ, eA, eC, min_self, div_self hVne, _root_.mul_one]
    rw [norm3_flip Z.position A.position, norm3_flip A.position C.position]
    have r : ∀ a b c d n m : ℝ, axisJump (V * ((a - b) / n)) (V * ((c - d) / m)) =
        axisJump (V * ((d - c) / m)) (V * ((b - a) / n)) := by
      intro a b c d n m
      rw [axisJump_symm]
      congr 1 <;> ring
    generalize (A.position.sub Z.position).norm3 = n
    generalize (C.position.sub A.position).norm3 = m
    simp only [Vec4.div, Vec4.sub]
    congr 1 <;> exact r _ _ _ _ _ _
  · unfold junctionVel at hv ⊢
    simp only [velNext_of_nextMove hn, velNext_of_nextMove hn', nextTarget_of_nextMove hn', targetVel] at hv ⊢
    rw [calcKlipper_long _ _ ha' (by rw [hZ, hA, norm3_flip]; exact hk rfl)]
    exact klipperFree_symm hZ hA hC hj hA0 hC0 (by rwa [hZs]) (by rwa [hAs]) h0 h1
      (hv.trans (calcKlipper_le_free _ _ ha)) (by rwa [hAs])

/-- States at the place of the corner do not matter. -/
theorem junctionVel_skip {A B : PState ℝ} {rest : List (PState ℝ)} (hfw : fw ≠ .marlinJerk) (Z : Option (PState ℝ))
    (hj : 0 ≤ A.jerk) (hB : B.position = A.position) : junctionVel fw Z A (B :: rest) = junctionVel fw Z A rest := by
  rcases next_or_stop A rest with h | ⟨C, hC⟩
  · rw [c62_stop hfw Z hj (Or.inl h), c62_stop hfw Z hj (Or.inl ?_)]
    intro x hx
    rcases List.mem_cons.1 hx with rfl | hx
    · exact hB
    · exact h x hx
  · have hC' : NextMove A (B :: rest) C := by
      obtain ⟨pre, post, rfl, h1, h2⟩ := hC
      refine ⟨B :: pre, post, rfl, ?_, h2⟩
      intro x hx
      rcases List.mem_cons.1 hx with rfl | hx
      · exact hB
      · exact h1 x hx
    unfold junctionVel
    simp only [velNext_of_nextMove hC, velNext_of_nextMove hC', nextTarget_of_nextMove hC, nextTarget_of_nextMove hC']

/-! ## A motion for the reversed program -/

/-- What is known about the speed `v` at state `A`, behind which the program `rest` goes on: it is allowed for
the corner at `A`, which the reversed program takes before it goes on with `acc`. -/
def Turned (fw : Firmware) (V L : ℝ) (A : PState ℝ) (v : ℝ) (rest acc : List (PState ℝ)) : Prop :=
  v ≤ 0 ∨ ∃ Z A₀ Z' : PState ℝ, (∀ A' : PState ℝ, A'.position = A.position → NextMove A' acc Z') ∧
    Z'.position = Z.position ∧ Z'.speed = A₀.speed ∧ (A₀.position.sub Z.position).norm3 ≠ 0 ∧
    A₀.position = A.position ∧ A₀.jerk = A.jerk ∧ 0 < A₀.speed ∧ 0 < A₀.pAcc ∧ (fw = .mka → A₀.speed = V) ∧
    (fw = .klipper → L ≤ (A₀.position.sub Z.position).norm3) ∧ v ≤ junctionVel fw (some Z) A₀ rest

theorem Near.backwards {δ V L : ℝ} (hδ : 0 ≤ δ) (hfw : fw = .marlinJd ∨ fw = .default ∨ fw = .mka ∨ fw = .klipper)
    {pa : Option (PState ℝ)} {v T : ℝ} {rest : List (PState ℝ)} (h : Near (junctionVel fw) δ pa v rest T) :
    ∀ {A : PState ℝ} {front acc : List (PState ℝ)} {T₀ : ℝ}, pa = some A → Backwards (A :: rest) front →
      (∀ s ∈ front.head?, s.pause = none) →
      (∀ s ∈ A :: rest, 0 < s.speed ∧ 0 < s.pAcc ∧ 0 ≤ s.jerk) → SteadyJerk (A :: rest) →
      (A :: rest).IsChain (fun A B => B.pause ≠ none → B.position = A.position) →
      (fw = .mka → ∀ s ∈ rest, s.speed = V) → (fw = .klipper → LongMoves L (A :: rest) ∧ ∀ s ∈ front, roomLength s ≤ L) →
      Turned fw V L A v rest acc →
      (∀ A' : PState ℝ, A'.position = A.position → Rough (junctionVel fw) 0 δ (some A') (max v 0) acc T₀) →
      ∃ T', T' ≤ T + T₀ + (rest.map fun s => δ / s.pAcc).sum ∧ Rough (junctionVel fw) 0 δ none 0 (front ++ acc) T' := by
  have hnj : fw ≠ .marlinJerk := by
    rcases hfw with rfl | rfl | rfl | rfl <;> simp
  have long : ∀ {A B A' : PState ℝ} {l front : List (PState ℝ)},
      (fw = .klipper → LongMoves L (A :: B :: l) ∧ ∀ s ∈ front ++ [A'], roomLength s ≤ L) →
      fw = .klipper → LongMoves L (B :: l) ∧ ∀ s ∈ front, roomLength s ≤ L :=
    fun h hk => ⟨(List.isChain_cons_cons.1 (h hk).1).2, fun s hs => (h hk).2 s (by simp [hs])⟩
  have head : ∀ {A A' : PState ℝ} {l front : List (PState ℝ)}, Backwards (A :: l) front →
      (∀ s ∈ (front ++ [A']).head?, s.pause = none) → ∀ s ∈ front.head?, s.pause = none := by
    intro A A' l front hb hh s hs
    cases front with
    | nil => cases hs
    | cons x front => exact hh s hs
  have sum : ∀ {B : PState ℝ} (l : List (PState ℝ)), 0 < B.pAcc →
      (l.map fun s => δ / s.pAcc).sum ≤ ((B :: l).map fun s => δ / s.pAcc).sum := by
    intro B l hB
    rw [List.map_cons, List.sum_cons]
    have := div_nonneg hδ hB.le
    linarith
  induction h with
  | done pa v =>
    intro A front acc T₀ hpa hb hh hr _ _ _ _ ht hacc
    obtain ⟨A', rfl, hp, hj⟩ := hb.single
    have hv : v ≤ 0 := by
      rcases ht with ht | ⟨Z, A₀, Z', -, -, -, -, h1, h2, -, -, -, -, hv⟩
      · exact ht
      · by_cases hj : 0 ≤ A₀.jerk
        · rwa [c62_stop hnj _ hj (Or.inl (by simp))] at hv
        · exact absurd (by rw [h2]; exact (hr A (by simp)).2.2) hj
    refine ⟨T₀, by simp, ?_⟩
    have := hacc A' hp
    rw [max_eq_right hv] at this
    exact .idle (hh A' rfl) (by simp) this
  | @idle pa v T B rest hp hpos _ ih =>
    intro A front acc T₀ hpa hb hh hr hs hc hV hL ht hacc
    have hBA := hpos A hpa
    obtain ⟨front, A', rfl, hb', e1, e2, e3, e4, e5⟩ := hb.step
    obtain ⟨T', g1, g2⟩ := ih (acc := A' :: acc) (T₀ := T₀) rfl hb' (head hb' hh) (fun s hs => hr s (by simp_all))
      (List.isChain_cons_cons.1 hs).2 (List.isChain_cons_cons.1 hc).2 (fun h s hs => hV h s (by simp [hs])) (long hL) (by
        rcases ht with ht | ⟨Z, A₀, Z', k1, k2, k3, k4, k5, k6, k7, k8, k9, k11, k10⟩
        · exact Or.inl ht
        · refine Or.inr ⟨Z, A₀, Z', ?_, k2, k3, k4, by rw [k5, hBA], ?_, k7, k8, k9, k11, ?_⟩
          · intro X hX
            obtain ⟨pre, post, rfl, q1, q2⟩ := k1 X (by rw [hX, hBA])
            refine ⟨A' :: pre, post, rfl, ?_, q2⟩
            intro x hx
            rcases List.mem_cons.1 hx with rfl | hx
            · rw [e1, hX, hBA]
            · exact q1 x hx
          · rw [k6]
            exact (List.isChain_cons_cons.1 hs).1 hBA.symm
          · rwa [junctionVel_skip hnj _ (by rw [k6]; exact (hr A (by simp)).2.2) (by rw [hBA, k5])] at k10)
      (fun X hX => .idle (by rw [e5, hp]) (by
        intro Y hY
        cases hY
        rw [e1, hX, hBA]) (hacc A' e1))
    refine ⟨T', ?_, by simpa using g2⟩
    have := sum rest (hr B (by simp)).2.1
    linarith
  | @pause pa p t T v B rest hp ht' _ hv ih =>
    intro A front acc T₀ hpa hb hh hr hs hc hV hL ht hacc
    obtain ⟨front, A', rfl, hb', e1, e2, e3, e4, e5⟩ := hb.step
    obtain ⟨T', g1, g2⟩ := ih (acc := A' :: acc) (T₀ := t + T₀) rfl hb' (head hb' hh) (fun s hs => hr s (by simp_all))
      (List.isChain_cons_cons.1 hs).2 (List.isChain_cons_cons.1 hc).2 (fun h s hs => hV h s (by simp [hs])) (long hL) (Or.inl hv) (by
        intro X hX
        rw [max_eq_right hv]
        have := hacc A' e1
        rw [max_self] at this
        exact .pause (by rw [e5, hp]) ht' this le_rfl)
    refine ⟨T', ?_, by simpa using g2⟩
    have := sum rest (hr B (by simp)).2.1
    linarith
  | @travel P B v v' v'' t T rest hp hne hd hlim h1 h2 _ ih =>
    intro A front acc T₀ hpa hb hh hr hs hc hV hL ht hacc
    cases hpa
    obtain ⟨r1, r2, r3⟩ := hr B (by simp)
    obtain ⟨s1, s2, s3⟩ := hr P (by simp)
    obtain ⟨front, A', rfl, hb', e1, e2, e3, e4, e5⟩ := hb.step
    obtain ⟨f0, f1, f2, f3, f4, f5⟩ := hd.facts r2
    have hu : max v'' 0 ≤ v' := max_le h1 f2
    have hu' : v' - max v'' 0 ≤ δ := by linarith [le_max_left v'' 0]
    obtain ⟨D, hD, hD'⟩ := hd.reverse.extend r2 (le_max_right v'' 0) hu f0 le_rfl
    have hpos : B.position ≠ P.position := by
      intro he
      rw [he, Vec4.sub_self] at hne
      exact hne (norm3_eq_zero.2 ⟨rfl, rfl, rfl⟩)
    have hδa : (v' - max v'' 0) / B.pAcc ≤ δ / B.pAcc := div_le_div_of_nonneg_right hu' r2.le
    obtain ⟨T', g1, g2⟩ := ih (acc := A' :: acc)
      (T₀ := t + ((v' - max v'' 0) / B.pAcc + (v - v) / B.pAcc) + T₀) rfl hb' (head hb' hh)
      (fun s hs => hr s (by simp_all))
      (List.isChain_cons_cons.1 hs).2 (List.isChain_cons_cons.1 hc).2 (fun h s hs => hV h s (by simp [hs])) (long hL) (by
        refine Or.inr ⟨P, B, A', ?_, e1, e3, hne, rfl, rfl, r1, r2, fun h => hV h B (by simp),
          fun h => (List.isChain_cons_cons.1 (hL h).1).1 hne, h1.trans hlim⟩
        intro X hX
        exact ⟨[], acc, rfl, by simp, by rw [hX, e1]; exact hpos.symm⟩) (by
        intro X hX
        have hlen : (A'.position.sub X.position).norm3 = (B.position.sub P.position).norm3 := by
          rw [e1, hX, norm3_flip]
        have hnn : 0 ≤ 2 * B.pAcc * (B.position.sub P.position).norm3 :=
          mul_nonneg (by linarith) (norm3_nonneg _)
        have hA := hacc A' e1
        rw [max_eq_left f0] at hA
        refine .travel (D := D) (v' := v) (v'' := v) (by rw [e5, hp]) (by rwa [hlen]) (by rw [e3, e4]; exact hD')
          (by rwa [hlen]) ?_ ?_ ?_ le_rfl (by simp) hA
        · rw [hlen, e4]
          have := Real.le_sqrt_of_sq_le f4
          linarith
        · rw [hlen, e4]
          have q0 := le_max_right v'' 0
          have : v ^ 2 ≤ (√(max v'' 0 ^ 2 + 2 * B.pAcc * (B.position.sub P.position).norm3) + δ) ^ 2 := by
            have k0 : 0 ≤ max v'' 0 ^ 2 + 2 * B.pAcc * (B.position.sub P.position).norm3 :=
              add_nonneg (sq_nonneg _) hnn
            have k1 := Real.sq_sqrt k0
            have k2 : max v'' 0 ≤ √(max v'' 0 ^ 2 + 2 * B.pAcc * (B.position.sub P.position).norm3) :=
              Real.le_sqrt_of_sq_le (by linarith)
            have k3 : v' ^ 2 ≤ (max v'' 0 + δ) ^ 2 := (sq_le_sq₀ f2 (by linarith)).2 (by linarith)
            have k4 := mul_le_mul_of_nonneg_right k2 hδ
            calc v ^ 2 ≤ v' ^ 2 + 2 * B.pAcc * (B.position.sub P.position).norm3 := f5
              _ ≤ (max v'' 0 + δ) ^ 2 + 2 * B.pAcc * (B.position.sub P.position).norm3 := by linarith
              _ ≤ _ := by
                rw [add_sq, add_sq _ δ, k1]
                linarith
          exact (sq_le_sq₀ f0 (add_nonneg (Real.sqrt_nonneg _) hδ)).1 this
        · rcases ht with ht | ⟨Z, A₀, Z', k1, k2, k3, k4, k5, k6, k7, k8, k9, k11, k10⟩
          · exact ht.trans (c17_junction_speed _ _ _ _ (by rw [e3]; exact r1.le) (by rw [e2]; exact s3)).1
          · refine corner_symm (Z := Z) (A := A₀) (C := B) (Z' := Z') ?_ ⟨[], rest, rfl, by simp, by rwa [k5]⟩
              (k1 A' e1) k2 (by rw [e1, k5]) hX k3 e3 (by rw [e2, k6]) (by rw [k6]; exact s3) k7 r1 k8
              (by rw [e4]; exact r2) k4 (by rwa [k5]) (fun h => ((hL h).2 A' (by simp)).trans (k11 h)) k10 f1
            rcases hfw with h | h | h | h
            · exact Or.inl h
            · exact Or.inr (Or.inl h)
            rotate_left
            · exact Or.inr (Or.inr (Or.inr h))
            · refine Or.inr (Or.inr (Or.inl ⟨h, V, ?_⟩))
              intro s hs
              simp only [List.mem_cons, List.not_mem_nil, or_false] at hs
              rcases hs with rfl | rfl
              · exact k9 h
              · exact hV h _ (by simp))
    refine ⟨T', ?_, by simpa using g2⟩
    rw [List.map_cons, List.sum_cons]
    rw [_root_.sub_self, zero_div] at g1
    linarith
  | @filament P B t T v rest hp h0 hne hd _ hv ih =>
    intro A front acc T₀ hpa hb hh hr hs hc hV hL ht hacc
    cases hpa
    obtain ⟨front, A', rfl, hb', e1, e2, e3, e4, e5⟩ := hb.step
    obtain ⟨T', g1, g2⟩ := ih (acc := A' :: acc) (T₀ := t + T₀) rfl hb' (head hb' hh) (fun s hs => hr s (by simp_all))
      (List.isChain_cons_cons.1 hs).2 (List.isChain_cons_cons.1 hc).2 (fun h s hs => hV h s (by simp [hs])) (long hL) (Or.inl hv) (by
        intro X hX
        rw [max_eq_right hv]
        have := hacc A' e1
        rw [max_self] at this
        refine .filament (by rw [e5, hp]) (by rwa [e1, hX, norm3_flip]) (by rw [e1, hX]; exact hne.symm) ?_ this le_rfl
        rw [e1, hX, e3, e4, abs_sub_comm]
        exact hd)
    refine ⟨T', ?_, by simpa using g2⟩
    have := sum rest (hr B (by simp)).2.1
    linarith

theorem stays_chain : ∀ (l pre : List (PState ℝ)), Regular (pre ++ l) →
    l.IsChain (fun A B => B.pause ≠ none → B.position = A.position)
  | [], _, _ => .nil
  | [_], _, _ => .singleton _
  | A :: B :: l, pre, h => by
    refine List.isChain_cons_cons.2 ⟨fun hp => ?_, stays_chain (B :: l) (pre ++ [A]) (by simpa using h)⟩
    obtain ⟨X, h1, h2⟩ := h.stays (pre ++ [A]) B l (by simp) hp
    rw [List.getLast?_concat] at h1
    cases h1
    exact h2

/-! ## C89 -/

/-- For a fixed firmware: two regular programs that follow the same path in opposite directions take equally
long. -/
def C89For (fw : Firmware) : Prop := ∀ (p q : List (PState ℝ)) (bs bs' : List (Block ℝ)) (t t' : ℝ),
  Regular p → Regular q → Backwards p q → SteadyJerk p →
  plan fw p = .ok bs → EndTime (Spec.path bs) t → plan fw q = .ok bs' → EndTime (Spec.path bs') t' →
  |t' - t| ≤ slack p + slack q

/-- The full claim, for every firmware. -/
def C89Full : Prop := ∀ fw, C89For fw

theorem backwards_le {p q : List (PState ℝ)} (hp : Regular p) (hq : Regular q) (hb : Backwards p q)
    (hs : SteadyJerk p) (hfw : fw = .marlinJd ∨ fw = .default ∨ fw = .mka ∧ (∃ V, ∀ s ∈ p.tail, s.speed = V) ∨
      fw = .klipper ∧ ∃ L, LongMoves L p ∧ ∀ s ∈ q, roomLength s ≤ L)
    {t t' : ℝ} (h : plan fw p = .ok bs) (ht : EndTime (Spec.path bs) t)
    (h' : plan fw q = .ok bs') (ht' : EndTime (Spec.path bs') t') : t' ≤ t + (slack p + slack q) := by
  have hfw' : fw = .marlinJd ∨ fw = .default ∨ fw = .mka ∨ fw = .klipper :=
    hfw.imp id (Or.imp id (Or.imp And.left And.left))
  have hnj : fw ≠ .marlinJerk := by
    rcases hfw' with rfl | rfl | rfl | rfl <;> simp
  obtain ⟨hF, hO, hE⟩ := plan_opt hq h'
  obtain ⟨hg, hc, hf, hm, _⟩ := plan_ok hq h'
  have hsum := endTime_sum hq h' ht'
  have hN := plan_is_near hp (fun h => absurd h hnj) h ht
  obtain ⟨V, hV⟩ : ∃ V, fw = .mka → ∀ s ∈ p.tail, s.speed = V := by
    rcases hfw with rfl | rfl | ⟨rfl, V, hV⟩ | ⟨rfl, _⟩
    · exact ⟨0, by simp⟩
    · exact ⟨0, by simp⟩
    · exact ⟨V, fun _ => hV⟩
    · exact ⟨0, by simp⟩
  obtain ⟨L, hL⟩ : ∃ L, fw = .klipper → LongMoves L p ∧ ∀ s ∈ q, roomLength s ≤ L := by
    rcases hfw with rfl | rfl | ⟨rfl, _⟩ | ⟨rfl, L, hL⟩
    · exact ⟨0, by simp⟩
    · exact ⟨0, by simp⟩
    · exact ⟨0, by simp⟩
    · exact ⟨L, fun _ => hL⟩
  have hσ : (0 : ℝ) ≤ 1e-12 := by norm_num
  have hlen := hb.length
  obtain ⟨T', g1, g2⟩ : ∃ T', T' ≤ t + (p.map fun s => 1e-12 / s.pAcc).sum ∧
      Rough (junctionVel fw) 0 1e-12 none 0 q T' := by
    cases p with
    | nil =>
      cases hN
      cases q with
      | nil => exact ⟨0, by simp, .done _ _⟩
      | cons s q => simp at hlen
    | cons A rest =>
      have hN' : Near (junctionVel fw) 1e-12 (some A) 0 rest t := by
        cases hN with
        | idle _ _ hN => exact hN
        | pause hpz =>
          obtain ⟨X, hX, _⟩ := hp.stays [] A rest rfl (by rw [hpz]; simp)
          cases hX
      obtain ⟨T', g1, g2⟩ := hN'.backwards (V := V) (L := L) hσ hfw' (acc := []) (T₀ := 0) rfl hb (by
          intro s hsq
          cases q with
          | nil => cases hsq
          | cons x q =>
            cases hsq
            by_contra hpz
            obtain ⟨X, hX, _⟩ := hq.stays [] _ q rfl hpz
            cases hX)
        (fun s hs => ⟨hp.speed s hs, hp.acc s hs, hp.jerk s hs⟩) hs (stays_chain _ [] hp) hV hL (Or.inl le_rfl)
        (fun A' _ => by
          rw [max_self]
          exact .done _ _)
      refine ⟨T', ?_, by simpa using g2⟩
      rw [List.map_cons, List.sum_cons]
      have : 0 ≤ 1e-12 / A.pAcc := div_nonneg hσ (hp.acc A (by simp)).le
      linarith
  have hn : (0 : ℝ) ≤ q.length := Nat.cast_nonneg _
  have := rough_total (ε := 2 * (q.length * 1e-12)) le_rfl hσ (by linarith [mul_nonneg hn hσ]) g2 ⟨hF, hg, hc, hO, hE⟩
    (e := 0) le_rfl (by linarith [mul_nonneg hn hσ]) (by linarith) hq.acc (fun b hb => by rw [(hf b hb).2.1]; simp)
  rw [hsum] at this
  have e1 : (q.map fun s => 2 * (2 * ((q.length : ℝ) * 1e-12)) / s.pAcc).sum =
      4e-12 * q.length * (q.map fun s => 1 / s.pAcc).sum := by
    rw [← List.sum_map_mul_left]
    congr 1
    apply List.map_congr_left
    intro s _
    norm_num
    ring
  have e2 : (p.map fun s => 1e-12 / s.pAcc).sum = 1e-12 * (p.map fun s => 1 / s.pAcc).sum := by
    rw [← List.sum_map_mul_left]
    congr 1
    apply List.map_congr_left
    intro s _
    ring
  have s1 := sum_inv_nonneg hp.acc
  have s2 := sum_inv_nonneg hq.acc
  have e3 : (p.map fun s => 1e-12 / s.pAcc).sum ≤ slack p := by
    rw [e2]
    unfold slack
    cases p with
    | nil => simp
    | cons A rest =>
      rw [List.length_cons]
      push_cast
      have : (0 : ℝ) ≤ rest.length := Nat.cast_nonneg _
      have := mul_nonneg this s1
      nlinarith
  have e4 : 4e-12 * q.length * (q.map fun s => 1 / s.pAcc).sum ≤ slack q := by
    unfold slack
    have := mul_nonneg hn s2
    nlinarith
  rw [e1] at this
  linarith

/-- **C89.** With `marlin_jd`, default junction handling, and `MKA` at one feedrate, following a path backwards
takes equally long, up to the tolerance of the planner. Missing from the full claim: `klipper`, `marlin_jerk` and
`MKA` with several feedrates, for which it is wrong. -/
theorem c89_backwards_partial {p q : List (PState ℝ)} (hp : Regular p) (hq : Regular q) (hb : Backwards p q)
    (hs : SteadyJerk p) (hfw : fw = .marlinJd ∨ fw = .default ∨ fw = .mka ∧ ∃ V, ∀ s ∈ p.tail, s.speed = V)
    {t t' : ℝ} (h : plan fw p = .ok bs) (ht : EndTime (Spec.path bs) t)
    (h' : plan fw q = .ok bs') (ht' : EndTime (Spec.path bs') t') : |t' - t| ≤ slack p + slack q := by
  have h1 := backwards_le hp hq hb hs (hfw.imp id (Or.imp id Or.inl)) h ht h' ht'
  have h2 := backwards_le hq hp hb.symm (hb.steady hs)
    (hfw.imp id (Or.imp id fun ⟨h, V, hV⟩ => Or.inl ⟨h, V, hb.uniform hV⟩)) h' ht' h ht
  rw [abs_le]
  constructor <;> linarith

theorem Spec.Backwards.long {p q : List (PState ℝ)} (h : Backwards p q) {L : ℝ} (hL : LongMoves L p) : LongMoves L q := by
  have h1 : (p.map (·.position)).IsChain fun a b => (b.sub a).norm3 ≠ 0 → L ≤ (b.sub a).norm3 := by
    rw [List.isChain_map]
    exact hL
  have h2 : (q.map (·.position)).IsChain fun a b => (b.sub a).norm3 ≠ 0 → L ≤ (b.sub a).norm3 := by
    rw [h.positions, List.isChain_reverse]
    refine h1.imp fun a b hab => ?_
    rw [norm3_flip a b]
    exact hab
  rw [List.isChain_map] at h2
  exact h2

/-- **C89, `klipper`.** If no travel move is too short for the settings of the two programs, following a path backwards takes
equally long with `klipper`, too. -/
theorem c89_klipper_partial {p q : List (PState ℝ)} (hp : Regular p) (hq : Regular q) (hb : Backwards p q)
    (hs : SteadyJerk p) {L : ℝ} (hL : LongMoves L p) (hroom : ∀ s ∈ p ++ q, roomLength s ≤ L)
    {t t' : ℝ} (h : plan .klipper p = .ok bs) (ht : EndTime (Spec.path bs) t)
    (h' : plan .klipper q = .ok bs') (ht' : EndTime (Spec.path bs') t') : |t' - t| ≤ slack p + slack q := by
  have h1 := backwards_le hp hq hb hs (Or.inr (Or.inr (Or.inr ⟨rfl, L, hL, fun s hx => hroom s (by simp [hx])⟩))) h ht h' ht'
  have h2 := backwards_le hq hp hb.symm (hb.steady hs)
    (Or.inr (Or.inr (Or.inr ⟨rfl, L, hb.long hL, fun s hx => hroom s (by simp [hx])⟩))) h' ht' h ht
  rw [abs_le]
  constructor <;> linarith

/-! ## Two moves -/

/-- A motion for a program of two travel moves consists of two drives. -/
theorem Near.two {limit : Option (PState ℝ) → PState ℝ → List (PState ℝ) → ℝ} {δ T : ℝ} {A B C : PState ℝ}
    (hA : A.pause = none) (hB : B.pause = none) (hC : C.pause = none)
    (hAB : (B.position.sub A.position).norm3 ≠ 0) (hBC : (C.position.sub B.position).norm3 ≠ 0)
    (h : Near limit δ none 0 [A, B, C] T) : ∃ v v' w t t', T = t + t' ∧
      Drive B.pAcc B.speed (B.position.sub A.position).norm3 0 v t ∧ v ≤ limit (some A) B [C] ∧ v' ≤ v ∧ v ≤ v' + δ ∧
      Drive C.pAcc C.speed (C.position.sub B.position).norm3 v' w t' ∧ w ≤ limit (some B) C [] := by
  have hne : ∀ {P Q : PState ℝ}, (Q.position.sub P.position).norm3 ≠ 0 → Q.position ≠ P.position := by
    intro P Q h he
    rw [he, Vec4.sub_self] at h
    exact h (norm3_eq_zero.2 ⟨rfl, rfl, rfl⟩)
  cases h with
  | pause hp => rw [hA] at hp; cases hp
  | idle _ _ h =>
  cases h with
  | pause hp => rw [hB] at hp; cases hp
  | filament _ h0 => exact absurd h0 hAB
  | idle _ hpos => exact absurd (hpos _ rfl) (hne hAB)
  | @travel _ _ _ v1 v2 t1 T1 _ _ _ hd1 hlim a1 a2 h =>
  cases h with
  | pause hp => rw [hC] at hp; cases hp
  | filament _ h0 => exact absurd h0 hBC
  | idle _ hpos => exact absurd (hpos _ rfl) (hne hBC)
  | @travel _ _ _ v3 v4 t2 T2 _ _ _ hd2 hlim' a3 a4 h =>
  cases h with
  | done => exact ⟨v1, v2, v3, t1, t2, by ring, hd1, hlim, a1, a2, hd2, hlim'⟩

theorem two_active {A B C : PState ℝ} (hB : (B.position.sub A.position).norm3 ≠ 0) : active none [A, B, C] ≠ [] := by
  have hne : B.position ≠ A.position := by
    intro he
    rw [he, Vec4.sub_self] at hB
    exact hB (norm3_eq_zero.2 ⟨rfl, rfl, rfl⟩)
  by_cases hA : A.pause ≠ none
  · rw [active_cons_take _ (Or.inl hA)]
    simp
  · push Not at hA
    rw [active_cons_skip _ (by simp) hA, active_cons_take _ (Or.inr ⟨A, rfl, hne⟩)]
    simp

theorem two_travels {A B C : PState ℝ} (hAB : (B.position.sub A.position).norm3 ≠ 0)
    (hBC : (C.position.sub B.position).norm3 ≠ 0) : Travels [A, B, C] := by
  intro x hx P hP _
  have hx' : x ∈ withPrev none [A, B, C] := List.mem_of_mem_filter hx
  simp only [withPrev, List.map_cons, List.map_nil, List.zip_cons_cons, List.zip_nil_right, List.mem_cons,
    List.not_mem_nil, or_false] at hx'
  rcases hx' with rfl | rfl | rfl
  · cases hP
  · cases hP
    exact hAB
  · cases hP
    exact hBC

namespace Demo

/-- A state on the x axis. -/
noncomputable def gearAt (x f : ℝ) : PState ℝ := ⟨⟨x, 0, 0, 0⟩, f, 100, 10, none, none⟩

theorem gear_norm {x x' f f' d : ℝ} (hd : 0 ≤ d) (h : |x' - x| = d) :
    ((gearAt x' f').position.sub (gearAt x f).position).norm3 = d := by
  have : ((gearAt x' f').position.sub (gearAt x f).position).norm3 ^ 2 = d ^ 2 := by
    rw [norm3_sq, ← h, sq_abs]
    simp [gearAt, Vec4.sub]
  exact (sq_eq_sq₀ (norm3_nonneg _) hd).1 this

/-- Ten millimetres at 10 mm/s, then twenty at 20 mm/s. -/
noncomputable def gear : List (PState ℝ) := [gearAt 0 10, gearAt 10 10, gearAt 30 20]

/-- The same way back. -/
noncomputable def gearBack : List (PState ℝ) := [gearAt 30 20, gearAt 10 20, gearAt 0 10]

theorem gear_backwards : Backwards gear gearBack := by
  constructor <;> simp [gear, gearBack, gearAt]

theorem gear_regular : Regular gear ∧ Regular gearBack := by
  constructor <;> refine regular_moves ?_ <;> intro s hs <;>
    simp only [gear, gearBack, List.mem_cons, List.not_mem_nil, or_false] at hs <;>
    rcases hs with rfl | rfl | rfl <;> norm_num [gearAt]

theorem gear_steady : SteadyJerk gear := by
  unfold SteadyJerk gear
  simp [gearAt]

theorem gear_slack : slack gear + slack gearBack ≤ 0.001 := by
  norm_num [slack, gear, gearBack, gearAt]

theorem gear_lengths : ((gearAt 10 10).position.sub (gearAt 0 10).position).norm3 = 10 ∧
    ((gearAt 30 20).position.sub (gearAt 10 10).position).norm3 = 20 ∧
    ((gearAt 10 20).position.sub (gearAt 30 20).position).norm3 = 20 ∧
    ((gearAt 0 10).position.sub (gearAt 10 20).position).norm3 = 10 :=
  ⟨gear_norm (by norm_num) (by norm_num), gear_norm (by norm_num) (by norm_num), gear_norm (by norm_num) (by norm_num),
    gear_norm (by norm_num) (by norm_num)⟩

theorem gear_turn {a b c f g h : ℝ} (hab : a < b ∧ b < c ∨ c < b ∧ b < a) :
    turn (gearAt a f).position (gearAt b g).position (gearAt c h).position = 0 := by
  unfold turn Spec.dot3
  have n1 : ((gearAt b g).position.sub (gearAt a f).position).norm3 = |b - a| := gear_norm (abs_nonneg _) rfl
  have n2 : ((gearAt c h).position.sub (gearAt b g).position).norm3 = |c - b| := gear_norm (abs_nonneg _) rfl
  rw [n1, n2, Real.arccos_eq_zero, ← abs_mul]
  have hp : 0 < (b - a) * (c - b) := by
    rcases hab with h | h
    · exact mul_pos (by linarith [h.1]) (by linarith [h.2])
    · exact mul_pos_of_neg_of_neg (by linarith [h.2]) (by linarith [h.1])
  rw [le_div_iff₀ (abs_pos.2 hp.ne'), abs_of_pos hp]
  simp [gearAt, Vec4.sub]

theorem gear_next : NextMove (gearAt 10 10) [gearAt 30 20] (gearAt 30 20) ∧
    NextMove (gearAt 10 20) [gearAt 0 10] (gearAt 0 10) :=
  ⟨⟨[], [], rfl, by simp, by simp [gearAt]⟩, ⟨[], [], rfl, by simp, by simp [gearAt]⟩⟩

/-- Ten millimetres to the right, then a little up. -/
noncomputable def hook : List (PState ℝ) := [at2 0 0, at2 10 0, at2 10 0.02]

/-- The same way back. -/
noncomputable def hookBack : List (PState ℝ) := [at2 10 0.02, at2 10 0, at2 0 0]

theorem hook_backwards : Backwards hook hookBack := by
  constructor <;> simp [hook, hookBack, at2]

theorem hook_regular : Regular hook ∧ Regular hookBack := by
  constructor <;> refine regular_moves ?_ <;> intro s hs <;>
    simp only [hook, hookBack, List.mem_cons, List.not_mem_nil, or_false] at hs <;>
    rcases hs with rfl | rfl | rfl <;> norm_num [at2]

theorem hook_steady : SteadyJerk hook := by
  unfold SteadyJerk hook
  simp [at2]

theorem hook_slack : slack hook + slack hookBack ≤ 0.001 := by
  norm_num [slack, hook, hookBack, at2]

end Demo

/-- With `marlin_jerk` the program may end at speed, so it matters which move is the last one. -/
theorem c89_marlin_jerk : ¬ C89For .marlinJerk := by
  intro hF
  obtain ⟨n1, n2, n3, n4⟩ := Demo.gear_lengths
  obtain ⟨r1, r2⟩ := Demo.gear_regular
  obtain ⟨bs, t, h, ht⟩ := exists_endTime .marlinJerk r1 (two_active (by rw [n1]; norm_num))
  obtain ⟨bs', t', h', ht'⟩ := exists_endTime .marlinJerk r2 (two_active (by rw [n3]; norm_num))
  have hle := hF _ _ bs bs' t t' r1 r2 Demo.gear_backwards Demo.gear_steady h ht h' ht'
  have d1 : Drive 100 10 10 0 10 1.05 := by
    have a := drive_one (a := 100) (vT := 10) (v := 0) (v' := 10) (T := 0.1) (k := 100) (by norm_num) (by norm_num)
      (by norm_num) (by norm_num) (by norm_num)
    have b := drive_one (a := 100) (vT := 10) (v := 10) (v' := 10) (T := 0.95) (k := 0) (by norm_num) (by norm_num)
      (by norm_num) (by norm_num) (by norm_num)
    have := a.append b
    norm_num at this ⊢
    exact this
  have d2 : Drive 100 20 20 10 20 1.025 := by
    have a := drive_one (a := 100) (vT := 20) (v := 10) (v' := 20) (T := 0.1) (k := 100) (by norm_num) (by norm_num)
      (by norm_num) (by norm_num) (by norm_num)
    have b := drive_one (a := 100) (vT := 20) (v := 20) (v' := 20) (T := 0.925) (k := 0) (by norm_num) (by norm_num)
      (by norm_num) (by norm_num) (by norm_num)
    have := a.append b
    norm_num at this ⊢
    exact this
  have hS : Schedule (junctionVel .marlinJerk) none 0 Demo.gear (1.05 + (1.025 + 0)) := by
    refine .idle rfl (by simp) (.travel (v' := 10) rfl (by rw [n1]; norm_num) (by rw [n1]; exact d1) ?_
      (.travel (v' := 20) rfl (by rw [n2]; norm_num) (by rw [n2]; exact d2) ?_ (.done _ _)))
    · rw [c60_marlin_jerk Demo.gear_next.1 (by rw [n1]; norm_num) (by rw [n2]; norm_num) (by norm_num [Demo.gearAt])
        (by norm_num [Demo.gearAt]), Demo.gear_turn (by norm_num)]
      have hj : jump 10 20 0 = 10 := by
        unfold jump
        rw [Real.cos_zero, show (10 : ℝ) ^ 2 + 20 ^ 2 - 2 * 10 * 20 * 1 = 10 ^ 2 by norm_num,
          Real.sqrt_sq (by norm_num)]
      show (10 : ℝ) ≤ marlinJerk 10 20 10 0
      unfold marlinJerk
      rw [hj]
      norm_num
    · rw [c62_marlin_jerk_end (by norm_num [Demo.gearAt]) (by norm_num [Demo.gearAt]) (by rw [n2]; norm_num) (by simp)]
      norm_num [Demo.gearAt]
  have h1 := c55_fastest r1 h hS ht
  have hT := two_travels (A := Demo.gearAt 30 20) (B := Demo.gearAt 10 20) (C := Demo.gearAt 0 10)
    (by rw [n3]; norm_num) (by rw [n4]; norm_num)
  obtain ⟨v, v', w, t1, t2, rfl, e1, -, e3, e4, e5, -⟩ := (plan_is_near r2 (fun _ => hT) h' ht').two rfl rfl rfl
    (by rw [n3]; norm_num) (by rw [n4]; norm_num)
  rw [n3] at e1
  rw [n4] at e5
  change Drive 100 20 20 0 v t1 at e1
  change Drive 100 10 10 v' w t2 at e5
  obtain ⟨f0, f1, f2, f3, f4, f5⟩ := e1.facts (by norm_num)
  obtain ⟨g0, g1, g2, g3, g4, g5⟩ := e5.facts (by norm_num)
  have q1 := e1.bound (m := 0) (n := t1) le_rfl e1.1 le_rfl
  have p1 := e1.bound (m := 0.2) (n := t1 - 0.1) (by norm_num) (by linarith) (by linarith)
  have p2 := e5.bound (m := 0) (n := t2) le_rfl e5.1 le_rfl
  norm_num at p1 p2
  have := Demo.gear_slack
  have := (abs_le.1 hle).2
  have hv : v ≤ 10.01 := by linarith
  linarith

/-- With `MKA` the corner between two feedrates depends on which of them comes first. -/
theorem c89_mka : ¬ C89For .mka := by
  intro hF
  obtain ⟨n1, n2, n3, n4⟩ := Demo.gear_lengths
  obtain ⟨r1, r2⟩ := Demo.gear_regular
  obtain ⟨bs, t, h, ht⟩ := exists_endTime .mka r1 (two_active (by rw [n1]; norm_num))
  obtain ⟨bs', t', h', ht'⟩ := exists_endTime .mka r2 (two_active (by rw [n3]; norm_num))
  have hle := hF _ _ bs bs' t t' r1 r2 Demo.gear_backwards Demo.gear_steady h ht h' ht'
  have d1 : Drive 100 10 10 0 10 1.05 := by
    have a := drive_one (a := 100) (vT := 10) (v := 0) (v' := 10) (T := 0.1) (k := 100) (by norm_num) (by norm_num)
      (by norm_num) (by norm_num) (by norm_num)
    have b := drive_one (a := 100) (vT := 10) (v := 10) (v' := 10) (T := 0.95) (k := 0) (by norm_num) (by norm_num)
      (by norm_num) (by norm_num) (by norm_num)
    have := a.append b
    norm_num at this ⊢
    exact this
  have d2 : Drive 100 20 20 10 0 1.125 := by
    have a := drive_one (a := 100) (vT := 20) (v := 10) (v' := 20) (T := 0.1) (k := 100) (by norm_num) (by norm_num)
      (by norm_num) (by norm_num) (by norm_num)
    have b := drive_one (a := 100) (vT := 20) (v := 20) (v' := 20) (T := 0.825) (k := 0) (by norm_num) (by norm_num)
      (by norm_num) (by norm_num) (by norm_num)
    have c := drive_one (a := 100) (vT := 20) (v := 20) (v' := 0) (T := 0.2) (k := -100) (by norm_num) (by norm_num)
      (by norm_num) (by norm_num) (by norm_num)
    have := (a.append b).append c
    norm_num at this ⊢
    exact this
  have hS : Schedule (junctionVel .mka) none 0 Demo.gear (1.05 + (1.125 + 0)) := by
    refine .idle rfl (by simp) (.travel (v' := 10) rfl (by rw [n1]; norm_num) (by rw [n1]; exact d1) ?_
      (.travel (v' := 0) rfl (by rw [n2]; norm_num) (by rw [n2]; exact d2) ?_ (.done _ _)))
    · rw [c61_mka_law (u := ⟨1, 0, 0, 0⟩) (w := ⟨1, 0, 0, 0⟩) Demo.gear_next.1 (by rw [n1]; norm_num)
        (by rw [n2]; norm_num) (by norm_num [Demo.gearAt])
        (by norm_num [Demo.gearAt]) (by norm_num [Demo.gearAt])
        (by rw [n1]; ext <;> norm_num [Demo.gearAt, Vec4.add, Vec4.mul])
        (by rw [n2]; ext <;> norm_num [Demo.gearAt, Vec4.add, Vec4.mul])]
      norm_num [Demo.gearAt, axisJump, mka, cap]
    · exact (c17_junction_speed _ _ _ _ (by norm_num [Demo.gearAt]) (by norm_num [Demo.gearAt])).1
  have h1 := c55_fastest r1 h hS ht
  obtain ⟨v, v', w, t1, t2, rfl, e1, e2, e3, e4, e5, -⟩ := (plan_is_near r2 (by simp) h' ht').two rfl rfl rfl
    (by rw [n3]; norm_num) (by rw [n4]; norm_num)
  rw [c61_mka_law (u := ⟨-1, 0, 0, 0⟩) (w := ⟨-1, 0, 0, 0⟩) Demo.gear_next.2 (by rw [n3]; norm_num)
        (by rw [n4]; norm_num) (by norm_num [Demo.gearAt])
        (by norm_num [Demo.gearAt]) (by norm_num [Demo.gearAt])
        (by rw [n3]; ext <;> norm_num [Demo.gearAt, Vec4.add, Vec4.mul])
        (by rw [n4]; ext <;> norm_num [Demo.gearAt, Vec4.add, Vec4.mul])] at e2
  norm_num [Demo.gearAt, axisJump, mka, cap] at e2
  rw [n3] at e1
  rw [n4] at e5
  change Drive 100 20 20 0 v t1 at e1
  change Drive 100 10 10 v' w t2 at e5
  obtain ⟨f0, f1, f2, f3, f4, f5⟩ := e1.facts (by norm_num)
  obtain ⟨g0, g1, g2, g3, g4, g5⟩ := e5.facts (by norm_num)
  have hv : v ≤ 6.67 := by linarith
  have q1 := e1.bound (m := 0) (n := t1) le_rfl e1.1 le_rfl
  have p1 := e1.bound (m := 0.2) (n := t1 - 0.13) (by norm_num) (by linarith) (by linarith)
  have q2 := e5.bound (m := 0) (n := t2) le_rfl e5.1 le_rfl
  have p2 := e5.bound (m := 0.033) (n := t2) (by norm_num) (by linarith) le_rfl
  norm_num at p1 p2
  have := Demo.gear_slack
  have := (abs_le.1 hle).2
  linarith

/-- With `klipper` the corner speed depends on the length of the next move only. -/
theorem c89_klipper : ¬ C89For .klipper := by
  intro hF
  have n1 : ((Demo.at2 10 0).position.sub (Demo.at2 0 0).position).norm3 = 10 := Demo.at2_norm (by norm_num) (by norm_num)
  have n2 : ((Demo.at2 10 0.02).position.sub (Demo.at2 10 0).position).norm3 = 0.02 :=
    Demo.at2_norm (by norm_num) (by norm_num)
  have n3 : ((Demo.at2 10 0).position.sub (Demo.at2 10 0.02).position).norm3 = 0.02 := by rw [norm3_flip, n2]
  have n4 : ((Demo.at2 0 0).position.sub (Demo.at2 10 0).position).norm3 = 10 := by rw [norm3_flip, n1]
  obtain ⟨r1, r2⟩ := Demo.hook_regular
  obtain ⟨bs, t, h, ht⟩ := exists_endTime .klipper r1 (two_active (by rw [n1]; norm_num))
  obtain ⟨bs', t', h', ht'⟩ := exists_endTime .klipper r2 (two_active (by rw [n3]; norm_num))
  have hle := hF _ _ bs bs' t t' r1 r2 Demo.hook_backwards Demo.hook_steady h ht h' ht'
  have d1 : Drive 100 10 0.02 0 2 0.02 := by
    have a := drive_one (a := 100) (vT := 10) (v := 0) (v' := 2) (T := 0.02) (k := 100) (by norm_num) (by norm_num)
      (by norm_num) (by norm_num) (by norm_num)
    norm_num at a ⊢
    exact a
  have d2 : Drive 100 10 10 2 0 1.082 := by
    have a := drive_one (a := 100) (vT := 10) (v := 2) (v' := 10) (T := 0.08) (k := 100) (by norm_num) (by norm_num)
      (by norm_num) (by norm_num) (by norm_num)
    have b := drive_one (a := 100) (vT := 10) (v := 10) (v' := 10) (T := 0.902) (k := 0) (by norm_num) (by norm_num)
      (by norm_num) (by norm_num) (by norm_num)
    have c := drive_one (a := 100) (vT := 10) (v := 10) (v' := 0) (T := 0.1) (k := -100) (by norm_num) (by norm_num)
      (by norm_num) (by norm_num) (by norm_num)
    have := (a.append b).append c
    norm_num at this ⊢
    exact this
  have hS : Schedule (junctionVel .klipper) none 0 Demo.hookBack (0.02 + (1.082 + 0)) := by
    refine .idle rfl (by simp) (.travel (v' := 2) rfl (by rw [n3]; norm_num) (by rw [n3]; exact d1) ?_
      (.travel (v' := 0) rfl (by rw [n4]; norm_num) (by rw [n4]; exact d2) ?_ (.done _ _)))
    · have hnext : NextMove (Demo.at2 10 0) [Demo.at2 0 0] (Demo.at2 0 0) := ⟨[], [], rfl, by simp, by simp [Demo.at2]⟩
      rw [c59_klipper hnext (by rw [n3]; norm_num) (by rw [n4]; norm_num)
        (by norm_num [Demo.at2]) (by norm_num [Demo.at2]) (by norm_num [Demo.at2]) (by norm_num [Demo.at2]), n4]
      have hturn : turn (Demo.at2 10 0.02).position (Demo.at2 10 0).position (Demo.at2 0 0).position = Real.pi / 2 := by
        unfold turn Spec.dot3
        rw [n3, n4]
        simp [Demo.at2, Vec4.sub]
      rw [hturn, c59_right_angle]
      refine le_min (by norm_num [Demo.at2]) (le_min (by norm_num [Demo.at2]) (Real.le_sqrt_of_sq_le ?_))
      norm_num [Demo.at2]
    · exact (c17_junction_speed _ _ _ _ (by norm_num [Demo.at2]) (by norm_num [Demo.at2])).1
  have h1 := c55_fastest r2 h' hS ht'
  obtain ⟨v, v', w, t1, t2, rfl, e1, e2, e3, e4, e5, e6⟩ := (plan_is_near r1 (by simp) h ht).two rfl rfl rfl
    (by rw [n1]; norm_num) (by rw [n2]; norm_num)
  rw [Demo.bracket_corner (by norm_num)] at e2
  rw [n1] at e1
  rw [n2] at e5
  change Drive 100 10 10 0 v t1 at e1
  change Drive 100 10 0.02 v' w t2 at e5
  have hv : v ≤ 1 := by
    refine e2.trans ((min_le_right _ _).trans ((min_le_right _ _).trans ?_))
    rw [Real.sqrt_le_left (by norm_num)]
    norm_num
  obtain ⟨f0, f1, f2, f3, f4, f5⟩ := e1.facts (by norm_num)
  obtain ⟨g0, g1, g2, g3, g4, g5⟩ := e5.facts (by norm_num)
  have q1 := e1.bound (m := 0) (n := t1) le_rfl e1.1 le_rfl
  have p1 := e1.bound (m := 0.1) (n := t1 - 0.09) (by norm_num) (by linarith) (by linarith)
  norm_num at p1
  rw [c62_stop (by simp) _ (by norm_num [Demo.at2]) (Or.inl (by simp))] at e6
  have hw : w = 0 := le_antisymm e6 g2
  have p2 : 0.02 ≤ t2 := by
    by_contra hcon
    push Not at hcon
    have q2 := e5.bound (m := t2 / 2) (n := t2 / 2) (by linarith [e5.1]) le_rfl (by linarith [e5.1])
    have : v' * (t2 / 2) ≤ 1 * (t2 / 2) := mul_le_mul_of_nonneg_right (by linarith) (by linarith [e5.1])
    rw [hw] at q2
    nlinarith [e5.1]
  have := Demo.hook_slack
  have := (abs_le.1 hle).1
  linarith

/-- The gear example with `marlin_jd`: the way back takes as long as the way there. -/
example : ∃ bs bs' t t', plan .marlinJd Demo.gear = .ok bs ∧ EndTime (Spec.path bs) t ∧
    plan .marlinJd Demo.gearBack = .ok bs' ∧ EndTime (Spec.path bs') t' ∧ |t' - t| ≤ 0.001 := by
  obtain ⟨n1, n2, n3, n4⟩ := Demo.gear_lengths
  obtain ⟨r1, r2⟩ := Demo.gear_regular
  obtain ⟨bs, t, h, ht⟩ := exists_endTime .marlinJd r1 (two_active (by rw [n1]; norm_num))
  obtain ⟨bs', t', h', ht'⟩ := exists_endTime .marlinJd r2 (two_active (by rw [n3]; norm_num))
  exact ⟨bs, bs', t, t', h, ht, h', ht',
    (c89_backwards_partial r1 r2 Demo.gear_backwards Demo.gear_steady (Or.inl rfl) h ht h' ht').trans Demo.gear_slack⟩

/-- The hook with `MKA`, which has one feedrate. -/
example : ∃ bs bs' t t', plan .mka Demo.hook = .ok bs ∧ EndTime (Spec.path bs) t ∧
    plan .mka Demo.hookBack = .ok bs' ∧ EndTime (Spec.path bs') t' ∧ |t' - t| ≤ 0.001 := by
  have n1 : ((Demo.at2 10 0).position.sub (Demo.at2 0 0).position).norm3 = 10 := Demo.at2_norm (by norm_num) (by norm_num)
  have n3 : ((Demo.at2 10 0).position.sub (Demo.at2 10 0.02).position).norm3 = 0.02 :=
    Demo.at2_norm (by norm_num) (by norm_num)
  obtain ⟨r1, r2⟩ := Demo.hook_regular
  obtain ⟨bs, t, h, ht⟩ := exists_endTime .mka r1 (two_active (by rw [n1]; norm_num))
  obtain ⟨bs', t', h', ht'⟩ := exists_endTime .mka r2 (two_active (by rw [n3]; norm_num))
  exact ⟨bs, bs', t, t', h, ht, h', ht', (c89_backwards_partial r1 r2 Demo.hook_backwards Demo.hook_steady
    (Or.inr (Or.inr ⟨rfl, 10, by simp [Demo.hook, Demo.at2]⟩)) h ht h' ht').trans Demo.hook_slack⟩

/-- A path with a pause and a change of feedrate on the spot, in both directions. -/
example : Backwards
    [Demo.gearAt 0 10, Demo.gearAt 10 10, { Demo.gearAt 10 20 with pause := some 3 }, Demo.gearAt 10 20,
      Demo.gearAt 30 20]
    [Demo.gearAt 30 20, Demo.gearAt 10 20, Demo.gearAt 10 20, { Demo.gearAt 10 20 with pause := some 3 },
      Demo.gearAt 0 10] := by
  constructor <;> simp [Demo.gearAt]

/-- **C89.** The full claim is wrong. -/
theorem c89_refuted : ¬ C89Full := fun h => c89_klipper (h .klipper)

/-- **C89.** It holds exactly for `marlin_jd` and default junction handling. -/
theorem c89_exactly : C89For fw ↔ fw = .marlinJd ∨ fw = .default := by
  constructor
  · intro h
    cases fw with
    | marlinJd => exact Or.inl rfl
    | default => exact Or.inr rfl
    | klipper => exact absurd h c89_klipper
    | marlinJerk => exact absurd h c89_marlin_jerk
    | mka => exact absurd h c89_mka
  · intro hfw p q bs bs' t t' hp hq hb hs h ht h' ht'
    exact c89_backwards_partial hp hq hb hs (hfw.imp id Or.inl) h ht h' ht'

/-- The bracket of C71 from its other end. -/
noncomputable def Demo.bracketBack : List (PState ℝ) := [at2 10 10, at2 10 0, at2 0 0]

/-- Following the bracket backwards takes equally long with `klipper`. -/
example : ∃ bs bs' t t', plan .klipper Demo.bracket = .ok bs ∧ plan .klipper Demo.bracketBack = .ok bs' ∧
    EndTime (Spec.path bs) t ∧ EndTime (Spec.path bs') t' ∧ |t' - t| ≤ slack Demo.bracket + slack Demo.bracketBack := by
  have n1 : ((Demo.at2 10 0).position.sub (Demo.at2 0 0).position).norm3 = 10 := Demo.at2_norm (by norm_num) (by norm_num)
  have n2 : ((Demo.at2 10 10).position.sub (Demo.at2 10 0).position).norm3 = 10 := Demo.at2_norm (by norm_num) (by norm_num)
  have hr : Regular Demo.bracketBack := by
    refine regular_moves ?_
    intro s hs
    simp only [Demo.bracketBack, List.mem_cons, List.not_mem_nil, or_false] at hs
    rcases hs with rfl | rfl | rfl <;> norm_num [Demo.at2]
  obtain ⟨bs, t, h, ht⟩ := exists_endTime .klipper Demo.bracket_regular Demo.bracket_halved.cut.moves.1
  obtain ⟨bs', t', h', ht'⟩ := exists_endTime .klipper hr (two_active (by rw [norm3_flip, n2]; norm_num))
  refine ⟨bs, bs', t, t', h, h', ht, ht', c89_klipper_partial Demo.bracket_regular hr ⟨rfl, rfl, rfl, rfl, rfl⟩ ?_ (L := 10) ?_ ?_
    h ht h' ht'⟩
  · exact .cons_cons (fun _ => rfl) (.cons_cons (fun _ => rfl) (.singleton _))
  · exact .cons_cons (fun _ => n1.ge) (.cons_cons (fun _ => n2.ge) (.singleton _))
  · intro s hs
    simp only [Demo.bracket, Demo.bracketBack, List.cons_append, List.nil_append, List.mem_cons, List.not_mem_nil, or_false] at hs
    rcases hs with rfl | rfl | rfl | rfl | rfl | rfl <;> rw [Demo.at2_room] <;> norm_num

end PyGCD
