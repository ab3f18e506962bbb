import Verif.Spec.LongPieces
import Verif.Props.Cuts

/-!
# Property C71 for `klipper`: cuts into long pieces do not change the print time
-/

set_option linter.unusedSectionVars false
set_option linter.unusedSimpArgs false

namespace PyGCD
open Vec4 Spec Set

variable {states states' : List (PState ℝ)} {bs bs' : List (Block ℝ)} {A M B : PState ℝ}

/-- Long moves do not lower a corner speed. -/
theorem room_bound {k s c F : ℝ} (hk : 0 ≤ k) (hs : 0 ≤ s) (hs1 : s < 1) (hc : 0 < c) (h : s ^ 2 + c ^ 2 = 1) :
    min (k * s / (1 - s)) (F ^ 2) ≤ √(k ^ 2 + 2 * k * F ^ 2) * (s / c) := by
  have h1 : 0 < 1 - s := by linarith
  set u := s / (1 - s) with hu
  have hu0 : 0 ≤ u := div_nonneg hs h1.le
  set m := min (k * s / (1 - s)) (F ^ 2) with hm
  have hm0 : 0 ≤ m := le_min (div_nonneg (mul_nonneg hk hs) h1.le) (sq_nonneg _)
  have hm1 : m ≤ k * u := (min_le_left _ _).trans (by rw [hu, mul_div_assoc])
  have hm2 : m ≤ F ^ 2 := min_le_right _ _
  have hsc : (s / c) ^ 2 * (1 + 2 * u) = u ^ 2 := by
    have hc2 : c ^ 2 = (1 - s) * (1 + s) := by linarith
    rw [div_pow, hc2, hu]
    have : (1 + s) ≠ 0 := by linarith
    field_simp
    ring
  have hq : m ^ 2 ≤ (k ^ 2 + 2 * k * F ^ 2) * (s / c) ^ 2 := by
    have e1 : m ^ 2 * (1 + 2 * u) ≤ (k ^ 2 + 2 * k * m) * u ^ 2 := by
      have a1 : m * m ≤ (k * u) * (k * u) := mul_self_le_mul_self hm0 hm1
      have a2 : (2 * u * m) * m ≤ (2 * u * m) * (k * u) := mul_le_mul_of_nonneg_left hm1 (by positivity)
      nlinarith
    have e2 : (k ^ 2 + 2 * k * m) * u ^ 2 ≤ (k ^ 2 + 2 * k * F ^ 2) * u ^ 2 := by
      refine mul_le_mul_of_nonneg_right ?_ (sq_nonneg _)
      nlinarith
    have e3 : 0 < 1 + 2 * u := by linarith
    rw [← hsc] at e1 e2
    have := e1.trans e2
    rw [← mul_assoc] at this
    exact le_of_mul_le_mul_right this e3
  have hr : 0 ≤ k ^ 2 + 2 * k * F ^ 2 := by positivity
  rw [show s / c = √((s / c) ^ 2) from (Real.sqrt_sq (div_nonneg hs hc.le)).symm, ← Real.sqrt_mul hr]
  exact Real.le_sqrt_of_sq_le hq

/-- The junction speed of `klipper` in front of a long move. -/
noncomputable def klipperFree (v0 v1 : Vec4 ℝ) (B : PState ℝ) : ℝ :=
  if v0.norm3 = 0 ∨ v1.norm3 = 0 then 0
  else
    let dir0 := v0.div v0.norm3
    let dir1 := v1.div v1.norm3
    let cos := max (-(dir0.x * dir1.x + dir0.y * dir1.y + dir0.z * dir1.z)) (-0.999999)
    if 0.999999 < cos then 0
    else
      let s := √(0.5 * (1 - cos))
      √(min ((√2 - 1) * B.jerk ^ 2 * s / (1 - s)) (B.speed ^ 2))

theorem calcKlipper_long (v0 v1 : Vec4 ℝ) {d : ℝ} {B : PState ℝ} (ha : 0 < B.pAcc) (hd : roomLength B ≤ d) :
    calcKlipper v0 v1 d B = klipperFree v0 v1 B := by
  unfold calcKlipper klipperFree
  simp only [sqrt_real, pyMin_real, pyMax_real]
  split
  · rfl
  · generalize hcos : max (-((v0.div v0.norm3).x * (v1.div v1.norm3).x + (v0.div v0.norm3).y * (v1.div v1.norm3).y +
      (v0.div v0.norm3).z * (v1.div v1.norm3).z)) (-0.999999) = c
    have hc0 : -0.999999 ≤ c := by
      rw [← hcos]
      exact le_max_right _ _
    split
    · rfl
    · rename_i hc1
      push Not at hc1
      set s := √(0.5 * (1 - c)) with hs
      set co := √(0.5 * (1 + c)) with hco
      have k0 : 0 ≤ (√2 - 1) * B.jerk ^ 2 :=
        mul_nonneg (sub_nonneg.2 (Real.one_le_sqrt.2 (by norm_num))) (sq_nonneg _)
      have s0 : 0 ≤ s := Real.sqrt_nonneg _
      have s1 : s < 1 := by
        rw [hs, Real.sqrt_lt' one_pos]
        norm_num at *
        linarith
      have c0 : 0 < co := Real.sqrt_pos.2 (by norm_num at *; linarith)
      have sq1 : s ^ 2 + co ^ 2 = 1 := by
        rw [hs, hco, Real.sq_sqrt (by norm_num at *; linarith), Real.sq_sqrt (by norm_num at *; linarith)]
        ring
      have key := room_bound (F := B.speed) k0 s0 s1 c0 sq1
      have e1 : B.pAcc * (B.jerk * B.jerk * (√2 - 1) / B.pAcc * s / (1 - s)) = (√2 - 1) * B.jerk ^ 2 * s / (1 - s) := by
        have : (1 - s) ≠ 0 := by linarith
        have := ha.ne'
        field_simp
      have e2 : √(((√2 - 1) * B.jerk ^ 2) ^ 2 + 2 * ((√2 - 1) * B.jerk ^ 2) * B.speed ^ 2) * (s / co) ≤
          0.5 * d * (s / co) * B.pAcc := by
        have h1 : √(((√2 - 1) * B.jerk ^ 2) ^ 2 + 2 * ((√2 - 1) * B.jerk ^ 2) * B.speed ^ 2) ≤ 0.5 * d * B.pAcc := by
          unfold roomLength at hd
          rw [div_le_iff₀ ha] at hd
          linarith
        have := mul_le_mul_of_nonneg_right h1 (div_nonneg s0 c0.le)
        linarith
      rw [e1, min_right_comm, ← sq, min_eq_left (key.trans e2)]

/-- The state behind a junction before the cut. -/
theorem next_cut (hb : Between A M B) {X : PState ℝ} {post : List (PState ℝ)} : ∀ pre : List (PState ℝ),
    nextTarget X (pre ++ A :: M :: B :: post) = nextTarget X (pre ++ A :: B :: post) ∨
      (X.position = A.position ∧ nextTarget X (pre ++ A :: B :: post) = B ∧ nextTarget X (pre ++ A :: M :: B :: post) = M)
  | [] => by
    rw [List.nil_append, List.nil_append]
    by_cases hd : 0 < X.position.tDistance4 A.position
    · left
      rw [nextTarget, if_pos (Or.inr hd), nextTarget, if_pos (Or.inr hd)]
    · have hX : A.position = X.position := by
        by_contra hc
        exact hd (tDistance4_pos.2 hc)
      right
      obtain ⟨l1, l2, l3⟩ := hb.lengths
      refine ⟨hX.symm, ?_, ?_⟩
      · rw [nextTarget, if_neg (by simp [hd]), nextTarget, if_pos (Or.inr (tDistance4_pos.2 ?_))]
        rw [← hX]
        intro he
        apply hb.travels
        rw [he, Vec4.sub_self, norm3_zero]
      · rw [nextTarget, if_neg (by simp [hd]), nextTarget, if_pos (Or.inr (tDistance4_pos.2 ?_))]
        rw [← hX]
        intro he
        rw [he, Vec4.sub_self, norm3_zero] at l1
        exact lt_irrefl _ l1
  | s :: pre => by
    rw [List.cons_append, List.cons_append, nextTarget, nextTarget]
    by_cases hd : 0 < X.position.tDistance4 s.position
    · left
      rw [if_pos (Or.inr hd), if_pos (Or.inr hd)]
    · rw [if_neg (by simp [hd]), if_neg (by simp [hd])]
      exact next_cut hb pre

/-- A cut into long pieces leaves the corner speeds in front of it alone. -/
theorem klipper_before {X : PState ℝ} {l l' : List (PState ℝ)} (pa : Option (PState ℝ)) (ha : 0 < X.pAcc)
    (hb : Between A M B) (hX : X.position = A.position) (h1 : nextTarget X l = B) (h2 : nextTarget X l' = M)
    (hl : roomLength X ≤ (M.position.sub A.position).norm3) : junctionVel .klipper pa X l' = junctionVel .klipper pa X l := by
  obtain ⟨l1, l2, l3⟩ := hb.lengths
  have hv : velNext X l' = velNext X l := by
    unfold velNext
    rw [h1, h2, connectState_raised hX rfl rfl, hb.connect.1, connectState_raised (A' := X) (A := A) hX rfl rfl]
  unfold junctionVel
  simp only
  rw [hv, h1, h2, hX, calcKlipper_long _ _ ha hl, calcKlipper_long _ _ ha (by linarith)]

/-- `klipper` does not slow down at a cut into long pieces. -/
theorem klipper_mid (h : Between A M B) (rest : List (PState ℝ)) (hs : 0 < B.speed) (ha : 0 < B.pAcc)
    (hl : roomLength B ≤ (B.position.sub M.position).norm3) (hj : B.speed ≤ 1000 * B.jerk) :
    junctionVel .klipper (some A) M (B :: rest) = B.speed := by
  obtain ⟨l1, l2, l3⟩ := h.lengths
  have hn : NextMove M (B :: rest) B := ⟨[], rest, rfl, by simp, by
    intro he
    rw [he, Vec4.sub_self, norm3_zero] at l2
    exact lt_irrefl _ l2⟩
  have hvel : velNext M (B :: rest) = connectState A B := by
    rw [velNext_of_nextMove hn, h.connect.2]
  have hnext : nextTarget M (B :: rest) = B := by
    rw [nextTarget, if_pos (Or.inr (tDistance4_pos.2 ?_))]
    intro he
    rw [he, Vec4.sub_self, norm3_zero] at l2
    exact lt_irrefl _ l2
  have htv : targetVel (some A) M = connectState A B := h.connect.1
  have hnorm : (connectState A B).norm3 = B.speed := by rw [connectState_norm3 A B hs.le, if_neg h.travels]
  have hroom : roomLength M = roomLength B := by unfold roomLength; rw [h.speed, h.acc, h.jerk]
  unfold junctionVel
  simp only [htv, hvel, hnext]
  rw [calcKlipper_long _ _ (by rw [h.acc]; exact ha) (by rw [hroom]; exact hl)]
  unfold klipperFree
  have hdot : -(((connectState A B).div (connectState A B).norm3).x * ((connectState A B).div (connectState A B).norm3).x +
      ((connectState A B).div (connectState A B).norm3).y * ((connectState A B).div (connectState A B).norm3).y +
      ((connectState A B).div (connectState A B).norm3).z * ((connectState A B).div (connectState A B).norm3).z) = -1 := by
    have hq := norm3_sq (connectState A B)
    rw [hnorm] at hq
    simp only [Vec4.div, hnorm]
    have := hs.ne'
    field_simp
    linarith
  rw [hnorm] at hdot
  simp only [hnorm, hdot, hs.ne', or_self, if_false]
  rw [max_eq_right (by norm_num), if_neg (by norm_num), h.jerk, h.speed]
  have hr : (0.9999997 : ℝ) ≤ √(0.5 * (1 - -0.999999)) := Real.le_sqrt_of_sq_le (by norm_num)
  have hr1 : √(0.5 * (1 - -0.999999) : ℝ) < 1 := by
    rw [Real.sqrt_lt' one_pos]
    norm_num
  have h2 : (1.414 : ℝ) ≤ √2 := Real.le_sqrt_of_sq_le (by norm_num)
  generalize √(0.5 * (1 - -0.999999) : ℝ) = s at *
  rw [min_eq_right, Real.sqrt_sq hs.le]
  have hj2 : B.speed ^ 2 ≤ 1000000 * B.jerk ^ 2 := by nlinarith
  rw [le_div_iff₀ (by linarith)]
  have e1 : B.speed ^ 2 * (1 - s) ≤ 1000000 * B.jerk ^ 2 * 3e-7 :=
    mul_le_mul hj2 (by linarith) (by linarith) (by positivity)
  have e2 : (0.414 * 0.9999997) * B.jerk ^ 2 ≤ ((√2 - 1) * s) * B.jerk ^ 2 :=
    mul_le_mul_of_nonneg_right (mul_le_mul (by linarith) hr (by norm_num) (by linarith)) (sq_nonneg _)
  nlinarith [sq_nonneg B.jerk]

/-- Whatever motion executes the program also executes the program with a cut into long pieces, in the same time. -/
theorem near_longCut {δ : ℝ} (hδ : 0 ≤ δ) (hb : Between A M B) {post : List (PState ℝ)}
    (hl : roomLength B ≤ (B.position.sub M.position).norm3) (hj : B.speed ≤ 1000 * B.jerk) :
    ∀ {pre : List (PState ℝ)} {pa : Option (PState ℝ)} {v T : ℝ},
    Near (junctionVel .klipper) δ pa v (pre ++ A :: B :: post) T →
    (∀ s ∈ pre ++ A :: B :: post, 0 < s.speed ∧ 0 < s.pAcc ∧ 0 ≤ s.jerk) →
    (∀ s ∈ pre ++ [A], s.position = A.position → roomLength s ≤ (M.position.sub A.position).norm3) →
    Near (junctionVel .klipper) δ pa v (pre ++ A :: M :: B :: post) T
  | [], pa, v, T, hN, hreg, hroom => by
    have last : ∀ {v T : ℝ}, Near (junctionVel .klipper) δ (some A) v (B :: post) T →
        Near (junctionVel .klipper) δ (some A) v (M :: B :: post) T := by
      intro v T hN
      obtain ⟨l1, l2, l3⟩ := hb.lengths
      obtain ⟨r1, r2, r3⟩ := hreg B (by simp)
      cases hN with
      | idle hp hpos _ =>
        exfalso
        apply hb.travels
        rw [hpos A rfl, Vec4.sub_self, norm3_zero]
      | pause hp =>
        rw [hb.pauseB] at hp
        cases hp
      | filament hp h0 => exact absurd h0 hb.travels
      | travel hp hne hd hlim h1 h2 hrest =>
        rw [← l3] at hd
        obtain ⟨t, w, d1, d2⟩ := hd.cut l1.le l2.le
        have hw := d1.facts r2
        have := Near.travel (limit := junctionVel .klipper) (δ := δ) (A := A) (B := M) (rest := B :: post) hb.pause l1.ne'
          (by rw [hb.acc, hb.speed]; exact d1)
          (by
            rw [klipper_mid hb post r1 r2 hl hj]
            exact hw.2.2.2.1) le_rfl (by linarith)
          (Near.travel hb.pauseB l2.ne' d2 (by rw [hb.junction_end]; exact hlim) h1 h2 hrest)
        convert this using 1
        ring
    rw [List.nil_append] at hN ⊢
    have hA := hroom A (by simp) rfl
    obtain ⟨l1, l2, l3⟩ := hb.lengths
    cases hN with
    | idle hp hpos hr => exact .idle hp hpos (last hr)
    | pause hp ht hr hv => exact .pause hp ht (last hr) hv
    | filament hp h0 hne hd hr hv => exact .filament hp h0 hne hd (last hr) hv
    | travel hp hne hd hlim h1 h2 hr =>
      refine .travel hp hne hd ?_ h1 h2 (last hr)
      rw [klipper_before _ (hreg A (by simp)).2.1 hb rfl (l := B :: post) ?_ ?_ hA]
      · exact hlim
      · rw [nextTarget, if_pos (Or.inr (tDistance4_pos.2 ?_))]
        intro he
        apply hb.travels
        rw [he, Vec4.sub_self, norm3_zero]
      · rw [nextTarget, if_pos (Or.inr (tDistance4_pos.2 ?_))]
        intro he
        rw [he, Vec4.sub_self, norm3_zero] at l1
        exact lt_irrefl _ l1
  | s :: pre, pa, v, T, hN, hreg, hroom => by
    have ih := fun {v T : ℝ} (hN : Near (junctionVel .klipper) δ (some s) v (pre ++ A :: B :: post) T) =>
      near_longCut hδ hb hl hj hN (fun x hx => hreg x (List.mem_cons_of_mem _ hx))
        (fun x hx => hroom x (List.mem_cons_of_mem _ hx))
    rw [List.cons_append] at hN ⊢
    cases hN with
    | idle hp hpos hr => exact .idle hp hpos (ih hr)
    | pause hp ht hr hv => exact .pause hp ht (ih hr) hv
    | filament hp h0 hne hd hr hv => exact .filament hp h0 hne hd (ih hr) hv
    | travel hp hne hd hlim h1 h2 hr =>
      refine .travel hp hne hd ?_ h1 h2 (ih hr)
      rcases next_cut hb (X := s) (post := post) pre with e | ⟨e1, e2, e3⟩
      · unfold junctionVel velNext at hlim ⊢
        rw [e]
        exact hlim
      · rw [klipper_before _ (hreg s (by simp)).2.1 hb e1 e2 e3 (hroom s (by simp) e1)]
        exact hlim

theorem Spec.LongCut.cut (h : LongCut states states') : Cut states states' := by
  obtain ⟨pre, A, M, B, post, h1, h2, h3, _⟩ := h
  exact ⟨pre, A, M, B, post, h1, h2, h3⟩

/-- **C71, `klipper`.** Cutting a travel move into pieces that are long enough for the settings does not change the print time,
up to the planner's tolerance. -/
theorem c71_klipper_partial (hreg : Regular states) (hc : LongCut states states') {t t' : ℝ}
    (h : plan .klipper states = .ok bs) (ht : EndTime (Spec.path bs) t)
    (h' : plan .klipper states' = .ok bs') (ht' : EndTime (Spec.path bs') t') : |t' - t| ≤ slack states' := by
  have h2 := c71_not_shorter hreg hc.cut (by intro hx; cases hx) h ht h' ht'
  have hreg' := hc.cut.regular hreg
  have h1 : t' ≤ t + slack states' := by
    have hN := plan_is_near hreg (by intro hx; cases hx) h ht
    have hN' : Near (junctionVel .klipper) 1e-12 none 0 states' t := by
      obtain ⟨pre, A, M, B, post, rfl, rfl, hb, g1, g2, g3⟩ := hc
      exact near_longCut (by norm_num) hb g2 g3 hN (fun s hs => ⟨hreg.speed s hs, hreg.acc s hs, hreg.jerk s hs⟩) g1
    obtain ⟨hF, hO, hE⟩ := plan_opt hreg' h'
    obtain ⟨hg, hch, hf, _⟩ := plan_ok hreg' h'
    have hε : 0 ≤ (states'.length : ℝ) * 1e-12 := mul_nonneg (Nat.cast_nonneg _) (by norm_num)
    have := near_total (ε := states'.length * 1e-12) (by norm_num) hε hN' ⟨hF, hg, hch, hO, hE⟩
      le_rfl hreg'.acc (fun b hb => by rw [(hf b hb).2.1, zero_add]; exact hε)
    rw [endTime_sum hreg' h' ht', sum_inv_eq] at this
    have h0 := mul_nonneg hε (sum_inv_nonneg hreg'.acc)
    unfold slack
    linarith
  rw [abs_le]
  constructor <;> linarith

/-- **C71, `klipper`.** Neither does any number of cuts into long pieces. -/
theorem c71_klipper_cuts_partial {n : ℕ} (hreg : Regular states) (hc : LongCuts n states states') {t t' : ℝ}
    (h : plan .klipper states = .ok bs) (ht : EndTime (Spec.path bs) t)
    (h' : plan .klipper states' = .ok bs') (ht' : EndTime (Spec.path bs') t') :
    Regular states' ∧ |t' - t| ≤ n * slack states' := by
  induction hc generalizing bs' t' with
  | none =>
    rw [h] at h'
    cases h'
    obtain ⟨s, h1, rfl⟩ := ht
    obtain ⟨s', h2, rfl⟩ := ht'
    rw [h1] at h2
    cases h2
    exact ⟨hreg, by simp⟩
  | @more n _ states' states'' hcs hc ih =>
    have r1 : Regular states' := by
      clear ih hc h'
      induction hcs with
      | none => exact hreg
      | more _ hc ih => exact hc.cut.regular (ih hreg h)
    obtain ⟨bs₁, t₁, p1, p2⟩ := exists_endTime .klipper r1 hc.cut.moves.1
    have e1 := (ih hreg h p1 p2).2
    have e2 := c71_klipper_partial r1 hc p1 p2 h' ht'
    have e3 := slack_mono hc.cut r1
    have e4 : (n : ℝ) * slack states' ≤ n * slack states'' := mul_le_mul_of_nonneg_left e3 (Nat.cast_nonneg _)
    have e5 := abs_sub_le t' t₁ t
    push_cast
    exact ⟨hc.cut.regular r1, by linarith⟩

/-- The bracket, with a point in the middle of the second side. -/
noncomputable def Demo.bracketHalved : List (PState ℝ) := [at2 0 0, at2 10 0, at2 10 5, at2 10 10]

/-- With 10 mm/s, 100 mm/s² and square corner velocity 10 mm/s, pieces of 2 mm are long enough. -/
theorem Demo.at2_room (x y : ℝ) : roomLength (at2 x y) = 2 := by
  have h2 : √2 ^ 2 = (2 : ℝ) := Real.sq_sqrt (by norm_num)
  have : ((√2 - 1) * (10 : ℝ) ^ 2) ^ 2 + 2 * ((√2 - 1) * 10 ^ 2) * 10 ^ 2 = 100 ^ 2 := by linear_combination 10000 * h2
  unfold roomLength
  simp only [at2]
  rw [this, Real.sqrt_sq (by norm_num)]
  norm_num

theorem Demo.bracket_halved : LongCut bracket bracketHalved := by
  have n1 : ((at2 10 5).position.sub (at2 10 0).position).norm3 = 5 := at2_norm (by norm_num) (by norm_num)
  have n2 : ((at2 10 10).position.sub (at2 10 5).position).norm3 = 5 := at2_norm (by norm_num) (by norm_num)
  refine ⟨[at2 0 0], at2 10 0, at2 10 5, at2 10 10, [], rfl, rfl, ⟨?_, ⟨0.5, by norm_num, by norm_num, ?_⟩, rfl, rfl, rfl, rfl, rfl⟩,
    ?_, ?_, ?_⟩
  · rw [at2_norm (d := 10) (by norm_num) (by norm_num)]
    norm_num
  · ext <;> norm_num [at2, Vec4.add, Vec4.sub, Vec4.mul]
  · intro s hs _
    simp only [List.cons_append, List.nil_append, List.mem_cons, List.not_mem_nil, or_false] at hs
    rcases hs with rfl | rfl <;> rw [at2_room, n1] <;> norm_num
  · rw [at2_room, n2]
    norm_num
  · norm_num [at2]

/-- The second side of the bracket in two halves takes as long as in one. -/
example : ∃ bs bs' t t', plan .klipper Demo.bracket = .ok bs ∧ plan .klipper Demo.bracketHalved = .ok bs' ∧
    EndTime (Spec.path bs) t ∧ EndTime (Spec.path bs') t' ∧ |t' - t| ≤ slack Demo.bracketHalved := by
  obtain ⟨bs, t, h, ht⟩ := exists_endTime .klipper Demo.bracket_regular Demo.bracket_halved.cut.moves.1
  obtain ⟨bs', t', h', ht'⟩ := exists_endTime .klipper (Demo.bracket_halved.cut.regular Demo.bracket_regular)
    Demo.bracket_halved.cut.moves.2
  exact ⟨bs, bs', t, t', h, h', ht, ht', c71_klipper_partial Demo.bracket_regular Demo.bracket_halved h ht h' ht'⟩

end PyGCD
