import Verif.Spec.Sequels
import Verif.Props.Cuts

/-!
# Property C74: print jobs one after the other
-/

set_option linter.unusedSectionVars false
set_option linter.unusedSimpArgs false

namespace PyGCD
open Vec4 Spec Set

variable {fw : Firmware} {P Q R : List (PState ℝ)} {D : PState ℝ} {p δ : ℝ}

/-! ## Junctions of a program that is continued -/

theorem exists_nextMove {B : PState ℝ} : ∀ {rest : List (PState ℝ)}, (∃ s ∈ rest, s.position ≠ B.position) →
    ∃ C, NextMove B rest C := by
  intro rest
  induction rest with
  | nil => rintro ⟨s, hs, _⟩; cases hs
  | cons n rest ih =>
    rintro ⟨s, hs, hne⟩
    by_cases hn : n.position = B.position
    · rcases List.mem_cons.1 hs with rfl | hs
      · exact absurd hn hne
      · obtain ⟨C, pre, post, rfl, h1, h2⟩ := ih ⟨s, hs, hne⟩
        refine ⟨C, n :: pre, post, rfl, ?_, h2⟩
        intro x hx
        rcases List.mem_cons.1 hx with rfl | hx
        · exact hn
        · exact h1 x hx
    · exact ⟨n, [], rest, rfl, by simp, hn⟩

theorem junctionVel_append (A : Option (PState ℝ)) {B : PState ℝ} {rest : List (PState ℝ)}
    (h : ∃ s ∈ rest, s.position ≠ B.position) (R : List (PState ℝ)) :
    junctionVel fw A B (rest ++ R) = junctionVel fw A B rest := by
  obtain ⟨C, hC⟩ := exists_nextMove h
  have hC' : NextMove B (rest ++ R) C := by
    obtain ⟨pre, post, rfl, h1, h2⟩ := hC
    exact ⟨pre, post ++ R, by simp, h1, h2⟩
  unfold junctionVel velNext
  rw [nextTarget_of_nextMove hC, nextTarget_of_nextMove hC']

theorem last_or (B : PState ℝ) (rest : List (PState ℝ)) (pa : Option (PState ℝ)) :
    (B :: rest).getLast?.or pa = rest.getLast?.or (some B) := by
  rw [List.getLast?_cons]
  cases rest.getLast? <;> rfl

/-! ## Joining and splitting motions -/

/-- A motion of `P` can be continued by a motion of `R` from standstill. -/
theorem Near.then {pa : Option (PState ℝ)} {v T : ℝ} (hfw : fw ≠ .marlinJerk) (h : Near (junctionVel fw) δ pa v P T) :
    ∀ {T' : ℝ}, 0 ≤ δ → (∀ s ∈ P, 0 < s.speed ∧ 0 < s.pAcc ∧ 0 ≤ s.jerk) →
      ((∀ s ∈ P, ∀ A ∈ pa, s.position = A.position) → v ≤ 0) →
      Near (junctionVel fw) δ (P.getLast?.or pa) 0 R T' → Near (junctionVel fw) δ pa (max v 0) (P ++ R) (T + T') := by
  induction h with
  | done pa v =>
    intro T' _ _ hinv hR
    rw [max_eq_right (hinv (by simp)), zero_add]
    exact hR
  | @idle pa v T B rest hp hpos _ ih =>
    intro T' hδ hreg hinv hR
    rw [last_or] at hR
    refine .idle hp hpos (ih hδ (fun s hs => hreg s (by simp [hs])) ?_ hR)
    intro hall
    apply hinv
    intro s hs A hA
    rcases List.mem_cons.1 hs with rfl | hs
    · exact hpos A hA
    · exact (hall s hs B rfl).trans (hpos A hA)
  | @pause pa p t T v B rest hp ht _ hv ih =>
    intro T' hδ hreg hinv hR
    rw [last_or] at hR
    have := ih hδ (fun s hs => hreg s (by simp [hs])) (fun _ => hv) hR
    rw [max_self, add_assoc]
    exact .pause hp ht this (by rw [max_eq_right hv])
  | @travel A B v v' v'' t T rest hp hne hd hlim h1 h2 _ ih =>
    intro T' hδ hreg hinv hR
    rw [last_or] at hR
    obtain ⟨r1, r2, r3⟩ := hreg B (by simp)
    obtain ⟨f0, _, f2, _⟩ := hd.facts r2
    rw [max_eq_left f0, add_assoc]
    have hstop : (∀ s ∈ rest, s.position = B.position) → v' ≤ 0 := by
      intro hall
      rw [c62_stop hfw (some A) r3 (Or.inl hall)] at hlim
      exact hlim
    have := ih hδ (fun s hs => hreg s (by simp [hs]))
      (fun hall => h1.trans (hstop fun s hs => hall s hs B rfl)) hR
    refine .travel hp hne hd ?_ (max_le h1 f2) (h2.trans (by linarith [le_max_left v'' 0])) this
    by_cases hm : ∃ s ∈ rest, s.position ≠ B.position
    · exact hlim.trans_eq (junctionVel_append _ hm R).symm
    · push Not at hm
      exact (hstop hm).trans (c17_junction_speed fw _ _ _ r1.le r3).1
  | @filament A B t T v rest hp h0 hne hd _ hv ih =>
    intro T' hδ hreg hinv hR
    rw [last_or] at hR
    have := ih hδ (fun s hs => hreg s (by simp [hs])) (fun _ => hv) hR
    rw [max_self, add_assoc]
    exact .filament hp h0 hne hd this (by rw [max_eq_right hv])

/-- Before a pause the machine stands still. -/
theorem Near.stopped (hD : D.pause = some p) {pa : Option (PState ℝ)} {v T : ℝ} :
    Near (junctionVel fw) δ pa v (P ++ D :: Q) T → (∀ s ∈ P, ∀ A ∈ pa, s.position = A.position) →
    pa ≠ none → v = 0 := by
  induction P generalizing pa T with
  | nil =>
    intro h _ _
    cases h with
    | idle hp => rw [hD] at hp; cases hp
    | pause => rfl
    | travel hp => rw [hD] at hp; cases hp
    | filament => rfl
  | cons B P ih =>
    intro h hall hpa
    cases h with
    | idle hp hpos hr =>
      refine ih hr ?_ (by simp)
      intro s hs A hA
      cases hA
      obtain ⟨A, rfl⟩ := Option.ne_none_iff_exists'.1 hpa
      rw [hall s (by simp [hs]) A rfl, hall B (by simp) A rfl]
    | pause => rfl
    | travel hp hne =>
      exfalso
      apply hne
      rw [hall B (by simp) _ rfl, Vec4.sub_self, norm3_zero]
    | filament => rfl

/-- A motion of a program with a pause consists of a motion before and one after it. -/
theorem Near.split (hδ : 0 ≤ δ) (hD : D.pause = some p) {pa : Option (PState ℝ)} {v T : ℝ} :
    Near (junctionVel fw) δ pa v (P ++ D :: Q) T → (∀ s ∈ P, 0 < s.speed ∧ 0 < s.pAcc ∧ 0 ≤ s.jerk) →
    ∃ T₁ T₂ v₂, v₂ ≤ 0 ∧ Rough (junctionVel fw) δ δ pa v P T₁ ∧ Near (junctionVel fw) δ (some D) v₂ Q T₂ ∧
      T₁ + p + T₂ ≤ T + (P.map fun s => δ / s.pAcc).sum := by
  induction P generalizing pa v T with
  | nil =>
    intro h _
    cases h with
    | idle hp => rw [hD] at hp; cases hp
    | @pause _ p' t T v _ _ hp ht hr hv =>
      rw [hD] at hp
      cases hp
      exact ⟨0, T, v, hv, .done _ _, hr, by simp; linarith⟩
    | travel hp => rw [hD] at hp; cases hp
    | filament hp => rw [hD] at hp; cases hp
  | cons B P ih =>
    intro h hreg
    have hreg' : ∀ s ∈ P, 0 < s.speed ∧ 0 < s.pAcc ∧ 0 ≤ s.jerk := fun s hs => hreg s (by simp [hs])
    obtain ⟨r1, r2, r3⟩ := hreg B (by simp)
    have hB : 0 ≤ δ / B.pAcc := div_nonneg hδ r2.le
    rw [List.map_cons, List.sum_cons]
    cases h with
    | idle hp hpos hr =>
      obtain ⟨T₁, T₂, v₂, h1, h2, h3, h4⟩ := ih hr hreg'
      exact ⟨T₁, T₂, v₂, h1, .idle hp hpos h2, h3, by linarith⟩
    | pause hp ht hr hv =>
      obtain ⟨T₁, T₂, v₂, h1, h2, h3, h4⟩ := ih hr hreg'
      exact ⟨_, T₂, v₂, h1, .pause hp ht h2 hv, h3, by linarith⟩
    | filament hp h0 hne hd hr hv =>
      obtain ⟨T₁, T₂, v₂, h1, h2, h3, h4⟩ := ih hr hreg'
      exact ⟨_, T₂, v₂, h1, .filament hp h0 hne hd h2 hv, h3, by linarith⟩
    | @travel A _ _ v' v'' t T _ hp hne hd hlim g1 g2 hr =>
      obtain ⟨T₁, T₂, v₂, h1, h2, h3, h4⟩ := ih hr hreg'
      obtain ⟨f0, f1, f2, f3, f4, f5⟩ := hd.facts r2
      by_cases hm : ∃ s ∈ P, s.position ≠ B.position
      · rw [List.append_eq, junctionVel_append _ hm] at hlim
        refine ⟨_, T₂, v₂, h1, .travel hp hne hd le_rfl ?_ ?_ hlim g1 g2 h2, h3, by linarith⟩
        · have := Real.le_sqrt_of_sq_le f5
          linarith
        · have := Real.le_sqrt_of_sq_le f4
          linarith
      · push Not at hm
        have hv0 : v'' = 0 := hr.stopped hD (fun s hs A hA => by cases hA; exact hm s hs) (by simp)
        subst hv0
        have hq : 0 ≤ v' / B.pAcc := div_nonneg f2 r2.le
        have hbrake : Drive B.pAcc B.speed ((v' + 0) / 2 * (v' / B.pAcc)) v' 0 (v' / B.pAcc) :=
          drive_one (k := -B.pAcc) ⟨f2, f3⟩ ⟨le_rfl, r1.le⟩ hq (by rw [abs_neg, abs_of_pos r2]) (by field_simp; ring)
        have hle : v' / B.pAcc ≤ δ / B.pAcc := div_le_div_of_nonneg_right (by linarith) r2.le
        have hd0 : 0 ≤ 2 * B.pAcc * (B.position.sub A.position).norm3 :=
          mul_nonneg (by linarith) (norm3_nonneg _)
        refine ⟨_, T₂, v₂, h1, .travel hp hne (hd.append hbrake) ?_ ?_ ?_
          (c17_junction_speed fw _ _ _ r1.le r3).1 le_rfl (by linarith) h2, h3, ?_⟩
        · have := mul_nonneg (by linarith : 0 ≤ (v' + 0) / 2) hq
          linarith
        · have h5 := Real.le_sqrt_of_sq_le f5
          have h6 : √(v' ^ 2 + 2 * B.pAcc * (B.position.sub A.position).norm3) ≤
              √(0 ^ 2 + 2 * B.pAcc * (B.position.sub A.position).norm3) + v' := by
            apply Real.sqrt_le_iff.2
            refine ⟨add_nonneg (Real.sqrt_nonneg _) f2, ?_⟩
            have := Real.sq_sqrt (show 0 ≤ (0 : ℝ) ^ 2 + 2 * B.pAcc * (B.position.sub A.position).norm3 by linarith)
            have h7 := mul_nonneg (Real.sqrt_nonneg ((0 : ℝ) ^ 2 + 2 * B.pAcc * (B.position.sub A.position).norm3)) f2
            nlinarith
          linarith
        · have := Real.sqrt_nonneg (v ^ 2 + 2 * B.pAcc * (B.position.sub A.position).norm3)
          linarith
        · linarith

/-! ## Regular programs -/

theorem Spec.Regular.firstPause (hQ : Regular Q) {q : PState ℝ} (hq : Q.head? = some q) : q.pause = none := by
  by_contra hp
  cases Q with
  | nil => cases hq
  | cons a Q =>
    cases hq
    obtain ⟨x, hx, _⟩ := hQ.moved [] q Q rfl hp
    cases hx

theorem moved_of_active (hreg : Regular P) (hact : active none P ≠ []) : ∃ x ∈ P, ∃ y ∈ P, x.position ≠ y.position := by
  by_contra hno
  push Not at hno
  apply hact
  unfold active
  rw [List.filter_eq_nil_iff]
  intro x hx
  rw [decide_eq_true_iff]
  rintro (hp | ⟨A, hA, hne⟩)
  · have hx2 : x.2 ∈ P := by
      unfold withPrev at hx
      exact (List.of_mem_zip hx).2
    obtain ⟨pre, post, he⟩ := List.append_of_mem hx2
    obtain ⟨a, ha, b, hb, hab⟩ := hreg.moved pre x.2 post he hp
    exact hab (hno a (by rw [he]; simp [ha]) b (by rw [he]; simp [hb]))
  · unfold withPrev at hx
    have hx1 := (List.of_mem_zip hx).1
    have hx2 := (List.of_mem_zip hx).2
    rw [hA] at hx1
    simp only [List.mem_cons, reduceCtorEq, List.mem_map, Option.some.injEq, exists_eq_right, false_or] at hx1
    exact hne (hno _ hx2 _ hx1)

/-- Running a regular program after another one is regular. -/
theorem Spec.Regular.append (hP : Regular P) (hR : ∀ s ∈ R, 0 < s.speed ∧ 0 < s.pAcc ∧ 0 ≤ s.jerk ∧ ∀ p ∈ s.pause, 0 ≤ p)
    (hm : ∃ x ∈ P, ∃ y ∈ P, x.position ≠ y.position)
    (hst : ∀ pre s post, R = pre ++ s :: post → s.pause ≠ none →
      ∃ A, (P ++ pre).getLast? = some A ∧ s.position = A.position) : Regular (P ++ R) where
  speed s hs := (List.mem_append.1 hs).elim (hP.speed s) fun h => (hR s h).1
  acc s hs := (List.mem_append.1 hs).elim (hP.acc s) fun h => (hR s h).2.1
  jerk s hs := (List.mem_append.1 hs).elim (hP.jerk s) fun h => (hR s h).2.2.1
  pause s hs := (List.mem_append.1 hs).elim (hP.pause s) fun h => (hR s h).2.2.2
  stays pre s post he hp := by
    rcases List.append_eq_append_iff.1 he with ⟨l, rfl, h2⟩ | ⟨l, h1, h2⟩
    · exact hst l s post h2 hp
    · cases l with
      | nil =>
        rw [List.append_nil] at h1
        subst h1
        have := hst [] s post (by simpa using h2.symm) hp
        simpa using this
      | cons a l =>
        rw [List.cons_append, List.cons.injEq] at h2
        obtain ⟨rfl, rfl⟩ := h2
        exact hP.stays pre s l h1 hp
  moved pre s post he hp := by
    obtain ⟨x, hx, y, hy, hxy⟩ := hm
    rcases List.append_eq_append_iff.1 he with ⟨l, rfl, h2⟩ | ⟨l, h1, h2⟩
    · exact ⟨x, by simp [hx], y, by simp [hy], hxy⟩
    · cases l with
      | nil =>
        rw [List.append_nil] at h1
        subst h1
        exact ⟨x, hx, y, hy, hxy⟩
      | cons a l =>
        rw [List.cons_append, List.cons.injEq] at h2
        obtain ⟨rfl, rfl⟩ := h2
        exact hP.moved pre s l h1 hp

theorem Spec.PauseAfter.regular (hD : PauseAfter P D p) (hP : Regular P) (hact : active none P ≠ []) (hQ : Regular Q) :
    Regular (P ++ D :: Q) := by
  obtain ⟨A, hA, hpos⟩ := hD.place
  refine hP.append ?_ (moved_of_active hP hact) ?_
  · intro s hs
    rcases List.mem_cons.1 hs with rfl | hs
    · refine ⟨hD.speed, hD.acc, hD.jerk, ?_⟩
      intro q hq
      rw [hD.pause] at hq
      cases hq
      exact hD.nonneg
    · exact ⟨hQ.speed s hs, hQ.acc s hs, hQ.jerk s hs, hQ.pause s hs⟩
  · intro pre s post he hp
    cases pre with
    | nil =>
      cases he
      exact ⟨A, by simpa using hA, hpos⟩
    | cons d pre =>
      rw [List.cons_append, List.cons.injEq] at he
      obtain ⟨rfl, rfl⟩ := he
      obtain ⟨B, hB, hpos'⟩ := hQ.stays pre s post rfl hp
      refine ⟨B, ?_, hpos'⟩
      rw [List.getLast?_append, List.getLast?_cons, hB]
      rfl

theorem active_append (P R : List (PState ℝ)) (pa : Option (PState ℝ)) :
    active pa (P ++ R) = active pa P ++ active (P.getLast?.or pa) R := by
  induction P generalizing pa with
  | nil => simp [active, withPrev]
  | cons s P ih =>
    rw [last_or, List.cons_append]
    by_cases hact : s.pause ≠ none ∨ ∃ A, pa = some A ∧ s.position ≠ A.position
    · rw [active_cons_take _ hact, active_cons_take _ hact, ih, List.cons_append]
    · push Not at hact
      rw [active_cons_skip _ (fun A hA => hact.2 A hA) hact.1, active_cons_skip _ (fun A hA => hact.2 A hA) hact.1, ih]

theorem active_begin {q : PState ℝ} (hpos : q.position = D.position) (hp : q.pause = none) (Q : List (PState ℝ)) :
    active (some D) (q :: Q) = active none (q :: Q) := by
  rw [active_cons_skip _ (fun A hA => by cases hA; exact hpos) hp, active_cons_skip _ (fun A hA => by cases hA) hp]

/-! ## C74 -/

theorem slack_append (hP : Regular P) (hR : ∀ s ∈ R, 0 < s.pAcc) :
    7e-12 * P.length * (P.map fun s => 1 / s.pAcc).sum + 7e-12 * R.length * (R.map fun s => 1 / s.pAcc).sum ≤
      slack (P ++ R) := by
  unfold slack
  rw [List.length_append, List.map_append, List.sum_append]
  push_cast
  have h1 := sum_inv_nonneg hP.acc
  have h2 := sum_inv_nonneg hR
  generalize (P.map fun s => 1 / s.pAcc).sum = S at *
  generalize (R.map fun s => 1 / s.pAcc).sum = S' at *
  have h3 := mul_nonneg (Nat.cast_nonneg (α := ℝ) P.length) h2
  have h4 := mul_nonneg (Nat.cast_nonneg (α := ℝ) R.length) h1
  nlinarith

variable {bs bs₁ bs₂ : List (Block ℝ)} {t t₁ t₂ : ℝ}

theorem near_bound (hreg : Regular R) {T : ℝ} (hN : Near (junctionVel fw) 1e-12 none 0 R T)
    (h : plan fw R = .ok bs) (ht : EndTime (Spec.path bs) t) :
    t ≤ T + 2e-12 * R.length * (R.map fun s => 1 / s.pAcc).sum := by
  obtain ⟨hF, hO, hE⟩ := plan_opt hreg h
  obtain ⟨hg, hch, hf, _⟩ := plan_ok hreg h
  have hε : 0 ≤ (R.length : ℝ) * 1e-12 := mul_nonneg (Nat.cast_nonneg _) (by norm_num)
  have := near_total (ε := R.length * 1e-12) (by norm_num) hε hN ⟨hF, hg, hch, hO, hE⟩
    le_rfl hreg.acc (fun b hb => by rw [(hf b hb).2.1, zero_add]; exact hε)
  rw [endTime_sum hreg h ht, sum_inv_eq] at this
  linarith

/-- The motion of a program from where it begins. -/
theorem begin_near (hQ : Regular Q) (hq : BeginsAt Q D) {T : ℝ} (h : Near (junctionVel fw) δ none 0 Q T) :
    Near (junctionVel fw) δ (some D) 0 Q T := by
  obtain ⟨q, hq1, hq2⟩ := hq
  have hp := hQ.firstPause hq1
  cases Q with
  | nil => cases hq1
  | cons a Q =>
    cases hq1
    cases h with
    | idle _ _ hr => exact .idle hp (fun A hA => by cases hA; exact hq2) hr
    | pause hp' => rw [hp] at hp'; cases hp'

/-- **C74, no waiting in between.** If `Q` begins where `P` ends, running both without a stop takes at most as long
as both together, up to the planner's tolerance. (With `marlin_jerk` a program may end at speed, see C18.) -/
theorem c74_append (hfw : fw ≠ .marlinJerk) (hreg : Regular (P ++ Q)) (hP : Regular P) (hQ : Regular Q) {A : PState ℝ}
    (hA : P.getLast? = some A) (hq : BeginsAt Q A)
    (h₁ : plan fw P = .ok bs₁) (ht₁ : EndTime (Spec.path bs₁) t₁) (h₂ : plan fw Q = .ok bs₂)
    (ht₂ : EndTime (Spec.path bs₂) t₂) (h : plan fw (P ++ Q) = .ok bs) (ht : EndTime (Spec.path bs) t) :
    t ≤ t₁ + t₂ + slack (P ++ Q) := by
  have n1 := plan_is_near hP (fun hx => absurd hx hfw) h₁ ht₁
  have n2 := plan_is_near hQ (fun hx => absurd hx hfw) h₂ ht₂
  have n3 := n1.then hfw (R := Q) (by norm_num) (fun s hs => ⟨hP.speed s hs, hP.acc s hs, hP.jerk s hs⟩)
    (fun _ => le_rfl) (by rw [hA]; exact begin_near hQ hq n2)
  rw [max_self] at n3
  have := near_bound hreg n3 h ht
  have h0 := mul_nonneg (Nat.cast_nonneg (α := ℝ) (P ++ Q).length) (sum_inv_nonneg hreg.acc)
  unfold slack
  linarith

/-- **C74, a pause in between, at most.** -/
theorem c74_pause_le (hfw : fw ≠ .marlinJerk) (hP : Regular P) (hact : active none P ≠ []) (hD : PauseAfter P D p)
    (hQ : Regular Q) (hq : BeginsAt Q D)
    (h₁ : plan fw P = .ok bs₁) (ht₁ : EndTime (Spec.path bs₁) t₁) (h₂ : plan fw Q = .ok bs₂)
    (ht₂ : EndTime (Spec.path bs₂) t₂) (h : plan fw (P ++ D :: Q) = .ok bs) (ht : EndTime (Spec.path bs) t) :
    t ≤ t₁ + p + t₂ + slack (P ++ D :: Q) := by
  have hreg := hD.regular hP hact hQ
  have n1 := plan_is_near hP (fun hx => absurd hx hfw) h₁ ht₁
  have n2 := plan_is_near hQ (fun hx => absurd hx hfw) h₂ ht₂
  have n3 := n1.then hfw (R := D :: Q) (T' := p + t₂) (by norm_num)
    (fun s hs => ⟨hP.speed s hs, hP.acc s hs, hP.jerk s hs⟩) (fun _ => le_rfl)
    (.pause hD.pause le_rfl (begin_near hQ hq n2) le_rfl)
  rw [max_self] at n3
  have := near_bound hreg n3 h ht
  have h0 := mul_nonneg (Nat.cast_nonneg (α := ℝ) (P ++ D :: Q).length) (sum_inv_nonneg hreg.acc)
  unfold slack
  linarith

/-- **C74, a pause in between, at least.** With every firmware; with `marlin_jerk` the moves must all travel. -/
theorem c74_pause_ge (hP : Regular P) (hact : active none P ≠ []) (hD : PauseAfter P D p)
    (hQ : Regular Q) (hq : BeginsAt Q D) (hfw : fw = .marlinJerk → Travels (P ++ D :: Q))
    (h₁ : plan fw P = .ok bs₁) (ht₁ : EndTime (Spec.path bs₁) t₁) (h₂ : plan fw Q = .ok bs₂)
    (ht₂ : EndTime (Spec.path bs₂) t₂) (h : plan fw (P ++ D :: Q) = .ok bs) (ht : EndTime (Spec.path bs) t) :
    t₁ + p + t₂ ≤ t + slack (P ++ D :: Q) := by
  have hreg := hD.regular hP hact hQ
  have hN := plan_is_near hreg hfw h ht
  obtain ⟨T₁, T₂, v₂, g1, g2, g3, g4⟩ := hN.split (by norm_num) hD.pause
    (fun s hs => ⟨hP.speed s hs, hP.acc s hs, hP.jerk s hs⟩)
  have b1 : t₁ ≤ T₁ + 6e-12 * P.length * (P.map fun s => 1 / s.pAcc).sum := by
    obtain ⟨hF, hO, hE⟩ := plan_opt hP h₁
    obtain ⟨hg, hch, hf, _⟩ := plan_ok hP h₁
    have hε : 0 ≤ (P.length : ℝ) * 1e-12 := mul_nonneg (Nat.cast_nonneg _) (by norm_num)
    have := rough_total (ε := 3 * (P.length * 1e-12)) (e := 0) (by norm_num) (by norm_num) (by linarith) g2
      ⟨hF, hg, hch, hO, hE⟩ le_rfl (by linarith) (by linarith) hP.acc
      (fun b hb => by rw [(hf b hb).2.1, zero_add])
    rw [endTime_sum hP h₁ ht₁, sum_inv_eq] at this
    linarith
  have b2 : t₂ ≤ T₂ + 2e-12 * Q.length * (Q.map fun s => 1 / s.pAcc).sum := by
    obtain ⟨hF, hO, hE⟩ := plan_opt hQ h₂
    obtain ⟨hg, hch, hf, _⟩ := plan_ok hQ h₂
    have hε : 0 ≤ (Q.length : ℝ) * 1e-12 := mul_nonneg (Nat.cast_nonneg _) (by norm_num)
    have g3' : Near (junctionVel fw) 1e-12 none v₂ Q T₂ := by
      obtain ⟨q, hq1, hq2⟩ := hq
      have hp := hQ.firstPause hq1
      cases Q with
      | nil => cases hq1
      | cons a Q =>
        cases hq1
        cases g3 with
        | idle _ _ hr => exact .idle hp (fun A hA => by cases hA) hr
        | pause hp' => rw [hp] at hp'; cases hp'
        | travel _ hne =>
          exfalso
          apply hne
          rw [hq2, Vec4.sub_self, norm3_zero]
        | filament _ _ hne =>
          exfalso
          apply hne
          rw [hq2]
    have := near_total (ε := Q.length * 1e-12) (by norm_num) hε g3' ⟨hF, hg, hch, hO, hE⟩
      le_rfl hQ.acc (fun b hb => by rw [(hf b hb).2.1, zero_add]; linarith)
    rw [endTime_sum hQ h₂ ht₂, sum_inv_eq] at this
    linarith
  have b3 : (P.map fun s => (1e-12 : ℝ) / s.pAcc).sum ≤ 1e-12 * P.length * (P.map fun s => 1 / s.pAcc).sum := by
    have e : (P.map fun s => (1e-12 : ℝ) / s.pAcc).sum = 1e-12 * (P.map fun s => 1 / s.pAcc).sum := by
      rw [← List.sum_map_mul_left]
      congr 1
      apply List.map_congr_left
      intro s _
      ring
    rw [e]
    have h0 := sum_inv_nonneg hP.acc
    have h1 : (1 : ℝ) ≤ P.length := by
      obtain ⟨A, hA, _⟩ := hD.place
      have : 0 < P.length := List.length_pos_of_mem (List.mem_of_getLast? hA)
      exact_mod_cast this
    have := le_mul_of_one_le_left h0 h1
    linarith
  have b4 := slack_append hP (R := D :: Q) (fun s hs => hreg.acc s (by simp only [List.mem_append]; exact Or.inr hs))
  have b5 : 2e-12 * (Q.length : ℝ) * (Q.map fun s => 1 / s.pAcc).sum ≤
      7e-12 * ((D :: Q).length : ℝ) * ((D :: Q).map fun s => 1 / s.pAcc).sum := by
    rw [List.length_cons, List.map_cons, List.sum_cons]
    push_cast
    have h0 := sum_inv_nonneg hQ.acc
    have hn : (0 : ℝ) ≤ Q.length := Nat.cast_nonneg _
    have hd := one_div_pos.2 hD.acc
    generalize (Q.map fun s => 1 / s.pAcc).sum = S at *
    generalize (Q.length : ℝ) = n at *
    have := mul_nonneg hn h0
    have := mul_nonneg hn hd.le
    nlinarith
  linarith

/-- **C74.** A pause divides a print: the parts before and after it take as long as on their own. -/
theorem c74_pause (hfw : fw ≠ .marlinJerk) (hP : Regular P) (hact : active none P ≠ []) (hD : PauseAfter P D p)
    (hQ : Regular Q) (hq : BeginsAt Q D)
    (h₁ : plan fw P = .ok bs₁) (ht₁ : EndTime (Spec.path bs₁) t₁) (h₂ : plan fw Q = .ok bs₂)
    (ht₂ : EndTime (Spec.path bs₂) t₂) (h : plan fw (P ++ D :: Q) = .ok bs) (ht : EndTime (Spec.path bs) t) :
    |t - (t₁ + p + t₂)| ≤ slack (P ++ D :: Q) := by
  have a1 := c74_pause_le hfw hP hact hD hQ hq h₁ ht₁ h₂ ht₂ h ht
  have a2 := c74_pause_ge hP hact hD hQ hq (fun hx => absurd hx hfw) h₁ ht₁ h₂ ht₂ h ht
  rw [abs_le]
  constructor <;> linarith

theorem Spec.Queue.regular {jobs : List (List (PState ℝ))} {prog : List (PState ℝ)} {w : ℝ} (h : Queue jobs prog w) :
    Regular prog ∧ active none prog ≠ [] := by
  induction h with
  | one hP hact => exact ⟨hP, hact⟩
  | more _ hD hQ _ _ ih =>
    refine ⟨hD.regular ih.1 ih.2 hQ, ?_⟩
    rw [active_append]
    simp [ih.2]

/-- **C74, a queue of jobs.** Any number of print jobs with pauses in between takes as long as the jobs on their own
and the pauses, up to the planner's tolerance. -/
theorem c74_queue (hfw : fw ≠ .marlinJerk) {jobs : List (List (PState ℝ))} {prog : List (PState ℝ)} {w : ℝ}
    (hQ : Queue jobs prog w) {ts : List ℝ} (hts : List.Forall₂ (fun P t => ∃ bs, plan fw P = .ok bs ∧ EndTime (Spec.path bs) t) jobs ts)
    (h : plan fw prog = .ok bs) (ht : EndTime (Spec.path bs) t) :
    |t - (ts.sum + w)| ≤ jobs.length * slack prog := by
  induction hQ generalizing bs t ts with
  | one hP hact =>
    cases hts with
    | cons h1 h2 =>
      cases h2
      obtain ⟨bs', h1, s, hs, rfl⟩ := h1
      rw [h] at h1
      cases h1
      obtain ⟨s', hs', rfl⟩ := ht
      rw [hs] at hs'
      cases hs'
      simpa using slack_nonneg hP
  | @more jobs prog Q D w p hq hD hQ hact hb ih =>
    obtain ⟨ts₁, ts₂, f1, f2, rfl⟩ : ∃ a b, List.Forall₂ (fun P t => ∃ bs, plan fw P = .ok bs ∧ EndTime (Spec.path bs) t) jobs a ∧
        List.Forall₂ (fun P t => ∃ bs, plan fw P = .ok bs ∧ EndTime (Spec.path bs) t) [Q] b ∧ ts = a ++ b :=
      ⟨_, _, (List.forall₂_take_append _ _ _ hts.flip).flip, (List.forall₂_drop_append _ _ _ hts.flip).flip,
        (List.take_append_drop _ _).symm⟩
    cases f2 with
    | @cons _ t₂ _ _ h2 h3 =>
      cases h3
      obtain ⟨r1, r2⟩ := hq.regular
      obtain ⟨bs₁, t₁, p1, p2⟩ := exists_endTime fw r1 r2
      obtain ⟨bs₂, p3, p4⟩ := h2
      have e1 := ih f1 p1 p2
      have e2 := c74_pause hfw r1 r2 hD hQ hb p1 p2 p3 p4 h ht
      have hreg := hD.regular r1 r2 hQ
      have e3 : slack prog ≤ slack (prog ++ D :: Q) := by
        have := slack_append r1 (R := D :: Q) (fun s hs => hreg.acc s (by simp only [List.mem_append]; exact Or.inr hs))
        have h0 := mul_nonneg (Nat.cast_nonneg (α := ℝ) (D :: Q).length)
          (sum_inv_nonneg (states := D :: Q) fun s hs => hreg.acc s (by simp only [List.mem_append]; exact Or.inr hs))
        unfold slack at this ⊢
        linarith
      have e4 : (jobs.length : ℝ) * slack prog ≤ jobs.length * slack (prog ++ D :: Q) :=
        mul_le_mul_of_nonneg_left e3 (Nat.cast_nonneg _)
      rw [List.sum_append, List.sum_singleton, List.length_append, List.length_singleton]
      push_cast
      rw [abs_le] at e1 e2 ⊢
      constructor <;> linarith [e1.1, e1.2, e2.1, e2.2]

/-! ### An example -/

namespace Demo

theorem two_regular (x y x' y' : ℝ) : Regular [at2 x y, at2 x' y'] := by
  refine regular_moves ?_
  intro s hs
  simp only [List.mem_cons, List.not_mem_nil, or_false] at hs
  rcases hs with rfl | rfl <;> norm_num [at2]

theorem two_active {x y x' y' : ℝ} (h : x' ≠ x ∨ y' ≠ y) : active none [at2 x y, at2 x' y'] ≠ [] := by
  rw [active_cons_skip _ (by simp) rfl, active_cons_take _ (Or.inr ⟨_, rfl, ?_⟩)]
  · simp
  · intro he
    have h1 := congrArg Vec4.x he
    have h2 := congrArg Vec4.y he
    simp only [at2] at h1 h2
    tauto

/-- Ten millimetres to the right, a pause of two seconds, and ten millimetres up. -/
theorem queue : Queue [[at2 0 0, at2 10 0], [at2 10 0, at2 10 10]]
    ([at2 0 0, at2 10 0] ++ { at2 10 0 with pause := some 2 } :: [at2 10 0, at2 10 10]) (0 + 2) := by
  refine .more (jobs := [[at2 0 0, at2 10 0]]) (.one (two_regular _ _ _ _) (two_active (Or.inl (by norm_num)))) ?_
    (two_regular _ _ _ _) (two_active (Or.inr (by norm_num))) ⟨_, rfl, rfl⟩
  exact ⟨rfl, by norm_num, ⟨_, rfl, rfl⟩, by norm_num [at2], by norm_num [at2], by norm_num [at2]⟩

/-- The hypotheses of `c74_queue` hold for it. -/
example (hfw : fw ≠ .marlinJerk) : ∃ t t₁ t₂ bs bs₁ bs₂, plan fw [at2 0 0, at2 10 0] = .ok bs₁ ∧
    EndTime (Spec.path bs₁) t₁ ∧ plan fw [at2 10 0, at2 10 10] = .ok bs₂ ∧ EndTime (Spec.path bs₂) t₂ ∧
    plan fw ([at2 0 0, at2 10 0] ++ { at2 10 0 with pause := some 2 } :: [at2 10 0, at2 10 10]) = .ok bs ∧
    EndTime (Spec.path bs) t ∧ |t - (t₁ + t₂ + 2)| ≤ 1e-10 := by
  obtain ⟨hr, ha⟩ := queue.regular
  obtain ⟨bs, t, h, ht⟩ := exists_endTime fw hr ha
  obtain ⟨bs₁, t₁, h₁, ht₁⟩ := exists_endTime fw (two_regular 0 0 10 0) (two_active (Or.inl (by norm_num)))
  obtain ⟨bs₂, t₂, h₂, ht₂⟩ := exists_endTime fw (two_regular 10 0 10 10) (two_active (Or.inr (by norm_num)))
  refine ⟨t, t₁, t₂, bs, bs₁, bs₂, h₁, ht₁, h₂, ht₂, h, ht, ?_⟩
  have := c74_queue hfw queue (.cons ⟨bs₁, h₁, ht₁⟩ (.cons ⟨bs₂, h₂, ht₂⟩ .nil)) h ht
  rw [show [t₁, t₂].sum + (0 + 2) = t₁ + t₂ + 2 by simp] at this
  refine this.trans ?_
  norm_num [slack, at2]

end Demo

end PyGCD
