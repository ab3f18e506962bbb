import Verif.Props.Speeds
import Verif.Props.TaskSpeeds
import Verif.Spec.TaskSpeeds

/-!
# The closed formula for the print time is the shortest time of all motions within the limits

Nothing here refers to the planner.
-/

set_option linter.unusedSectionVars false
set_option linter.unusedSimpArgs false

namespace PyGCD
open Vec4 Spec

variable {limit : Option (PState ℝ) → PState ℝ → List (PState ℝ) → ℝ}

/-! ## Legs -/

/-- A leg whose numbers make sense. -/
structure LegOk (g : Leg) : Prop where
  gain : 0 ≤ g.gain
  last : 0 ≤ g.last
  feed : g.last ≤ g.feed

theorem ownSpeed_nonneg {l : List Leg} (hl : ∀ g ∈ l, LegOk g) (i : ℕ) : 0 ≤ ownSpeed l i := by
  cases i with
  | zero => exact le_rfl
  | succ i =>
    cases h : l[i]? with
    | none => simp only [ownSpeed, h, le_rfl]
    | some b =>
      have hb := hl b (List.mem_of_getElem? h)
      cases h' : l[i + 1]? with
      | none =>
        simp only [ownSpeed, h, h']
        exact hb.last
      | some c =>
        have hc := hl c (List.mem_of_getElem? h')
        simp only [ownSpeed, h, h']
        exact le_min hb.last (hc.last.trans hc.feed)

theorem ownSpeed_le_feed {l : List Leg} (hl : ∀ g ∈ l, LegOk g) {i : ℕ} {g : Leg} (hg : l[i]? = some g) :
    ownSpeed l i ≤ g.feed := by
  have hm := hl g (List.mem_of_getElem? hg)
  cases i with
  | zero => exact hm.last.trans hm.feed
  | succ i =>
    have h1 : i + 1 < l.length := (List.getElem?_eq_some_iff.1 hg).1
    have h2 : l[i]? = some l[i] := List.getElem?_eq_getElem (by omega)
    simp only [ownSpeed, h2, hg]
    exact min_le_right _ _

theorem ownSpeed_le_last {l : List Leg} {i : ℕ} {g : Leg} (hg : l[i]? = some g) : ownSpeed l (i + 1) ≤ g.last := by
  simp only [ownSpeed, hg]
  cases l[i + 1]? with
  | none => exact le_rfl
  | some c => exact min_le_left _ _

theorem reach_step {l : List Leg} {i : ℕ} {g : Leg} (hg : l[i]? = some g) : reach l (i + 1) = reach l i + g.gain := by
  obtain ⟨h, rfl⟩ := List.getElem?_eq_some_iff.1 hg
  exact reach_succ h

theorem reach_mono {l : List Leg} (hl : ∀ g ∈ l, LegOk g) {i j : ℕ} (h : i ≤ j) : reach l i ≤ reach l j := by
  induction h with
  | refl => exact le_rfl
  | @step j _ ih =>
    by_cases hj : j < l.length
    · rw [reach_succ hj]
      have := (hl _ (List.getElem_mem hj)).gain
      linarith
    · unfold reach at *
      have e : l.take (j + 1) = l.take j := by
        rw [List.take_of_length_le (by omega), List.take_of_length_le (by omega)]
      rwa [e]

theorem le_cornerSpeed {l : List Leg} {i : ℕ} {v : ℝ} (h : ∀ j ≤ l.length, v ^ 2 ≤ ownSpeed l j ^ 2 + |reach l i - reach l j|) :
    v ≤ cornerSpeed l i :=
  le_ciInf fun j => Real.le_sqrt_of_sq_le (h j (by omega))

/-! ## Steps -/

/-- A step whose settings make sense. -/
structure StepOk (limit : Option (PState ℝ) → PState ℝ → List (PState ℝ) → ℝ) (x : Step × List (PState ℝ)) : Prop where
  acc : 0 < x.1.B.pAcc
  speed : x.1.B.pause = none → 0 < x.1.B.speed
  moves : x.1.B.pause = none → x.1.dst ≠ x.1.src
  low : 0 ≤ limit (some x.1.A) x.1.B x.2
  high : x.1.B.pause = none → limit (some x.1.A) x.1.B x.2 ≤ x.1.B.speed

theorem StepOk.leg {x : Step × List (PState ℝ)} (h : StepOk limit x) : LegOk (taskLeg limit x) := by
  unfold taskLeg
  by_cases hc : x.1.B.pause = none ∧ (x.1.dst.sub x.1.src).norm3 ≠ 0
  · rw [if_pos hc]
    exact ⟨mul_nonneg (mul_nonneg zero_le_two h.acc.le) (norm3_nonneg _), h.low, h.high hc.1⟩
  · rw [if_neg hc]
    exact ⟨le_rfl, le_rfl, le_rfl⟩

/-- What a motion does in one step. -/
theorem Spec.Timetable.step {y : Step × List (PState ℝ)} {ys : List (Step × List (PState ℝ))} {v T : ℝ} (hy : StepOk limit y)
    (h : Timetable limit v (y :: ys) T) : ∃ v' t T', Timetable limit v' ys T' ∧ T = t + T' ∧ 0 ≤ v ∧
      v ≤ (taskLeg limit y).feed ∧ 0 ≤ v' ∧ v' ≤ (taskLeg limit y).last ∧ v' ^ 2 ≤ v ^ 2 + (taskLeg limit y).gain ∧
      v ^ 2 ≤ v' ^ 2 + (taskLeg limit y).gain ∧
      ∀ c c', v ≤ c → c ≤ (taskLeg limit y).feed → v' ≤ c' → c' ≤ (taskLeg limit y).last →
        c' ^ 2 ≤ c ^ 2 + (taskLeg limit y).gain → c ^ 2 ≤ c' ^ 2 + (taskLeg limit y).gain → taskTime y.1 c c' ≤ t := by
  generalize hl : y :: ys = l at h
  cases h with
  | done v => cases hl
  | @pause x behind tl p t T hp ht htl =>
    cases hl
    have e : taskLeg limit (x, behind) = ⟨0, 0, 0⟩ := by
      unfold taskLeg
      rw [if_neg (by simp [hp])]
    rw [e]
    refine ⟨0, t, T, htl, rfl, le_rfl, le_rfl, le_rfl, le_rfl, by simp, by simp, ?_⟩
    intro c c' _ _ _ _ _ _
    simp only [taskTime, hp]
    exact ht
  | @travel x behind tl v v' t T hp hne hd hlim htl =>
    cases hl
    have e : taskLeg limit (x, behind) = ⟨2 * x.B.pAcc * (x.dst.sub x.src).norm3, x.B.speed, limit (some x.A) x.B behind⟩ := by
      unfold taskLeg
      rw [if_pos ⟨hp, hne⟩]
    rw [e]
    obtain ⟨f1, f2, f3, f4, f5, f6⟩ := hd.facts hy.acc
    refine ⟨v', t, T, htl, rfl, f1, f2, f3, hlim, f5, f6, ?_⟩
    intro c c' h1 h2 h3 h4 h5 h6
    obtain ⟨ta, tc, td, vp, ph, _⟩ := phases_exist hy.acc (hy.speed hp) (lt_of_le_of_ne (norm3_nonneg _) hne.symm)
      (f1.trans h1) h2 (f3.trans h3) (h4.trans (hy.high hp)) h5 h6
    have := ph.fastest hy.acc (hy.speed hp) (f1.trans h1) h1 h3 hd
    simp only [taskTime, hp, moveLength, if_neg hne]
    exact this
  | @filament x behind tl t T hp h0 hne hd htl =>
    cases hl
    have e : taskLeg limit (x, behind) = ⟨0, 0, 0⟩ := by
      unfold taskLeg
      rw [if_neg (by simp [h0])]
    rw [e]
    refine ⟨0, t, T, htl, rfl, le_rfl, le_rfl, le_rfl, le_rfl, by simp, by simp, ?_⟩
    intro c c' h1 h2 h3 h4 _ _
    obtain rfl := le_antisymm h2 h1
    obtain rfl := le_antisymm h4 h3
    have hd0 : 0 < |x.dst.e - x.src.e| := abs_pos.2 (sub_ne_zero.2 hne)
    have ha : 0 < x.B.pAcc := hy.acc
    obtain ⟨ta, tc, td, vp, ph, _⟩ := phases_exist ha (hy.speed hp) hd0 le_rfl (hy.speed hp).le le_rfl
      (hy.speed hp).le (le_add_of_nonneg_right (by positivity)) (le_add_of_nonneg_right (by positivity))
    have := ph.fastest hy.acc (hy.speed hp) le_rfl le_rfl le_rfl hd
    simp only [taskTime, hp, moveLength, if_pos h0]
    exact this

/-- The time of some steps whose junctions are taken with the speeds of the closed formula. -/
noncomputable def timeOf (limit : Option (PState ℝ) → PState ℝ → List (PState ℝ) → ℝ) (xs : List (Step × List (PState ℝ))) : ℝ :=
  ((xs.zipIdx).map fun x => taskTime x.1.1 (cornerSpeed (xs.map (taskLeg limit)) x.2)
    (cornerSpeed (xs.map (taskLeg limit)) (x.2 + 1))).sum

section
variable {xs : List (Step × List (PState ℝ))}

theorem legs_ok (hok : ∀ x ∈ xs, StepOk limit x) : ∀ g ∈ xs.map (taskLeg limit), LegOk g := by
  intro g hg
  obtain ⟨x, hx, rfl⟩ := List.mem_map.1 hg
  exact (hok x hx).leg

theorem leg_at {pre ys : List (Step × List (PState ℝ))} {y : Step × List (PState ℝ)} (he : xs = pre ++ y :: ys) :
    (xs.map (taskLeg limit))[pre.length]? = some (taskLeg limit y) := by
  rw [he, List.getElem?_map]
  simp

/-- What the steps still to come say about the speed. -/
theorem ahead (hok : ∀ x ∈ xs, StepOk limit x) : ∀ {ys pre : List (Step × List (PState ℝ))} {v T : ℝ}, xs = pre ++ ys →
    Timetable limit v ys T → 0 ≤ v → v ≤ ownSpeed (xs.map (taskLeg limit)) pre.length → ∀ j, pre.length ≤ j → j ≤ xs.length →
    v ^ 2 ≤ ownSpeed (xs.map (taskLeg limit)) j ^ 2 +
      (reach (xs.map (taskLeg limit)) j - reach (xs.map (taskLeg limit)) pre.length) := by
  intro ys
  induction ys with
  | nil =>
    intro pre v T he _ h0 hv j h1 h2
    have : j = pre.length := by
      rw [he] at h2
      simp at h2
      omega
    subst this
    have := pow_le_pow_left₀ h0 hv 2
    linarith
  | cons y ys ih =>
    intro pre v T he h h0 hv j h1 h2
    rcases Nat.eq_or_lt_of_le h1 with rfl | h1
    · have := pow_le_pow_left₀ h0 hv 2
      linarith
    have hy := hok y (by simp [he])
    obtain ⟨v', t, T', g1, g2, g3, g4, g5, g6, g7, g8, _⟩ := h.step hy
    have hlk := leg_at (limit := limit) he
    have he' : xs = (pre ++ [y]) ++ ys := by simp [he]
    have hv' : v' ≤ ownSpeed (xs.map (taskLeg limit)) (pre ++ [y]).length := by
      rw [List.length_append, List.length_singleton]
      cases ys with
      | nil =>
        have : (xs.map (taskLeg limit))[pre.length + 1]? = none := by simp [he]
        simp only [ownSpeed, hlk, this]
        exact g6
      | cons z zs =>
        have hz := leg_at (limit := limit) he'
        rw [List.length_append, List.length_singleton] at hz
        simp only [ownSpeed, hlk, hz]
        obtain ⟨_, _, _, _, _, _, k4, _⟩ := g1.step (hok z (by simp [he]))
        exact le_min g6 k4
    have := ih he' g1 g5 hv' j (by simp; omega) h2
    rw [List.length_append, List.length_singleton, reach_step hlk] at this
    linarith

/-- No motion does the steps faster than the closed formula says. -/
theorem timeOf_least (hok : ∀ x ∈ xs, StepOk limit x) : ∀ {ys pre : List (Step × List (PState ℝ))} {v T : ℝ}, xs = pre ++ ys →
    Timetable limit v ys T → 0 ≤ v → (∀ j, j ≤ pre.length → v ^ 2 ≤ ownSpeed (xs.map (taskLeg limit)) j ^ 2 +
      (reach (xs.map (taskLeg limit)) pre.length - reach (xs.map (taskLeg limit)) j)) →
    ((ys.zipIdx pre.length).map fun x => taskTime x.1.1 (cornerSpeed (xs.map (taskLeg limit)) x.2)
      (cornerSpeed (xs.map (taskLeg limit)) (x.2 + 1))).sum ≤ T := by
  have hl := legs_ok hok
  have top : ∀ {ys pre : List (Step × List (PState ℝ))} {v T : ℝ}, xs = pre ++ ys → Timetable limit v ys T → 0 ≤ v →
      (∀ j, j ≤ pre.length → v ^ 2 ≤ ownSpeed (xs.map (taskLeg limit)) j ^ 2 +
        (reach (xs.map (taskLeg limit)) pre.length - reach (xs.map (taskLeg limit)) j)) →
      v ≤ cornerSpeed (xs.map (taskLeg limit)) pre.length := by
    intro ys pre v T he h h0 hj
    refine le_cornerSpeed fun j hj' => ?_
    rw [List.length_map] at hj'
    rcases Nat.le_total j pre.length with h1 | h1
    · have := hj j h1
      rwa [abs_of_nonneg (sub_nonneg.2 (reach_mono hl h1))]
    · have h2 : v ≤ ownSpeed (xs.map (taskLeg limit)) pre.length := by
        have := hj pre.length le_rfl
        rw [_root_.sub_self, _root_.add_zero] at this
        exact le_of_sq_le_sq this (ownSpeed_nonneg hl _)
      have := ahead hok he h h0 h2 j h1 hj'
      rwa [abs_sub_comm, abs_of_nonneg (sub_nonneg.2 (reach_mono hl h1))]
  intro ys
  induction ys with
  | nil =>
    intro pre v T _ h _ _
    cases h
    simp
  | cons y ys ih =>
    intro pre v T he h h0 hj
    have hy := hok y (by simp [he])
    obtain ⟨v', t, T', g1, rfl, g3, g4, g5, g6, g7, g8, g9⟩ := h.step hy
    have hlk := leg_at (limit := limit) he
    have he' : xs = (pre ++ [y]) ++ ys := by simp [he]
    have hlen : (pre ++ [y]).length = pre.length + 1 := by simp
    have hpl : pre.length + 1 ≤ (xs.map (taskLeg limit)).length := by simp [he]
    have hj' : ∀ j, j ≤ (pre ++ [y]).length → v' ^ 2 ≤ ownSpeed (xs.map (taskLeg limit)) j ^ 2 +
        (reach (xs.map (taskLeg limit)) (pre ++ [y]).length - reach (xs.map (taskLeg limit)) j) := by
      intro j h1
      rw [hlen] at h1 ⊢
      rcases Nat.eq_or_lt_of_le h1 with rfl | h1
      · rw [_root_.sub_self, _root_.add_zero]
        refine pow_le_pow_left₀ g5 ?_ 2
        cases ys with
        | nil =>
          have : (xs.map (taskLeg limit))[pre.length + 1]? = none := by simp [he]
          simp only [ownSpeed, hlk, this]
          exact g6
        | cons z zs =>
          have hz := leg_at (limit := limit) he'
          rw [hlen] at hz
          simp only [ownSpeed, hlk, hz]
          obtain ⟨_, _, _, _, _, _, k4, _⟩ := g1.step (hok z (by simp [he]))
          exact le_min g6 k4
      · have := hj j (by omega)
        rw [reach_step hlk]
        linarith
    have c1 := top he h h0 hj
    have c2 := top he' g1 g5 hj'
    have hi := ih he' g1 g5 hj'
    rw [hlen] at c2 hi
    have hup := cornerSpeed_step (l := xs.map (taskLeg limit)) pre.length (pre.length + 1)
    have hdn := cornerSpeed_step (l := xs.map (taskLeg limit)) (pre.length + 1) pre.length
    rw [reach_step hlk, add_sub_cancel_left, abs_of_nonneg hy.leg.gain] at hup
    rw [reach_step hlk, sub_add_cancel_left, abs_neg, abs_of_nonneg hy.leg.gain] at hdn
    have := g9 _ _ c1 ((cornerSpeed_le_own (by omega) (ownSpeed_nonneg hl _)).trans (ownSpeed_le_feed hl hlk)) c2
      ((cornerSpeed_le_own hpl (ownSpeed_nonneg hl _)).trans (ownSpeed_le_last hlk)) hup hdn
    rw [List.zipIdx_cons, List.map_cons, List.sum_cons]
    exact add_le_add this hi

/-- A motion that takes as long as the closed formula says. -/
theorem timeOf_attained (hok : ∀ x ∈ xs, StepOk limit x) : ∀ {ys pre : List (Step × List (PState ℝ))}, xs = pre ++ ys →
    Timetable limit (cornerSpeed (xs.map (taskLeg limit)) pre.length) ys
      (((ys.zipIdx pre.length).map fun x => taskTime x.1.1 (cornerSpeed (xs.map (taskLeg limit)) x.2)
        (cornerSpeed (xs.map (taskLeg limit)) (x.2 + 1))).sum) := by
  have hl := legs_ok hok
  intro ys
  induction ys with
  | nil =>
    intro pre _
    simp only [List.zipIdx_nil, List.map_nil, List.sum_nil]
    exact .done _
  | cons y ys ih =>
    intro pre he
    have hy := hok y (by simp [he])
    have hlk := leg_at (limit := limit) he
    have he' : xs = (pre ++ [y]) ++ ys := by simp [he]
    have hlen : (pre ++ [y]).length = pre.length + 1 := by simp
    have hpl : pre.length + 1 ≤ (xs.map (taskLeg limit)).length := by simp [he]
    have hi := ih he'
    rw [hlen] at hi
    have hup := cornerSpeed_step (l := xs.map (taskLeg limit)) pre.length (pre.length + 1)
    have hdn := cornerSpeed_step (l := xs.map (taskLeg limit)) (pre.length + 1) pre.length
    rw [reach_step hlk, add_sub_cancel_left, abs_of_nonneg hy.leg.gain] at hup
    rw [reach_step hlk, sub_add_cancel_left, abs_neg, abs_of_nonneg hy.leg.gain] at hdn
    have hf := (cornerSpeed_le_own (by omega) (ownSpeed_nonneg hl _)).trans (ownSpeed_le_feed hl hlk)
    have hf' := (cornerSpeed_le_own hpl (ownSpeed_nonneg hl _)).trans (ownSpeed_le_last hlk)
    have hc := cornerSpeed_nonneg (xs.map (taskLeg limit)) pre.length
    have hc' := cornerSpeed_nonneg (xs.map (taskLeg limit)) (pre.length + 1)
    obtain ⟨x, behind⟩ := y
    rw [List.zipIdx_cons, List.map_cons, List.sum_cons]
    simp only at hi ⊢
    generalize cornerSpeed (xs.map (taskLeg limit)) pre.length = c at *
    generalize cornerSpeed (xs.map (taskLeg limit)) (pre.length + 1) = c' at *
    cases hp : x.B.pause with
    | some p =>
      have e : taskLeg limit (x, behind) = ⟨0, 0, 0⟩ := by
        unfold taskLeg
        rw [if_neg (by simp [hp])]
      rw [e] at hf hf'
      obtain rfl := le_antisymm hf hc
      obtain rfl := le_antisymm hf' hc'
      simp only [taskTime, hp]
      exact .pause hp le_rfl hi
    | none =>
      have ha : 0 < x.B.pAcc := hy.acc
      by_cases h0 : (x.dst.sub x.src).norm3 = 0
      · have e : taskLeg limit (x, behind) = ⟨0, 0, 0⟩ := by
          unfold taskLeg
          rw [if_neg (by simp [h0])]
        rw [e] at hf hf'
        obtain rfl := le_antisymm hf hc
        obtain rfl := le_antisymm hf' hc'
        have hne : x.dst.e ≠ x.src.e := by
          intro hE
          obtain ⟨hx, hyy, hz⟩ := norm3_eq_zero.1 h0
          exact hy.moves hp (by
            simp only [Vec4.sub] at hx hyy hz
            ext
            · exact sub_eq_zero.1 hx
            · exact sub_eq_zero.1 hyy
            · exact sub_eq_zero.1 hz
            · exact hE)
        have hd0 : 0 < |x.dst.e - x.src.e| := abs_pos.2 (sub_ne_zero.2 hne)
        obtain ⟨ta, tc, td, vp, ph, hle⟩ := phases_exist ha (hy.speed hp) hd0 le_rfl (hy.speed hp).le le_rfl
          (hy.speed hp).le (le_add_of_nonneg_right (by positivity)) (le_add_of_nonneg_right (by positivity))
        simp only [taskTime, hp, moveLength, if_pos h0]
        exact .filament hp h0 hne (ph.drive ha le_rfl le_rfl hle) hi
      · have e : taskLeg limit (x, behind) =
            ⟨2 * x.B.pAcc * (x.dst.sub x.src).norm3, x.B.speed, limit (some x.A) x.B behind⟩ := by
          unfold taskLeg
          rw [if_pos ⟨hp, h0⟩]
        rw [e] at hf hf' hup hdn
        simp only at hf hf' hup hdn
        obtain ⟨ta, tc, td, vp, ph, hle⟩ := phases_exist ha (hy.speed hp) (lt_of_le_of_ne (norm3_nonneg _) (Ne.symm h0))
          hc hf hc' (hf'.trans (hy.high hp)) hup hdn
        simp only [taskTime, hp, moveLength, if_neg h0]
        exact .travel hp h0 (ph.drive ha hc hc' hle) hf' hi

/-- The closed formula gives the shortest time of all motions that do the steps from rest. -/
theorem timeOf_isLeast (hok : ∀ x ∈ xs, StepOk limit x) : IsLeast {T | Timetable limit 0 xs T} (timeOf limit xs) := by
  have hl := legs_ok hok
  constructor
  · have := timeOf_attained hok (ys := xs) (pre := []) rfl
    have h0 : cornerSpeed (xs.map (taskLeg limit)) ([] : List (Step × List (PState ℝ))).length = 0 :=
      cornerSpeed_rest (Nat.zero_le _) rfl
    rw [h0] at this
    exact this
  · intro T hT
    refine timeOf_least hok (ys := xs) (pre := []) rfl hT le_rfl ?_
    intro j hj
    have : j = 0 := by simpa using hj
    subst this
    simp [ownSpeed]

end

end PyGCD
