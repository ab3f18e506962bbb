import Verif.Props.UnusualCuts
import Verif.Props.Doubles
import Verif.Props.Runnable
import Verif.Spec.Estimate

/-!
# Property C125: print times against lengths divided by feedrates
-/

set_option linter.unusedSectionVars false
set_option linter.unusedSimpArgs false

namespace PyGCD
open Vec4 Spec

variable {fw : Firmware} {states : List (PState ℝ)} {bs : List (Block ℝ)}

/-- A drive is not faster than its feedrate. -/
theorem Spec.Drive.naive {a vT d v v' T : ℝ} (h : Drive a vT d v v' T) : d ≤ vT * T := by
  have := h.bound (m := 0) (n := T) le_rfl h.1 le_rfl
  simpa using this

/-- A drive that begins at rest is slower than its feedrate. -/
theorem Spec.Drive.naive_rest {a vT d v' T : ℝ} (h : Drive a vT d 0 v' T) (ha : 0 < a) (hv : 0 < vT) (hd : 0 < d) :
    d < vT * T := by
  have hT : 0 < T := by
    rcases h.1.eq_or_lt with e | e
    · have := h.naive
      rw [← e, MulZeroClass.mul_zero] at this
      linarith
    · exact e
  have hm : 0 < min T (vT / a) := lt_min hT (div_pos hv ha)
  have h1 := h.bound (m := min T (vT / a)) (n := T) hm.le (min_le_left _ _) le_rfl
  have h2 : a * min T (vT / a) ≤ vT := by
    rw [mul_comm, ← le_div_iff₀ ha]
    exact min_le_right _ _
  set m := min T (vT / a)
  have h3 : a * m ^ 2 / 2 ≤ vT * m / 2 := by
    have := mul_le_mul_of_nonneg_right h2 hm.le
    linarith [this, show a * m ^ 2 = a * m * m by ring]
  have h4 := mul_pos hv hm
  simp only [MulZeroClass.zero_mul, _root_.sub_self, MulZeroClass.mul_zero, _root_.zero_add] at h1
  nlinarith

theorem moveLength_nonneg (p q : Vec4 ℝ) : 0 ≤ moveLength p q := by
  unfold moveLength
  split
  · exact abs_nonneg _
  · exact norm3_nonneg _

/-- A block is not faster than its feedrate. -/
theorem bareTime_le {b : Block ℝ} {x : Step × List (PState ℝ)} (hg : Good b) (ha : Does fw b x) : bareTime x.1 ≤ b.t1 - b.t0 := by
  obtain ⟨⟨a1, a2⟩, _⟩ := ha
  rcases hg with ⟨A', u, s0, s1, hm⟩ | ⟨A', q, hd⟩
  · have hA := hm.hA
    rw [a1] at hA
    cases hA
    have hp := hm.hpause
    have hv := hm.hs
    have hdr := hm.drive.naive
    rw [a2] at hp hv hdr
    simp only at hp hv hdr
    unfold bareTime
    simp only [hp]
    rw [div_le_iff₀ hv]
    linarith
  · have hp := hd.hpause
    rw [a2] at hp
    simp only at hp
    obtain ⟨t, ht⟩ := hd.hseg
    unfold bareTime
    simp only [hp, Block.t0, Block.t1, ht, List.head?_cons, List.getLast?_singleton, Option.map_some, Option.getD_some]
    linarith

theorem bareTimes_le {ts : List (Step × List (PState ℝ))} (h : List.Forall₂ (Does fw) bs ts) (hg : ∀ b ∈ bs, Good b) :
    (ts.map fun x => bareTime x.1).sum ≤ (bs.map fun b => b.t1 - b.t0).sum := by
  induction h with
  | nil => exact le_rfl
  | cons h1 _ ih =>
    rw [List.map_cons, List.map_cons, List.sum_cons, List.sum_cons]
    exact add_le_add (bareTime_le (hg _ (by simp)) h1) (ih fun b hb => hg b (by simp [hb]))

theorem estimate_tasks : estimate states = ((tasks none none states).map fun x => bareTime x.1).sum := by
  rw [estimate, ← tasks_fst, List.map_map]
  rfl

/-- **C125, at least.** A print takes at least its pauses and its lengths divided by the feedrates. -/
theorem c125_at_least (hsens : Sensible states) (h : plan fw states = .ok bs) {t : ℝ} (ht : EndTime (Spec.path bs) t) :
    estimate states ≤ t := by
  obtain ⟨bs', h1, h2, h3, _⟩ := plan_anchored_opt hsens h
  rw [path_anch h1] at ht
  rw [← h2.endTime_sum ht, estimate_tasks]
  exact bareTimes_le h3 h2.good

/-- **C125, longer.** If the first move travels, the print takes longer. -/
theorem c125_longer (hsens : Sensible states) (h : plan fw states = .ok bs) {t : ℝ} (ht : EndTime (Spec.path bs) t)
    (hx : ∀ x ∈ (executed none none states).head?, (x.dst.sub x.src).norm3 ≠ 0) : estimate states < t := by
  obtain ⟨bs', h1, h2, h3, _⟩ := plan_anchored_opt hsens h
  rw [path_anch h1] at ht
  rw [← h2.endTime_sum ht, estimate_tasks]
  rw [← tasks_fst] at hx
  generalize tasks none none states = ts at h3 hx
  cases h3 with
  | nil =>
    obtain ⟨s, hs, _⟩ := ht
    cases hs
  | @cons b x bs₁ ts h3 h4 =>
    rw [List.map_cons, List.map_cons, List.sum_cons, List.sum_cons]
    refine add_lt_add_of_lt_of_le ?_ (bareTimes_le h4 fun c hc => h2.good c (by simp [hc]))
    obtain ⟨x, behind⟩ := x
    have hn : (x.dst.sub x.src).norm3 ≠ 0 := hx x rfl
    obtain ⟨_, f2, f3⟩ := h2.first b rfl
    have hp : x.B.pause = none := by
      have := h3.1.2
      rw [this] at f3
      exact f3
    obtain ⟨hB, u, s0, s1, hm, _, e1, _, _, e2⟩ := travel_does (h2.good b (by simp)) h3 hp hn
    have hdr := hm.drive
    have ha := hm.ha
    have hv := hm.hs
    rw [← e1, f2] at hdr
    rw [hB] at hdr ha hv
    simp only at hdr ha hv
    have hl : 0 < moveLength x.src x.dst := by
      unfold moveLength
      rw [if_neg hn]
      exact lt_of_le_of_ne (norm3_nonneg _) (Ne.symm hn)
    unfold bareTime
    simp only [hp]
    rw [div_lt_iff₀ hv, mul_comm]
    exact hdr.naive_rest ha hv hl

theorem executed_speed : ∀ (rest : List (PState ℝ)) (here : Option (Vec4 ℝ)) (A : Option (PState ℝ)),
    ∀ x ∈ executed here A rest, x.B ∈ rest ∧ (x.B.pause = none → 0 < x.B.speed) := by
  intro rest
  induction rest with
  | nil => intro here A x hx; rw [executed] at hx; cases hx
  | cons s rest ih =>
    intro here A x hx
    have deep : ∀ here', x ∈ executed here' (some s) rest → x.B ∈ s :: rest ∧ (x.B.pause = none → 0 < x.B.speed) :=
      fun here' h => ⟨by simp [(ih here' _ x h).1], (ih here' _ x h).2⟩
    cases A with
    | none => rw [executed] at hx; exact deep _ hx
    | some A =>
      rw [executed] at hx
      by_cases hp : s.pause ≠ none
      · simp only [if_pos hp] at hx
        rcases List.mem_cons.1 hx with rfl | hx
        · exact ⟨by simp, fun h => absurd h hp⟩
        · exact deep _ hx
      · simp only [if_neg hp] at hx
        by_cases hr : Executes A s
        · simp only [if_pos hr] at hx
          rcases List.mem_cons.1 hx with rfl | hx
          · exact ⟨by simp, fun _ => hr.2.2⟩
          · exact deep _ hx
        · simp only [if_neg hr] at hx
          exact deep _ hx

theorem stepTime_le {x : Step} (ha : 0 < x.B.pAcc) (hv : x.B.pause = none → 0 < x.B.speed) :
    stepTime x ≤ bareTime x + speedUpTime x := by
  unfold stepTime bareTime speedUpTime
  cases hp : x.B.pause with
  | some p => simp only; linarith
  | none => exact moveTime_le ha (hv hp) (moveLength_nonneg _ _)

theorem stepTime_long {x : Step} (ha : 0 < x.B.pAcc) (hv : x.B.pause = none → 0 < x.B.speed) (hl : LongEnough x) :
    stepTime x = bareTime x + speedUpTime x := by
  unfold stepTime bareTime speedUpTime
  cases hp : x.B.pause with
  | some p => simp only; linarith
  | none =>
    simp only
    rw [c65_rest_to_rest ha (hv hp) (moveLength_nonneg _ _), if_pos (hl hp)]

theorem sum_le_both {α : Type} {f g h : α → ℝ} : ∀ {l : List α}, (∀ x ∈ l, f x ≤ g x + h x) →
    (l.map f).sum ≤ (l.map g).sum + (l.map h).sum
  | [], _ => by simp
  | x :: l, hx => by
    rw [List.map_cons, List.map_cons, List.map_cons, List.sum_cons, List.sum_cons, List.sum_cons]
    linarith [hx x (by simp), sum_le_both (l := l) fun y hy => hx y (by simp [hy])]

theorem sum_eq_both {α : Type} {f g h : α → ℝ} : ∀ {l : List α}, (∀ x ∈ l, f x = g x + h x) →
    (l.map f).sum = (l.map g).sum + (l.map h).sum
  | [], _ => by simp
  | x :: l, hx => by
    rw [List.map_cons, List.map_cons, List.map_cons, List.sum_cons, List.sum_cons, List.sum_cons]
    linarith [hx x (by simp), sum_eq_both (l := l) fun y hy => hx y (by simp [hy])]

theorem started_of_endTime (hsens : Sensible states) (h : plan fw states = .ok bs) {t : ℝ} (ht : EndTime (Spec.path bs) t) :
    Started states := by
  by_contra hc
  rw [(plan_empty_iff hsens h).2 hc] at ht
  obtain ⟨s, hs, _⟩ := ht
  cases hs

/-- **C125, stopping.** No firmware is slower than a machine that stops after every step. -/
theorem c125_stopping (hsens : Sensible states) (h : plan fw states = .ok bs) {t : ℝ} (ht : EndTime (Spec.path bs) t) :
    t ≤ ((executed none none states).map stepTime).sum := by
  obtain ⟨bs₀, t₀, h0, ht0⟩ := exists_endTime_sensible .default hsens ((c86_plannable fw hsens).1 ⟨bs, h⟩)
    (started_of_endTime hsens h ht)
  rw [← c87_print_time hsens h0 ht0]
  exact c118_slowest hsens h0 h ht0 ht

/-- **C125, at most.** A print takes at most one ramp per move longer than its pauses and its lengths divided by the
feedrates. -/
theorem c125_at_most (hsens : Sensible states) (h : plan fw states = .ok bs) {t : ℝ} (ht : EndTime (Spec.path bs) t) :
    t ≤ estimate states + speedUpTimes states := by
  refine (c125_stopping hsens h ht).trans ?_
  refine sum_le_both fun x hx => ?_
  obtain ⟨h1, h2⟩ := executed_speed _ _ _ x hx
  exact stepTime_le (hsens.acc _ h1) h2

/-- **C125, sharp.** With unknown firmware, if all moves are long enough to reach their feedrate, this is the print time. -/
theorem c125_sharp (hsens : Sensible states) (h : plan .default states = .ok bs) {t : ℝ} (ht : EndTime (Spec.path bs) t)
    (hl : ∀ x ∈ executed none none states, LongEnough x) : t = estimate states + speedUpTimes states := by
  rw [c87_print_time hsens h ht]
  refine sum_eq_both fun x hx => ?_
  obtain ⟨h1, h2⟩ := executed_speed _ _ _ x hx
  exact stepTime_long (hsens.acc _ h1) h2 (hl x hx)

/-! ## An example -/

theorem Demo.lossy_estimate : estimate Demo.lossy = 4 ∧ speedUpTimes Demo.lossy = 0.2 := by
  have hs : √(100 : ℝ) = 10 := by rw [show (100 : ℝ) = 10 ^ 2 by norm_num]; exact Real.sqrt_sq (by norm_num)
  have e1 : moveLength (⟨0, 0, 0, 0⟩ : Vec4 ℝ) ⟨10, 0, 0, 1⟩ = 10 := by
    norm_num [moveLength, Vec4.sub, Vec4.norm3, PyMath.sqrt, hs]
  have e2 : moveLength (⟨10, 0, 0, 1⟩ : Vec4 ℝ) ⟨20, 0, 0, 1⟩ = 10 := by
    norm_num [moveLength, Vec4.sub, Vec4.norm3, PyMath.sqrt, hs]
  unfold estimate speedUpTimes
  rw [Demo.lossy_executed]
  simp only [List.map_cons, List.map_nil, List.sum_cons, List.sum_nil, bareTime, speedUpTime, Demo.s1, Demo.afterZero,
    Demo.moveAndPause, e1, e2]
  norm_num

/-- Two moves of 10 mm at 10 mm/s and a pause of two seconds: every firmware needs between 4 and 4.2 seconds. -/
example (fw : Firmware) : ∃ bs t, plan fw Demo.lossy = .ok bs ∧ EndTime (Spec.path bs) t ∧ 4 < t ∧ t ≤ 4.2 := by
  obtain ⟨bs, t, h, ht⟩ := exists_endTime_sensible fw Demo.lossy_sensible Demo.lossy_follow Demo.lossy_started
  have h1 := c125_longer Demo.lossy_sensible h ht (by
    rw [Demo.lossy_executed]
    intro x hx
    cases hx
    intro h0
    have := (norm3_eq_zero.1 h0).1
    norm_num [Vec4.sub] at this)
  have h2 := c125_at_most Demo.lossy_sensible h ht
  rw [Demo.lossy_estimate.1] at h1 h2
  rw [Demo.lossy_estimate.2] at h2
  exact ⟨bs, t, h, ht, h1, by linarith⟩

/-- With unknown firmware it needs exactly 4.2 seconds. -/
example {bs : List (Block ℝ)} {t : ℝ} (h : plan .default Demo.lossy = .ok bs) (ht : EndTime (Spec.path bs) t) : t = 4.2 := by
  have hs : √(100 : ℝ) = 10 := by rw [show (100 : ℝ) = 10 ^ 2 by norm_num]; exact Real.sqrt_sq (by norm_num)
  have e1 : moveLength (⟨0, 0, 0, 0⟩ : Vec4 ℝ) ⟨10, 0, 0, 1⟩ = 10 := by
    norm_num [moveLength, Vec4.sub, Vec4.norm3, PyMath.sqrt, hs]
  have e2 : moveLength (⟨10, 0, 0, 1⟩ : Vec4 ℝ) ⟨20, 0, 0, 1⟩ = 10 := by
    norm_num [moveLength, Vec4.sub, Vec4.norm3, PyMath.sqrt, hs]
  rw [c125_sharp Demo.lossy_sensible h ht, Demo.lossy_estimate.1, Demo.lossy_estimate.2]
  · norm_num
  · rw [Demo.lossy_executed]
    intro x hx hp
    simp only [List.mem_cons, List.not_mem_nil, or_false] at hx
    rcases hx with rfl | rfl | rfl
    · norm_num [e1, Demo.s1]
    · norm_num [e2, Demo.afterZero]
    · simp [Demo.moveAndPause] at hp

end PyGCD
