import Verif.Proofs.RestMotion

/-!
# Property C98: with default junction handling the whole motion is given by closed formulas
-/

set_option linter.unusedSectionVars false

namespace PyGCD
open PyGCD.Spec Vec4

variable {states : List (PState ℝ)} {bs : List (Block ℝ)}

/-- **C98.** With default junction handling every answer of `get_values`, whatever was asked before, is the position and
the velocity of the closed formulas, in the asked unit. -/
theorem c98_answers (hreg : Regular states) (h : plan .default states = .ok bs) {own : String} {u : Option String}
    {f : ℝ} (hf : InUnit (u.getD own) f) {last : Option Nat} {t : ℝ} {v p : Vec4 ℝ}
    (hq : (getValues (unpack bs) own u t last).1 = .ok (v, p)) :
    ∃ p₀ v₀, restMotion (active none states) t = some (p₀, v₀) ∧ p = p₀.mul f ∧ v = v₀.mul f := by
  obtain ⟨s, i, g, w, q, h1, h2, h3, h4, h5, h6, _⟩ := getValues_inv hq
  have hg : g = f := by
    rw [hf.scaling] at h2
    cases h2
    rfl
  subst hg
  obtain ⟨m, hc⟩ := findSegment_sound h1
  obtain ⟨_, hch, hfst, hact, _⟩ := plan_ok hreg h
  cases bs with
  | nil => simp [unpack] at m
  | cons b bs =>
    obtain ⟨_, r⟩ := rest_path (plan_rest hreg h (fun _ _ _ => rfl)) hch b rfl s (List.mem_of_getElem? m)
    obtain ⟨p₀, v₀, r1, r2, r3⟩ := r t hc
    rw [h3] at r1
    rw [h4] at r2
    cases r1
    cases r2
    rw [(hfst b rfl).1, sub_zero, hact] at r3
    exact ⟨_, _, r3, h6, h5⟩

/-- **C98.** At every time from the start to before the end, `get_values` reports what the closed formulas say. -/
theorem c98_motion (hreg : Regular states) (h : plan .default states = .ok bs) {own : String} {u : Option String}
    {f : ℝ} (hf : InUnit (u.getD own) f) (last : Option Nat) {T : ℝ} (hT : EndTime (Spec.path bs) T) {t : ℝ}
    (h0 : 0 ≤ t) (h1 : t < T) :
    ∃ p v, restMotion (active none states) t = some (p, v) ∧
      (getValues (unpack bs) own u t last).1 = .ok (v.mul f, p.mul f) := by
  obtain ⟨s, _, v, p, _, _, _, h5⟩ := (c30_answers hreg h hT hf last [] t).1 h0 h1
  have h6 : (getValues (unpack bs) own u t last).1 = .ok (v.mul f, p.mul f) := h5
  obtain ⟨p₀, v₀, r1, r2, r3⟩ := c98_answers hreg h hf h6
  exact ⟨p₀, v₀, r1, by rw [h6, r2, r3]⟩

/-- A program to which **C98** applies: half a second after its start it is 4.5 mm along the first move, at full
speed. -/
theorem c98_hypotheses_satisfiable : Regular Demo.prog ∧ ∃ bs, plan .default Demo.prog = .ok bs ∧
    (getValues (unpack bs) "SImm" none 0.5 none).1 = .ok (⟨10, 0, 0, 1⟩, ⟨4.5, 0, 0, 0.45⟩) := by
  have n1 : (Demo.s1.position.sub Demo.s0.position).norm3 = 10 := by
    simp only [Demo.s1, Demo.s0, Vec4.sub, Vec4.norm3]
    rw [show ((10 : ℝ) - 0) * (10 - 0) + (0 - 0) * (0 - 0) + (0 - 0) * (0 - 0) = 10 ^ 2 by norm_num]
    exact Real.sqrt_sq (by norm_num)
  have hL : moveLength Demo.s0.position Demo.s1.position = 10 := by
    rw [moveLength, if_neg (by rw [n1]; norm_num), n1]
  have q1 : restTime (some Demo.s0, Demo.s1) = 1.1 := by
    simp only [restTime, show Demo.s1.pause = none from rfl]
    rw [hL, c65_rest_to_rest (by norm_num [Demo.s1]) (by norm_num [Demo.s1]) (by norm_num)]
    norm_num [Demo.s1]
  have hw : min (10 : ℝ) √(100 * 10) = 10 := min_eq_left (Real.le_sqrt_of_sq_le (by norm_num))
  obtain ⟨bs, _, _, h, _, hT, _⟩ := c64_example .default
  refine ⟨Demo.regular, bs, h, ?_⟩
  have hpt : restPoint (some Demo.s0, Demo.s1) 0.5 = (⟨4.5, 0, 0, 0.45⟩, ⟨10, 0, 0, 1⟩) := by
    simp only [restPoint, show Demo.s1.pause = none from rfl, hL]
    have e1 : restWay Demo.s1.pAcc Demo.s1.speed 10 0.5 = 4.5 := by
      show restWay 100 10 10 0.5 = 4.5
      rw [restWay_cruise (by norm_num) (by norm_num) (by norm_num) (by rw [hw]; norm_num) (by rw [hw]; norm_num), hw]
      norm_num
    have e2 : restSpeed Demo.s1.pAcc Demo.s1.speed 10 0.5 = 10 := by
      show restSpeed 100 10 10 0.5 = 10
      rw [restSpeed_cruise (by norm_num) (by norm_num) (by norm_num) (by rw [hw]; norm_num) (by rw [hw]; norm_num), hw]
    rw [e1, e2]
    simp only [Demo.s0, Demo.s1, Vec4.add, Vec4.mul, Vec4.sub]
    norm_num
  have hm : restMotion (active none Demo.prog) 0.5 = some (⟨4.5, 0, 0, 0.45⟩, ⟨10, 0, 0, 1⟩) := by
    rw [Demo.active_prog, restMotion, q1, if_pos (by norm_num), hpt]
  obtain ⟨p, v, r1, r2⟩ := c98_motion Demo.regular h (own := "SImm") (u := none) (f := 1) (Or.inr (Or.inl ⟨rfl, rfl⟩)) none
    hT (t := 0.5) (by norm_num) (by norm_num)
  rw [hm] at r1
  cases r1
  rw [r2]
  simp [Vec4.mul]

end PyGCD
