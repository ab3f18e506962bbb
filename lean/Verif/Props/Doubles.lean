import Verif.Proofs.DoubleRun
import Verif.Props.Setup

/-!
# Double precision (C83–C85)

The model with `K := Dbl`, where every operation rounds to 53 bits, against the model with `K := ℝ`.
-/

set_option linter.unusedSectionVars false
set_option linter.unusedSimpArgs false

namespace PyGCD
open PyGCD.Spec Vec4

/-! ## C83 -/

/-- C83 for one firmware: also with rounding, planning an executable program of ordinary size does not raise. -/
def C83For (fw : Firmware) : Prop :=
  ∀ states : List (PState Dbl), (∀ s ∈ states, s.Representable) → Regular (states.map PState.real) →
    Moderate (states.map PState.real) → ∃ bs, plan fw states = .ok bs

/-- **C83, in full** (refuted): the same for every firmware. -/
def C83Full : Prop := ∀ fw : Firmware, C83For fw

/-- The same programs can be planned without rounding, whatever the firmware. -/
theorem c83_exact (fw : Firmware) {states : List (PState Dbl)} (hreg : Regular (states.map PState.real)) :
    ∃ bs, plan fw (states.map PState.real) = .ok bs := by
  obtain ⟨_, bs, _, _, h, _⟩ := c26_correction_total fw hreg
  exact ⟨bs, h⟩

/-- **C83** for default junction handling: planning never raises. Missing: the other firmwares, for which it is false
(`c83_exactly_default`), programs that are not `Moderate`, and the exponent range of the doubles. -/
theorem c83_default_partial {states : List (PState Dbl)} (hreg : Regular (states.map PState.real))
    (hmod : Moderate (states.map PState.real)) : ∃ bs, plan .default states = .ok bs := by
  obtain ⟨bs, h, _⟩ := plan_dbl hreg hmod
  exact ⟨bs, h⟩

/-- A state with integer coordinates, moving with 50 mm/s. -/
def Demo.dbl (x y e : Dbl) : PState Dbl := ⟨⟨x, y, 0, e⟩, 50, 1000, 10, none, none⟩

/-- Two moves in the same direction. -/
def Demo.straight : List (PState Dbl) := [Demo.dbl 0 0 0, Demo.dbl 2 1 0, Demo.dbl 4 2 0]

/-- The same in real numbers. -/
noncomputable def Demo.straightReal : List (PState ℝ) :=
  [⟨⟨0, 0, 0, 0⟩, 50, 1000, 10, none, none⟩, ⟨⟨2, 1, 0, 0⟩, 50, 1000, 10, none, none⟩,
    ⟨⟨4, 2, 0, 0⟩, 50, 1000, 10, none, none⟩]

theorem Dbl.r_of {a : Dbl} {q : ℚ} (h : a.val = q) : a.r = (q : ℝ) := by
  unfold Dbl.r
  rw [h]

theorem Demo.straight_real : Demo.straight.map PState.real = Demo.straightReal := by
  have h0 : (0 : Dbl).r = 0 := Dbl.r_zero
  have h1 : (1 : Dbl).r = 1 := by rw [Dbl.r_of (q := 1) (by decide +kernel)]; norm_num
  have h2 : (2 : Dbl).r = 2 := Dbl.r_two
  have h4 : (4 : Dbl).r = 4 := by rw [Dbl.r_of (q := 4) (by decide +kernel)]; norm_num
  have h10 : (10 : Dbl).r = 10 := by rw [Dbl.r_of (q := 10) (by decide +kernel)]; norm_num
  have h50 : (50 : Dbl).r = 50 := by rw [Dbl.r_of (q := 50) (by decide +kernel)]; norm_num
  have h1000 : (1000 : Dbl).r = 1000 := by rw [Dbl.r_of (q := 1000) (by decide +kernel)]; norm_num
  simp only [Demo.straight, Demo.straightReal, Demo.dbl, List.map_cons, List.map_nil, PState.real, Vec4.real,
    Option.map_none, h0, h1, h2, h4, h10, h50, h1000]

theorem Demo.straight_regular : Regular Demo.straightReal := by
  refine regular_of_no_pause fun s hs => ?_
  simp only [Demo.straightReal, List.mem_cons, List.not_mem_nil, or_false] at hs
  rcases hs with rfl | rfl | rfl <;> norm_num

/-- A move takes at most its length at full speed plus one ramp. -/
theorem moveTime_le {a v d : ℝ} (ha : 0 < a) (hv : 0 < v) (hd : 0 ≤ d) : moveTime a v d 0 0 ≤ d / v + v / a := by
  rw [c65_rest_to_rest ha hv hd]
  split
  · exact le_rfl
  · have h : √(d / a) ^ 2 = d / v * (v / a) := by
      rw [Real.sq_sqrt (by positivity)]
      field_simp
    have h1 : 0 ≤ d / v := by positivity
    have h2 : 0 ≤ v / a := by positivity
    apply abs_le_of_sq_le_sq' _ (by positivity) |>.2
    nlinarith [sq_nonneg (d / v - v / a)]

theorem Demo.length5 {x y : ℝ} (hx : x = 2) (hy : y = 1) : (⟨x, y, 0, 0⟩ : Vec4 ℝ).norm3 = √5 := by
  rw [hx, hy]
  show √(_) = √5
  congr 1
  norm_num

theorem Demo.step5 : moveLength ⟨0, 0, 0, 0⟩ ⟨2, 1, 0, 0⟩ = √5 ∧ moveLength ⟨2, 1, 0, 0⟩ ⟨4, 2, 0, 0⟩ = √5 := by
  have h : √5 ≠ 0 := by positivity
  constructor <;>
  · unfold moveLength
    simp only [Vec4.sub, _root_.sub_self]
    rw [Demo.length5 (by norm_num) (by norm_num), if_neg h]

theorem Demo.straight_moderate : Moderate Demo.straightReal := by
  have h5 : 1 ≤ √5 := Real.le_sqrt_of_sq_le (by norm_num)
  have h5' : √5 ≤ 3 := Real.sqrt_le_iff.2 (by norm_num)
  refine ⟨?_, ?_, ?_, ?_, by simp [Demo.straightReal], ?_⟩
  · intro s hs
    simp only [Demo.straightReal, List.mem_cons, List.not_mem_nil, or_false] at hs
    rcases hs with rfl | rfl | rfl <;> norm_num
  · intro s hs
    simp only [Demo.straightReal, List.mem_cons, List.not_mem_nil, or_false] at hs
    rcases hs with rfl | rfl | rfl <;> norm_num
  · intro s hs
    simp only [Demo.straightReal, List.mem_cons, List.not_mem_nil, or_false] at hs
    rcases hs with rfl | rfl | rfl <;> norm_num
  · intro pre A B post h hne
    rcases pre with _ | ⟨p, _ | ⟨q, pre⟩⟩
    · simp only [Demo.straightReal, List.nil_append, List.cons.injEq] at h
      obtain ⟨rfl, rfl, _⟩ := h
      simp only [Demo.step5.1]
      linarith
    · simp only [Demo.straightReal, List.cons_append, List.nil_append, List.cons.injEq] at h
      obtain ⟨rfl, rfl, rfl, _⟩ := h
      simp only [Demo.step5.2]
      linarith
    · have := congrArg List.length h
      simp [Demo.straightReal] at this
      omega
  · have ha : active none Demo.straightReal =
        [(some ⟨⟨0, 0, 0, 0⟩, 50, 1000, 10, none, none⟩, ⟨⟨2, 1, 0, 0⟩, 50, 1000, 10, none, none⟩),
          (some ⟨⟨2, 1, 0, 0⟩, 50, 1000, 10, none, none⟩, ⟨⟨4, 2, 0, 0⟩, 50, 1000, 10, none, none⟩)] := by
      unfold Demo.straightReal
      rw [active_cons_skip _ (by simp) rfl, active_cons_take _ (Or.inr ⟨_, rfl, by simp⟩),
        active_cons_take _ (Or.inr ⟨_, rfl, by norm_num⟩)]
      simp [active, withPrev]
    have hm : moveTime 1000 50 √5 0 0 ≤ √5 / 50 + 50 / 1000 := moveTime_le (by norm_num) (by norm_num) (by positivity)
    rw [ha]
    simp only [List.map_cons, List.map_nil, List.sum_cons, List.sum_nil, restTime, Demo.step5.1, Demo.step5.2]
    linarith

theorem Demo.straight_representable : ∀ s ∈ Demo.straight, s.Representable := by
  have h : ∀ n : ℤ, |n| ≤ 2 ^ 53 → Rep (n : ℚ) := fun n hn => ⟨n, 0, hn, by simp⟩
  have h0 : Rep (0 : Dbl).val := by rw [show (0 : Dbl).val = ((0 : ℤ) : ℚ) by decide +kernel]; exact h _ (by norm_num)
  have h1 : Rep (1 : Dbl).val := by rw [show (1 : Dbl).val = ((1 : ℤ) : ℚ) by decide +kernel]; exact h _ (by norm_num)
  have h2 : Rep (2 : Dbl).val := by rw [show (2 : Dbl).val = ((2 : ℤ) : ℚ) by decide +kernel]; exact h _ (by norm_num)
  have h4 : Rep (4 : Dbl).val := by rw [show (4 : Dbl).val = ((4 : ℤ) : ℚ) by decide +kernel]; exact h _ (by norm_num)
  have h10 : Rep (10 : Dbl).val := by
    rw [show (10 : Dbl).val = ((10 : ℤ) : ℚ) by decide +kernel]; exact h _ (by norm_num)
  have h50 : Rep (50 : Dbl).val := by
    rw [show (50 : Dbl).val = ((50 : ℤ) : ℚ) by decide +kernel]; exact h _ (by norm_num)
  have h1000 : Rep (1000 : Dbl).val := by
    rw [show (1000 : Dbl).val = ((1000 : ℤ) : ℚ) by decide +kernel]; exact h _ (by norm_num)
  intro s hs
  simp only [Demo.straight, List.mem_cons, List.not_mem_nil, or_false] at hs
  rcases hs with rfl | rfl | rfl <;>
    simp only [PState.Representable, Demo.dbl, h0, h1, h2, h4, h10, h50, h1000, true_and] <;> simp

/-- Two moves in the same direction, `X2 Y1` and `X4 Y2`, with 50 mm/s, 1000 mm/s² and jerk 10, cannot be planned
with marlin_jerk: the speed at the junction and the target speed differ in the last bit, and the next block has
no case for it. -/
theorem Demo.straight_raises : plan .marlinJerk Demo.straight = .error .runtimeError := by
  decide +kernel

/-- The same program with MKA: the first block is to end one bit above its target speed, and its last segment ends
before it begins. -/
theorem Demo.straight_raises_mka : plan .mka Demo.straight = .error .runtimeError := by
  decide +kernel

/-- A state on the X axis, with 5000 mm/s² and jerk 10. -/
def Demo.onAxis (x v : Dbl) : PState Dbl := ⟨⟨x, 0, 0, 0⟩, v, 5000, 10, none, none⟩

/-- From X200 to X200.01 with F1200, then to X205 with F600. -/
def Demo.nudge : List (PState Dbl) := [Demo.onAxis 200 20, Demo.onAxis 200.01 20, Demo.onAxis 205 10]

/-- A state on the X axis in real numbers. -/
noncomputable def Demo.onAxisReal (x v : ℝ) : PState ℝ := ⟨⟨x, 0, 0, 0⟩, v, 5000, 10, none, none⟩

/-- The double nearest to 200.01. -/
noncomputable def Demo.x1 : ℝ := 879653282685911 / 4398046511104

theorem Demo.nudge_real : Demo.nudge.map PState.real =
    [Demo.onAxisReal 200 20, Demo.onAxisReal Demo.x1 20, Demo.onAxisReal 205 10] := by
  have h0 : (0 : Dbl).r = 0 := Dbl.r_zero
  have h10 : (10 : Dbl).r = 10 := by rw [Dbl.r_of (q := 10) (by decide +kernel)]; norm_num
  have h20 : (20 : Dbl).r = 20 := by rw [Dbl.r_of (q := 20) (by decide +kernel)]; norm_num
  have h200 : (200 : Dbl).r = 200 := by rw [Dbl.r_of (q := 200) (by decide +kernel)]; norm_num
  have h205 : (205 : Dbl).r = 205 := by rw [Dbl.r_of (q := 205) (by decide +kernel)]; norm_num
  have h5000 : (5000 : Dbl).r = 5000 := by rw [Dbl.r_of (q := 5000) (by decide +kernel)]; norm_num
  have hx : (200.01 : Dbl).r = Demo.x1 := by
    rw [Dbl.r_of (q := 879653282685911 / 4398046511104) (by decide +kernel), Demo.x1]
    norm_num
  simp only [Demo.nudge, Demo.onAxis, Demo.onAxisReal, List.map_cons, List.map_nil, PState.real, Vec4.real,
    Option.map_none, h0, h10, h20, h200, h205, h5000, hx]

theorem Demo.nudge_representable : ∀ s ∈ Demo.nudge, s.Representable := by
  have h : ∀ n : ℤ, |n| ≤ 2 ^ 53 → Rep (n : ℚ) := fun n hn => ⟨n, 0, hn, by simp⟩
  have h0 : Rep (0 : Dbl).val := by rw [show (0 : Dbl).val = ((0 : ℤ) : ℚ) by decide +kernel]; exact h _ (by norm_num)
  have h10 : Rep (10 : Dbl).val := by
    rw [show (10 : Dbl).val = ((10 : ℤ) : ℚ) by decide +kernel]; exact h _ (by norm_num)
  have h20 : Rep (20 : Dbl).val := by
    rw [show (20 : Dbl).val = ((20 : ℤ) : ℚ) by decide +kernel]; exact h _ (by norm_num)
  have h200 : Rep (200 : Dbl).val := by
    rw [show (200 : Dbl).val = ((200 : ℤ) : ℚ) by decide +kernel]; exact h _ (by norm_num)
  have h205 : Rep (205 : Dbl).val := by
    rw [show (205 : Dbl).val = ((205 : ℤ) : ℚ) by decide +kernel]; exact h _ (by norm_num)
  have h5000 : Rep (5000 : Dbl).val := by
    rw [show (5000 : Dbl).val = ((5000 : ℤ) : ℚ) by decide +kernel]; exact h _ (by norm_num)
  have hx : Rep (200.01 : Dbl).val := by
    refine ⟨879653282685911, -42, by norm_num, ?_⟩
    rw [show (200.01 : Dbl).val = (879653282685911 / 4398046511104 : ℚ) by decide +kernel]
    norm_num
  intro s hs
  simp only [Demo.nudge, List.mem_cons, List.not_mem_nil, or_false] at hs
  rcases hs with rfl | rfl | rfl <;>
    simp only [PState.Representable, Demo.onAxis, h0, h10, h20, h200, h205, h5000, hx, true_and] <;> simp

theorem Demo.nudge_regular : Regular (Demo.nudge.map PState.real) := by
  rw [Demo.nudge_real]
  refine regular_of_no_pause fun s hs => ?_
  simp only [List.mem_cons, List.not_mem_nil, or_false] at hs
  rcases hs with rfl | rfl | rfl <;> norm_num [Demo.onAxisReal]

theorem Demo.axis_step {x y : ℝ} (h : x < y) : moveLength ⟨x, 0, 0, 0⟩ ⟨y, 0, 0, 0⟩ = y - x := by
  have hn : (⟨y - x, 0, 0, 0⟩ : Vec4 ℝ).norm3 = y - x := by
    show √(_) = _
    rw [show (y - x) * (y - x) + 0 * 0 + 0 * 0 = (y - x) ^ 2 by ring]
    exact Real.sqrt_sq (by linarith)
  unfold moveLength
  simp only [Vec4.sub, _root_.sub_self]
  rw [hn, if_neg (by linarith)]

theorem Demo.nudge_moderate : Moderate (Demo.nudge.map PState.real) := by
  have hx1 : (200.009 : ℝ) < Demo.x1 := by unfold Demo.x1; norm_num
  have hx2 : Demo.x1 < (200.011 : ℝ) := by unfold Demo.x1; norm_num
  have hs1 : moveLength ⟨200, 0, 0, 0⟩ ⟨Demo.x1, 0, 0, 0⟩ = Demo.x1 - 200 := Demo.axis_step (by linarith)
  have hs2 : moveLength ⟨Demo.x1, 0, 0, 0⟩ ⟨205, 0, 0, 0⟩ = 205 - Demo.x1 := Demo.axis_step (by linarith)
  rw [Demo.nudge_real]
  refine ⟨?_, ?_, ?_, ?_, by simp, ?_⟩
  · intro s hs
    simp only [List.mem_cons, List.not_mem_nil, or_false] at hs
    have : |Demo.x1| ≤ 100000 := abs_le.2 ⟨by linarith, by linarith⟩
    rcases hs with rfl | rfl | rfl <;> norm_num [Demo.onAxisReal, this]
  · intro s hs
    simp only [List.mem_cons, List.not_mem_nil, or_false] at hs
    rcases hs with rfl | rfl | rfl <;> norm_num [Demo.onAxisReal]
  · intro s hs
    simp only [List.mem_cons, List.not_mem_nil, or_false] at hs
    rcases hs with rfl | rfl | rfl <;> norm_num [Demo.onAxisReal]
  · intro pre A B post h hne
    rcases pre with _ | ⟨p, _ | ⟨q, pre⟩⟩
    · simp only [List.nil_append, List.cons.injEq] at h
      obtain ⟨rfl, rfl, _⟩ := h
      simp only [Demo.onAxisReal, hs1]
      norm_num at hx1 ⊢
      linarith
    · simp only [List.cons_append, List.nil_append, List.cons.injEq] at h
      obtain ⟨rfl, rfl, rfl, _⟩ := h
      simp only [Demo.onAxisReal, hs2]
      norm_num at hx2 ⊢
      linarith
    · have := congrArg List.length h
      simp at this
      omega
  · have ha : active none [Demo.onAxisReal 200 20, Demo.onAxisReal Demo.x1 20, Demo.onAxisReal 205 10] =
        [(some (Demo.onAxisReal 200 20), Demo.onAxisReal Demo.x1 20),
          (some (Demo.onAxisReal Demo.x1 20), Demo.onAxisReal 205 10)] := by
      have e1 : Demo.x1 ≠ 200 := by intro h; rw [h] at hx1; norm_num at hx1
      have e2 : (205 : ℝ) ≠ Demo.x1 := by intro h; rw [← h] at hx2; norm_num at hx2
      rw [active_cons_skip _ (by simp) rfl,
        active_cons_take _ (Or.inr ⟨_, rfl, by simp [Demo.onAxisReal, e1]⟩),
        active_cons_take _ (Or.inr ⟨_, rfl, by simp [Demo.onAxisReal, e2]⟩)]
      simp [active, withPrev]
    rw [ha]
    have h1 : moveTime 5000 20 (Demo.x1 - 200) 0 0 ≤ (Demo.x1 - 200) / 20 + 20 / 5000 :=
      moveTime_le (by norm_num) (by norm_num) (by linarith)
    have h2 : moveTime 5000 10 (205 - Demo.x1) 0 0 ≤ (205 - Demo.x1) / 10 + 10 / 5000 :=
      moveTime_le (by norm_num) (by norm_num) (by linarith)
    simp only [List.map_cons, List.map_nil, List.sum_cons, List.sum_nil, restTime, Demo.onAxisReal, hs1, hs2]
    linarith

/-- Starting at X200 with 5000 mm/s², the moves X200.01 F1200 and X205 F600 cannot be planned. Without rounding the
first move just reaches 10 mm/s. As 200.01 is rounded it misses this by 5e-12 mm/s, the next block begins with
10 mm/s all the same (its acceleration is too short to be kept), and the correction looks for a block before the first
one. -/
theorem Demo.nudge_raises : plan .marlinJd Demo.nudge = .error .attributeError ∧
    plan .klipper Demo.nudge = .error .attributeError ∧ plan .marlinJerk Demo.nudge = .error .attributeError := by
  decide +kernel

/-- **C83** holds for default junction handling only. -/
theorem c83_exactly_default (fw : Firmware) : C83For fw ↔ fw = .default := by
  have hs (fw : Firmware) (h : C83For fw) : ∃ bs, plan fw Demo.straight = .ok bs :=
    h Demo.straight Demo.straight_representable (by rw [Demo.straight_real]; exact Demo.straight_regular)
      (by rw [Demo.straight_real]; exact Demo.straight_moderate)
  have hn (fw : Firmware) (h : C83For fw) : ∃ bs, plan fw Demo.nudge = .ok bs :=
    h Demo.nudge Demo.nudge_representable Demo.nudge_regular Demo.nudge_moderate
  constructor
  · intro h
    cases fw with
    | marlinJd =>
      obtain ⟨bs, hb⟩ := hn _ h
      rw [Demo.nudge_raises.1] at hb
      cases hb
    | klipper =>
      obtain ⟨bs, hb⟩ := hn _ h
      rw [Demo.nudge_raises.2.1] at hb
      cases hb
    | marlinJerk =>
      obtain ⟨bs, hb⟩ := hs _ h
      rw [Demo.straight_raises] at hb
      cases hb
    | mka =>
      obtain ⟨bs, hb⟩ := hs _ h
      rw [Demo.straight_raises_mka] at hb
      cases hb
    | default => rfl
  · rintro rfl states _ hreg hmod
    exact c83_default_partial hreg hmod

/-- **C83** in full is false. -/
theorem c83_refuted : ¬ C83Full := fun h => by
  have := (c83_exactly_default .marlinJerk).1 (h _)
  cases this

/-- The hypotheses of `c83_default_partial` hold for these two moves. -/
example : ∃ bs, plan .default Demo.straight = .ok bs :=
  c83_default_partial (by rw [Demo.straight_real]; exact Demo.straight_regular)
    (by rw [Demo.straight_real]; exact Demo.straight_moderate)

/-! ## C84 -/

/-- **C84, in full** (refuted): with rounding the blocks end near the times and positions at which they end without
rounding. -/
def C84Full : Prop :=
  ∀ (fw : Firmware) (states : List (PState Dbl)) (bs : List (Block Dbl)) (bs' : List (Block ℝ)),
    (∀ s ∈ states, s.Representable) → Regular (states.map PState.real) → plan fw states = .ok bs →
    plan fw (states.map PState.real) = .ok bs' →
    bs.length = bs'.length ∧ ∀ (n : ℕ) (b : Block Dbl) (b' : Block ℝ), bs[n]? = some b → bs'[n]? = some b' →
      ∀ s s', b.segments.getLast? = some s → b'.segments.getLast? = some s' → EndsWithin 0.01 0.01 s s'

theorem Tracks.near {k : ℕ} {S : ℝ} {bs : List (Block Dbl)} {acts : List (Option (PState ℝ) × PState ℝ)}
    (h : Tracks k S bs acts) : ∀ {bs' : List (Block ℝ)}, bs'.map (fun b => (b.stateA, b.stateB)) = acts →
    (∀ b ∈ bs', b.AtRest ∧ Good b) → bs'.IsChain LinkT → (∀ f ∈ bs'.head?, f.t0 = S) →
    bs.length = bs'.length ∧ ∀ (n : ℕ) (b : Block Dbl) (b' : Block ℝ), bs[n]? = some b → bs'[n]? = some b' →
      (b.stateA.map PState.real = b'.stateA ∧ b.stateB.real = b'.stateB) ∧
      ∀ s s', b.segments.getLast? = some s → b'.segments.getLast? = some s' →
        Arrived s s'.posEnd (k + n + 1) s'.tEnd := by
  induction h with
  | done k S =>
    intro bs' hm _ _ _
    have : bs' = [] := by simpa using hm
    subst this
    simp
  | @step k S b bs a acts q h1 h2 h3 h4 _ h5 ih =>
    intro bs' hm hg hc hf
    cases bs' with
    | nil => cases hm
    | cons c bs' =>
      simp only [List.map_cons, List.cons.injEq] at hm
      obtain ⟨hca, hm⟩ := hm
      have hgc := hg c (by simp)
      obtain ⟨A, s0, s1, e1, e2, e3, e4, e5, e6, e7, e8, _⟩ := hgc.2.facts
      have ht : c.t1 = S + restTime a := by
        have := AtRest.time hgc.1
        rw [hca, hf c rfl] at this
        linarith
      obtain ⟨r1, r2⟩ := ih hm (fun x hx => hg x (by simp [hx])) hc.tail (by
        intro f hf'
        cases bs' with
        | nil => cases hf'
        | cons f' tl =>
          cases hf'
          rw [(List.isChain_cons_cons.1 hc).1.2.2.2, ht])
      refine ⟨by simp [r1], ?_⟩
      intro n x x' hx hx'
      cases n with
      | zero =>
        simp only [List.getElem?_cons_zero, Option.some.injEq] at hx hx'
        subst hx hx'
        refine ⟨⟨by rw [h1, ← hca], by rw [h2, ← hca]⟩, ?_⟩
        intro s s' hs hs'
        rw [h3] at hs
        cases hs
        rw [e3] at hs'
        cases hs'
        rw [e7, e8, ht]
        rw [← hca] at h4 ⊢
        exact h4
      | succ n =>
        simp only [List.getElem?_cons_succ] at hx hx'
        obtain ⟨g1, g2⟩ := r2 n x x' hx hx'
        refine ⟨g1, ?_⟩
        intro s s' hs hs'
        have := g2 s s' hs hs'
        rw [show k + 1 + n + 1 = k + (n + 1) + 1 by ring] at this
        exact this

theorem Tracks.last {k : ℕ} {S : ℝ} {bs : List (Block Dbl)} {acts : List (Option (PState ℝ) × PState ℝ)}
    (h : Tracks k S bs acts) : ∀ (n : ℕ) (b : Block Dbl), bs[n]? = some b → ∃ s, b.segments.getLast? = some s := by
  induction h with
  | done k S => simp
  | step h1 h2 h3 h4 _ h5 ih =>
    intro n b hb
    cases n with
    | zero =>
      simp only [List.getElem?_cons_zero, Option.some.injEq] at hb
      subst hb
      exact ⟨_, h3⟩
    | succ n => exact ih n b (by simpa using hb)

/-- **C84** for default junction handling: the plan with rounding has the same blocks as the plan without, and
block number `n` ends within `(n + 1) * 1e-8` mm and `(n + 1) * 1e-9 + 1e-12 * t` s of where and when it should.
Missing: the other firmwares, for marlin_jerk it is false. -/
theorem c84_default_partial {states : List (PState Dbl)} (hreg : Regular (states.map PState.real))
    (hmod : Moderate (states.map PState.real)) :
    ∃ bs bs', plan .default states = .ok bs ∧ plan .default (states.map PState.real) = .ok bs' ∧
      bs.length = bs'.length ∧ ∀ (n : ℕ) (b : Block Dbl) (b' : Block ℝ), bs[n]? = some b → bs'[n]? = some b' →
      b.stateA.map PState.real = b'.stateA ∧ b.stateB.real = b'.stateB ∧
      ∃ s s', b.segments.getLast? = some s ∧ b'.segments.getLast? = some s' ∧ s.velEnd = Vec4.zero ∧
        EndsWithin ((n + 1) * 1e-8) ((n + 1) * 1e-9 + 1e-12 * s'.tEnd) s s' := by
  obtain ⟨bs, h1, h2, _⟩ := plan_dbl hreg hmod
  obtain ⟨bs', h3⟩ := c83_exact .default hreg
  obtain ⟨hg, hc, hf, ha, _⟩ := plan_ok hreg h3
  have hr := plan_rest hreg h3 (fun _ _ _ => rfl)
  obtain ⟨n1, n2⟩ := h2.near ha (fun b hb => ⟨hr b hb, hg b hb⟩) hc (fun f h => (hf f h).1)
  refine ⟨bs, bs', h1, h3, n1, ?_⟩
  intro n b b' hb hb'
  obtain ⟨⟨g1, g2⟩, g3⟩ := n2 n b b' hb hb'
  refine ⟨g1, g2, ?_⟩
  obtain ⟨_, _, s', _, _, e3, _⟩ := (hg b' (List.mem_of_getElem? hb')).facts
  obtain ⟨s, hs⟩ := h2.last n b hb
  have h := g3 s s' hs e3
  have := h.time
  have := h.px
  have := h.py
  have := h.pz
  have := h.pe
  push_cast at *
  simp only [_root_.zero_add] at *
  exact ⟨s, s', hs, e3, h.vel, by assumption, by assumption, by assumption, by assumption, by assumption⟩

/-- The hypotheses of `c84_default_partial` hold for the two moves of C83. -/
example : ∃ bs bs', plan .default Demo.straight = .ok bs ∧ plan .default (Demo.straight.map PState.real) = .ok bs' ∧
    bs.length = bs'.length := by
  obtain ⟨bs, bs', h1, h2, h3, _⟩ := c84_default_partial (states := Demo.straight)
    (by rw [Demo.straight_real]; exact Demo.straight_regular)
    (by rw [Demo.straight_real]; exact Demo.straight_moderate)
  exact ⟨bs, bs', h1, h2, h3⟩

/-- A state on the x axis, moving with 30 mm/s. -/
def Demo.axis (x e : Dbl) : PState Dbl := ⟨⟨x, 0, 0, e⟩, 30, 1000, 10, none, none⟩

/-- Two relative moves, 0.1 mm and 0.2 mm, a retraction at the absolute position 0.3 mm, and a travel move. -/
def Demo.residue : List (PState Dbl) :=
  [Demo.axis 0 0, Demo.axis 0.1 0, Demo.axis (0.1 + 0.2) 0, Demo.axis 0.3 (-1), Demo.axis 10 (-1)]

theorem Demo.residue_regular : Regular (Demo.residue.map PState.real) := by
  refine regular_of_no_pause fun s hs => ?_
  obtain ⟨q, hq, rfl⟩ := List.mem_map.1 hs
  have h10 : (10 : Dbl).r = 10 := by rw [Dbl.r_of (q := 10) (by decide +kernel)]; norm_num
  have h30 : (30 : Dbl).r = 30 := by rw [Dbl.r_of (q := 30) (by decide +kernel)]; norm_num
  have h1000 : (1000 : Dbl).r = 1000 := by rw [Dbl.r_of (q := 1000) (by decide +kernel)]; norm_num
  have : q.speed = 30 ∧ q.pAcc = 1000 ∧ q.jerk = 10 ∧ q.pause = none := by
    simp only [Demo.residue, List.mem_cons, List.not_mem_nil, or_false] at hq
    rcases hq with rfl | rfl | rfl | rfl | rfl <;> exact ⟨rfl, rfl, rfl, rfl⟩
  obtain ⟨e1, e2, e3, e4⟩ := this
  simp only [PState.real, e1, e2, e3, e4, h10, h30, h1000, Option.map_none]
  norm_num

theorem Demo.residue_representable : ∀ s ∈ Demo.residue, s.Representable := by
  have lit : ∀ a : Dbl, (∃ q, a = ⟨rnd q⟩) → Rep a.val := by
    rintro _ ⟨q, rfl⟩
    exact rep_rnd q
  have h0 : Rep (0 : Dbl).val := lit _ ⟨_, rfl⟩
  have h1 : Rep (0.1 : Dbl).val := lit _ ⟨_, rfl⟩
  have h2 : Rep ((0.1 : Dbl) + 0.2).val := lit _ ⟨_, rfl⟩
  have h3 : Rep (0.3 : Dbl).val := lit _ ⟨_, rfl⟩
  have h4 : Rep (-1 : Dbl).val := (lit (1 : Dbl) ⟨_, rfl⟩).neg
  have h10 : Rep (10 : Dbl).val := lit _ ⟨_, rfl⟩
  have h30 : Rep (30 : Dbl).val := lit _ ⟨_, rfl⟩
  have h1000 : Rep (1000 : Dbl).val := lit _ ⟨_, rfl⟩
  intro s hs
  simp only [Demo.residue, List.mem_cons, List.not_mem_nil, or_false] at hs
  rcases hs with rfl | rfl | rfl | rfl | rfl <;>
    exact ⟨by assumption, h0, h0, by assumption, h30, h1000, h10, by simp [Demo.axis]⟩

/-- The coordinate E at the end of the last block. -/
def Demo.lastE (r : Except PyErr (List (Block Dbl))) : Option ℚ :=
  match r with
  | .ok bs => (bs.getLast?.bind fun b => b.segments.getLast?).map fun s => s.posEnd.e.val
  | .error _ => none

/-- Because `0.1 + 0.2` is not `0.3`, the retraction becomes a travel move of 5.6e-17 mm; with marlin_jerk it
keeps the travel speed and ends at E = -1.28 instead of -1. -/
theorem Demo.residue_ends : Demo.lastE (plan .marlinJerk Demo.residue) =
    some (mkRat (-1441151880758559) 1125899906842624) := by
  decide +kernel

/-- **C84** is false for marlin_jerk. -/
theorem c84_refuted : ¬ C84Full := by
  intro h
  have he := Demo.residue_ends
  unfold Demo.lastE at he
  split at he
  · rename_i bs hbs
    obtain ⟨bs', hbs'⟩ := c83_exact .marlinJerk Demo.residue_regular
    obtain ⟨hl, hn⟩ := h .marlinJerk Demo.residue bs bs' Demo.residue_representable Demo.residue_regular hbs hbs'
    obtain ⟨s, hs, hse⟩ := Option.map_eq_some_iff.1 he
    obtain ⟨b, hb, hs⟩ := Option.bind_eq_some_iff.1 hs
    have hb' : bs[bs.length - 1]? = some b := by rw [← List.getLast?_eq_getElem?]; exact hb
    have hpos : 0 < bs.length := List.length_pos_of_mem (List.mem_of_getLast? hb)
    have hne : bs' ≠ [] := by
      rintro rfl
      rw [hl] at hpos
      exact absurd hpos (lt_irrefl _)
    obtain ⟨q, q', _, e2, _, _, e5⟩ := unpack_ends Demo.residue_regular hbs' hne
    obtain ⟨l, hl'⟩ : ∃ l, bs'.getLast? = some l := by
      cases hc : bs'.getLast? with
      | none => exact absurd (List.getLast?_eq_none_iff.1 hc) hne
      | some l => exact ⟨l, rfl⟩
    have hgl := (plan_ok Demo.residue_regular hbs').1 l (List.mem_of_getLast? hl')
    have e2' : (Spec.path bs').getLast? = some q' := e2
    rw [getLast?_flatMap_segments hl' hgl.ne_nil] at e2'
    have hl2 : bs'[bs.length - 1]? = some l := by rw [hl, ← List.getLast?_eq_getElem?]; exact hl'
    obtain ⟨_, _, _, _, hE⟩ := hn _ b l hb' hl2 s q' hs e2'
    have hq : q'.posEnd.e = (-1 : Dbl).r := by
      rw [e5 (Demo.axis 10 (-1)).real (by simp [Demo.residue])]
      rfl
    have h1 : (-1 : Dbl).r = -1 := by rw [Dbl.r_of (q := -1) (by decide +kernel)]; norm_num
    have h2 : s.posEnd.e.r = ((mkRat (-1441151880758559) 1125899906842624 : ℚ) : ℝ) := Dbl.r_of hse
    rw [hq, h1, h2, Rat.mkRat_eq_div] at hE
    push_cast at hE
    rw [abs_le] at hE
    norm_num at hE
  · cases he

/-! ## C85 -/

/-- **C85, in full** (refuted): the end time of the simulation of a file is, up to 1/100 s, the end time that the
same calculation gives without rounding. `rd` reads the numbers in the file. -/
def C85Full : Prop :=
  ∀ (rd : List Char → Option ℚ) (d : Dict (SVal ℚ)) (text : List Char) (ss : List (PState ℝ))
    (bs : List (Block Dbl)) (bs' : List (Block ℝ)) (t : Dbl) (t' : ℝ),
    fileStates (fun cs => (rd cs).map toReal) (convSettings toReal d) text = .ok ss → Regular ss →
    simulateFile (fun cs => (rd cs).map toDbl) (convSettings toDbl d) text = .ok bs → endTime bs = .ok t →
    simulateFile (fun cs => (rd cs).map toReal) (convSettings toReal d) text = .ok bs' → endTime bs' = .ok t' →
    |t.r - t'| ≤ 0.01

theorem simulateFile_plan {K : Type} [Add K] [Sub K] [Mul K] [Div K] [Neg K] [LT K] [LE K] [DecidableLT K]
    [DecidableLE K] [DecidableEq K] [OfNat K 0] [OfNat K 1] [OfNat K 2] [OfNat K 10] [OfNat K 18]
    [OfNat K 30] [OfNat K 33] [OfNat K 35] [OfNat K 60] [OfNat K 180] [OfNat K 200] [OfNat K 1000] [OfScientific K]
    [PyMath K] {pf : List Char → Option K} {d : Dict (SVal K)} {text : List Char} {ss : List (PState K)}
    {bs : List (Block K)} (h : simulateFile pf d text = .ok bs) (hs : fileStates pf d text = .ok ss) :
    plan (firmwareOf d) ss = .ok bs := by
  unfold simulateFile at h
  simp only [hs, bind, Except.bind] at h
  split at h
  · cases h
  unfold simulate at h
  simp only [bind, Except.bind] at h
  split at h
  · cases h
  rename_i cs hcs
  split at h
  · cases h
  cases h
  exact hcs

/-- **C85** for default junction handling, if the states that are read with rounding are the exact ones (all
coordinates, sums and speeds are representable): the end times differ by less than 0.002 s. Missing: states that
differ by rounding, for which it is false, and the other firmwares. -/
theorem c85_same_states_partial {rd : List Char → Option ℚ} {d : Dict (SVal ℚ)} {text : List Char}
    {ds : List (PState Dbl)} {ss : List (PState ℝ)} {bs : List (Block Dbl)} {bs' : List (Block ℝ)} {t : Dbl} {t' : ℝ}
    (hfw : firmwareOf (convSettings toDbl d) = .default) (hfw' : firmwareOf (convSettings toReal d) = .default)
    (hd : fileStates (fun cs => (rd cs).map toDbl) (convSettings toDbl d) text = .ok ds)
    (hs : fileStates (fun cs => (rd cs).map toReal) (convSettings toReal d) text = .ok ss)
    (heq : ds.map PState.real = ss) (hreg : Regular ss) (hmod : Moderate ss)
    (h1 : simulateFile (fun cs => (rd cs).map toDbl) (convSettings toDbl d) text = .ok bs) (ht : endTime bs = .ok t)
    (h2 : simulateFile (fun cs => (rd cs).map toReal) (convSettings toReal d) text = .ok bs')
    (ht' : endTime bs' = .ok t') : |t.r - t'| ≤ 0.002 := by
  subst heq
  have g1 : plan .default ds = .ok bs := by
    have := simulateFile_plan h1 hd
    rwa [hfw] at this
  have g2 : plan .default (ds.map PState.real) = .ok bs' := by
    have := simulateFile_plan h2 hs
    rwa [hfw'] at this
  obtain ⟨cs, cs', k1, k2, k3, k4⟩ := c84_default_partial hreg hmod
  rw [g1] at k1
  rw [g2] at k2
  cases k1
  cases k2
  unfold endTime at ht ht'
  cases hb : bs.getLast? with
  | none => rw [hb] at ht; cases ht
  | some b =>
    cases hb' : bs'.getLast? with
    | none => rw [hb'] at ht'; cases ht'
    | some b' =>
      rw [hb] at ht
      rw [hb'] at ht'
      rw [List.getLast?_eq_getElem?] at hb hb'
      rw [← k3] at hb'
      obtain ⟨_, _, s, s', l1, l2, _, l3, _⟩ := k4 _ b b' hb hb'
      simp only [Block.lastSeg, l1, l2, Except.map, Except.ok.injEq] at ht ht'
      subst ht ht'
      have hn : bs.length ≤ 1000000 := by
        have h3 := congrArg List.length (c28_blocks hreg g2)
        rw [List.length_map, ← k3] at h3
        have h4 : (active none (ds.map PState.real)).length ≤ (ds.map PState.real).length := by
          unfold active withPrev
          refine (List.length_filter_le _ _).trans ?_
          simp
        exact (h3.le.trans h4).trans hmod.count
      have hpos : 0 < bs.length := by
        rcases Nat.eq_zero_or_pos bs.length with h0 | h0
        · rw [List.length_eq_zero_iff] at h0
          subst h0
          cases hb
        · exact h0
      have hn' : ((bs.length - 1 : ℕ) : ℝ) + 1 ≤ 1000000 := by
        have : bs.length - 1 + 1 ≤ 1000000 := by omega
        exact_mod_cast this
      have hT : s'.tEnd ≤ 400000 := by
        have he : EndTime (Spec.path bs') s'.tEnd := by
          have hl : bs'.getLast? = some b' := by rw [List.getLast?_eq_getElem?, ← k3]; exact hb'
          refine ⟨s', ?_, rfl⟩
          rw [getLast?_flatMap_segments hl ((plan_ok hreg g2).1 b' (List.mem_of_getLast? hl)).ne_nil]
          exact l2
        rw [c64_print_time hreg g2 he]
        exact hmod.total
      refine l3.trans ?_
      linarith

/-- Settings of a printer without junction handling. -/
def Demo.plainJob : Dict (SVal ℚ) :=
  [("p_vel", .num 35), ("p_acc", .num 1000), ("jerk", .num 10), ("vX", .num 180), ("vY", .num 180), ("vZ", .num 30),
    ("vE", .num 33), ("firmware", .text "none"), ("printer_name", .text "p"), ("X", .num 0), ("Y", .num 0),
    ("Z", .num 0), ("E", .num 0)]

/-- The numbers of the file below. -/
def Demo.numbers (cs : List Char) : Option ℚ :=
  if cs = ['0', '.', '1'] then some (mkRat 1 10)
  else if cs = ['0', '.', '2'] then some (mkRat 2 10)
  else if cs = ['0', '.', '3'] then some (mkRat 3 10)
  else if cs = ['6', '0'] then some 60
  else if cs = ['-', '5'] then some (-5)
  else none

/-- `G91`, `G1 X0.1 F60`, `G1 X0.2`, `G90`, `G1 X0.3 E-5`: two relative moves and a retraction. -/
def Demo.residueFile : List Char :=
  ['G', '9', '1', '\n', 'G', '1', ' ', 'X', '0', '.', '1', ' ', 'F', '6', '0', '\n', 'G', '1', ' ', 'X', '0', '.', '2',
    '\n', 'G', '9', '0', '\n', 'G', '1', ' ', 'X', '0', '.', '3', ' ', 'E', '-', '5']

/-- The simulation with rounding, and its end time. -/
def Demo.residueTime : Except PyErr Dbl := do
  let bs ← simulateFile (fun cs => (Demo.numbers cs).map toDbl) (convSettings toDbl Demo.plainJob) Demo.residueFile
  endTime bs

/-- With rounding the print is over before the first second. -/
theorem Demo.residue_fast : (match Demo.residueTime with | .ok t => decide (t.val < 1) | .error _ => false) = true := by
  decide +kernel

/-- The states of this file without rounding. -/
noncomputable def Demo.residueStates : List (PState ℝ) :=
  [⟨⟨0, 0, 0, 0⟩, 35, 1000, 10, none, none⟩, ⟨⟨0, 0, 0, 0⟩, 35, 1000, 10, none, none⟩,
    ⟨⟨1 / 10, 0, 0, 0⟩, 1, 1000, 10, none, none⟩, ⟨⟨3 / 10, 0, 0, 0⟩, 1, 1000, 10, none, none⟩,
    ⟨⟨3 / 10, 0, 0, 0⟩, 1, 1000, 10, none, none⟩, ⟨⟨3 / 10, 0, 0, -5⟩, 1, 1000, 10, none, none⟩]

theorem Demo.residue_states : fileStates (fun cs => (Demo.numbers cs).map toReal) (convSettings toReal Demo.plainJob)
    Demo.residueFile = .ok Demo.residueStates := by
  have h : fileStates (fun cs => (Demo.numbers cs).map toReal) (convSettings toReal Demo.plainJob) Demo.residueFile =
      .ok [⟨⟨toReal 0 + 0, toReal 0 + 0, toReal 0 + 0, toReal 0 + 0⟩, toReal 35, toReal 1000, toReal 10, none, none⟩,
        ⟨⟨toReal 0 + 0, toReal 0 + 0, toReal 0 + 0, toReal 0 + 0⟩, toReal 35, toReal 1000, toReal 10, none, none⟩,
        ⟨⟨toReal 0 + toReal (mkRat 1 10) + 0, toReal 0 + 0, toReal 0 + 0, toReal 0 + 0⟩, toReal 60 / 60, toReal 1000,
          toReal 10, none, none⟩,
        ⟨⟨toReal 0 + toReal (mkRat 1 10) + toReal (mkRat 2 10) + 0, toReal 0 + 0, toReal 0 + 0, toReal 0 + 0⟩,
          toReal 60 / 60, toReal 1000, toReal 10, none, none⟩,
        ⟨⟨toReal 0 + toReal (mkRat 1 10) + toReal (mkRat 2 10) + 0, toReal 0 + 0, toReal 0 + 0, toReal 0 + 0⟩,
          toReal 60 / 60, toReal 1000, toReal 10, none, none⟩,
        ⟨⟨toReal (mkRat 3 10) + 0, toReal 0 + 0, toReal 0 + 0, toReal (-5) + 0⟩, toReal 60 / 60, toReal 1000, toReal 10,
          none, none⟩] := rfl
  rw [h]
  simp only [toReal, Rat.mkRat_eq_div, Demo.residueStates]
  norm_num

theorem Demo.residue_exact_regular : Regular Demo.residueStates := by
  refine regular_of_no_pause fun s hs => ?_
  simp only [Demo.residueStates, List.mem_cons, List.not_mem_nil, or_false] at hs
  rcases hs with rfl | rfl | rfl | rfl | rfl | rfl <;> norm_num

theorem Demo.residue_active :
    ((some ⟨⟨3 / 10, 0, 0, 0⟩, 1, 1000, 10, none, none⟩, ⟨⟨3 / 10, 0, 0, -5⟩, 1, 1000, 10, none, none⟩) :
      Option (PState ℝ) × PState ℝ) ∈ active none Demo.residueStates := by
  unfold active
  rw [List.mem_filter]
  refine ⟨by simp [withPrev, Demo.residueStates], ?_⟩
  rw [decide_eq_true_iff]
  refine Or.inr ⟨_, rfl, ?_⟩
  intro he
  have := congrArg Vec4.e he
  norm_num at this

/-- Without rounding the retraction alone takes five seconds. -/
theorem Demo.residue_slow {bs : List (Block ℝ)} {t : ℝ} (h : plan .default Demo.residueStates = .ok bs)
    (ht : EndTime (Spec.path bs) t) : 5 ≤ t := by
  have hreg := Demo.residue_exact_regular
  rw [c64_print_time hreg h ht]
  have hmem := Demo.residue_active
  set x : Option (PState ℝ) × PState ℝ := (some ⟨⟨3 / 10, 0, 0, 0⟩, 1, 1000, 10, none, none⟩,
    ⟨⟨3 / 10, 0, 0, -5⟩, 1, 1000, 10, none, none⟩) with hx
  have hle : restTime x ≤ ((active none Demo.residueStates).map restTime).sum := by
    apply List.single_le_sum
    · intro t ht
      obtain ⟨y, hy, rfl⟩ := List.mem_map.1 ht
      have := active_mem hy
      exact restTime_nonneg (hreg.speed _ this) (hreg.acc _ this) (hreg.pause _ this)
    · exact List.mem_map_of_mem hmem
  refine le_trans ?_ hle
  have hl : moveLength (⟨3 / 10, 0, 0, 0⟩ : Vec4 ℝ) ⟨3 / 10, 0, 0, -5⟩ = 5 := by
    unfold moveLength
    rw [if_pos]
    · norm_num
    · rw [norm3_eq_zero]
      simp [Vec4.sub]
  simp only [restTime, hx, hl]
  rw [c65_rest_to_rest (by norm_num) (by norm_num) (by norm_num)]
  norm_num

/-- **C85** is false. -/
theorem c85_refuted : ¬ C85Full := by
  intro h
  have hf := Demo.residue_fast
  unfold Demo.residueTime at hf
  cases hbs : simulateFile (fun cs => (Demo.numbers cs).map toDbl) (convSettings toDbl Demo.plainJob) Demo.residueFile with
  | error e => rw [hbs] at hf; cases hf
  | ok bs =>
    rw [hbs] at hf
    simp only [bind, Except.bind] at hf
    cases ht : endTime bs with
    | error e => rw [ht] at hf; cases hf
    | ok t =>
      rw [ht] at hf
      have ht1 : t.val < 1 := by simpa using hf
      have ht2 : t.r < 1 := by
        have := (Rat.cast_lt (K := ℝ)).2 ht1
        push_cast at this
        exact this
      have hact : active none Demo.residueStates ≠ [] := by
        intro h0
        have := Demo.residue_active
        rw [h0] at this
        cases this
      obtain ⟨bs', h1, h2, h3⟩ := simulate_ok .default Demo.residue_exact_regular hact
      obtain ⟨_, s', _, e2, e3, _⟩ := unpack_ends Demo.residue_exact_regular h2 h3
      have hsim : simulateFile (fun cs => (Demo.numbers cs).map toReal) (convSettings toReal Demo.plainJob)
          Demo.residueFile = .ok bs' := by
        have hc : checkInitialSetup (convSettings toReal Demo.plainJob) = .ok () := rfl
        have hw : firmwareOf (convSettings toReal Demo.plainJob) = .default := rfl
        simp only [simulateFile, hc, Demo.residue_states, hw, h1, bind, Except.bind]
      have h5 := Demo.residue_slow h2 ⟨s', e2, rfl⟩
      have := h _ _ _ _ _ _ _ _ Demo.residue_states Demo.residue_exact_regular hbs ht hsim e3
      rw [abs_le] at this
      linarith [this.1]

/-- Settings with a speed of 50 mm/s. -/
def Demo.quick : Dict (SVal ℚ) :=
  [("p_vel", .num 50), ("p_acc", .num 1000), ("jerk", .num 10), ("vX", .num 180), ("vY", .num 180), ("vZ", .num 30),
    ("vE", .num 33), ("firmware", .text "none"), ("printer_name", .text "p"), ("X", .num 0), ("Y", .num 0),
    ("Z", .num 0), ("E", .num 0)]

/-- The numbers of the file below. -/
def Demo.digits (cs : List Char) : Option ℚ :=
  if cs = ['1'] then some 1 else if cs = ['2'] then some 2 else if cs = ['4'] then some 4 else none

/-- `G1 X2 Y1` and `G1 X4 Y2`. -/
def Demo.straightFile : List Char :=
  ['G', '1', ' ', 'X', '2', ' ', 'Y', '1', '\n', 'G', '1', ' ', 'X', '4', ' ', 'Y', '2']

theorem Demo.straight_file : fileStates (fun cs => (Demo.digits cs).map toDbl) (convSettings toDbl Demo.quick)
    Demo.straightFile = .ok Demo.straight := by
  have h : fileStates (fun cs => (Demo.digits cs).map toDbl) (convSettings toDbl Demo.quick) Demo.straightFile =
      .ok [⟨⟨toDbl 0 + 0, toDbl 0 + 0, toDbl 0 + 0, toDbl 0 + 0⟩, toDbl 50, toDbl 1000, toDbl 10, none, none⟩,
        ⟨⟨toDbl 2 + 0, toDbl 1 + 0, toDbl 0 + 0, toDbl 0 + 0⟩, toDbl 50, toDbl 1000, toDbl 10, none, none⟩,
        ⟨⟨toDbl 4 + 0, toDbl 2 + 0, toDbl 0 + 0, toDbl 0 + 0⟩, toDbl 50, toDbl 1000, toDbl 10, none, none⟩] := rfl
  rw [h]
  have e : ([⟨⟨toDbl 0 + 0, toDbl 0 + 0, toDbl 0 + 0, toDbl 0 + 0⟩, toDbl 50, toDbl 1000, toDbl 10, none, none⟩,
        ⟨⟨toDbl 2 + 0, toDbl 1 + 0, toDbl 0 + 0, toDbl 0 + 0⟩, toDbl 50, toDbl 1000, toDbl 10, none, none⟩,
        ⟨⟨toDbl 4 + 0, toDbl 2 + 0, toDbl 0 + 0, toDbl 0 + 0⟩, toDbl 50, toDbl 1000, toDbl 10, none, none⟩] :
      List (PState Dbl)) = Demo.straight := by decide +kernel
  rw [e]

theorem Demo.straight_file_real : fileStates (fun cs => (Demo.digits cs).map toReal) (convSettings toReal Demo.quick)
    Demo.straightFile = .ok Demo.straightReal := by
  have h : fileStates (fun cs => (Demo.digits cs).map toReal) (convSettings toReal Demo.quick) Demo.straightFile =
      .ok [⟨⟨toReal 0 + 0, toReal 0 + 0, toReal 0 + 0, toReal 0 + 0⟩, toReal 50, toReal 1000, toReal 10, none, none⟩,
        ⟨⟨toReal 2 + 0, toReal 1 + 0, toReal 0 + 0, toReal 0 + 0⟩, toReal 50, toReal 1000, toReal 10, none, none⟩,
        ⟨⟨toReal 4 + 0, toReal 2 + 0, toReal 0 + 0, toReal 0 + 0⟩, toReal 50, toReal 1000, toReal 10, none, none⟩] := rfl
  rw [h]
  simp only [toReal, Demo.straightReal]
  norm_num

/-- The hypotheses of `c85_same_states_partial` hold for this file. -/
example : ∃ bs bs' t t',
    simulateFile (fun cs => (Demo.digits cs).map toDbl) (convSettings toDbl Demo.quick) Demo.straightFile = .ok bs ∧
    endTime bs = .ok t ∧
    simulateFile (fun cs => (Demo.digits cs).map toReal) (convSettings toReal Demo.quick) Demo.straightFile = .ok bs' ∧
    endTime bs' = .ok t' ∧ |t.r - t'| ≤ 0.002 := by
  have hreg : Regular (Demo.straight.map PState.real) := by rw [Demo.straight_real]; exact Demo.straight_regular
  have hmod : Moderate (Demo.straight.map PState.real) := by rw [Demo.straight_real]; exact Demo.straight_moderate
  have hact : active none Demo.straightReal ≠ [] := by
    unfold Demo.straightReal
    rw [active_cons_skip _ (by simp) rfl, active_cons_take _ (Or.inr ⟨_, rfl, by simp⟩)]
    simp
  obtain ⟨bs', b1, b2, b3⟩ := simulate_ok .default Demo.straight_regular hact
  obtain ⟨_, s', _, _, e3, _⟩ := unpack_ends Demo.straight_regular b2 b3
  obtain ⟨bs, cs, k1, k2, k3, k4⟩ := c84_default_partial hreg hmod
  rw [Demo.straight_real, b2] at k2
  cases k2
  have hne : bs ≠ [] := by
    rintro rfl
    exact b3 (List.length_eq_zero_iff.1 k3.symm)
  obtain ⟨l, hl⟩ : ∃ l, bs.getLast? = some l := ⟨_, List.getLast?_eq_getLast_of_ne_nil hne⟩
  obtain ⟨l', hl'⟩ : ∃ l, bs'.getLast? = some l := ⟨_, List.getLast?_eq_getLast_of_ne_nil b3⟩
  have hl2 := hl
  rw [List.getLast?_eq_getElem?] at hl2 hl'
  rw [← k3] at hl'
  obtain ⟨_, _, s, _, l1, _⟩ := k4 _ l l' hl2 hl'
  have he : endTime bs = .ok s.tEnd := by
    simp only [endTime, hl, Block.lastSeg, l1, Except.map]
  have g1 : simulateFile (fun cs => (Demo.digits cs).map toDbl) (convSettings toDbl Demo.quick) Demo.straightFile =
      .ok bs := by
    have hc : checkInitialSetup (convSettings toDbl Demo.quick) = .ok () := rfl
    have hw : firmwareOf (convSettings toDbl Demo.quick) = .default := rfl
    simp only [simulateFile, hc, Demo.straight_file, hw, simulate, k1, he, bind, Except.bind]
  have g2 : simulateFile (fun cs => (Demo.digits cs).map toReal) (convSettings toReal Demo.quick) Demo.straightFile =
      .ok bs' := by
    have hc : checkInitialSetup (convSettings toReal Demo.quick) = .ok () := rfl
    have hw : firmwareOf (convSettings toReal Demo.quick) = .default := rfl
    simp only [simulateFile, hc, Demo.straight_file_real, hw, b1, bind, Except.bind]
  exact ⟨bs, bs', _, _, g1, he, g2, e3, c85_same_states_partial rfl rfl Demo.straight_file Demo.straight_file_real
    Demo.straight_real Demo.straight_regular Demo.straight_moderate g1 he g2 e3⟩

/-- The same file cannot be simulated for a printer with marlin_jerk. -/
example : simulateFile (fun cs => (Demo.digits cs).map toDbl)
    (convSettings toDbl (Demo.quick.map fun kv => if kv.1 = "firmware" then (kv.1, .text "marlin_jerk") else kv))
    Demo.straightFile = .error .runtimeError := by
  have hc : checkInitialSetup (convSettings toDbl
    (Demo.quick.map fun kv => if kv.1 = "firmware" then (kv.1, .text "marlin_jerk") else kv)) = .ok () := rfl
  have hw : firmwareOf (convSettings toDbl
    (Demo.quick.map fun kv => if kv.1 = "firmware" then (kv.1, .text "marlin_jerk") else kv)) = .marlinJerk := rfl
  have hs : fileStates (fun cs => (Demo.digits cs).map toDbl) (convSettings toDbl
    (Demo.quick.map fun kv => if kv.1 = "firmware" then (kv.1, .text "marlin_jerk") else kv)) Demo.straightFile =
      fileStates (fun cs => (Demo.digits cs).map toDbl) (convSettings toDbl Demo.quick) Demo.straightFile := rfl
  simp only [simulateFile, hc, hs, Demo.straight_file, hw, simulate, Demo.straight_raises, bind, Except.bind]

end PyGCD
