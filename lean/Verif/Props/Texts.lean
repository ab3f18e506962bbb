import Verif.Model.Texts
import Verif.Spec.Printed
import Verif.Props.ConsoleSummary
import Verif.Props.Warnings
import Verif.Props.Optimal

/-!
# Texts of objects (C102, C104)
-/

set_option linter.unusedSectionVars false
set_option linter.unusedSimpArgs false

namespace PyGCD
open PyGCD.Spec

/-! ## Shapes -/

theorem Spec.Ramp.member {u : Vec4 ℝ} {a vT : ℝ} {p p' : Vec4 ℝ} {t t' v v' : ℝ} {l : List (Segment ℝ)}
    (h : Ramp u a vT p t v l p' t' v') : ∀ s ∈ l, ∃ w w₁, s.velBegin = u.mul w ∧ s.velEnd = u.mul w₁ ∧ 0 ≤ w ∧ 0 ≤ w₁ ∧
      s.tBegin < s.tEnd := by
  induction h with
  | nil => simp
  | cons hv hv₁ ht hacc hpos hp hrest ih =>
    intro s hs
    rcases List.mem_cons.1 hs with rfl | hs
    · exact ⟨_, _, rfl, rfl, hv.1, hv₁.1, ht⟩
    · exact ih s hs

theorem norm4_mul_nonneg (u : Vec4 ℝ) {k : ℝ} (hk : 0 ≤ k) : (u.mul k).norm4 = u.norm4 * k := by
  have h : (u.mul k).norm4 = Real.sqrt (u.norm4 ^ 2 * k ^ 2) := by
    rw [Vec4.norm4_sq]
    unfold Vec4.norm4 Vec4.mul
    rw [sqrt_real]
    congr 1
    ring
  rw [h, Real.sqrt_mul (sq_nonneg _), Real.sqrt_sq (Vec4.norm4_nonneg u), Real.sqrt_sq hk]

section
variable {u : Vec4 ℝ} {a vT : ℝ} {p p' : Vec4 ℝ} {t t' v v' : ℝ} {l : List (Segment ℝ)} {eo : Bool}

theorem speedsUp_of (hu : UnitDir u eo) (ha : 0 < a) (h : Ramp u a vT p t v l p' t' v') {s : Segment ℝ} (hs : s ∈ l)
    (hup : s.velEnd = s.velBegin.add (u.mul (a * (s.tEnd - s.tBegin)))) : SpeedsUp s := by
  obtain ⟨w, w₁, e1, e2, h1, h2, h3⟩ := h.member s hs
  have h4 : 0 < u.norm4 := lt_of_lt_of_le one_pos hu.norms.2.1
  have e3 : w₁ = w + a * (s.tEnd - s.tBegin) := by
    rw [e1, e2, mul_add_mul] at hup
    exact unit_cancel hu (p := Vec4.zero) (by rw [hup])
  have h5 : 0 < a * (s.tEnd - s.tBegin) := mul_pos ha (by linarith)
  rw [SpeedsUp, e1, e2, norm4_mul_nonneg u h1, norm4_mul_nonneg u h2]
  exact mul_lt_mul_of_pos_left (by linarith) h4

theorem slowsDown_of (hu : UnitDir u eo) (ha : 0 < a) (h : Ramp u a vT p t v l p' t' v') {s : Segment ℝ} (hs : s ∈ l)
    (hdn : s.velBegin = s.velEnd.add (u.mul (a * (s.tEnd - s.tBegin)))) : SlowsDown s := by
  obtain ⟨w, w₁, e1, e2, h1, h2, h3⟩ := h.member s hs
  have h4 : 0 < u.norm4 := lt_of_lt_of_le one_pos hu.norms.2.1
  have e3 : w = w₁ + a * (s.tEnd - s.tBegin) := by
    rw [e1, e2, mul_add_mul] at hdn
    exact unit_cancel hu (p := Vec4.zero) (by rw [hdn])
  have h5 : 0 < a * (s.tEnd - s.tBegin) := mul_pos ha (by linarith)
  rw [SlowsDown, e1, e2, norm4_mul_nonneg u h1, norm4_mul_nonneg u h2]
  exact mul_lt_mul_of_pos_left (by linarith) h4

end

/-- What the segments of a block can look like. -/
inductive Shaped : List (Segment ℝ) → Prop
  | three {s₁ s₂ s₃ : Segment ℝ} : SpeedsUp s₁ → Steady s₂ → SlowsDown s₃ → Shaped [s₁, s₂, s₃]
  | two {s₁ s₂ : Segment ℝ} : (SpeedsUp s₁ ∧ SlowsDown s₂) ∨ (SpeedsUp s₁ ∧ Steady s₂) ∨ (Steady s₁ ∧ SlowsDown s₂) →
      Shaped [s₁, s₂]
  | one (s : Segment ℝ) : Shaped [s]

theorem shaped_of_good {b : Block ℝ} (hg : Good b) : Shaped b.segments := by
  rcases hg with ⟨A, u, s0, s1, hm⟩ | ⟨A, p, hd⟩
  · have hu := hm.toHdr.unit.1
    have hne : b.segments ≠ [] := hm.ne_nil
    have hr := hm.hramp
    obtain ⟨up, cr, dn, e, h1, h2, h3, n1, n2, n3⟩ := hm.hprof
    have k1 : ∀ s ∈ up, SpeedsUp s := fun s hs => speedsUp_of hu hm.ha hr (by rw [e]; simp [hs]) (h1 s hs)
    have k2 : ∀ s ∈ cr, Steady s := fun s hs => (h2 s hs).1.trans (h2 s hs).2.symm
    have k3 : ∀ s ∈ dn, SlowsDown s := fun s hs => slowsDown_of hu hm.ha hr (by rw [e]; simp [hs]) (h3 s hs)
    rw [e] at hne ⊢
    match up, cr, dn, n1, n2, n3 with
    | [], [], [], _, _, _ => exact absurd rfl hne
    | [x], [], [], _, _, _ => exact .one x
    | [], [x], [], _, _, _ => exact .one x
    | [], [], [x], _, _, _ => exact .one x
    | [x], [y], [], _, _, _ => exact .two (.inr (.inl ⟨k1 x (by simp), k2 y (by simp)⟩))
    | [x], [], [y], _, _, _ => exact .two (.inl ⟨k1 x (by simp), k3 y (by simp)⟩)
    | [], [x], [y], _, _, _ => exact .two (.inr (.inr ⟨k2 x (by simp), k3 y (by simp)⟩))
    | [x], [y], [z], _, _, _ => exact .three (k1 x (by simp)) (k2 y (by simp)) (k3 z (by simp))
    | _ :: _ :: _, _, _, n, _, _ => simp at n
    | _, _ :: _ :: _, _, _, n, _ => simp at n
    | _, _, _ :: _ :: _, _, _, n => simp at n
  · obtain ⟨t, ht⟩ := hd.hseg
    rw [ht]
    exact .one _

theorem titled_trapezoid : Titled "Trapezoid Planner Block".toList (centred '-' 40 "Trapezoid Planner Block".toList) :=
  ⟨8, 9, by decide +kernel, by decide +kernel, .inr rfl⟩

theorem titled_triangular : Titled "Triangular Planner Block".toList (centred '-' 40 "Triangular Planner Block".toList) :=
  ⟨8, 8, by decide +kernel, by decide +kernel, .inl rfl⟩

theorem titled_singular : Titled "Singular Planner Block".toList (centred '-' 40 "Singular Planner Block".toList) :=
  ⟨9, 9, by decide +kernel, by decide +kernel, .inl rfl⟩

/-- The first letters that are not `-` tell the titles apart. -/
theorem titled_unique {a b txt : List Char} (ha : Titled a txt) (hb : Titled b txt) (ha' : a.head? ≠ some '-' ∧ a ≠ [])
    (hb' : b.head? ≠ some '-' ∧ b ≠ []) (hl : a.getLast? ≠ some '-') (hl' : b.getLast? ≠ some '-') : a = b := by
  have drop : ∀ (n : ℕ) (l : List Char), l.head? ≠ some '-' → (List.replicate n '-' ++ l).dropWhile (· == '-') = l := by
    intro n l hl
    induction n with
    | zero =>
      cases l with
      | nil => rfl
      | cons c l =>
        simp only [List.head?_cons, ne_eq, Option.some.injEq] at hl
        simp [hl]
    | succ n ih => rw [List.replicate_succ, List.cons_append, List.dropWhile_cons_of_pos (by simp), ih]
  have core : ∀ {a : List Char}, a.head? ≠ some '-' ∧ a ≠ [] → a.getLast? ≠ some '-' → ∀ {l r : ℕ},
      (((List.replicate l '-' ++ a ++ List.replicate r '-').dropWhile (· == '-')).reverse.dropWhile (· == '-')).reverse = a := by
    intro a h1 h2 l r
    rw [List.append_assoc, drop, List.reverse_append, List.reverse_replicate, drop, List.reverse_reverse]
    · rwa [List.head?_reverse]
    · cases a with
      | nil => exact absurd rfl h1.2
      | cons c a => simpa using h1.1
  obtain ⟨l, r, h1, _⟩ := ha
  obtain ⟨l', r', h2, _⟩ := hb
  rw [← core ha' hl (l := l) (r := r), ← core hb' hl' (l := l') (r := r'), ← h1, ← h2]

/-- The claim about one block: its title tells its shape. -/
def TitleTells (b : Block ℝ) : Prop :=
  (Titled "Trapezoid Planner Block".toList b.text ∧
    ∃ s₁ s₂ s₃, b.segments = [s₁, s₂, s₃] ∧ SpeedsUp s₁ ∧ Steady s₂ ∧ SlowsDown s₃) ∨
  (Titled "Triangular Planner Block".toList b.text ∧ ∃ s₁ s₂, b.segments = [s₁, s₂] ∧ SpeedsUp s₁ ∧ SlowsDown s₂) ∨
  (Titled "Singular Planner Block".toList b.text ∧ ∃ s, b.segments = [s])

/-- **C102, in full** (refuted): the text of every planned block tells its shape. -/
def C102Full : Prop := ∀ (fw : Firmware) (states : List (PState ℝ)) (bs : List (Block ℝ)), Regular states →
  plan fw states = .ok bs → ∀ b ∈ bs, TitleTells b

theorem good_titles {b : Block ℝ} (hg : Good b) : TitleTells b ∨
      (Titled "Triangular Planner Block".toList b.text ∧ ∃ s₁ s₂, b.segments = [s₁, s₂] ∧
        ((SpeedsUp s₁ ∧ Steady s₂) ∨ (Steady s₁ ∧ SlowsDown s₂))) := by
  have hs := shaped_of_good hg
  generalize hl : b.segments = l at hs
  cases hs with
  | three h1 h2 h3 =>
    refine .inl (.inl ⟨?_, _, _, _, hl, h1, h2, h3⟩)
    rw [Block.text, hl]
    exact titled_trapezoid
  | two h1 =>
    have ht : Titled "Triangular Planner Block".toList b.text := by
      rw [Block.text, hl]
      exact titled_triangular
    rcases h1 with ⟨h1, h2⟩ | h1
    · exact .inl (.inr (.inl ⟨ht, _, _, hl, h1, h2⟩))
    · exact .inr ⟨ht, _, _, rfl, h1⟩
  | one s =>
    refine .inl (.inr (.inr ⟨?_, _, hl⟩))
    rw [Block.text, hl]
    exact titled_singular

/-- **C102**, what holds: the text of a planned block is never "Invalid"; "Trapezoid" means accelerating, cruising and
braking, "Singular" means one phase; but "Triangular" also stands for accelerating and cruising, and for cruising and
braking. Missing: the latter two. -/
theorem c102_titles_partial {fw : Firmware} {states : List (PState ℝ)} {bs : List (Block ℝ)} (hreg : Regular states)
    (h : plan fw states = .ok bs) : ∀ b ∈ bs, TitleTells b ∨
      (Titled "Triangular Planner Block".toList b.text ∧ ∃ s₁ s₂, b.segments = [s₁, s₂] ∧
        ((SpeedsUp s₁ ∧ Steady s₂) ∨ (Steady s₁ ∧ SlowsDown s₂))) := fun b hb =>
  good_titles ((plan_ok hreg h).1 b hb)

theorem rest_titles {b : Block ℝ} (hg : Good b) (hr : b.AtRest) : TitleTells b := by
  rcases good_titles hg with h' | ⟨-, s₁, s₂, hl, hs⟩
  · exact h'
  exfalso
  have hn1 : ∀ s, SpeedsUp s → ¬ Steady s := fun s h1 h2 => by rw [Steady] at h2; rw [SpeedsUp, h2] at h1; exact lt_irrefl _ h1
  have hn2 : ∀ s, SlowsDown s → ¬ Steady s := fun s h1 h2 => by rw [Steady] at h2; rw [SlowsDown, h2] at h1; exact lt_irrefl _ h1
  rcases hr with ⟨A, u, hm⟩ | ⟨A, p, hd⟩
  · have hu := hm.toHdr.unit.1
    obtain ⟨x, y, e1, e2, _, _, e5, _, _, e8⟩ := hm.hramp.ends hm.ne_nil
    rw [hl] at e1 e2
    simp only [List.head?_cons, Option.some.injEq, List.getLast?_cons_cons, List.getLast?_singleton] at e1 e2
    subst e1 e2
    have hz : u.mul 0 = Vec4.zero := Vec4.mul_zero u
    have hmem := hm.hramp
    rw [hl] at hmem
    cases hmem with
    | cons _ _ _ _ hpos _ hrest =>
      cases hrest with
      | cons _ _ _ _ hpos' _ hrest' =>
        cases hrest'
        simp only [Steady] at hs
        rcases hs with ⟨_, h2⟩ | ⟨h1, _⟩
        · have := unit_cancel hu (p := Vec4.zero) (congrArg _ h2)
          linarith
        · have := unit_cancel hu (p := Vec4.zero) (congrArg _ h1)
          linarith
  · obtain ⟨t, ht⟩ := hd.hseg
    rw [ht] at hl
    cases hl

/-- **C102** for default junction handling. Missing: the other firmwares, for which it is false. -/
theorem c102_default_partial {states : List (PState ℝ)} {bs : List (Block ℝ)} (hreg : Regular states)
    (h : plan .default states = .ok bs) : ∀ b ∈ bs, TitleTells b := fun b hb =>
  rest_titles ((plan_ok hreg h).1 b hb) (plan_rest hreg h (fun _ _ _ => rfl) b hb)

/-! ## A move that does not brake -/

/-- With `marlin_jerk` a single straight move of 10 mm accelerates, and is still at its feedrate at the end. -/
theorem Demo.unbraked : ∃ (A B : PState ℝ) (b : Block ℝ) (s₁ s₂ : Segment ℝ), Regular [A, B] ∧
    plan .marlinJerk [A, B] = .ok [b] ∧ b.segments = [s₁, s₂] ∧ Steady s₂ := by
  let A : PState ℝ := ⟨⟨0, 0, 0, 0⟩, 10, 100, 5, none, none⟩
  let B : PState ℝ := ⟨⟨10, 0, 0, 0⟩, 10, 100, 5, none, none⟩
  have hreg : Regular [A, B] := by
    have hall : ∀ s ∈ [A, B], s.speed = 10 ∧ s.pAcc = 100 ∧ s.jerk = 5 ∧ s.pause = none := by
      intro s hs
      simp only [List.mem_cons, List.not_mem_nil, or_false] at hs
      rcases hs with rfl | rfl <;> exact ⟨rfl, rfl, rfl, rfl⟩
    refine ⟨fun s hs => ?_, fun s hs => ?_, fun s hs => ?_, fun s hs p hp => ?_, fun pre s post he hp => ?_,
      fun pre s post he hp => ?_⟩
    · rw [(hall s hs).1]; norm_num
    · rw [(hall s hs).2.1]; norm_num
    · rw [(hall s hs).2.2.1]; norm_num
    · rw [(hall s hs).2.2.2] at hp; cases hp
    · exact absurd (hall s (by rw [he]; simp)).2.2.2 hp
    · exact absurd (hall s (by rw [he]; simp)).2.2.2 hp
  have hne : B.position ≠ A.position := fun h => by simpa [A, B] using congrArg Vec4.x h
  have hn3 : (B.position.sub A.position).norm3 = 10 := by
    rw [← Real.sqrt_sq (show (0 : ℝ) ≤ 10 by norm_num), ← Real.sqrt_sq (Vec4.norm3_nonneg _), Vec4.norm3_sq]
    simp [A, B, Vec4.sub]
  have hj : junctionVel .marlinJerk (some A) B [] = 10 := by
    rw [c18_marlin_jerk_end A B (by norm_num [B]) (by norm_num [B]) (by rw [hn3]; norm_num)]
    norm_num [B]
  obtain ⟨b0, k1, k2⟩ := mkBlock_skip .marlinJerk (A := none) (B := A) (rest := [B]) (pb := none)
    (by simp) rfl
  obtain ⟨b, m1, m2, m3, m4, _, m6, _, _, m9, _, m11⟩ := mkBlock_move .marlinJerk (rest := []) (pb := none) hne
    (by norm_num [B]) (by norm_num [B]) (by norm_num [B]) rfl (by simp)
  have hplan : plan .marlinJerk [A, B] = .ok [b] := by
    simp [plan, genBlocks, k1, k2, m1, m2.ne_nil, correctAll, correctFrom, selfCorrection, bind,
      Except.bind]
  obtain ⟨u, s0, s1, hm, hjd⟩ := m11
  have hu := hm.toHdr.unit.1
  have hdist := hm.toHdr.unit.2.2.1
  have hB : b.stateB.speed = 10 ∧ b.stateB.pAcc = 100 := by rw [m4]; exact ⟨rfl, rfl⟩
  have hlen : (moveDistance A b.stateB).1 = 10 := by
    rw [moveDistance_length, m4, moveLength, hn3, if_neg (by norm_num)]
  have heo : (moveDistance A b.stateB).2 = false := by
    cases he : (moveDistance A b.stateB).2 with
    | false => rfl
    | true =>
      have := hm.toHdr.unit.2.2.2.1.1 he
      rw [m4, hn3] at this
      norm_num at this
  have hun : u.norm3 = 1 := by rw [hu.norms.1, heo]; simp
  have hramp := hm.hramp
  rw [hlen] at hdist
  rw [hB.1, hB.2, hdist] at hramp
  have hprof := hm.hprof
  rw [hB.1, hB.2] at hprof
  obtain ⟨f0, f1, f2, f3, _⟩ := hm.facts
  have hs0 : s0 = 0 := by
    obtain ⟨_, _, _, _, _, _, _, _, _, _, e9, _⟩ := hm.ends
    rw [(m6 rfl).2, hun, one_mul] at e9
    exact e9.symm
  have hs1 : s1 = 10 := by
    rcases m9 with ⟨A', p, hd⟩ | ⟨A', u', s0', s1', hm', hex⟩
    · have := hd.hpause
      rw [m4] at this
      cases this
    · obtain ⟨rfl, rfl, rfl, rfl⟩ := hm.unique hm'
      rcases hex with hex | hex
      · rw [hjd, hj, Option.some.injEq] at hex
        exact (unit_cancel hu (p := Vec4.zero) (by rw [hex])).symm
      · rw [hs0, hlen, hB.2] at hex
        rw [hB.1] at f3
        nlinarith
  rw [hs0, hs1] at hramp
  obtain ⟨l1, l2, l3, hl, p1, p2, p3, n1, n2, n3⟩ := hprof
  rw [hl] at hramp
  obtain ⟨q, r, w, hr, hr3⟩ := hramp.split
  obtain ⟨q1, r1, w1, hr1, hr2⟩ := hr.split
  obtain ⟨d1, d2, d3⟩ := down_ramp hu hr3 p3
  have hl3 : l3 = [] := by
    by_contra hc
    obtain ⟨_, _, _, _, _, _, hf⟩ := hr3.facts (by norm_num)
    obtain ⟨_, _, g3, _, _, g6⟩ := hf hc
    linarith
  have hl2 : l2 ≠ [] := by
    rintro rfl
    subst hl3
    cases hr2
    cases hr3
    obtain ⟨_, u2, u3⟩ := up_ramp hu hr1 p1
    have := unit_cancel hu u3
    nlinarith
  have hl1 : l1 ≠ [] := by
    rintro rfl
    cases hr1
    have hc := cruise_ramp hu hr2 p2
    subst hl3
    cases hr3
    have := hc.2.1
    norm_num at this
  subst hl3
  obtain ⟨x, rfl⟩ : ∃ x, l1 = [x] := List.length_eq_one_iff.1 (le_antisymm n1 (List.length_pos_iff.2 hl1))
  obtain ⟨y, rfl⟩ : ∃ x, l2 = [x] := List.length_eq_one_iff.1 (le_antisymm n2 (List.length_pos_iff.2 hl2))
  exact ⟨A, B, b, x, y, hreg, hplan, hl, (p2 y (by simp)).1.trans (p2 y (by simp)).2.symm⟩

/-- **C102** is false of the code: with `marlin_jerk` a move that accelerates and cruises is called "Triangular". -/
theorem c102_refuted : ¬ C102Full := by
  intro hfull
  obtain ⟨A, B, b, s₁, s₂, hreg, hplan, hl, hs⟩ := Demo.unbraked
  rcases hfull _ _ _ hreg hplan b (by simp) with ⟨_, _, _, _, h, _⟩ | ⟨_, x, y, h, _, h2⟩ | ⟨_, _, h⟩
  · rw [hl] at h; simp at h
  · rw [hl] at h
    simp only [List.cons.injEq, and_true] at h
    obtain ⟨rfl, rfl⟩ := h
    rw [Steady] at hs
    rw [SlowsDown, hs] at h2
    exact lt_irrefl _ h2
  · rw [hl] at h; simp at h

/-- The hypotheses hold for the demo program. -/
example : ∃ bs, plan .default Demo.prog = .ok bs ∧ bs ≠ [] ∧ ∀ b ∈ bs, TitleTells b := by
  obtain ⟨_, bs, _, _, h, _⟩ := c26_correction_total .default Demo.regular
  refine ⟨bs, h, ?_, c102_default_partial Demo.regular h⟩
  rintro rfl
  have := c28_blocks Demo.regular h
  rw [Demo.active_prog] at this
  cases this

/-! ## C104 -/

section
variable {K : Type} {pf : List Char → Option K} {num : K → List Char}

/-- **C104.** The text of a vector is read as its four coordinates; positions and velocities are labelled. -/
theorem c104_vectors {v : Vec4 K} (hx : Prints pf [','] num v.x) (hy : Prints pf [','] num v.y)
    (hz : Prints pf [','] num v.z) (he : Prints pf [','] num v.e) :
    ReadsVector pf (v.text num) v ∧ positionText num v = "position: ".toList ++ v.text num ∧
      velocityText num v = "velocity: ".toList ++ v.text num := by
  have c : ∀ {x : K}, Prints pf [','] num x → ',' ∉ num x := fun h => h.clean ',' (by simp)
  have c' : ∀ {x : K}, Prints pf [','] num x → ',' ∉ ' ' :: num x := fun h hm => by
    rcases List.mem_cons.1 hm with h' | h'
    · cases h'
    · exact c h h'
  refine ⟨⟨num v.x ++ ',' :: ((' ' :: num v.y) ++ ',' :: ((' ' :: num v.z) ++ ',' :: (' ' :: num v.e))), num v.x, num v.y,
    num v.z, num v.e, ?_, ?_, hx.back, hy.back, hz.back, he.back⟩, rfl, rfl⟩
  · simp [Vec4.text]
  · rw [pieces_append _ (c hx), pieces_append _ (c' hy), pieces_append _ (c' hz), pieces_clean (c' he)]

/-- The numbers of a state besides its position. -/
def Occurs (s : GState K) (x : K) : Prop :=
  s.settings.jerk = .num x ∨ s.settings.pAcc = .num x ∨ (∃ a, s.settings.vAx a = .num x) ∨ s.settings.speed = x ∨
    s.pause = some (.num x)

theorem showsVal_text {v : Val K} (h : ∀ x, v = .num x → pf (num x) = some x) : ShowsVal pf (v.text num) v := by
  cases v with
  | num x => exact h x rfl
  | str t => rfl

theorem settings_tell {p : PSettings K} (units : Units → List Char) (hj : ∀ x, p.jerk = .num x → pf (num x) = some x)
    (ha : ∀ x, p.pAcc = .num x → pf (num x) = some x) (hv : ∀ a x, p.vAx a = .num x → pf (num x) = some x)
    (hs : pf (num p.speed) = some p.speed) : SettingsTell pf (p.text num units) p := by
  unfold SettingsTell PSettings.text
  generalize "jerk: ".toList = a1
  generalize ", p_acc: ".toList = a2
  generalize ", max_ax_vel: [".toList = a3
  generalize ", p_vel: ".toList = a4
  generalize ", units: ".toList = a5
  exact ⟨_, _, _, _, _, _, _, _, rfl, showsVal_text hj, showsVal_text ha, showsVal_text (hv .X), showsVal_text (hv .Y), showsVal_text (hv .Z),
    showsVal_text (hv .E), hs⟩

/-- **C104.** The text of a state tells what it is about. -/
theorem c104_states {s : GState K} (hx : Prints pf [','] num s.position.x) (hy : Prints pf [','] num s.position.y)
    (hz : Prints pf [','] num s.position.z) (he : Prints pf [','] num s.position.e)
    (ho : ∀ x, Occurs s x → pf (num x) = some x) (units : Units → List Char) :
    StateTells pf (s.text num units) s.lineNumber s.layer s.position s.settings s.comment s.pause := by
  have hp := (c104_vectors hx hy hz he).1
  have hset := settings_tell units (fun x h => ho x (.inl h)) (fun x h => ho x (.inr (.inl h)))
    (fun a x h => ho x (.inr (.inr (.inl ⟨a, h⟩)))) (ho _ (.inr (.inr (.inr (.inl rfl)))))
  have e : ", position: ".toList = ", ".toList ++ "position: ".toList := by decide +kernel
  unfold StateTells GState.text positionText optText
  rw [e]
  generalize "<state: line: ".toList = a1
  generalize ", ".toList = a2
  generalize "position: ".toList = a3
  generalize ", settings: ".toList = a4
  generalize ", comment: ".toList = a5
  generalize ", pause: ".toList = a6
  generalize ", layer: ".toList = a7
  generalize "None".toList = a8
  refine ⟨_, _, s.position.text num, _, _, _, by simp only [List.append_assoc]; rfl, ?_, ?_, hp, hset, ?_, ?_⟩
  · cases s.lineNumber with
    | none => rfl
    | some k => exact digits?_natText k
  · cases s.layer with
    | none => rfl
    | some k => exact ⟨_, rfl, digits?_natText k⟩
  · cases s.comment <;> rfl
  · cases hw : s.pause with
    | none => rfl
    | some v => exact showsVal_text fun x hv => ho x (.inr (.inr (.inr (.inr (by rw [hw, hv])))))

end

/-- **C104.** The first state says where it comes from; it has no line, no layer and no pause. -/
theorem c104_first_state {K : Type} [Add K] [Sub K] [Mul K] [Div K] [LT K] [DecidableLT K] [OfNat K 0] [OfNat K 1]
    [OfNat K 60] [OfNat K 1000] [OfScientific K] {pf : List Char → Option K} {m : Machine K} {content : List Char}
    {ss : List (GState K)} (h : generateStates pf m content = .ok ss) : ∃ s, ss.head? = some s ∧
      s.comment = some "Initial state created by pyGCD.".toList ∧ s.lineNumber = none ∧ s.layer = none ∧ s.pause = none := by
  unfold generateStates at h
  cases hr : readLines pf (fileLines content) with
  | error x => rw [hr] at h; cases h
  | ok ds =>
    rw [hr] at h
    obtain ⟨p, rest, _, _, rfl⟩ := dictListTraveler_ok h
    exact ⟨_, rfl, rfl, rfl, rfl, rfl⟩

theorem good_segment_text {b : Block ℝ} (hg : Good b) (hf : 0 ≤ b.stateB.speed) (num : ℝ → List Char) :
    ∀ s ∈ b.segments, ∃ pre mid post,
      s.text num = .ok (pre ++ positionText num s.posBegin ++ mid ++ positionText num s.posEnd ++ post) := by
  intro s hs
  have : s.selfCheckOk = true := by
    have hq := hg.quiet hf
    simp only [Block.warns, List.any_eq_false, Bool.not_eq_true', Bool.not_eq_false] at hq
    have := hq s hs
    simp only [Segment.adheres, Bool.and_eq_true] at this
    exact this.1.1
  refine ⟨"\nSegment from: \n".toList, " to \n".toList, " Self check: None.\n".toList, ?_⟩
  rw [Segment.text, if_pos this]

/-- **C104.** Printing a planned segment does not raise, and shows both ends. -/
theorem c104_segments {fw : Firmware} {states : List (PState ℝ)} {bs : List (Block ℝ)} (hreg : Regular states)
    (h : plan fw states = .ok bs) (num : ℝ → List Char) : ∀ b ∈ bs, ∀ s ∈ b.segments, ∃ pre mid post,
      s.text num = .ok (pre ++ positionText num s.posBegin ++ mid ++ positionText num s.posEnd ++ post) := by
  intro b hb
  have hmem : (b.stateA, b.stateB) ∈ active none states := by
    rw [← c28_blocks hreg h]
    exact List.mem_map.2 ⟨b, hb, rfl⟩
  exact good_segment_text ((plan_ok hreg h).1 b hb) (hreg.speed _ (List.of_mem_zip (List.mem_filter.1 hmem).1).2).le num

/-- Vectors whose coordinates are printed and read back. -/
example : ReadsVector Demo.shortRead ((⟨⟨1⟩, ⟨0⟩, ⟨0⟩, ⟨1⟩⟩ : Vec4 Dbl).text Demo.shortText) ⟨⟨1⟩, ⟨0⟩, ⟨0⟩, ⟨1⟩⟩ :=
  (c104_vectors (Demo.shortPrints (by decide) (.inr (.inl rfl))) (Demo.shortPrints (by decide) (.inl rfl))
    (Demo.shortPrints (by decide) (.inl rfl)) (Demo.shortPrints (by decide) (.inr (.inl rfl)))).1

/-- A state with a comment and a pause. -/
def Demo.dwelling : GState Dbl where
  position := ⟨⟨1⟩, ⟨0⟩, ⟨0⟩, ⟨1⟩⟩
  settings := { speed := ⟨1⟩, pAcc := .num ⟨2⟩, jerk := .num ⟨1⟩, vAx := fun _ => .num ⟨2⟩, units := .SImm }
  lineNumber := some 3
  comment := some ['h', 'i']
  layer := none
  pause := some (.num ⟨1⟩)
  prev := some 2
  next := none

example : StateTells Demo.shortRead (Demo.dwelling.text Demo.shortText fun _ => "SImm".toList) (some 3) none
    ⟨⟨1⟩, ⟨0⟩, ⟨0⟩, ⟨1⟩⟩ Demo.dwelling.settings (some ['h', 'i']) (some (.num ⟨1⟩)) := by
  refine c104_states (s := Demo.dwelling) (Demo.shortPrints (by decide) (.inr (.inl rfl)))
    (Demo.shortPrints (by decide) (.inl rfl)) (Demo.shortPrints (by decide) (.inl rfl))
    (Demo.shortPrints (by decide) (.inr (.inl rfl))) (fun x h => ?_) _
  refine (Demo.shortPrints (seps := []) (by simp) ?_).back
  rcases h with h | h | ⟨_, h⟩ | h | h
  · cases h; exact .inr (.inl rfl)
  · cases h; exact .inr (.inr (.inl rfl))
  · cases h; exact .inr (.inr (.inl rfl))
  · exact .inr (.inl h.symm)
  · cases h; exact .inr (.inl rfl)

end PyGCD
