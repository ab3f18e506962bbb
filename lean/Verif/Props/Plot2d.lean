import Verif.Props.Corners
import Verif.Props.Optimal
import Verif.Model.Plot2d
import Verif.Spec.Drawings
import Mathlib.Algebra.Order.Floor.Semiring
import Mathlib.Topology.Order.IntermediateValue
import Mathlib.Topology.Algebra.Ring.Real

/-!
# Property C75: the 2D plot
-/

set_option linter.unusedSectionVars false
set_option linter.unusedSimpArgs false

namespace PyGCD
open Vec4 Spec

variable {fw : Firmware} {states : List (PState ℝ)} {bs : List (Block ℝ)}

noncomputable instance : PyGrid ℝ where
  ceilNat x := ⌈x⌉₊
  natCast n := n

/-! ## Consecutive elements of a list -/

/-- The consecutive elements of a list. -/
def nexts {α : Type} (l : List α) : List (α × α) := l.zip l.tail

theorem nexts_cons {α : Type} (a b : α) (l : List α) : nexts (a :: b :: l) = (a, b) :: nexts (b :: l) := rfl

theorem nexts_append {α : Type} (l : List α) (q : α) (r : List α) :
    nexts (l ++ q :: r) = nexts (l ++ [q]) ++ nexts (q :: r) := by
  induction l with
  | nil => rfl
  | cons a l ih =>
    cases l with
    | nil => rfl
    | cons b l =>
      simp only [List.cons_append, nexts_cons] at *
      rw [ih]

theorem nexts_map {α β : Type} (f : α → β) (l : List α) :
    nexts (l.map f) = (nexts l).map fun p => (f p.1, f p.2) := by
  unfold nexts
  rw [← List.map_tail, List.zip_map]
  rfl

theorem mem_nexts {α : Type} {l : List α} {p : α × α} (h : p ∈ nexts l) :
    ∃ i, l[i]? = some p.1 ∧ l[i + 1]? = some p.2 := by
  obtain ⟨i, hi⟩ := List.mem_iff_getElem?.1 h
  refine ⟨i, ?_⟩
  rw [nexts, List.getElem?_zip_eq_some] at hi
  rw [List.getElem?_tail] at hi
  exact hi

/-- A list of numbers leaves no gap between its first and its last element. -/
theorem nexts_between : ∀ (l : List ℝ) (x y : ℝ), l.head? = some x → l.getLast? = some y → x < y →
    ∀ s, x ≤ s → s ≤ y → ∃ p ∈ nexts l, p.1 ≤ s ∧ s ≤ p.2
  | [], x, y, h, _, _, _, _, _ => by simp at h
  | [a], x, y, h1, h2, h3, _, _, _ => by
    simp only [List.head?_cons, Option.some.injEq, List.getLast?_singleton] at h1 h2
    linarith
  | a :: b :: l, x, y, h1, h2, h3, s, h4, h5 => by
    simp only [List.head?_cons, Option.some.injEq] at h1
    subst h1
    rw [nexts_cons]
    by_cases hs : s ≤ b
    · exact ⟨(a, b), by simp, h4, hs⟩
    · push Not at hs
      obtain ⟨p, hp, h6⟩ := nexts_between (b :: l) b y rfl (by rw [← h2]; simp [List.getLast?_cons_cons])
        (by linarith) s hs.le h5
      exact ⟨p, by simp [hp], h6⟩

/-! ## The grid on one segment -/

/-- The parameters of the points on one segment, and the begin of the next one. -/
noncomputable def grid (n : ℕ) : List ℝ := linspace01 n ++ [1]

theorem linspace_mem {n : ℕ} {a : ℝ} (h : a ∈ (linspace01 n : List ℝ)) : 0 ≤ a ∧ a ≤ 1 := by
  match n, h with
  | 0, h => simp [linspace01] at h
  | 1, h =>
    simp only [linspace01, List.mem_singleton] at h
    subst h
    exact ⟨le_refl _, zero_le_one⟩
  | n + 2, h =>
    simp only [linspace01, List.mem_map, List.mem_range] at h
    obtain ⟨i, hi, rfl⟩ := h
    have h1 : (i : ℝ) ≤ (n + 1 : ℕ) := by exact_mod_cast (by omega : i ≤ n + 1)
    have h2 : (0 : ℝ) < (n + 1 : ℕ) := by exact_mod_cast Nat.succ_pos n
    show 0 ≤ (i : ℝ) / (n + 1 : ℕ) ∧ (i : ℝ) / (n + 1 : ℕ) ≤ 1
    exact ⟨div_nonneg (Nat.cast_nonneg i) h2.le, (div_le_one h2).2 h1⟩

theorem linspace_head {n : ℕ} (h : n ≠ 0) : ∃ l, (linspace01 n : List ℝ) = 0 :: l := by
  match n, h with
  | 0, h => exact absurd rfl h
  | 1, h => exact ⟨[], rfl⟩
  | n + 2, h =>
    rw [linspace01, List.range_succ_eq_map, List.map_cons]
    exact ⟨_, by
      congr 1
      show ((0 : ℕ) : ℝ) / _ = 0
      simp⟩

theorem linspace_last (n : ℕ) : (linspace01 (n + 2) : List ℝ).getLast? = some 1 := by
  simp only [linspace01]
  rw [List.range_succ, List.map_append, List.map_singleton, List.getLast?_append]
  show some (((n + 1 : ℕ) : ℝ) / ((n + 1 : ℕ) : ℝ)) = _
  rw [div_self (by exact_mod_cast Nat.succ_ne_zero n)]

/-- The steps of the grid: forwards, and of the size that the number of points asks for. -/
theorem linspace_step {n : ℕ} {p : ℝ × ℝ} (h : p ∈ nexts (linspace01 (n + 2) : List ℝ)) :
    p.2 = p.1 + 1 / (n + 1 : ℕ) := by
  obtain ⟨i, h1, h2⟩ := mem_nexts h
  simp only [linspace01, List.getElem?_map, Option.map_eq_some_iff] at h1 h2
  obtain ⟨j, j1, j2⟩ := h1
  obtain ⟨k, k1, k2⟩ := h2
  have ej := (List.getElem?_eq_some_iff.1 j1).2
  have ek := (List.getElem?_eq_some_iff.1 k1).2
  rw [List.getElem_range] at ej ek
  subst ej ek
  rw [← j2, ← k2]
  show ((i + 1 : ℕ) : ℝ) / (n + 1 : ℕ) = (i : ℝ) / (n + 1 : ℕ) + _
  push_cast
  ring

/-- What is known of two consecutive points of the grid. -/
theorem grid_step {n : ℕ} (hn : n ≠ 0) {p : ℝ × ℝ} (h : p ∈ nexts (grid n)) :
    0 ≤ p.1 ∧ p.1 ≤ p.2 ∧ p.2 ≤ 1 ∧ (n ≠ 1 → (p.2 - p.1) * ((n - 1 : ℕ) : ℝ) ≤ 1) := by
  match n, hn, h with
  | 0, hn, _ => exact absurd rfl hn
  | 1, _, h =>
    have : p = (0, 1) := by simpa [grid, linspace01, nexts] using h
    subst this
    exact ⟨le_refl _, zero_le_one, le_refl _, fun h => absurd rfl h⟩
  | n + 2, hn, h =>
    obtain ⟨l, hl⟩ := List.getLast?_eq_some_iff.1 (linspace_last n)
    unfold grid at h
    have e : (linspace01 (n + 2) ++ [1] : List ℝ) = l ++ 1 :: [1] := by rw [hl]; simp
    rw [e, nexts_append, ← hl, List.mem_append] at h
    have hpos : (0 : ℝ) < ((n + 1 : ℕ) : ℝ) := by exact_mod_cast Nat.succ_pos n
    rcases h with h | h
    · have hs := linspace_step h
      have m1 := linspace_mem (List.of_mem_zip h).1
      have m2 := linspace_mem (List.mem_of_mem_tail (List.of_mem_zip h).2)
      have : 0 < 1 / ((n + 1 : ℕ) : ℝ) := by positivity
      refine ⟨m1.1, by rw [hs]; linarith, m2.2, fun _ => ?_⟩
      rw [hs, show n + 2 - 1 = n + 1 from rfl, add_sub_cancel_left, one_div, inv_mul_cancel₀ hpos.ne']
    · have : p = (1, 1) := by simpa [nexts] using h
      subst this
      refine ⟨zero_le_one, le_refl _, le_refl _, fun _ => ?_⟩
      rw [sub_self, zero_mul]
      exact zero_le_one

theorem grid_between {n : ℕ} (hn : n ≠ 0) {s : ℝ} (h0 : 0 ≤ s) (h1 : s ≤ 1) :
    ∃ p ∈ nexts (grid n), p.1 ≤ s ∧ s ≤ p.2 := by
  obtain ⟨l, hl⟩ := linspace_head hn
  refine nexts_between (grid n) 0 1 ?_ ?_ zero_lt_one s h0 h1
  · rw [grid, hl]; rfl
  · rw [grid, List.getLast?_append]; rfl

theorem linspace_between {n : ℕ} {s : ℝ} (h0 : 0 ≤ s) (h1 : s ≤ 1) :
    ∃ p ∈ nexts (linspace01 (n + 2) : List ℝ), p.1 ≤ s ∧ s ≤ p.2 := by
  obtain ⟨l, hl⟩ := linspace_head (n := n + 2) (by omega)
  exact nexts_between _ 0 1 (by rw [hl]; rfl) (linspace_last n) zero_lt_one s h0 h1

/-! ## The interpolated points -/

variable {res : ℝ}

theorem Dot.count_ne (p q : Dot ℝ) : Dot.count res p q ≠ 0 := by
  unfold Dot.count
  split <;> omega

theorem Dot.lerp_zero (p q : Dot ℝ) : Dot.lerp p q 0 = p := by
  cases p; simp [Dot.lerp]

theorem Dot.lerp_one (p q : Dot ℝ) : Dot.lerp p q 1 = q := by
  cases p; cases q; simp [Dot.lerp]

/-- The lines on the way from one vertex to the next one. -/
noncomputable def segLines (res : ℝ) (p q : Dot ℝ) : List (Dot ℝ × Dot ℝ) :=
  (nexts (grid (Dot.count res p q))).map fun a => (Dot.lerp p q a.1, Dot.lerp p q a.2)

/-- The lines on the way to the last vertex. -/
noncomputable def lastLines (res : ℝ) (p q : Dot ℝ) : List (Dot ℝ × Dot ℝ) :=
  (nexts (linspace01 (Dot.count res p q))).map fun a => (Dot.lerp p q a.1, Dot.lerp p q a.2)

theorem interp_head (p q : Dot ℝ) (r : List (Dot ℝ)) : ∃ l, interp2D res (p :: q :: r) = p :: l := by
  obtain ⟨l, hl⟩ := linspace_head (Dot.count_ne (res := res) p q)
  refine ⟨l.map (Dot.lerp p q) ++ interp2D res (q :: r), ?_⟩
  rw [interp2D, hl, List.map_cons, Dot.lerp_zero]
  rfl

theorem interp_lines (p q : Dot ℝ) (r : List (Dot ℝ)) :
    nexts (interp2D res (p :: q :: r)) =
      if r = [] then lastLines res p q else segLines res p q ++ nexts (interp2D res (q :: r)) := by
  cases r with
  | nil =>
    rw [if_pos rfl, interp2D, interp2D, List.append_nil, nexts_map]
    · rfl
    · simp
  | cons z r =>
    rw [if_neg (by simp)]
    obtain ⟨l, hl⟩ := interp_head (res := res) q z r
    rw [interp2D, hl, nexts_append]
    congr 1
    have : (linspace01 (Dot.count res p q)).map (Dot.lerp p q) ++ [q] =
        (grid (Dot.count res p q)).map (Dot.lerp p q) := by
      rw [grid, List.map_append, List.map_singleton, Dot.lerp_one]
    rw [this, nexts_map]
    rfl

/-- The way from one vertex to the other. -/
noncomputable def Dot.dist (p q : Dot ℝ) : ℝ :=
  √((q.x - p.x) * (q.x - p.x) + (q.y - p.y) * (q.y - p.y))

theorem Dot.count_one {p q : Dot ℝ} (hres : 0 < res) (h : Dot.count res p q = 1) :
    p.c = q.c ∨ Dot.dist p q = 0 := by
  unfold Dot.count at h
  split at h
  · right
    have h0 : ⌈Dot.dist p q / res⌉₊ = 0 := Nat.succ_injective h
    have := Nat.ceil_eq_zero.1 h0
    have h1 : Dot.dist p q ≤ 0 := by
      by_contra hc
      push Not at hc
      have := div_pos hc hres
      linarith
    exact le_antisymm h1 (Real.sqrt_nonneg _)
  · left
    rename_i hc
    rw [pyAbs_real] at hc
    have : |q.c - p.c| = 0 := le_antisymm (not_lt.1 hc) (abs_nonneg _)
    linarith [abs_eq_zero.1 this]

theorem Dot.count_fine {p q : Dot ℝ} (hres : 0 < res) (h : Dot.count res p q ≠ 1) :
    Dot.dist p q ≤ ((Dot.count res p q - 1 : ℕ) : ℝ) * res := by
  unfold Dot.count at *
  split at h
  · rename_i hc
    rw [if_pos hc, Nat.add_sub_cancel]
    have := Nat.le_ceil (Dot.dist p q / res)
    rwa [div_le_iff₀ hres] at this
  · exact absurd rfl h

/-- What is known of a line of the plot: it is a piece of the way from one vertex to the next one, and it is short
where the colour changes. -/
def PieceOf (res : ℝ) (p q : Dot ℝ) (l : Dot ℝ × Dot ℝ) : Prop :=
  ∃ a b, 0 ≤ a ∧ a ≤ b ∧ b ≤ 1 ∧ l = (Dot.lerp p q a, Dot.lerp p q b) ∧
    ((b - a) * Dot.dist p q ≤ res ∨ p.c = q.c)

theorem segLines_piece (hres : 0 < res) {p q : Dot ℝ} {l : Dot ℝ × Dot ℝ} (h : l ∈ segLines res p q) :
    PieceOf res p q l := by
  unfold segLines at h
  obtain ⟨a, ha, rfl⟩ := List.mem_map.1 h
  obtain ⟨h1, h2, h3, h4⟩ := grid_step (Dot.count_ne p q) ha
  refine ⟨a.1, a.2, h1, h2, h3, rfl, ?_⟩
  by_cases hn : Dot.count res p q = 1
  · rcases Dot.count_one hres hn with h | h
    · exact Or.inr h
    · left
      rw [h, MulZeroClass.mul_zero]
      exact hres.le
  · left
    have := Dot.count_fine hres hn
    calc (a.2 - a.1) * Dot.dist p q ≤ (a.2 - a.1) * (((Dot.count res p q - 1 : ℕ) : ℝ) * res) :=
          mul_le_mul_of_nonneg_left this (by linarith)
      _ = (a.2 - a.1) * ((Dot.count res p q - 1 : ℕ) : ℝ) * res := by ring
      _ ≤ 1 * res := mul_le_mul_of_nonneg_right (h4 hn) hres.le
      _ = res := one_mul _

theorem lastLines_sub {p q : Dot ℝ} {l : Dot ℝ × Dot ℝ} (h : l ∈ lastLines res p q) : l ∈ segLines res p q := by
  unfold lastLines at h
  unfold segLines
  refine List.map_subset _ ?_ h
  intro a ha
  unfold grid
  cases hl : (linspace01 (Dot.count res p q) : List ℝ).reverse with
  | nil =>
    rw [List.reverse_eq_nil_iff] at hl
    rw [hl] at ha
    simp [nexts] at ha
  | cons z l =>
    have e : (linspace01 (Dot.count res p q) : List ℝ) = l.reverse ++ [z] := by
      rw [← List.reverse_reverse (linspace01 _), hl, List.reverse_cons]
    rw [e, List.append_assoc, List.singleton_append, nexts_append, ← e]
    exact List.mem_append_left _ ha

/-- Every line of the plot is a piece of the way between two consecutive vertices. -/
theorem interp_pieces (hres : 0 < res) : ∀ (ps : List (Dot ℝ)), ∀ l ∈ nexts (interp2D res ps),
    ∃ pq ∈ nexts ps, PieceOf res pq.1 pq.2 l ∧ (pq ∈ (nexts ps).dropLast ∨ Dot.count res pq.1 pq.2 ≠ 1)
  | [], l, h => by simp [interp2D, nexts] at h
  | [p], l, h => by simp [interp2D, nexts] at h
  | p :: q :: r, l, h => by
    rw [interp_lines] at h
    by_cases hr : r = []
    · rw [if_pos hr] at h
      refine ⟨(p, q), by simp [nexts_cons], segLines_piece hres (lastLines_sub h), Or.inr ?_⟩
      intro hc
      simp only [lastLines] at h
      rw [hc] at h
      simp [linspace01, nexts] at h
    · rw [if_neg hr, List.mem_append] at h
      obtain ⟨z, r, rfl⟩ := List.exists_cons_of_ne_nil hr
      rcases h with h | h
      · refine ⟨(p, q), by simp [nexts_cons], segLines_piece hres h, Or.inl ?_⟩
        rw [nexts_cons, nexts_cons, List.dropLast_cons_cons]
        simp
      · obtain ⟨pq, h1, h2, h3⟩ := interp_pieces hres (q :: z :: r) l h
        refine ⟨pq, by rw [nexts_cons]; exact List.mem_cons_of_mem _ h1, h2, h3.imp (fun h3 => ?_) id⟩
        rw [nexts_cons, nexts_cons, List.dropLast_cons_cons, ← nexts_cons]
        exact List.mem_cons_of_mem _ h3

/-- The whole way between two vertices is drawn, except perhaps on the way to the last vertex. -/
theorem interp_covers : ∀ (ps : List (Dot ℝ)), ∀ pq ∈ nexts ps,
    (pq ∈ (nexts ps).dropLast ∨ Dot.count res pq.1 pq.2 ≠ 1) → ∀ s, 0 ≤ s → s ≤ 1 →
    ∃ a b, a ≤ s ∧ s ≤ b ∧ (Dot.lerp pq.1 pq.2 a, Dot.lerp pq.1 pq.2 b) ∈ nexts (interp2D res ps)
  | [], pq, h, _, _, _, _ => by simp [nexts] at h
  | [p], pq, h, _, _, _, _ => by simp [nexts] at h
  | p :: q :: r, pq, h, hc, s, h0, h1 => by
    rw [interp_lines]
    rw [nexts_cons] at h hc
    by_cases hr : r = []
    · subst hr
      rw [if_pos rfl]
      simp only [nexts, List.tail_cons, List.zip_nil_right, List.mem_singleton, List.dropLast_singleton,
        List.not_mem_nil, false_or] at h hc
      subst h
      have hn := Dot.count_ne (res := res) p q
      obtain ⟨n, hn⟩ : ∃ n, Dot.count res p q = n + 2 := ⟨Dot.count res p q - 2, by
        have : Dot.count res p q ≠ 1 := hc
        omega⟩
      obtain ⟨a, ha, h2, h3⟩ := linspace_between (n := n) h0 h1
      rw [← hn] at ha
      exact ⟨a.1, a.2, h2, h3, List.mem_map.2 ⟨a, ha, rfl⟩⟩
    · rw [if_neg hr]
      by_cases hpq : pq = (p, q)
      · subst hpq
        obtain ⟨a, ha, h2, h3⟩ := grid_between (Dot.count_ne (res := res) p q) h0 h1
        exact ⟨a.1, a.2, h2, h3, List.mem_append_left _ (List.mem_map.2 ⟨a, ha, rfl⟩)⟩
      · have hc' : pq ∈ (nexts (q :: r)).dropLast ∨ Dot.count res pq.1 pq.2 ≠ 1 := by
          rcases hc with hc | hc
          · left
            obtain ⟨z, r, rfl⟩ := List.exists_cons_of_ne_nil hr
            rw [nexts_cons, List.dropLast_cons_cons, ← nexts_cons] at hc
            exact (List.mem_cons.1 hc).resolve_left hpq
          · exact Or.inr hc
        obtain ⟨a, b, h2, h3, h4⟩ := interp_covers (q :: r) pq ((List.mem_cons.1 h).resolve_left hpq) hc' s h0 h1
        exact ⟨a, b, h2, h3, List.mem_append_right _ h4⟩

/-! ## The motion over one segment -/

/-- Speeds on the way from `a` to `b` with constant acceleration, against the straight line over the distance. -/
theorem speed_over_distance {a b x : ℝ} (ha : 0 ≤ a) (hb : 0 ≤ b) (hab : 0 < a + b) (hx0 : 0 ≤ x) (hx1 : x ≤ 1)
    {s : ℝ} (hs : s = (a + (a + (b - a) * x)) * x / (a + b)) :
    a + (b - a) * s ≤ a + (b - a) * x ∧ a + (b - a) * x ≤ a + (b - a) * s + |b - a| / 4 := by
  have e : a + (b - a) * x - (a + (b - a) * s) = (b - a) ^ 2 * (x * (1 - x)) / (a + b) := by
    rw [hs]
    field_simp
    ring
  have h1 : 0 ≤ x * (1 - x) := mul_nonneg hx0 (by linarith)
  have h2 : x * (1 - x) ≤ 1 / 4 := by nlinarith [sq_nonneg (x - 1 / 2)]
  have h3 : 0 ≤ (b - a) ^ 2 * (x * (1 - x)) / (a + b) := by positivity
  have h4 : (b - a) ^ 2 * (x * (1 - x)) / (a + b) ≤ |b - a| / 4 := by
    rw [div_le_iff₀ hab]
    have h5 : |b - a| ≤ a + b := by
      rw [abs_le]
      constructor <;> linarith
    calc (b - a) ^ 2 * (x * (1 - x)) ≤ (b - a) ^ 2 * (1 / 4) :=
          mul_le_mul_of_nonneg_left h2 (sq_nonneg _)
      _ = |b - a| / 4 * |b - a| := by rw [← sq_abs]; ring
      _ ≤ |b - a| / 4 * (a + b) := mul_le_mul_of_nonneg_left h5 (by positivity)
  constructor <;> linarith

/-- The point of a segment at a given fraction of its way. -/
noncomputable def Segment.spot (s : Segment ℝ) (c : ℝ) : ℝ × ℝ :=
  (s.posBegin.x + (s.posEnd.x - s.posBegin.x) * c, s.posBegin.y + (s.posEnd.y - s.posBegin.y) * c)

/-- A segment runs over the straight line between its ends, without gap, and nowhere else. -/
structure Sweeps (s : Segment ℝ) : Prop where
  back : ∀ t q v, Over s t q v → ∃ c, 0 ≤ c ∧ c ≤ 1 ∧ q = s.spot c
  forth : ∀ c, 0 ≤ c → c ≤ 1 → ∃ t v, Over s t (s.spot c) v ∧
    s.velBegin.norm3 + (s.velEnd.norm3 - s.velBegin.norm3) * c ≤ v ∧
    v ≤ s.velBegin.norm3 + (s.velEnd.norm3 - s.velBegin.norm3) * c + |s.velEnd.norm3 - s.velBegin.norm3| / 4
  still : s.velBegin.norm3 = 0 → s.velEnd.norm3 = 0 → s.posEnd.x = s.posBegin.x ∧ s.posEnd.y = s.posBegin.y

theorem SegOn.sweeps {u p : Vec4 ℝ} {a vT L w w₁ l l₁ : ℝ} {s : Segment ℝ}
    (g : SegOn u a vT p L s w w₁ l l₁) : Sweeps s := by
  have hd := sub_pos.2 g.ht
  have hw := g.hw.1
  have hw₁ := g.hw₁.1
  have hpos := g.hpos
  have hn := norm3_nonneg u
  -- the fraction of the way after the fraction `x` of the time
  have key : ∀ x, 0 ≤ x → x ≤ 1 → ∀ c, c = (w + (w + (w₁ - w) * x)) * x / (w + w₁) →
      0 ≤ c ∧ c ≤ 1 ∧
      s.getVelocity (s.tBegin + (s.tEnd - s.tBegin) * x) = .ok (u.mul (w + (w₁ - w) * x)) ∧
      ∃ r, s.getPosition (s.tBegin + (s.tEnd - s.tBegin) * x) = .ok r ∧ (r.x, r.y) = s.spot c := by
    intro x h0 h1 c hc
    have hcov : s.tBegin ≤ s.tBegin + (s.tEnd - s.tBegin) * x ∧
        s.tBegin + (s.tEnd - s.tBegin) * x ≤ s.tEnd := by
      constructor <;> nlinarith
    have hsp : SegOn.speed s w w₁ (s.tBegin + (s.tEnd - s.tBegin) * x) = w + (w₁ - w) * x := by
      unfold SegOn.speed
      rw [add_sub_cancel_left]
      field_simp
    have hwx : 0 ≤ w + (w₁ - w) * x := by nlinarith
    refine ⟨?_, ?_, ?_, ?_⟩
    · rw [hc]
      positivity
    · rw [hc, div_le_one hpos]
      have : 0 ≤ (1 - x) * (w * (1 - x) + w₁ * (1 + x)) := by
        have : 0 ≤ 1 - x := by linarith
        positivity
      nlinarith
    · rw [g.getVelocity hcov, hsp]
    · refine ⟨_, g.getPosition hcov, ?_⟩
      rw [hsp]
      have e : (w + (w + (w₁ - w) * x)) / 2 * ((s.tEnd - s.tBegin) * x) = (l₁ - l) * c := by
        rw [g.hlen, hc]
        field_simp
        ring
      simp only [Segment.spot, g.hpb, g.hpe, Vec4.add, Vec4.mul, Prod.mk.injEq, add_sub_cancel_left, e]
      constructor <;> ring
  have hnb : s.velBegin.norm3 = u.norm3 * w := by rw [g.hvb, norm3_mul, abs_of_nonneg hw]
  have hne : s.velEnd.norm3 = u.norm3 * w₁ := by rw [g.hve, norm3_mul, abs_of_nonneg hw₁]
  refine ⟨?_, ?_, ?_⟩
  · rintro t q v ⟨⟨c1, c2⟩, r, z, hr, -, rfl, -⟩
    obtain ⟨x, h0, h1, ht⟩ : ∃ x, 0 ≤ x ∧ x ≤ 1 ∧ t = s.tBegin + (s.tEnd - s.tBegin) * x :=
      ⟨(t - s.tBegin) / (s.tEnd - s.tBegin), div_nonneg (by linarith) hd.le,
        (div_le_one hd).2 (by linarith), by field_simp; ring⟩
    obtain ⟨k1, k2, _, r', k4, k5⟩ := key x h0 h1 _ rfl
    rw [← ht, hr, Except.ok.injEq] at k4
    rw [← k4] at k5
    exact ⟨_, k1, k2, k5⟩
  · intro c hc0 hc1
    have hcont : Continuous fun x : ℝ => (w + (w + (w₁ - w) * x)) * x / (w + w₁) := by fun_prop
    obtain ⟨x, ⟨h0, h1⟩, hx⟩ := intermediate_value_Icc (zero_le_one (α := ℝ)) hcont.continuousOn
      (show c ∈ _ from ⟨by simpa using hc0, by
        have : (w + (w + (w₁ - w) * 1)) * 1 / (w + w₁) = 1 := by
          rw [mul_one, mul_one, show w + (w + (w₁ - w)) = w + w₁ by ring, div_self hpos.ne']
        show c ≤ (w + (w + (w₁ - w) * 1)) * 1 / (w + w₁)
        rw [this]
        exact hc1⟩)
    obtain ⟨_, _, k3, r, k4, k5⟩ := key x h0 h1 c hx.symm
    obtain ⟨b1, b2⟩ := speed_over_distance hw hw₁ hpos h0 h1 hx.symm
    have hwx : 0 ≤ w + (w₁ - w) * x := by nlinarith
    refine ⟨_, _, ⟨⟨?_, ?_⟩, r, _, k4, k3, k5.symm, rfl⟩, ?_, ?_⟩
    · nlinarith
    · nlinarith
    · rw [norm3_mul, abs_of_nonneg hwx, hnb, hne]
      nlinarith [mul_le_mul_of_nonneg_left b1 hn]
    · rw [norm3_mul, abs_of_nonneg hwx, hnb, hne, ← mul_sub, abs_mul, abs_of_nonneg hn]
      nlinarith [mul_le_mul_of_nonneg_left b2 hn]
  · intro h1 h2
    rw [hnb] at h1
    rw [hne] at h2
    have h0 : u.norm3 = 0 := by
      have : u.norm3 * (w + w₁) = 0 := by linarith
      rcases mul_eq_zero.1 this with h | h
      · exact h
      · exact absurd h hpos.ne'
    obtain ⟨hx, hy, _⟩ := norm3_eq_zero.1 h0
    rw [g.hpb, g.hpe]
    simp [Vec4.add, Vec4.mul, hx, hy]

theorem sweeps_static {t0 t1 : ℝ} {p : Vec4 ℝ} (h : t0 ≤ t1) :
    Sweeps (⟨t0, t1, p, Vec4.zero, p, Vec4.zero⟩ : Segment ℝ) := by
  refine ⟨?_, ?_, fun _ _ => ⟨rfl, rfl⟩⟩
  · rintro t q v ⟨_, r, z, hr, -, rfl, -⟩
    rw [static_position hr]
    exact ⟨0, le_refl _, zero_le_one, by simp [Segment.spot]⟩
  · intro c _ _
    have hc : (⟨t0, t1, p, Vec4.zero, p, Vec4.zero⟩ : Segment ℝ).tBegin ≤ t0 ∧
        t0 ≤ (⟨t0, t1, p, Vec4.zero, p, Vec4.zero⟩ : Segment ℝ).tEnd := ⟨le_refl _, h⟩
    obtain ⟨r, hr⟩ := getPosition_total hc
    obtain ⟨w, hw⟩ := getVelocity_total hc
    have e := static_position hr
    have e' := static_velocity hw
    subst e e'
    refine ⟨t0, _, ⟨hc, r, _, hr, hw, ?_, rfl⟩, ?_, ?_⟩
    · simp [Segment.spot]
    · simp [norm3_zero]
    · simp [norm3_zero]

theorem path_sweeps_sound (hr : SoundRun bs) {s : Segment ℝ}
    (hs : s ∈ Spec.path bs) : Sweeps s := by
  obtain ⟨b, hb, hs⟩ := List.mem_flatMap.1 hs
  rcases hr.good b hb with ⟨A, u, s0, s1, hm⟩ | ⟨A, q, hm⟩
  · obtain ⟨L, _, _, hL⟩ := hm.hramp.mem
    obtain ⟨w, w₁, l, l₁, g⟩ := hL s hs
    exact g.sweeps
  · obtain ⟨t0, ht0⟩ := hm.hseg
    rw [ht0, List.mem_singleton] at hs
    subst hs
    exact sweeps_static (by have := hm.hp; linarith)

theorem path_sweeps (hreg : Regular states) (h : plan fw states = .ok bs) {s : Segment ℝ}
    (hs : s ∈ Spec.path bs) : Sweeps s :=
  path_sweeps_sound (plan_sound hreg h) hs

theorem unpack_slower_sound (hr : SoundRun bs) :
    (unpack bs).IsChain fun s s' => s'.velBegin.norm3 ≤ s.velEnd.norm3 := by
  obtain ⟨hg, hc, _⟩ := hr
  unfold unpack
  rw [List.flatMap_def, List.isChain_flatten]
  · constructor
    · intro l hl
      obtain ⟨b, hb, rfl⟩ := List.mem_map.1 hl
      rcases hg b hb with ⟨A, u, s0, s1, hm⟩ | ⟨A, q, hm⟩
      · refine hm.hramp.chain.imp ?_
        rintro s s' ⟨h1, h2, h3⟩
        rw [h3]
      · obtain ⟨t0, ht0⟩ := hm.hseg
        rw [ht0]
        exact List.isChain_singleton _
    · rw [List.isChain_map]
      refine List.IsChain.imp_of_mem_imp ?_ hc
      rintro b c hb hc ⟨l1, l2, l3, l4⟩ x hx y hy
      obtain ⟨A, s, s', e1, e2, e3, e4, e5, e6, e7, e8, e9, _⟩ := (hg b hb).facts
      obtain ⟨A', q, q', f1, f2, f3, f4, f5, f6, f7, f8, f9, _⟩ := (hg c hc).facts
      rw [Option.mem_def] at hx hy
      rw [hx] at e3
      rw [hy] at f2
      cases e3
      cases f2
      rw [e9, f6]
      exact l2
  · intro hn
    obtain ⟨b, hb, hb'⟩ := List.mem_map.1 hn
    exact (hg b hb).ne_nil hb'

/-- No segment begins faster than the one before it ended. -/
theorem unpack_slower (hreg : Regular states) (h : plan fw states = .ok bs) :
    (unpack bs).IsChain fun s s' => s'.velBegin.norm3 ≤ s.velEnd.norm3 :=
  unpack_slower_sound (plan_sound hreg h)

/-! ## The vertices of the plot -/

/-- The end of a segment with its speed. -/
noncomputable def endDot (s : Segment ℝ) : Dot ℝ := ⟨s.posEnd.x, s.posEnd.y, s.velEnd.norm3⟩

/-- Two consecutive vertices belong to a segment. -/
structure VertOf (pq : Dot ℝ × Dot ℝ) (s : Segment ℝ) : Prop where
  hx : pq.1.x = s.posBegin.x
  hy : pq.1.y = s.posBegin.y
  lo : s.velBegin.norm3 ≤ pq.1.c
  hi : pq.1.c ≤ s.velBegin.norm3 + 1e-12
  hend : pq.2 = endDot s

theorem verts_rel (R : Segment ℝ → Segment ℝ → Prop)
    (hR : ∀ s s', R s s' → VertOf (endDot s, endDot s') s') :
    ∀ (ss : List (Segment ℝ)) (p : Dot ℝ), (∀ s ∈ ss.head?, VertOf (p, endDot s) s) → ss.IsChain R →
      List.Forall₂ VertOf (nexts (p :: ss.map endDot)) ss
  | [], p, _, _ => by simp [nexts]
  | s :: ss, p, h, hc => by
    rw [List.map_cons, nexts_cons]
    refine .cons (h s (by simp)) (verts_rel R hR ss (endDot s) ?_ hc.tail)
    intro s' hs'
    cases ss with
    | nil => simp at hs'
    | cons z ss =>
      simp only [List.head?_cons, Option.mem_def, Option.some.injEq] at hs'
      subst hs'
      exact hR s z (List.isChain_cons_cons.1 hc).1

theorem plan_verts_sound (hr : SoundRun bs) (hne : Spec.path bs ≠ []) :
    ∃ ps, dots (unpack bs) = .ok ps ∧ List.Forall₂ VertOf (nexts ps) (Spec.path bs) ∧
      ∃ p, ps = p :: (Spec.path bs).map endDot := by
  have hch := hr.unpack_chain
  have hsl := unpack_slower_sound hr
  unfold Spec.path unpack at *
  cases hp : bs.flatMap Block.segments with
  | nil => exact absurd hp hne
  | cons s ss =>
    rw [hp] at hch hsl
    refine ⟨_, rfl, ?_, _, rfl⟩
    refine verts_rel (fun s s' => (s'.tBegin = s.tEnd ∧ s'.posBegin = s.posEnd ∧
      |s.velEnd.norm3 - s'.velBegin.norm3| ≤ 1e-12) ∧ s'.velBegin.norm3 ≤ s.velEnd.norm3) ?_ (s :: ss) _ ?_ ?_
    · rintro x y ⟨⟨_, h2, h3⟩, h4⟩
      refine ⟨by rw [h2]; rfl, by rw [h2]; rfl, h4, ?_, rfl⟩
      have := (abs_le.1 h3).2
      show x.velEnd.norm3 ≤ _
      linarith
    · intro x hx
      simp only [List.head?_cons, Option.mem_def, Option.some.injEq] at hx
      subst hx
      refine ⟨rfl, rfl, le_refl _, ?_, rfl⟩
      show s.velBegin.norm3 ≤ _
      norm_num
    · rw [List.isChain_iff_getElem] at *
      exact fun i hi => ⟨hch i hi, hsl i hi⟩

theorem plan_verts (hreg : Regular states) (h : plan fw states = .ok bs) (hne : Spec.path bs ≠ []) :
    ∃ ps, dots (unpack bs) = .ok ps ∧ List.Forall₂ VertOf (nexts ps) (Spec.path bs) ∧
      ∃ p, ps = p :: (Spec.path bs).map endDot :=
  plan_verts_sound (plan_sound hreg h) hne

/-! ## What is drawn -/

theorem linesOf_eq (l : List (Dot ℝ)) : linesOf l = (nexts l).map fun p => (p.1.xy, p.2.xy) := rfl

theorem forall₂_mem {α β : Type} {R : α → β → Prop} : ∀ {l : List α} {r : List β}, List.Forall₂ R l r →
    (∀ x ∈ l, ∃ y ∈ r, R x y) ∧ ∀ y ∈ r, ∃ x ∈ l, R x y
  | _, _, .nil => by simp
  | _, _, .cons h t => by
    obtain ⟨h1, h2⟩ := forall₂_mem t
    constructor
    · intro x hx
      rcases List.mem_cons.1 hx with rfl | hx
      · exact ⟨_, by simp, h⟩
      · obtain ⟨y, hy, hr⟩ := h1 x hx
        exact ⟨y, by simp [hy], hr⟩
    · intro y hy
      rcases List.mem_cons.1 hy with rfl | hy
      · exact ⟨_, by simp, h⟩
      · obtain ⟨x, hx, hr⟩ := h2 y hy
        exact ⟨x, by simp [hx], hr⟩

theorem forall₂_dropLast {α β : Type} {R : α → β → Prop} : ∀ {l : List α} {r : List β}, List.Forall₂ R l r →
    List.Forall₂ R l.dropLast r.dropLast
  | _, _, .nil => .nil
  | _, _, .cons h .nil => .nil
  | _, _, .cons h (.cons h' t) => .cons h (forall₂_dropLast (.cons h' t))

theorem VertOf.spot {pq : Dot ℝ × Dot ℝ} {s : Segment ℝ} (h : VertOf pq s) (c : ℝ) :
    (Dot.lerp pq.1 pq.2 c).xy = s.spot c := by
  simp only [Dot.xy, Dot.lerp, Segment.spot, h.hx, h.hy, h.hend, endDot]

/-- A point between two points of a segment. -/
theorem onLine_spot {s : Segment ℝ} {a b c : ℝ} (h1 : a ≤ c) (h2 : c ≤ b) :
    OnLine (s.spot a, s.spot b) (s.spot c) := by
  rcases eq_or_lt_of_le (h1.trans h2) with h | h
  · have : a = c := le_antisymm h1 (by linarith)
    subst this
    exact ⟨0, le_refl _, zero_le_one, by simp, by simp⟩
  · have hd : 0 < b - a := by linarith
    refine ⟨(c - a) / (b - a), div_nonneg (by linarith) hd.le, (div_le_one hd).2 (by linarith), ?_, ?_⟩ <;>
    · simp only [Segment.spot]
      field_simp
      ring

theorem spot_of_onLine {s : Segment ℝ} {a b : ℝ} {q : ℝ × ℝ} (h0 : 0 ≤ a) (h1 : a ≤ b) (h2 : b ≤ 1)
    (h : OnLine (s.spot a, s.spot b) q) : ∃ c, 0 ≤ c ∧ c ≤ 1 ∧ q = s.spot c := by
  obtain ⟨c, c0, c1, e1, e2⟩ := h
  refine ⟨a + (b - a) * c, ?_, ?_, ?_⟩
  · have : 0 ≤ (b - a) * c := mul_nonneg (by linarith) c0
    linarith
  · have : (b - a) * c ≤ b - a := mul_le_of_le_one_right (by linarith) c1
    linarith
  · apply Prod.ext
    · rw [e1]
      simp only [Segment.spot]
      ring
    · rw [e2]
      simp only [Segment.spot]
      ring

theorem plan_drawing_sound (hr : SoundRun bs) (hne : Spec.path bs ≠ []) :
    ∃ ps, plot2d "Velocity" false res bs = .ok ⟨linesOf (interp2D res ps), (interp2D res ps).map Dot.c, []⟩ ∧
      List.Forall₂ VertOf (nexts ps) (Spec.path bs) ∧ ∃ p, ps = p :: (Spec.path bs).map endDot := by
  obtain ⟨ps, h1, h2⟩ := plan_verts_sound hr hne
  refine ⟨ps, ?_, h2⟩
  unfold plot2d
  rw [h1]
  rfl

/-- The drawing of a plan. -/
theorem plan_drawing (hreg : Regular states) (h : plan fw states = .ok bs) (hne : Spec.path bs ≠ []) :
    ∃ ps, plot2d "Velocity" false res bs = .ok ⟨linesOf (interp2D res ps), (interp2D res ps).map Dot.c, []⟩ ∧
      List.Forall₂ VertOf (nexts ps) (Spec.path bs) ∧ ∃ p, ps = p :: (Spec.path bs).map endDot :=
  plan_drawing_sound (plan_sound hreg h) hne

theorem path_ne_nil (hreg : Regular states) (h : plan fw states = .ok bs) (hact : active none states ≠ []) :
    Spec.path bs ≠ [] := by
  have h28 := c28_blocks hreg h
  intro hc
  cases bs with
  | nil => exact hact (by rw [← h28]; rfl)
  | cons b bs =>
    have := (plan_ok hreg h).1 b (by simp)
    simp only [Spec.path, List.flatMap_cons, List.append_eq_nil_iff] at hc
    exact this.ne_nil hc.1

theorem drawing_ne_nil {ps : List (Dot ℝ)} {ss : List (Segment ℝ)} (h : List.Forall₂ VertOf (nexts ps) ss)
    (hne : ss ≠ []) : ∃ l, interp2D res ps = ps.headD ⟨0, 0, 0⟩ :: l := by
  match ps, h with
  | [], h => cases h; exact absurd rfl hne
  | [p], h => cases h; exact absurd rfl hne
  | p :: q :: r, h => exact interp_head p q r

theorem drawn_only (hr : SoundRun bs) (hne : Spec.path bs ≠ [])
    (hres : 0 < res) :
    ∃ d, plot2d "Velocity" false res bs = .ok d ∧ ∀ q, Drawn d.lines q → Passed (Spec.path bs) q := by
  obtain ⟨ps, h1, h2, h3⟩ := plan_drawing_sound (res := res) hr hne
  refine ⟨_, h1, ?_⟩
  rintro q ⟨l, hl, hq⟩
  simp only [linesOf_eq, List.mem_map] at hl
  obtain ⟨pr, hpr, rfl⟩ := hl
  obtain ⟨pq, hpq, ⟨a, b, a0, ab, b1, rfl, _⟩, _⟩ := interp_pieces hres ps pr hpr
  obtain ⟨s, hs, hv⟩ := (forall₂_mem h2).1 pq hpq
  simp only [hv.spot] at hq
  obtain ⟨c, c0, c1, rfl⟩ := spot_of_onLine a0 ab b1 hq
  obtain ⟨t, v, ho, _⟩ := (path_sweeps_sound hr hs).forth c c0 c1
  exact ⟨s, hs, t, v, ho⟩

/-- **C75, nothing else is drawn.** For every firmware, each point of the plot is a point the motion passes
over. -/
theorem c75_only (hreg : Regular states) (h : plan fw states = .ok bs) (hact : active none states ≠ [])
    (hres : 0 < res) :
    ∃ d, plot2d "Velocity" false res bs = .ok d ∧ ∀ q, Drawn d.lines q → Passed (Spec.path bs) q :=
  drawn_only (plan_sound hreg h) (path_ne_nil hreg h hact) hres

theorem drawn_before_last (hr : SoundRun bs) (hne : Spec.path bs ≠ []) :
    ∃ d, plot2d "Velocity" false res bs = .ok d ∧ ∀ q, Passed (Spec.path bs).dropLast q → Drawn d.lines q := by
  obtain ⟨ps, h1, h2, h3⟩ := plan_drawing_sound (res := res) hr hne
  refine ⟨_, h1, ?_⟩
  rintro q ⟨s, hs, t, v, ho⟩
  obtain ⟨c, c0, c1, rfl⟩ := (path_sweeps_sound hr (List.mem_of_mem_dropLast hs)).back t q v ho
  obtain ⟨pq, hpq, hv⟩ := (forall₂_mem (forall₂_dropLast h2)).2 s hs
  obtain ⟨a, b, hac, hcb, hm⟩ := interp_covers ps pq (List.mem_of_mem_dropLast hpq) (Or.inl hpq) c c0 c1
  refine ⟨_, List.mem_map.2 ⟨_, hm, rfl⟩, ?_⟩
  simp only [hv.spot]
  exact onLine_spot hac hcb

/-- **C75, all but the last segment is drawn.** For every firmware. -/
theorem c75_before_last (hreg : Regular states) (h : plan fw states = .ok bs) (hact : active none states ≠ []) :
    ∃ d, plot2d "Velocity" false res bs = .ok d ∧ ∀ q, Passed (Spec.path bs).dropLast q → Drawn d.lines q :=
  drawn_before_last (plan_sound hreg h) (path_ne_nil hreg h hact)

/-- A plan of more than one segment, unless the firmware is `marlin_jerk`. -/
theorem path_two (hfw : fw ≠ .marlinJerk) (hreg : Regular states) (h : plan fw states = .ok bs)
    (hact : active none states ≠ []) : (Spec.path bs).dropLast ≠ [] := by
  intro hd
  have hne := path_ne_nil hreg h hact
  obtain ⟨hg, _, hf, _, hl⟩ := plan_ok hreg h
  obtain ⟨s, hs⟩ : ∃ s, Spec.path bs = [s] := by
    match hp : Spec.path bs with
    | [] => exact absurd hp hne
    | [s] => exact ⟨s, rfl⟩
    | x :: y :: r =>
      rw [hp] at hd
      simp at hd
  obtain ⟨b, hb⟩ : ∃ b, bs = [b] := by
    cases bs with
    | nil => simp [Spec.path] at hs
    | cons b tl =>
      cases tl with
      | nil => exact ⟨b, rfl⟩
      | cons c tl =>
        have n1 := List.length_pos_of_ne_nil (hg b (by simp)).ne_nil
        have n2 := List.length_pos_of_ne_nil (hg c (by simp)).ne_nil
        have := congrArg List.length hs
        simp only [Spec.path, List.flatMap_cons, List.length_append, List.length_singleton] at this
        omega
  subst hb
  have hseg : b.segments = [s] := by simpa [Spec.path] using hs
  obtain ⟨f1, f2, f3⟩ := hf b rfl
  have f4 := hl hfw b rfl
  rcases hg b (by simp) with ⟨A, u, s0, s1, hm⟩ | ⟨A, q, hm⟩
  · obtain ⟨x, x', e1, e2, _, _, e5, _, _, e8, e9, e10⟩ := hm.ends
    obtain ⟨L, _, _, hL⟩ := hm.hramp.mem
    rw [hseg] at e1 e2 hL
    simp only [List.head?_cons, List.getLast?_singleton, Option.some.injEq] at e1 e2
    subst e1 e2
    obtain ⟨w, w₁, l, l₁, g⟩ := hL s (by simp)
    have hu := hm.toHdr.unit.1
    have hw : w = s0 := by
      have := e5
      rw [g.hvb] at this
      exact unit_cancel hu (p := Vec4.zero) (by rw [this])
    have hw₁ : w₁ = s1 := by
      have := e8
      rw [g.hve] at this
      exact unit_cancel hu (p := Vec4.zero) (by rw [this])
    have hpos := g.hpos
    rw [hw, hw₁] at hpos
    cases he : (moveDistance A b.stateB).2 with
    | false =>
      have hn := hu.norms.1
      rw [he, if_neg (by simp)] at hn
      rw [e9, hn, one_mul] at f2
      rw [e10, hn, one_mul] at f4
      linarith
    | true =>
      have hn := hu.norms.1
      rw [he, if_pos rfl] at hn
      have hfeed := plan_feed hreg hfw h b (by simp) s.velBegin (by
        rw [Block.feed, hm.hdir, Option.map_some, hn, if_pos rfl, hseg]
        rfl)
      have h0 : s0 = 0 := by
        rw [e5] at hfeed
        exact unit_cancel hu (p := Vec4.zero) (by rw [hfeed, Vec4.mul_zero])
      obtain ⟨j, hj1, hj2⟩ := hm.hjd
      obtain ⟨x, hx, ha1, ha2, ha3⟩ := (forall₂_mem (plan_opt hreg h).1).1 b (by simp)
      obtain ⟨u', hu1, hu2⟩ := ha3 (by rw [← ha2]; exact f3)
      rw [hm.hdir] at hu1
      cases hu1
      have hmem : b.stateB ∈ states := by
        have h1 : (b.stateA, b.stateB) ∈ active none states := by
          rw [← c28_blocks hreg h]
          exact List.mem_map.2 ⟨b, by simp, rfl⟩
        exact (List.of_mem_zip (List.mem_filter.1 h1).1).2
      have hjv : junctionVel fw x.1 x.2.1 x.2.2 = 0 := by
        rw [← ha1, ← ha2, hm.hA]
        exact c62_filament_stop fw _ hm.hs.le (hreg.jerk _ hmem) (hm.toHdr.unit.2.2.2.1.1 he)
      rw [hjv, hj1, Option.some.injEq] at hu2
      have : j = 0 := unit_cancel hu (p := Vec4.zero) (by rw [hu2])
      linarith
  · rw [hm.hpause] at f3
    cases f3

/-- The property for all firmwares: the plot shows exactly where the motion goes. -/
def C75Full : Prop :=
  ∀ (fw : Firmware) (states : List (PState ℝ)) (bs : List (Block ℝ)) (res : ℝ), Regular states →
    plan fw states = .ok bs → active none states ≠ [] → 0 < res →
    ∃ d, plot2d "Velocity" false res bs = .ok d ∧ ∀ q, Drawn d.lines q ↔ Passed (Spec.path bs) q

theorem drawn_exact (hr : SoundRun bs)
    (hne : Spec.path bs ≠ []) (hres : 0 < res)
    (htwo : (Spec.path bs).dropLast ≠ []) (hstop : ∀ l ∈ bs.getLast?, ∀ s ∈ l.segments.getLast?, s.velEnd.norm3 = 0) :
    ∃ d, plot2d "Velocity" false res bs = .ok d ∧ ∀ q, Drawn d.lines q ↔ Passed (Spec.path bs) q := by
  obtain ⟨d, hd, h1⟩ := drawn_only hr hne hres
  obtain ⟨d', hd', h2⟩ := drawn_before_last (res := res) hr hne
  rw [hd, Except.ok.injEq] at hd'
  subst hd'
  refine ⟨d, hd, fun q => ⟨h1 q, ?_⟩⟩
  obtain ⟨ps, e1, hvs, _⟩ := plan_drawing_sound (res := res) hr hne
  rw [hd, Except.ok.injEq] at e1
  subst e1
  rintro ⟨s, hs, t, v, ho⟩
  have hsw := path_sweeps_sound hr hs
  obtain ⟨c, c0, c1, rfl⟩ := hsw.back t q v ho
  obtain ⟨pq, hpq, hv⟩ := (forall₂_mem hvs).2 s hs
  by_cases hcount : Dot.count res pq.1 pq.2 ≠ 1
  · obtain ⟨a, b, hac, hcb, hm⟩ := interp_covers ps pq hpq (Or.inr hcount) c c0 c1
    refine ⟨_, List.mem_map.2 ⟨_, hm, rfl⟩, ?_⟩
    simp only [hv.spot]
    exact onLine_spot hac hcb
  · push Not at hcount
    by_cases hin : s ∈ (Spec.path bs).dropLast
    · exact h2 _ ⟨s, hin, t, v, ho⟩
    · -- the last segment, without extent
      have hnep := hne
      have hne := htwo
      obtain ⟨x, pre, hpre⟩ : ∃ x pre, (Spec.path bs).dropLast = pre ++ [x] :=
        ⟨(Spec.path bs).dropLast.getLast hne, (Spec.path bs).dropLast.dropLast,
          (List.dropLast_append_getLast hne).symm⟩
      have hpath : Spec.path bs = pre ++ [x] ++ [s] := by
        have hp := hnep
        have e := List.dropLast_append_getLast hp
        rw [← e, List.mem_append] at hs
        rw [hpre] at e hin
        rcases hs with hs | hs
        · rw [hpre] at hs
          exact absurd hs hin
        · rw [List.mem_singleton] at hs
          rw [← e, ← hs]
      have hlink : s.posBegin = x.posEnd := by
        have := hr.unpack_chain
        rw [show unpack bs = Spec.path bs from rfl, hpath, List.append_assoc] at this
        exact (List.isChain_cons_cons.1 this.right_of_append).1.2.1
      have hlast : s.velEnd.norm3 = 0 := by
        have hbne : bs ≠ [] := by
          rintro rfl
          simp [Spec.path] at hs
        obtain ⟨bl, hbl⟩ : ∃ bl, bs.getLast? = some bl := by
          cases hc : bs.getLast? with
          | none => exact absurd (List.getLast?_eq_none_iff.1 hc) hbne
          | some bl => exact ⟨bl, rfl⟩
        obtain ⟨ini, hini⟩ := List.getLast?_eq_some_iff.1 hbl
        have hblne := (hr.good bl (List.mem_of_getLast? hbl)).ne_nil
        have e : bl.segments.getLast? = some s := by
          have : (Spec.path bs).getLast? = some s := by rw [hpath]; simp
          rw [hini, Spec.path, List.flatMap_append, List.flatMap_singleton, List.getLast?_append_of_ne_nil _ hblne] at this
          exact this
        exact hstop bl hbl s e
      have hstill : s.posEnd.x = s.posBegin.x ∧ s.posEnd.y = s.posBegin.y := by
        rcases Dot.count_one hres hcount with hc | hc
        · apply hsw.still _ hlast
          have h1 := hv.lo
          rw [hc, hv.hend] at h1
          have : (endDot s).c = 0 := hlast
          rw [this] at h1
          exact le_antisymm h1 (norm3_nonneg _)
        · unfold Dot.dist at hc
          rw [Real.sqrt_eq_zero (add_nonneg (mul_self_nonneg _) (mul_self_nonneg _))] at hc
          have e1 : pq.2.x - pq.1.x = 0 := by nlinarith [sq_nonneg (pq.2.x - pq.1.x), sq_nonneg (pq.2.y - pq.1.y)]
          have e2 : pq.2.y - pq.1.y = 0 := by nlinarith [sq_nonneg (pq.2.x - pq.1.x), sq_nonneg (pq.2.y - pq.1.y)]
          rw [hv.hend, hv.hx] at e1
          rw [hv.hend, hv.hy] at e2
          simp only [endDot] at e1 e2
          constructor <;> linarith
      have hq : s.spot c = x.spot 1 := by
        simp [Segment.spot, hstill.1, hstill.2, hlink]
      have hx : x ∈ (Spec.path bs).dropLast := by rw [hpre]; simp
      obtain ⟨t', v', ho', _⟩ := (path_sweeps_sound hr (List.mem_of_mem_dropLast hx)).forth 1 zero_le_one (le_refl _)
      rw [hq]
      exact h2 _ ⟨x, hx, t', v', ho'⟩

/-- **C75, the proved part.** With every firmware but `marlin_jerk`, a point is on the lines of the plot if and
only if the motion passes over it. Missing: `marlin_jerk`, for which the last segment need not be drawn
(`c75_refuted`). -/
theorem c75_drawn_partial (hfw : fw ≠ .marlinJerk) (hreg : Regular states) (h : plan fw states = .ok bs)
    (hact : active none states ≠ []) (hres : 0 < res) :
    ∃ d, plot2d "Velocity" false res bs = .ok d ∧ ∀ q, Drawn d.lines q ↔ Passed (Spec.path bs) q :=
  drawn_exact (plan_sound hreg h) (path_ne_nil hreg h hact) hres (path_two hfw hreg h hact)
    (c18_last_stop_partial hfw hreg h)

theorem drawn_colours (hr : SoundRun bs) (hne : Spec.path bs ≠ [])
    (hres : 0 < res) :
    ∃ d, plot2d "Velocity" false res bs = .ok d ∧ d.colours.length = d.lines.length + 1 ∧
      ∀ (i : ℕ) (l : Stroke) (c : ℝ), d.lines[i]? = some l → d.colours[i]? = some c →
        ∃ s ∈ Spec.path bs, ∃ t v, Over s t l.1 v ∧ c ≤ v + 1e-12 ∧
          v - |s.velEnd.norm3 - s.velBegin.norm3| / 4 ≤ c := by
  obtain ⟨ps, h1, h2, h3⟩ := plan_drawing_sound (res := res) hr hne
  refine ⟨_, h1, ?_, ?_⟩
  · obtain ⟨l, hl⟩ := drawing_ne_nil (res := res) h2 hne
    simp only [linesOf_eq, List.length_map, nexts, List.length_zip, List.length_tail]
    rw [hl]
    simp
  · intro i l c hl hc
    simp only [linesOf_eq, List.getElem?_map, Option.map_eq_some_iff] at hl hc
    obtain ⟨pr, hpr, rfl⟩ := hl
    obtain ⟨p, hp, rfl⟩ := hc
    have hfst : pr.1 = p := by
      rw [nexts, List.getElem?_zip_eq_some] at hpr
      rw [hpr.1, Option.some.injEq] at hp
      exact hp
    obtain ⟨pq, hpq, ⟨a, b, a0, ab, b1, hpr', _⟩, _⟩ := interp_pieces hres ps pr (List.mem_of_getElem? hpr)
    obtain ⟨s, hs, hv⟩ := (forall₂_mem h2).1 pq hpq
    obtain ⟨t, v, ho, v1, v2⟩ := (path_sweeps_sound hr hs).forth a a0 (ab.trans b1)
    have hpa : p = Dot.lerp pq.1 pq.2 a := by rw [← hfst, hpr']
    refine ⟨s, hs, t, v, ?_, ?_, ?_⟩
    · rw [hfst, hpa, hv.spot]
      exact ho
    · rw [hpa]
      have e : pq.2.c = s.velEnd.norm3 := by rw [hv.hend]; rfl
      have hlo := hv.lo
      have hhi := hv.hi
      simp only [Dot.lerp, e]
      have : (pq.1.c - s.velBegin.norm3) * (1 - a) ≤ 1e-12 * 1 :=
        mul_le_mul (by linarith) (by linarith) (by linarith) (by norm_num)
      nlinarith
    · rw [hpa]
      have e : pq.2.c = s.velEnd.norm3 := by rw [hv.hend]; rfl
      have hlo := hv.lo
      simp only [Dot.lerp, e]
      have : 0 ≤ (pq.1.c - s.velBegin.norm3) * (1 - a) := mul_nonneg (by linarith) (by linarith)
      nlinarith

/-- **C75, the colours.** There is one colour value more than lines. The value of a line tells the speed at the
begin of the line: it is never above the true speed (up to the planner's tolerance of `1e-12`), and below it by
at most a quarter of the speed change in the segment. -/
theorem c75_colours (hreg : Regular states) (h : plan fw states = .ok bs) (hact : active none states ≠ [])
    (hres : 0 < res) :
    ∃ d, plot2d "Velocity" false res bs = .ok d ∧ d.colours.length = d.lines.length + 1 ∧
      ∀ (i : ℕ) (l : Stroke) (c : ℝ), d.lines[i]? = some l → d.colours[i]? = some c →
        ∃ s ∈ Spec.path bs, ∃ t v, Over s t l.1 v ∧ c ≤ v + 1e-12 ∧
          v - |s.velEnd.norm3 - s.velBegin.norm3| / 4 ≤ c :=
  drawn_colours (plan_sound hreg h) (path_ne_nil hreg h hact) hres

theorem drawn_resolution (hr : SoundRun bs) (hne : Spec.path bs ≠ [])
    (hres : 0 < res) :
    ∃ d, plot2d "Velocity" false res bs = .ok d ∧ (d.lines.IsChain fun l l' => l.2 = l'.1) ∧
      ∀ (i : ℕ) (l : Stroke) (c c' : ℝ), d.lines[i]? = some l → d.colours[i]? = some c →
        d.colours[i + 1]? = some c' → c ≠ c' → l.length ≤ res := by
  obtain ⟨ps, h1, h2, h3⟩ := plan_drawing_sound (res := res) hr hne
  refine ⟨_, h1, ?_, ?_⟩
  · rw [List.isChain_iff_getElem]
    intro i hi
    simp [linesOf_eq, nexts]
  · intro i l c c' hl hc hc' hcc
    simp only [linesOf_eq, List.getElem?_map, Option.map_eq_some_iff] at hl hc hc'
    obtain ⟨pr, hpr, rfl⟩ := hl
    obtain ⟨p, hp, rfl⟩ := hc
    obtain ⟨p', hp', rfl⟩ := hc'
    have hpr0 := hpr
    rw [nexts, List.getElem?_zip_eq_some, List.getElem?_tail] at hpr
    rw [hpr.1, Option.some.injEq] at hp
    rw [hpr.2, Option.some.injEq] at hp'
    subst hp hp'
    obtain ⟨pq, hpq, ⟨a, b, a0, ab, b1, hpr', hfine⟩, _⟩ := interp_pieces hres ps pr (List.mem_of_getElem? hpr0)
    rcases hfine with hfine | hfine
    · refine le_trans (le_of_eq ?_) hfine
      rw [hpr']
      unfold Stroke.length Dot.dist
      simp only [Dot.xy, Dot.lerp]
      rw [show (pq.1.x + (pq.2.x - pq.1.x) * b - (pq.1.x + (pq.2.x - pq.1.x) * a)) ^ 2 +
        (pq.1.y + (pq.2.y - pq.1.y) * b - (pq.1.y + (pq.2.y - pq.1.y) * a)) ^ 2 =
        (b - a) ^ 2 * ((pq.2.x - pq.1.x) * (pq.2.x - pq.1.x) + (pq.2.y - pq.1.y) * (pq.2.y - pq.1.y)) by ring,
        Real.sqrt_mul (sq_nonneg _), Real.sqrt_sq (by linarith)]
    · refine absurd ?_ hcc
      rw [hpr']
      simp [Dot.lerp, hfine]

/-- **C75, the resolution.** Each line begins where the one before it ends, and a line whose ends have different
colours is not longer than the resolution. -/
theorem c75_resolution (hreg : Regular states) (h : plan fw states = .ok bs) (hact : active none states ≠ [])
    (hres : 0 < res) :
    ∃ d, plot2d "Velocity" false res bs = .ok d ∧ (d.lines.IsChain fun l l' => l.2 = l'.1) ∧
      ∀ (i : ℕ) (l : Stroke) (c c' : ℝ), d.lines[i]? = some l → d.colours[i]? = some c →
        d.colours[i + 1]? = some c' → c ≠ c' → l.length ≤ res :=
  drawn_resolution (plan_sound hreg h) (path_ne_nil hreg h hact) hres

theorem verts_lines {l : List (Dot ℝ × Dot ℝ)} {ss : List (Segment ℝ)} (h : List.Forall₂ VertOf l ss) :
    (l.map fun p => (p.1.xy, p.2.xy)) =
      ss.map fun s => ((s.posBegin.x, s.posBegin.y), (s.posEnd.x, s.posEnd.y)) := by
  induction h with
  | nil => rfl
  | cons hv _ ih =>
    rw [List.map_cons, List.map_cons, ih, hv.hend]
    simp only [Dot.xy, hv.hx, hv.hy, endDot]

theorem drawn_variants (hr : SoundRun bs) :
    (Spec.path bs = [] → ∀ colvar showPoints, plot2d colvar showPoints res bs = .error .indexError) ∧
    (Spec.path bs ≠ [] → plot2d "Velocity" true res bs = .error .attributeError ∧
      ∀ colvar, colvar ≠ "Velocity" → ∀ showPoints, plot2d colvar showPoints res bs = .ok
        ⟨(Spec.path bs).map (fun s => ((s.posBegin.x, s.posBegin.y), (s.posEnd.x, s.posEnd.y))), [],
          if showPoints then bs.map (fun b => (b.stateB.position.x, b.stateB.position.y)) else []⟩) := by
  constructor
  · intro hp colvar showPoints
    unfold plot2d
    rw [show unpack bs = Spec.path bs from rfl, hp]
    rfl
  · intro hp
    obtain ⟨ps, h1, h2, _⟩ := plan_verts_sound hr hp
    constructor
    · unfold plot2d
      rw [h1]
      cases bs with
      | nil => simp [Spec.path] at hp
      | cons b tl => rfl
    · intro colvar hcol showPoints
      have hl : linesOf ps = (Spec.path bs).map (fun s =>
          ((s.posBegin.x, s.posBegin.y), (s.posEnd.x, s.posEnd.y))) := by
        exact verts_lines h2
      have hm : ∀ l : List (Block ℝ), (∀ b ∈ l, Good b) → blockEnds l =
          .ok (l.map fun b => (b.stateB.position.x, b.stateB.position.y)) := by
        intro l
        induction l with
        | nil => intro _; rfl
        | cons b l ih =>
          intro hg
          obtain ⟨_, _, s', _, _, e3, _, _, _, _, e8, _⟩ := (hg b (by simp)).facts
          rw [blockEnds, e3]
          simp only [ih fun b hb => hg b (by simp [hb]), e8]
          rfl
      unfold plot2d
      rw [h1]
      simp only [bind, Except.bind]
      rw [if_neg hcol]
      cases showPoints with
      | false => simp [hl]
      | true => simp [hl, hm bs hr.good]

/-- **C75, the other variants.** With another colour variable the lines are the straight ways from segment to
segment, without colours, and on request each block's end is marked; with the colour variable `"Velocity"` the
markers raise `AttributeError`; without any segment the plot raises `IndexError`. -/
theorem c75_variants (hreg : Regular states) (h : plan fw states = .ok bs) :
    (Spec.path bs = [] → ∀ colvar showPoints, plot2d colvar showPoints res bs = .error .indexError) ∧
    (Spec.path bs ≠ [] → plot2d "Velocity" true res bs = .error .attributeError ∧
      ∀ colvar, colvar ≠ "Velocity" → ∀ showPoints, plot2d colvar showPoints res bs = .ok
        ⟨(Spec.path bs).map (fun s => ((s.posBegin.x, s.posBegin.y), (s.posEnd.x, s.posEnd.y))), [],
          if showPoints then bs.map (fun b => (b.stateB.position.x, b.stateB.position.y)) else []⟩) :=
  drawn_variants (plan_sound hreg h)

theorem drawn_cruise_end (hr : SoundRun bs) (hres : 0 < res)
    {pre : List (Segment ℝ)} {x s : Segment ℝ} (hpath : Spec.path bs = pre ++ [x, s])
    (hc : x.velEnd.norm3 = s.velEnd.norm3) :
    ∃ d, plot2d "Velocity" false res bs = .ok d ∧ ∀ q, Drawn d.lines q ↔ Passed (pre ++ [x]) q := by
  have hne : Spec.path bs ≠ [] := by rw [hpath]; simp
  obtain ⟨ps, h1, h2, h3⟩ := plan_drawing_sound (res := res) hr hne
  have hdl : (Spec.path bs).dropLast = pre ++ [x] := by
    rw [hpath, show pre ++ [x, s] = (pre ++ [x]) ++ [s] by simp, List.dropLast_concat]
  have hps : ∃ l, nexts ps = l ++ [(endDot x, endDot s)] := by
    obtain ⟨p, hp⟩ := h3
    rw [hp, hpath, List.map_append, ← List.cons_append, List.map_cons, nexts_append]
    exact ⟨_, rfl⟩
  obtain ⟨d, hd, hbl⟩ := drawn_before_last (res := res) hr hne
  rw [h1, Except.ok.injEq] at hd
  subst hd
  refine ⟨_, h1, fun q => ⟨?_, fun hq => hbl q (by rw [hdl]; exact hq)⟩⟩
  rintro ⟨l, hl, hq⟩
  simp only [linesOf_eq, List.mem_map] at hl
  obtain ⟨pr, hpr, rfl⟩ := hl
  obtain ⟨pq, hpq, ⟨a, b, a0, ab, b1, rfl, _⟩, hcase⟩ := interp_pieces hres ps pr hpr
  have hin : pq ∈ (nexts ps).dropLast := by
    rcases hcase with hcase | hcase
    · exact hcase
    · obtain ⟨l, hl⟩ := hps
      rw [hl, List.dropLast_concat]
      rw [hl, List.mem_append, List.mem_singleton] at hpq
      rcases hpq with hpq | hpq
      · exact hpq
      · refine absurd ?_ hcase
        rw [hpq]
        unfold Dot.count
        rw [if_neg]
        simp [endDot, hc, pyAbs_real]
  have h2' := forall₂_dropLast h2
  rw [hdl] at h2'
  obtain ⟨s, hs, hv⟩ := (forall₂_mem h2').1 pq hin
  simp only [hv.spot] at hq
  obtain ⟨c, c0, c1, rfl⟩ := spot_of_onLine a0 ab b1 hq
  have hs' : s ∈ Spec.path bs := by
    rw [← hdl] at hs
    exact List.mem_of_mem_dropLast hs
  obtain ⟨t, v, ho, _⟩ := (path_sweeps_sound hr hs').forth c c0 c1
  exact ⟨s, hs, t, v, ho⟩

/-- **C75, what is missing.** For every firmware: if the last segment ends with the speed with which the segment
before it ended, nothing of the last segment is drawn. -/
theorem c75_cruise_end (hreg : Regular states) (h : plan fw states = .ok bs) (hres : 0 < res)
    {pre : List (Segment ℝ)} {x s : Segment ℝ} (hpath : Spec.path bs = pre ++ [x, s])
    (hc : x.velEnd.norm3 = s.velEnd.norm3) :
    ∃ d, plot2d "Velocity" false res bs = .ok d ∧ ∀ q, Drawn d.lines q ↔ Passed (pre ++ [x]) q :=
  drawn_cruise_end (plan_sound hreg h) hres hpath hc

/-- C75 is false of the code: with `marlin_jerk` the plot of a single straight move of 10 mm, which is still at its
feedrate of 10 mm/s at the end, stops where the feedrate is reached. -/
theorem c75_refuted : ¬ C75Full := by
  intro hfull
  let A : PState ℝ := ⟨⟨0, 0, 0, 0⟩, 10, 100, 5, none, none⟩
  let B : PState ℝ := ⟨⟨10, 0, 0, 0⟩, 10, 100, 5, none, none⟩
  have hreg : Regular [A, B] := by
    have hall : ∀ s ∈ [A, B], s.speed = 10 ∧ s.pAcc = 100 ∧ s.jerk = 5 ∧ s.pause = none := by
      intro s hs
      simp only [List.mem_cons, List.not_mem_nil, or_false] at hs
      rcases hs with rfl | rfl <;> exact ⟨rfl, rfl, rfl, rfl⟩
    refine ⟨fun s hs => ?_, fun s hs => ?_, fun s hs => ?_, fun s hs p hp => ?_, fun pre s post he hp => ?_,
      fun pre s post he hp => ?_⟩
    · rw [(hall s hs).1]; norm_num
    · rw [(hall s hs).2.1]; norm_num
    · rw [(hall s hs).2.2.1]; norm_num
    · rw [(hall s hs).2.2.2] at hp; cases hp
    · exact absurd (hall s (by rw [he]; simp)).2.2.2 hp
    · exact absurd (hall s (by rw [he]; simp)).2.2.2 hp
  have hne : B.position ≠ A.position := fun h => by simpa [A, B] using congrArg Vec4.x h
  have hn3 : (B.position.sub A.position).norm3 = 10 := by
    rw [← Real.sqrt_sq (show (0 : ℝ) ≤ 10 by norm_num), ← Real.sqrt_sq (norm3_nonneg _), norm3_sq]
    simp [A, B, Vec4.sub]
  have hj : junctionVel .marlinJerk (some A) B [] = 10 := by
    rw [c18_marlin_jerk_end A B (by norm_num [B]) (by norm_num [B]) (by rw [hn3]; norm_num)]
    norm_num [B]
  obtain ⟨b0, k1, k2⟩ := mkBlock_skip .marlinJerk (A := none) (B := A) (rest := [B]) (pb := none)
    (by simp) rfl
  obtain ⟨b, m1, m2, m3, m4, _, m6, _, _, m9, _, m11⟩ := mkBlock_move .marlinJerk (rest := []) (pb := none) hne
    (by norm_num [B]) (by norm_num [B]) (by norm_num [B]) rfl (by simp)
  have hplan : plan .marlinJerk [A, B] = .ok [b] := by
    simp [plan, genBlocks, k1, k2, m1, m2.ne_nil, correctAll, correctFrom, selfCorrection, bind,
      Except.bind]
  obtain ⟨u, s0, s1, hm, hjd⟩ := m11
  have hu := hm.toHdr.unit.1
  have hdist := hm.toHdr.unit.2.2.1
  have hB : b.stateB.speed = 10 ∧ b.stateB.pAcc = 100 := by rw [m4]; exact ⟨rfl, rfl⟩
  have hlen : (moveDistance A b.stateB).1 = 10 := by
    rw [moveDistance_length, m4, moveLength, hn3, if_neg (by norm_num)]
  have heo : (moveDistance A b.stateB).2 = false := by
    cases he : (moveDistance A b.stateB).2 with
    | false => rfl
    | true =>
      have := hm.toHdr.unit.2.2.2.1.1 he
      rw [m4, hn3] at this
      norm_num at this
  have hun : u.norm3 = 1 := by rw [hu.norms.1, heo]; simp
  have hramp := hm.hramp
  rw [hlen] at hdist
  rw [hB.1, hB.2, hdist] at hramp
  have hprof := hm.hprof
  rw [hB.1, hB.2] at hprof
  obtain ⟨f0, f1, f2, f3, _⟩ := hm.facts
  have hs0 : s0 = 0 := by
    obtain ⟨_, _, _, _, _, _, _, _, _, _, e9, _⟩ := hm.ends
    rw [(m6 rfl).2, hun, one_mul] at e9
    exact e9.symm
  have hs1 : s1 = 10 := by
    rcases m9 with ⟨A', p, hd⟩ | ⟨A', u', s0', s1', hm', hex⟩
    · have := hd.hpause
      rw [m4] at this
      cases this
    · obtain ⟨rfl, rfl, rfl, rfl⟩ := hm.unique hm'
      rcases hex with hex | hex
      · rw [hjd, hj, Option.some.injEq] at hex
        exact (unit_cancel hu (p := Vec4.zero) (by rw [hex])).symm
      · rw [hs0, hlen, hB.2] at hex
        rw [hB.1] at f3
        nlinarith
  rw [hs0, hs1] at hramp
  obtain ⟨l1, l2, l3, hl, p1, p2, p3, -⟩ := hprof
  rw [hl] at hramp
  obtain ⟨q, r, w, hr, hr3⟩ := hramp.split
  obtain ⟨q1, r1, w1, hr1, hr2⟩ := hr.split
  obtain ⟨d1, d2, d3⟩ := down_ramp hu hr3 p3
  have hl3 : l3 = [] := by
    by_contra hc
    obtain ⟨_, _, _, _, _, _, hf⟩ := hr3.facts (by norm_num)
    obtain ⟨_, _, g3, _, _, g6⟩ := hf hc
    linarith
  have hl2 : l2 ≠ [] := by
    rintro rfl
    subst hl3
    cases hr2
    cases hr3
    obtain ⟨_, u2, u3⟩ := up_ramp hu hr1 p1
    have := unit_cancel hu u3
    nlinarith
  subst hl3
  obtain ⟨l2', s', rfl⟩ : ∃ l s', l2 = l ++ [s'] :=
    ⟨l2.dropLast, l2.getLast hl2, (List.dropLast_append_getLast hl2).symm⟩
  obtain ⟨c1, c2⟩ := p2 s' (by simp)
  rw [List.append_nil, ← List.append_assoc] at hl
  rw [List.append_nil, ← List.append_assoc] at hramp
  have hpath : Spec.path [b] = (l1 ++ l2') ++ [s'] := by simp [Spec.path, hl]
  have hne' : l1 ++ l2' ≠ [] := by
    intro hc
    rw [hc] at hl hramp
    obtain ⟨x, _, e1, _, _, _, e5, _⟩ := hramp.ends (by simp)
    simp only [List.nil_append, List.head?_cons, Option.some.injEq] at e1
    subst e1
    rw [c1] at e5
    have : (10 : ℝ) = 0 := unit_cancel hu (p := Vec4.zero) (by rw [e5])
    norm_num at this
  obtain ⟨pre, x, hpx⟩ : ∃ l x, l1 ++ l2' = l ++ [x] :=
    ⟨(l1 ++ l2').dropLast, (l1 ++ l2').getLast hne', (List.dropLast_append_getLast hne').symm⟩
  rw [hpx] at hpath hramp
  have hpath' : Spec.path [b] = pre ++ [x, s'] := by rw [hpath]; simp
  have hch := hramp.chain
  rw [List.append_assoc] at hch
  have hlink := (List.isChain_cons_cons.1 hch.right_of_append).1.2.2
  obtain ⟨d, hd, hlaw⟩ := c75_cruise_end hreg hplan (res := 1) one_pos hpath' (by rw [← hlink, c1, c2])
  have hact : active none [A, B] ≠ [] := by
    rw [← c28_blocks hreg hplan]
    simp
  obtain ⟨d', hd', hall⟩ := hfull .marlinJerk [A, B] [b] 1 hreg hplan hact one_pos
  rw [hd, Except.ok.injEq] at hd'
  subst hd'
  have hs'm : s' ∈ Spec.path [b] := by rw [hpath]; simp
  obtain ⟨t, v, ho, _⟩ := (path_sweeps hreg hplan hs'm).forth 1 zero_le_one (le_refl _)
  obtain ⟨y, hy, t', v', ho'⟩ := (hlaw _).1 ((hall _).2 ⟨s', hs'm, t, v, ho⟩)
  have hym : y ∈ Spec.path [b] := by
    rw [hpath]
    exact List.mem_append_left _ hy
  obtain ⟨c, c0, c1', hspot⟩ := (path_sweeps hreg hplan hym).back _ _ _ ho'
  -- the end of the move lies behind all segments but the last one
  obtain ⟨z, tz, vz, hz1, hz2⟩ := hramp.split
  obtain ⟨L, hL0, hL1, hL2⟩ := hz1.mem
  obtain ⟨M, hM0, hM1, _, _, _, hM2⟩ := hz2.facts (by norm_num)
  have hM := (hM2 (by simp)).1
  obtain ⟨w', w₁, l0, l₁, g⟩ := hL2 y hy
  obtain ⟨_, e', _, e2, _, _, _, _, e7, _⟩ := hramp.ends (by simp)
  rw [List.getLast?_append, List.getLast?_singleton] at e2
  simp only [Option.some_or, Option.some.injEq] at e2
  subst e2
  have hend := congrArg Prod.fst hspot
  simp only [Segment.spot, e7, g.hpb, g.hpe, Vec4.add, Vec4.mul] at hend
  have hLM : L + M = 10 := by
    rw [hL1] at hM1
    refine unit_cancel hu (p := A.position) ?_
    rw [hM1]
    ext <;> simp only [Vec4.add, Vec4.mul] <;> ring
  have hux : u.x = 1 := by
    have := congrArg Vec4.x hdist
    rw [m4] at this
    simp only [Vec4.add, Vec4.mul, A, B] at this
    linarith
  have h01 : l0 ≤ l₁ := by
    have h1 := g.hlen
    have h2 := sub_pos.2 g.ht
    have h3 := g.hpos
    have : 0 ≤ (w' + w₁) / 2 * (y.tEnd - y.tBegin) := by positivity
    linarith
  have hl₁ := g.hl₁
  rw [hux] at hend
  have : (l₁ - l0) * c ≤ l₁ - l0 := mul_le_of_le_one_right (by linarith) c1'
  simp only [one_mul, mul_one] at hend
  nlinarith

/-! ## The demo program meets the hypotheses -/

example (fw : Firmware) : ∃ bs d, plan fw Demo.prog = .ok bs ∧ plot2d "Velocity" false 1 bs = .ok d ∧
    (∀ q, Drawn d.lines q → Passed (Spec.path bs) q) ∧ (fw ≠ .marlinJerk → ∀ q, Passed (Spec.path bs) q → Drawn d.lines q) := by
  obtain ⟨_, bs, _, _, h, _⟩ := c26_correction_total fw Demo.regular
  have hact : active none Demo.prog ≠ [] := by rw [Demo.active_prog]; simp
  obtain ⟨d, hd, h1⟩ := c75_only Demo.regular h hact one_pos
  refine ⟨bs, d, h, hd, h1, fun hfw q hq => ?_⟩
  obtain ⟨d', hd', h2⟩ := c75_drawn_partial hfw Demo.regular h hact one_pos
  rw [hd, Except.ok.injEq] at hd'
  subst hd'
  exact (h2 q).2 hq

end PyGCD
