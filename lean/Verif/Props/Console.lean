import Mathlib.Tactic.Linarith
import Mathlib.Tactic.Push
import Mathlib.Tactic.FieldSimp
import Mathlib.Tactic.NormNum
import Mathlib.Tactic.Ring
import Mathlib.Data.List.Sort
import Mathlib.Data.List.Nodup
import Mathlib.Data.Int.Interval
import Verif.Spec.Console

/-!
# C90–C92: what is written to the console
-/

set_option linter.unusedSimpArgs false

namespace PyGCD

/-! ## Rounding -/

theorem pyRound_cases (x : ℚ) :
    (pyRound x = ⌊x⌋ ∧ x - ⌊x⌋ ≤ 1 / 2) ∨ (pyRound x = ⌊x⌋ + 1 ∧ 1 / 2 ≤ x - ⌊x⌋) := by
  have hf : x.floor = ⌊x⌋ := rfl
  unfold pyRound
  simp only [hf]
  by_cases h : x - (⌊x⌋ : ℤ) < 1 / 2
  · rw [if_pos h]; exact .inl ⟨rfl, h.le⟩
  · rw [if_neg h]
    by_cases h2 : 1 / 2 < x - (⌊x⌋ : ℤ)
    · rw [if_pos h2]; exact .inr ⟨rfl, h2.le⟩
    · rw [if_neg h2]
      by_cases h3 : ⌊x⌋ % 2 = 0
      · rw [if_pos h3]; exact .inl ⟨rfl, not_lt.1 h2⟩
      · rw [if_neg h3]; exact .inr ⟨rfl, not_lt.1 h⟩

theorem pyRound_near (x : ℚ) : |x - pyRound x| ≤ 1 / 2 := by
  have h1 := Int.floor_le x
  have h2 := Int.lt_floor_add_one x
  rw [abs_le]
  rcases pyRound_cases x with ⟨h, h'⟩ | ⟨h, h'⟩ <;> rw [h] <;> push_cast <;> constructor <;> linarith

theorem pyRound_int (z : ℤ) : pyRound (z : ℚ) = z := by
  rcases pyRound_cases (z : ℚ) with ⟨h, h'⟩ | ⟨h, h'⟩
  · rw [h, Int.floor_intCast]
  · rw [Int.floor_intCast] at h'; norm_num at h'

theorem pyRound_mono {x y : ℚ} (h : x ≤ y) : pyRound x ≤ pyRound y := by
  have hx := pyRound_cases x
  have hy := pyRound_cases y
  have hfl : ⌊x⌋ ≤ ⌊y⌋ := Int.floor_le_floor h
  rcases lt_or_eq_of_le hfl with hlt | heq
  · rcases hx with ⟨hx, _⟩ | ⟨hx, _⟩ <;> rcases hy with ⟨hy, _⟩ | ⟨hy, _⟩ <;> omega
  · by_cases hxy : x = y
    · rw [hxy]
    · have hlt : x < y := lt_of_le_of_ne h hxy
      rcases hx with ⟨hx, hx'⟩ | ⟨hx, hx'⟩
      · rcases hy with ⟨hy, _⟩ | ⟨hy, _⟩ <;> omega
      · rcases hy with ⟨hy, hy'⟩ | ⟨hy, _⟩
        · exfalso; rw [heq] at hx'; linarith
        · omega

/-! ## The bar -/

/-- The bar for a fraction below one. -/
def barOf (name : String) (x : ℚ) : Bar := ⟨pyRound (10 * x), pyRound (x * 1000), name, .plain⟩

theorem update_float {x : ℚ} (h0 : 0 ≤ x) (h1 : x < 1) (last : ℤ) (name : String) :
    updateProgress last (.float x) name =
      .ok (if last ≠ pyRound (x * 1000) then some (barOf name x) else none, pyRound (x * 1000)) := by
  have e1 : readProgress (.float x) = .ok (x, .plain) := by
    simp [readProgress, not_lt.2 h0, not_le.2 h1]
  unfold updateProgress
  rw [e1]
  by_cases h : last = pyRound (x * 1000)
  · simp [bind, Except.bind, h]
  · simp [bind, Except.bind, h, barOf]

theorem update_done {x : ℚ} (h1 : 1 ≤ x) (last : ℤ) (name : String) :
    updateProgress last (.float x) name = .ok (some ⟨10, 1000, name, .done⟩, 1000) := by
  have e1 : readProgress (.float x) = .ok (1, .done) := by
    simp [readProgress, h1, not_lt.2 (le_trans zero_le_one h1)]
  have a := pyRound_int 10
  have b := pyRound_int 1000
  norm_num at a b
  unfold updateProgress
  rw [e1]
  simp [bind, Except.bind, a, b]

theorem tells_of (name : String) {x : ℚ} (h0 : 0 ≤ x) (h1 : x ≤ 1) (s : BarStatus) :
    Spec.Tells name x ⟨pyRound (10 * x), pyRound (x * 1000), name, s⟩ where
  hashes := pyRound_near _
  filled := by
    constructor
    · have := pyRound_mono (show ((0 : ℤ) : ℚ) ≤ 10 * x by push_cast; linarith)
      rwa [pyRound_int] at this
    · have := pyRound_mono (show 10 * x ≤ ((10 : ℤ) : ℚ) by push_cast; linarith)
      rwa [pyRound_int] at this
  percent := by
    have := pyRound_near (x * 1000)
    rw [abs_le] at this ⊢
    constructor <;> dsimp only <;> linarith [this.1, this.2]
  range := by
    constructor
    · have := pyRound_mono (show ((0 : ℤ) : ℚ) ≤ x * 1000 by push_cast; linarith)
      rwa [pyRound_int] at this
    · have := pyRound_mono (show x * 1000 ≤ ((1000 : ℤ) : ℚ) by push_cast; linarith)
      rwa [pyRound_int] at this
  name := rfl

theorem showAll_append (name : String) (last : ℤ) (ps qs : List ProgressArg) :
    showAll name last (ps ++ qs) = (do
      let r ← showAll name last ps
      let r' ← showAll name r.2 qs
      .ok (r.1 ++ r'.1, r'.2)) := by
  induction ps generalizing last with
  | nil =>
    simp only [List.nil_append, showAll, bind, Except.bind]
    cases showAll name last qs <;> simp
  | cons p ps ih =>
    simp only [List.cons_append, showAll, bind, Except.bind]
    cases updateProgress last p name with
    | error e => rfl
    | ok r =>
      simp only [ih, bind, Except.bind]
      cases showAll name r.2 ps with
      | error e => rfl
      | ok r' =>
        simp only
        cases showAll name r'.2 qs with
        | error e => rfl
        | ok r'' => simp

/-- Fractions below one: what is written is the bars of some of them; the global always is the percentage of the last
one; neighbouring bars differ. -/
theorem show_floats (name : String) (xs : List ℚ) (h0 : ∀ x ∈ xs, 0 ≤ x) (h1 : ∀ x ∈ xs, x < 1) (last : ℤ) :
    ∃ ys : List ℚ, ys.Sublist xs ∧
      showAll name last (xs.map .float) =
        .ok (ys.map (barOf name), ((last :: xs.map fun x => pyRound (x * 1000)).getLast (by simp))) ∧
      ((last :: ys.map fun x => pyRound (x * 1000)).getLast (by simp)) =
        ((last :: xs.map fun x => pyRound (x * 1000)).getLast (by simp)) ∧
      List.IsChain (· ≠ ·) (last :: ys.map fun x => pyRound (x * 1000)) := by
  induction xs generalizing last with
  | nil => exact ⟨[], .slnil, by simp [showAll], by simp, by simp⟩
  | cons x xs ih =>
    obtain ⟨ys, hs, he, hg, hc⟩ := ih (fun y hy => h0 y (List.mem_cons_of_mem _ hy))
      (fun y hy => h1 y (List.mem_cons_of_mem _ hy)) (pyRound (x * 1000))
    have hu := update_float (h0 x (by simp)) (h1 x (by simp)) last name
    by_cases h : last = pyRound (x * 1000)
    · rw [if_neg (not_not.2 h)] at hu
      refine ⟨ys, hs.cons _, ?_, ?_, ?_⟩
      · simp only [List.map_cons, showAll, hu, bind, Except.bind, he]
        simp
      · rw [h]; simpa using hg
      · rw [h]; exact hc
    · rw [if_pos h] at hu
      refine ⟨x :: ys, hs.cons_cons _, ?_, ?_, ?_⟩
      · simp only [List.map_cons, showAll, hu, bind, Except.bind, he]
        simp
      · simpa using hg
      · simp only [List.map_cons]
        exact List.isChain_cons_cons.2 ⟨h, hc⟩

theorem strict_of_chain {l : List ℤ} (hc : List.IsChain (· ≠ ·) l) (hs : l.Pairwise (· ≤ ·)) :
    l.Pairwise (· < ·) := by
  rw [← List.isChain_iff_pairwise]
  have : List.IsChain (· ≤ ·) l := List.isChain_iff_pairwise.2 hs
  induction l with
  | nil => simp
  | cons a l ih =>
    cases l with
    | nil => simp
    | cons b l =>
      rw [List.isChain_cons_cons] at hc this ⊢
      exact ⟨lt_of_le_of_ne this.1 hc.1, ih hc.2 (List.pairwise_cons.1 hs).2 this.2⟩

/-- A fraction of `m + 1` items. -/
def doneFraction (m i : ℕ) : ℚ := ((i + 1 : ℕ) : ℚ) / ((m + 1 : ℕ) : ℚ)

theorem doneFraction_nonneg (m i : ℕ) : 0 ≤ doneFraction m i := by unfold doneFraction; positivity

theorem doneFraction_lt {m i : ℕ} (hi : i < m) : doneFraction m i < 1 := by
  unfold doneFraction
  rw [div_lt_one (by positivity)]
  exact_mod_cast Nat.succ_lt_succ hi

theorem doneFraction_mono {m i j : ℕ} (h : i ≤ j) : doneFraction m i ≤ doneFraction m j := by
  unfold doneFraction
  rw [div_le_div_iff_of_pos_right (by positivity)]
  exact_mod_cast Nat.succ_le_succ h

/-- Reports after some of the items, none of them the last one. -/
theorem show_items (name : String) (m : ℕ) (idx : List ℕ) (hl : idx.Pairwise (· < ·)) (hm : ∀ i ∈ idx, i < m)
    (last : ℤ) :
    ∃ sub : List ℕ, ∃ g : ℤ, sub.Sublist idx ∧
      showAll name last (idx.map fun i => .float (doneFraction m i)) =
        .ok (sub.map fun i => barOf name (doneFraction m i), g) ∧
      ((sub.map fun i => barOf name (doneFraction m i)).map Bar.tenths).Pairwise (· < ·) ∧
      (idx.getLast?.map fun i => pyRound (doneFraction m i * 1000)) = (if idx = [] then none else some g) ∧
      g = (last :: (sub.map fun i => barOf name (doneFraction m i)).map Bar.tenths).getLast (by simp) := by
  obtain ⟨ys, hs, he, hg, hc⟩ := show_floats name (idx.map (doneFraction m))
    (by intro x hx; obtain ⟨i, -, rfl⟩ := List.mem_map.1 hx; exact doneFraction_nonneg m i)
    (by intro x hx; obtain ⟨i, hi, rfl⟩ := List.mem_map.1 hx; exact doneFraction_lt (hm i hi)) last
  obtain ⟨sub, hsub, rfl⟩ := List.sublist_map_iff.1 hs
  refine ⟨sub, (last :: (idx.map (doneFraction m)).map fun x => pyRound (x * 1000)).getLast (by simp), hsub, ?_, ?_,
    ?_, ?_⟩
  · have e : (idx.map fun i => ProgressArg.float (doneFraction m i)) = (idx.map (doneFraction m)).map .float := by
      simp
    rw [e, he, List.map_map]
    rfl
  · have hc' := (List.isChain_cons.1 hc).2
    rw [List.map_map] at hc' ⊢
    refine strict_of_chain hc' ?_
    rw [List.pairwise_map]
    exact (List.Pairwise.sublist hsub hl).imp fun {a b} hab => pyRound_mono (by
      have := doneFraction_mono (m := m) (le_of_lt hab)
      linarith)
  · cases idx using List.reverseRecOn with
    | nil => simp
    | append_singleton l a => simp
  · rw [← hg]
    simp only [List.map_map]
    rfl

theorem loopArgs_succ (m : ℕ) :
    loopArgs (m + 1) = ((List.range m).map fun i => .float (doneFraction m i)) ++ [.float 1] := by
  unfold loopArgs
  rw [List.range_succ, List.map_append]
  refine congrArg₂ (· ++ ·) ?_ ?_
  · apply List.map_congr_left
    intro i _
    simp [doneFraction]
  · have : ((m : ℚ) + 1) ≠ 0 := by positivity
    simp [this]

/-- Reports after some items and after the last one. -/
theorem shows_with_end (name : String) (m : ℕ) (idx : List ℕ) (hl : idx.Pairwise (· < ·)) (hm : ∀ i ∈ idx, i < m)
    (last : ℤ) :
    ∃ bars, showAll name last ((idx.map fun i => .float (doneFraction m i)) ++ [.float 1]) = .ok (bars, 1000) ∧
      Spec.ShowsLoop name (m + 1) bars := by
  obtain ⟨sub, g, hs, he, hc, -, -⟩ := show_items name m idx hl hm last
  have hil := List.Pairwise.sublist hs hl
  have him : ∀ i ∈ sub, i < m := fun i hi => hm i (hs.subset hi)
  refine ⟨(sub.map fun i => barOf name (doneFraction m i)) ++ [⟨10, 1000, name, .done⟩], ?_,
    ⟨⟨sub ++ [m], ?_, ?_, ?_, ?_⟩, ?_⟩⟩
  · rw [showAll_append, he]
    simp only [bind, Except.bind, showAll, update_done (le_refl 1)]
    simp
  · rw [List.pairwise_append]
    exact ⟨hil, by simp, fun a ha b hb => by simp at hb; subst hb; exact him a ha⟩
  · intro i hi
    rcases List.mem_append.1 hi with hi | hi
    · have := him i hi; omega
    · simp at hi; omega
  · simp
  · apply List.rel_append
    · rw [List.forall₂_map_right_iff, List.forall₂_same]
      intro i hi
      refine ⟨tells_of name (doneFraction_nonneg m i) (doneFraction_lt (him i hi)).le _, ?_⟩
      have := him i hi
      rw [if_neg (by omega)]
      rfl
    · refine List.Forall₂.cons ⟨?_, by simp⟩ .nil
      have := tells_of name (x := 1) (by norm_num) (le_refl 1) .done
      have a := pyRound_int 10
      have b := pyRound_int 1000
      norm_num at a b
      norm_num [a, b] at this
      rw [div_self (by positivity)]
      exact this
  · rw [List.dropLast_append_of_ne_nil (by simp)]
    simpa using hc

/-! ## C90: the bar of a loop -/

/-- **C90.** A loop over `n` items that reports its progress after each of them writes an honest bar which announces the
end after the last item and only there, whatever was shown before. -/
theorem c90_loop (name : String) (n : ℕ) (hn : 0 < n) (last : ℤ) :
    ∃ bars, showAll name last (loopArgs n) = .ok (bars, 1000) ∧ Spec.ShowsLoop name n bars := by
  obtain ⟨m, rfl⟩ : ∃ m, n = m + 1 := ⟨n - 1, by omega⟩
  rw [loopArgs_succ]
  exact shows_with_end name m _ List.pairwise_lt_range (fun i hi => List.mem_range.1 hi) last

/-- **C90.** After each item but the last the percentage on display is right, although nothing is written while it does
not change: `k` items are done, and the last percentage written by this loop (or `last`, if it has not written anything)
is that of the `k` items. -/
theorem c90_current (name : String) (n k : ℕ) (hk : 0 < k) (hkn : k < n) (last : ℤ) :
    ∃ bars g, showAll name last ((loopArgs n).take k) = .ok (bars, g) ∧
      g = (last :: bars.map Bar.tenths).getLast (by simp) ∧ |100 * ((k : ℚ) / n) - (g : ℚ) / 10| ≤ 1 / 20 := by
  obtain ⟨m, rfl⟩ : ∃ m, n = m + 1 := ⟨n - 1, by omega⟩
  obtain ⟨j, rfl⟩ : ∃ j, k = j + 1 := ⟨k - 1, by omega⟩
  have e : (loopArgs (m + 1)).take (j + 1) = (List.range (j + 1)).map fun i => .float (doneFraction m i) := by
    rw [loopArgs_succ, List.take_append_of_le_length (by simp; omega), ← List.map_take, List.take_range,
      min_eq_left (by omega)]
  rw [e]
  obtain ⟨sub, g, hs, he, -, hg, hg'⟩ := show_items name m (List.range (j + 1)) List.pairwise_lt_range
    (fun i hi => by have := List.mem_range.1 hi; omega) last
  refine ⟨_, g, he, hg', ?_⟩
  rw [if_neg (by simp), List.range_succ] at hg
  simp only [List.getLast?_append, List.getLast?_singleton, Option.some_or, Option.map_some, Option.some.injEq] at hg
  rw [← hg]
  have := (tells_of name (doneFraction_nonneg m j) (doneFraction_lt (show j < m by omega)).le .plain).percent
  exact this

/-- **C90.** At most 1002 bars are written, however long the loop. -/
theorem c90_few (name : String) (n : ℕ) (bars : List Bar) (h : Spec.ShowsLoop name n bars) :
    bars.length ≤ 1002 ∧ bars.length ≤ n := by
  obtain ⟨⟨items, hl, hn, -, hf⟩, honce⟩ := h
  constructor
  · have hr : ∀ t ∈ bars.dropLast.map Bar.tenths, t ∈ Finset.Icc (0 : ℤ) 1000 := by
      intro t ht
      obtain ⟨b, hb, rfl⟩ := List.mem_map.1 ht
      replace hb := List.mem_of_mem_dropLast hb
      obtain ⟨i, hi⟩ : ∃ i : ℕ, Spec.Tells name ((i + 1 : ℕ) / (n : ℚ)) b := by
        clear ht hl hn honce
        induction hf with
        | nil => simp at hb
        | cons h1 h2 ih =>
          rcases List.mem_cons.1 hb with rfl | h3
          · exact ⟨_, h1.1⟩
          · exact ih h3
      exact Finset.mem_Icc.2 hi.range
    have hd : (bars.dropLast.map Bar.tenths).Nodup := honce.imp fun h => h.ne
    have := Finset.card_le_card (s := (bars.dropLast.map Bar.tenths).toFinset) (t := Finset.Icc (0 : ℤ) 1000)
      (fun t ht => hr t (List.mem_toFinset.1 ht))
    rw [List.toFinset_card_of_nodup hd] at this
    simp at this
    omega
  · rw [← hf.length_eq]
    have hd : items.Nodup := hl.imp fun h => h.ne
    have := Finset.card_le_card (s := items.toFinset) (t := Finset.range n)
      (fun t ht => Finset.mem_range.2 (hn t (List.mem_toFinset.1 ht)))
    rwa [List.toFinset_card_of_nodup hd, Finset.card_range] at this

/-- **C90.** The text of an honest bar reads like one. -/
theorem c90_text (name : String) (p : ℚ) (b : Bar) (h : Spec.Tells name p b) : Spec.BarText b b.text := by
  obtain ⟨h0, h1⟩ := h.filled
  refine ⟨List.replicate b.hashes.toNat '#' ++ List.replicate (10 - b.hashes).toNat '-',
    (s!" {b.tenths / 10}.{b.tenths % 10} % of {b.name} {b.status.text}").toList, ?_, ?_, ?_, ?_⟩
  · unfold Bar.text
    simp [toString, List.append_assoc]
  · simp; omega
  · intro c hc
    rcases List.mem_append.1 hc with hc | hc
    · exact .inl (List.eq_of_mem_replicate hc)
    · exact .inr (List.eq_of_mem_replicate hc)
  · rw [List.count_append, List.count_replicate_self, List.count_replicate]
    simp; omega

/-- **C90.** What is no float is shown as an error at 0 %, and only the class `int` raises. -/
theorem c90_arguments (name : String) (last : ℤ) (a : ProgressArg) :
    (updateProgress last a name = .error .typeError ↔ a = .intClass) ∧
    (a = .other → updateProgress last a name = .ok (some ⟨0, 0, name, .error⟩, 0)) ∧
    (∀ x, a = .float x → x < 0 → updateProgress last a name = .ok (some ⟨0, 0, name, .halt⟩, 0)) := by
  have z := pyRound_int 0
  norm_num at z
  have n1 : ¬ (1 : ℚ) ≤ 0 := by norm_num
  have fin : ∀ r : ℚ × BarStatus, readProgress a = .ok r → updateProgress last a name ≠ .error .typeError := by
    intro r hr h
    unfold updateProgress at h
    rw [hr] at h
    simp only [bind, Except.bind] at h
    by_cases hc : last ≠ pyRound (r.1 * 1000) ∨ r.2 ≠ .plain
    · rw [if_pos hc] at h; cases h
    · rw [if_neg hc] at h; cases h
  refine ⟨⟨fun h => ?_, ?_⟩, ?_, ?_⟩
  · cases a with
    | intClass => rfl
    | float x => exact absurd h (fin _ rfl)
    | other => exact absurd h (fin _ rfl)
  · rintro rfl; rfl
  · rintro rfl
    simp [updateProgress, readProgress, bind, Except.bind, z, n1]
  · rintro x rfl hx
    simp [updateProgress, readProgress, bind, Except.bind, z, hx, n1]

/-- Three items after a loop that ended at 100 %: 33.3, 66.7, 100.0, announced. -/
example : showAll "Demo" 1000 (loopArgs 3) =
    .ok ([⟨3, 333, "Demo", .plain⟩, ⟨7, 667, "Demo", .plain⟩, ⟨10, 1000, "Demo", .done⟩], 1000) := by
  decide +kernel

/-! ## C91: does every bar announce its end? -/

/-- The thousandths that `trajectory_self_correct` compares. -/
def thousandths (n i : ℕ) : ℤ := pyRound (((i : ℤ) : ℚ) / ((n : ℤ) : ℚ) * 1000)

theorem thousandths_mono {n i j : ℕ} (h : i ≤ j) : thousandths n i ≤ thousandths n j := by
  apply pyRound_mono
  have : (i : ℚ) / n ≤ (j : ℚ) / n := div_le_div_of_nonneg_right (by exact_mod_cast h) (by positivity)
  push_cast
  linarith

theorem correctionArgs_eq (n i k : ℕ) :
    correctionArgs n (thousandths n (i - 1)) i k =
      ((List.range' i k).filter fun j => decide (thousandths n (j - 1) < thousandths n j)).map
        fun (j : ℕ) => ProgressArg.float (((j : ℤ) + 1 : ℤ) / ((n : ℤ) : ℚ)) := by
  induction k generalizing i with
  | zero => simp [correctionArgs]
  | succ k ih =>
    have ih := ih (i + 1)
    simp only [Nat.add_sub_cancel] at ih
    rw [correctionArgs.eq_def]
    simp only [List.range'_succ]
    change (if thousandths n (i - 1) < thousandths n i then
      ProgressArg.float (((i : ℤ) + 1 : ℤ) / ((n : ℤ) : ℚ)) :: correctionArgs n (thousandths n i) (i + 1) k else _) = _
    by_cases h : thousandths n (i - 1) < thousandths n i
    · rw [if_pos h, List.filter_cons_of_pos (by simpa using h), List.map_cons, ih]
    · have e : thousandths n (i - 1) = thousandths n i :=
        le_antisymm (thousandths_mono (by omega)) (not_lt.1 h)
      rw [if_neg h, List.filter_cons_of_neg (by simpa using h), e, ih]

theorem thousandths_zero (n : ℕ) : thousandths n 0 = 0 := by
  unfold thousandths
  have := pyRound_int 0
  simpa using this

/-- **C91**, in full: the bar of the block correction is that of a loop over the blocks. -/
def C91Full : Prop :=
  ∀ (n : ℕ) (last : ℤ), 0 < n → ∃ bars g, correctionBars last n = .ok (bars, g) ∧
    Spec.ShowsLoop "Block Correction" n bars

/-- The numbers of blocks for which it is. -/
theorem last_reported (n : ℕ) (hn : 0 < n) :
    thousandths n (n - 1 - 1) < thousandths n (n - 1) ↔ (2 ≤ n ∧ n ≤ 1333) ∨ (2000 ≤ n ∧ n ≤ 3999) := by
  rcases Nat.lt_or_ge n 2 with h2 | h2
  · obtain rfl : n = 1 := by omega
    simp
  have hq : (0 : ℚ) < n := by exact_mod_cast hn
  have ea : thousandths n (n - 1 - 1) = pyRound (1000 - 2000 / n) := by
    unfold thousandths
    congr 1
    have : (((n - 1 - 1 : ℕ) : ℤ) : ℚ) = n - 2 := by
      have : ((n - 1 - 1 : ℕ) : ℤ) = (n : ℤ) - 2 := by omega
      rw [this]; push_cast; ring
    rw [this]
    push_cast
    field_simp
    ring
  have eb : thousandths n (n - 1) = pyRound (1000 - 1000 / n) := by
    unfold thousandths
    congr 1
    have : (((n - 1 : ℕ) : ℤ) : ℚ) = n - 1 := by
      have : ((n - 1 : ℕ) : ℤ) = (n : ℤ) - 1 := by omega
      rw [this]; push_cast; ring
    rw [this]
    push_cast
    field_simp
  rw [ea, eb]
  have na := abs_le.1 (pyRound_near (1000 - 2000 / (n : ℚ)))
  have nb := abs_le.1 (pyRound_near (1000 - 1000 / (n : ℚ)))
  set ra := pyRound (1000 - 2000 / (n : ℚ)) with hra
  set rb := pyRound (1000 - 1000 / (n : ℚ)) with hrb
  have cast_lt : ∀ {a b : ℤ}, (a : ℚ) < b → a < b := fun h => by exact_mod_cast h
  have e2 : (2000 : ℚ) / n = 2 * (1000 / n) := by ring
  rcases Nat.lt_or_ge n 1000 with h | h
  · have : (1 : ℚ) < 1000 / n := by rw [lt_div_iff₀ hq]; have : (n : ℚ) < 1000 := by exact_mod_cast h
                                    linarith
    have : ra < rb := cast_lt (by linarith [na.1, na.2, nb.1, nb.2])
    simp only [this, true_iff]; omega
  rcases Nat.lt_or_ge n 1334 with h' | h'
  · have h3 : (3 / 4 : ℚ) < 1000 / n := by
      rw [lt_div_iff₀ hq]; have : (n : ℚ) ≤ 1333 := by exact_mod_cast (by omega : n ≤ 1333)
      linarith
    have h4 : (1000 : ℚ) / n ≤ 1 := by
      rw [div_le_one hq]; exact_mod_cast h
    have h5 : ra < 999 := cast_lt (by push_cast; linarith [na.1])
    have h6 : 999 ≤ rb := by
      have := pyRound_mono (show ((999 : ℤ) : ℚ) ≤ 1000 - 1000 / n by push_cast; linarith)
      rwa [pyRound_int] at this
    have : ra < rb := by omega
    simp only [this, true_iff]; omega
  rcases Nat.lt_or_ge n 2000 with h3 | h3
  · have h4 : (1000 : ℚ) / n < 3 / 4 := by
      rw [div_lt_iff₀ hq]; have : (1334 : ℚ) ≤ n := by exact_mod_cast h'
      linarith
    have h5 : (1 / 2 : ℚ) < 1000 / n := by
      rw [lt_div_iff₀ hq]; have : (n : ℚ) < 2000 := by exact_mod_cast h3
      linarith
    have h6 : 998 < ra := cast_lt (by push_cast; linarith [na.2])
    have h7 : rb < 1000 := cast_lt (by push_cast; linarith [nb.1])
    have : ¬ ra < rb := by omega
    simp only [this, false_iff]; omega
  rcases Nat.lt_or_ge n 4000 with h4 | h4
  · have h5 : (1000 : ℚ) / n ≤ 1 / 2 := by
      rw [div_le_iff₀ hq]; have : (2000 : ℚ) ≤ n := by exact_mod_cast h3
      linarith
    have h6 : (1 / 4 : ℚ) < 1000 / n := by
      rw [lt_div_iff₀ hq]; have : (n : ℚ) < 4000 := by exact_mod_cast h4
      linarith
    have h7 : ra < 1000 := cast_lt (by push_cast; linarith [na.1])
    have h8 : 1000 ≤ rb := by
      have := pyRound_mono (show (999.5 : ℚ) ≤ 1000 - 1000 / n by norm_num; linarith)
      have e : pyRound (999.5 : ℚ) = 1000 := by decide +kernel
      rwa [e] at this
    have : ra < rb := by omega
    simp only [this, true_iff]; omega
  · have h5 : (1000 : ℚ) / n ≤ 1 / 4 := by
      rw [div_le_iff₀ hq]; have : (4000 : ℚ) ≤ n := by exact_mod_cast h4
      linarith
    have h6 : 1000 ≤ ra := by
      have := pyRound_mono (show (999.5 : ℚ) ≤ 1000 - 2000 / n by norm_num; linarith)
      have e : pyRound (999.5 : ℚ) = 1000 := by decide +kernel
      rwa [e] at this
    have h7 : rb < 1001 := cast_lt (by
      have : (0 : ℚ) < 1000 / n := by positivity
      push_cast; linarith [nb.1])
    have : ¬ ra < rb := by omega
    simp only [this, false_iff]; omega

/-- The blocks before the last one after which the correction reports. -/
def reported (m : ℕ) : List ℕ :=
  (List.range m).filter fun j => decide (thousandths (m + 1) (j - 1) < thousandths (m + 1) j)

theorem correctionArgs_succ (m : ℕ) :
    correctionArgs (m + 1) 0 0 (m + 1) = ((reported m).map fun i => .float (doneFraction m i)) ++
      (if thousandths (m + 1) (m - 1) < thousandths (m + 1) m then [.float 1] else []) := by
  have e := correctionArgs_eq (m + 1) 0 (m + 1)
  rw [Nat.zero_sub, thousandths_zero] at e
  rw [e, ← List.range_eq_range', List.range_succ, List.filter_append, List.map_append]
  refine congrArg₂ (· ++ ·) ?_ ?_
  · apply List.map_congr_left
    intro i _
    simp [doneFraction]
  · by_cases h : thousandths (m + 1) (m - 1) < thousandths (m + 1) m
    · have : ((m : ℚ) + 1) ≠ 0 := by positivity
      simp [h, this]
    · simp [h]

/-- **C91.** The bar of the block correction announces its end exactly for 2 to 1333 and for 2000 to 3999 blocks. -/
theorem c91_exactly (n : ℕ) (hn : 0 < n) (last : ℤ) :
    (∃ bars g, correctionBars last n = .ok (bars, g) ∧ Spec.ShowsLoop "Block Correction" n bars) ↔
      (2 ≤ n ∧ n ≤ 1333) ∨ (2000 ≤ n ∧ n ≤ 3999) := by
  rw [← last_reported n hn]
  obtain ⟨m, rfl⟩ : ∃ m, n = m + 1 := ⟨n - 1, by omega⟩
  simp only [Nat.add_sub_cancel]
  have hl : (reported m).Pairwise (· < ·) := List.Pairwise.filter _ List.pairwise_lt_range
  have hm : ∀ i ∈ reported m, i < m := fun i hi => List.mem_range.1 (List.mem_filter.1 hi).1
  unfold correctionBars
  rw [correctionArgs_succ]
  constructor
  · rintro ⟨bars, g, he, hs⟩
    by_contra h
    rw [if_neg h, List.append_nil] at he
    obtain ⟨sub, g', -, he', -, -, -⟩ := show_items "Block Correction" m _ hl hm last
    rw [he'] at he
    injection he with he
    injection he with he _
    obtain ⟨items, -, -, hlast, hf⟩ := hs.told
    have : ∃ b ∈ bars, b.status = .done := by
      clear he he' hs
      simp only [Nat.add_sub_cancel] at hlast
      induction hf with
      | nil => simp at hlast
      | cons h1 h2 ih =>
        rcases List.mem_cons.1 hlast with rfl | h3
        · exact ⟨_, List.mem_cons_self, h1.2.trans (if_pos rfl)⟩
        · obtain ⟨b, hb, h4⟩ := ih h3
          exact ⟨b, List.mem_cons_of_mem _ hb, h4⟩
    obtain ⟨b, hb, hd⟩ := this
    rw [← he] at hb
    obtain ⟨i, -, rfl⟩ := List.mem_map.1 hb
    cases hd
  · intro h
    rw [if_pos h]
    obtain ⟨bars, he, hs⟩ := shows_with_end "Block Correction" m _ hl hm last
    exact ⟨bars, 1000, he, hs⟩

/-- **C91** in full is false: a print of one block shows no bar of the correction at all. -/
theorem c91_refuted : ¬ C91Full := by
  intro h
  have := (c91_exactly 1 (by norm_num) 0).1 (h 1 0 (by norm_num))
  omega

/-- **C91**, what holds for all prints: every bar of the correction is honest, and only one written after the last block
announces the end. -/
theorem c91_honest_partial (n : ℕ) (last : ℤ) :
    ∃ bars g items, correctionBars last n = .ok (bars, g) ∧ items.Pairwise (· < ·) ∧ (∀ i ∈ items, i < n) ∧
      List.Forall₂ (fun (i : ℕ) b => Spec.Tells "Block Correction" ((i + 1 : ℕ) / (n : ℚ)) b ∧
        b.status = if i + 1 = n then .done else .plain) items bars := by
  rcases Nat.eq_zero_or_pos n with rfl | hn
  · exact ⟨[], last, [], rfl, by simp, by simp, .nil⟩
  by_cases h : (2 ≤ n ∧ n ≤ 1333) ∨ (2000 ≤ n ∧ n ≤ 3999)
  · obtain ⟨bars, g, he, hs⟩ := (c91_exactly n hn last).2 h
    obtain ⟨items, h1, h2, -, h4⟩ := hs.told
    exact ⟨bars, g, items, he, h1, h2, h4⟩
  · rw [← last_reported n hn] at h
    obtain ⟨m, rfl⟩ : ∃ m, n = m + 1 := ⟨n - 1, by omega⟩
    simp only [Nat.add_sub_cancel] at h
    have hl : (reported m).Pairwise (· < ·) := List.Pairwise.filter _ List.pairwise_lt_range
    have hm : ∀ i ∈ reported m, i < m := fun i hi => List.mem_range.1 (List.mem_filter.1 hi).1
    obtain ⟨sub, g, hs, he, -, -, -⟩ := show_items "Block Correction" m _ hl hm last
    refine ⟨sub.map fun i => barOf "Block Correction" (doneFraction m i), g, sub, ?_, List.Pairwise.sublist hs hl, fun i hi => ?_, ?_⟩
    · unfold correctionBars
      rw [correctionArgs_succ, if_neg h, List.append_nil]
      exact he
    · have := hm i (hs.subset hi); omega
    · rw [List.forall₂_map_right_iff, List.forall₂_same]
      intro i hi
      have him := hm i (hs.subset hi)
      refine ⟨tells_of _ (doneFraction_nonneg m i) (doneFraction_lt him).le _, ?_⟩
      rw [if_neg (by omega)]
      rfl

/-- **C91.** The bar for the points of the 2D plot never announces its end. -/
theorem c91_points (name : String) (n : ℕ) (last : ℤ) :
    ∃ bars g, showAll name last (pointArgs n) = .ok (bars, g) ∧ ∀ b ∈ bars, b.status = .plain := by
  have e : pointArgs n = ((List.range n).map fun (i : ℕ) => ((i : ℤ) : ℚ) / ((n : ℤ) : ℚ)).map .float := by
    simp [pointArgs]
  obtain ⟨ys, -, he, -, -⟩ := show_floats name ((List.range n).map fun (i : ℕ) => ((i : ℤ) : ℚ) / ((n : ℤ) : ℚ))
    (by intro x hx; obtain ⟨i, -, rfl⟩ := List.mem_map.1 hx; push_cast; positivity)
    (by
      intro x hx
      obtain ⟨i, hi, rfl⟩ := List.mem_map.1 hx
      have hi := List.mem_range.1 hi
      push_cast
      rw [div_lt_one (by exact_mod_cast (by omega : 0 < n))]
      exact_mod_cast hi) last
  refine ⟨_, _, by rw [e, he], fun b hb => ?_⟩
  obtain ⟨x, -, rfl⟩ := List.mem_map.1 hb
  rfl

/-- Three blocks: the correction reports after the second and the third. -/
example : correctionBars 1000 3 = .ok ([⟨7, 667, "Block Correction", .plain⟩, ⟨10, 1000, "Block Correction", .done⟩], 1000) := by
  decide +kernel

/-! ## C92: texts inside ABAQUS -/

/-- **C92.** Outside ABAQUS texts are printed unchanged. Inside, every text loses exactly its characters beyond ASCII: it
becomes a text of ASCII characters with the same characters in the same order, and an ASCII text stays as it is. -/
theorem c92_print (args : List (List Char)) :
    customPrint false args = args ∧
    List.Forall₂ (fun a b => b.Sublist a ∧ (∀ c ∈ b, c.toNat < 128) ∧
      (∀ c : Char, c.toNat < 128 → b.count c = a.count c) ∧ ((∀ c ∈ a, c.toNat < 128) → b = a))
      args (customPrint true args) := by
  refine ⟨rfl, ?_⟩
  simp only [customPrint, if_true]
  rw [List.forall₂_map_right_iff, List.forall₂_same]
  intro a _
  refine ⟨List.filter_sublist, fun c hc => by simpa using (List.mem_filter.1 hc).2, fun c hc => ?_, fun h => ?_⟩
  · exact List.count_filter (by simpa using hc)
  · exact List.filter_eq_self.2 fun c hc => by simpa using h c hc

/-- An emoji is dropped. -/
example : customPrint true ["💾 ok".toList] = [" ok".toList] := by decide

end PyGCD
