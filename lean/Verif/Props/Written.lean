import Verif.Model.Written
import Verif.Spec.Tables
import Verif.Proofs.RelError
import Verif.Props.Rounded

/-!
# Text files (C96, C97)
-/

set_option linter.unusedSectionVars false
set_option linter.unusedSimpArgs false

namespace PyGCD
open PyGCD.Spec

/-! ## Splitting -/

theorem pieces_clean {sep : Char} : ∀ {a : List Char}, sep ∉ a → pieces sep a = [a] := by
  intro a
  induction a with
  | nil => intro _; rfl
  | cons c a ih =>
    intro h
    rw [List.mem_cons, not_or] at h
    rw [pieces, if_neg (Ne.symm h.1), ih h.2]

theorem pieces_append {sep : Char} : ∀ {a : List Char} (t : List Char), sep ∉ a →
    pieces sep (a ++ sep :: t) = a :: pieces sep t := by
  intro a
  induction a with
  | nil =>
    intro t _
    rw [List.nil_append, pieces, if_pos rfl]
  | cons c a ih =>
    intro t h
    rw [List.mem_cons, not_or] at h
    rw [List.cons_append, pieces, if_neg (Ne.symm h.1), ih t h.2]

theorem pieces_lines {α : Type} (body : α → List Char) : ∀ {rows : List α}, (∀ r ∈ rows, '\n' ∉ body r) →
    pieces '\n' (rows.flatMap fun r => body r ++ ['\n']) = rows.map body ++ [[]] := by
  intro rows
  induction rows with
  | nil => intro _; rfl
  | cons r rows ih =>
    intro h
    rw [List.flatMap_cons, List.append_assoc, List.singleton_append, pieces_append _ (h r (by simp)),
      ih fun x hx => h x (by simp [hx])]
    rfl

theorem natText_clean {c : Char} (hc : c.isDigit = false) (n : ℕ) : c ∉ natText n := by
  intro h
  rw [Nat.isDigit_of_mem_toDigits (by norm_num) (by norm_num) h] at hc
  cases hc

/-! ## Rounding to eight places -/

/-- Python's rounding is accurate. -/
theorem rounds8_python : Rounds8 round8Py := by
  intro x
  have h1 := roundEven_half (x.val * 100000000)
  have h1' : |((roundEven (x.val * 100000000) : ℤ) : ℝ) - x.r * 100000000| ≤ 1 / 2 := by
    have := (Rat.cast_le (K := ℝ)).2 h1
    push_cast at this
    simpa [Dbl.r] using this
  have h2 := (rel_rnd ((roundEven (x.val * 100000000) : Rat) / 100000000)).abs_sub (by norm_num)
  have he := eps_lt
  have he0 := eps_pos
  have h3 : (round8Py x).r = ((rnd ((roundEven (x.val * 100000000) : Rat) / 100000000) : ℚ) : ℝ) := rfl
  rw [h3]
  push_cast at h2 ⊢
  generalize ((rnd ((roundEven (x.val * 100000000) : Rat) / 100000000) : ℚ) : ℝ) = z at *
  generalize ((roundEven (x.val * 100000000) : ℤ) : ℝ) = n at *
  have h4 : |n / 100000000 - x.r| ≤ 5e-9 := by
    rw [abs_le] at h1' ⊢
    constructor <;> linarith [h1'.1, h1'.2]
  have h5 : |n / 100000000| ≤ |x.r| + 5e-9 := by
    have := abs_sub_abs_le_abs_sub (n / 100000000) x.r
    linarith
  have h6 : |z - n / 100000000| ≤ 1e-15 * |x.r| + 1e-12 := by
    refine h2.trans ?_
    have h0 := abs_nonneg x.r
    have : 2 * 1 * eps * |n / 100000000| ≤ 4e-16 * (|x.r| + 5e-9) := by gcongr; linarith
    linarith
  have h7 := abs_sub_le z (n / 100000000) x.r
  linarith

/-- Numpy's rounding is accurate. -/
theorem rounds8_numpy : Rounds8 round8Np := by
  intro x
  have e8 : (100000000 : Dbl).r = 100000000 := by
    have : (100000000 : Dbl) = ⟨100000000⟩ := by decide +kernel
    rw [this]
    simp [Dbl.r]
  have h0 : |(x * (100000000 : Dbl)).r - x.r * 100000000| ≤ 2 * (1 : ℕ) * eps * |x.r * 100000000| := by
    have := (Dbl.r_mul x (100000000 : Dbl)).abs_sub (by norm_num)
    rwa [e8] at this
  have h1 := roundEven_half (x * (100000000 : Dbl)).val
  have h1' : |((roundEven (x * (100000000 : Dbl)).val : ℤ) : ℝ) - (x * (100000000 : Dbl)).r| ≤ 1 / 2 := by
    have := (Rat.cast_le (K := ℝ)).2 h1
    push_cast at this
    simpa [Dbl.r] using this
  have h2 : |(round8Np x).r - ((roundEven (x * (100000000 : Dbl)).val : ℤ) : ℝ) / 100000000| ≤
      2 * (1 : ℕ) * eps * |((roundEven (x * (100000000 : Dbl)).val : ℤ) : ℝ) / 100000000| := by
    have := (Dbl.r_div (⟨(roundEven (x * (100000000 : Dbl)).val : Rat)⟩ : Dbl) (100000000 : Dbl)).abs_sub (by norm_num)
    rw [e8] at this
    simpa [Dbl.r, round8Np] using this
  have he := eps_lt
  have he0 := eps_pos
  generalize ((roundEven (x * (100000000 : Dbl)).val : ℤ) : ℝ) = n at *
  generalize (x * (100000000 : Dbl)).r = m at *
  generalize (round8Np x).r = z at *
  have hx := abs_nonneg x.r
  have h3 : |m - x.r * 100000000| ≤ 2.4e-16 * |x.r| * 100000000 := by
    refine h0.trans ?_
    rw [abs_mul, abs_of_pos (by norm_num : (0 : ℝ) < 100000000)]
    push_cast
    have : 2 * 1 * eps ≤ 2.4e-16 := by linarith
    nlinarith [mul_le_mul_of_nonneg_right this hx]
  have h4 : |n / 100000000 - x.r| ≤ 5e-9 + 2.4e-16 * |x.r| := by
    rw [abs_le] at h1' h3 ⊢
    constructor <;> linarith [h1'.1, h1'.2, h3.1, h3.2]
  have h5 : |n / 100000000| ≤ 2 * |x.r| + 5e-9 := by
    have := abs_sub_abs_le_abs_sub (n / 100000000) x.r
    linarith
  have h6 : |z - n / 100000000| ≤ 6e-16 * |x.r| + 1e-12 := by
    refine h2.trans ?_
    push_cast
    have : 2 * 1 * eps * |n / 100000000| ≤ 2.4e-16 * (2 * |x.r| + 5e-9) := by gcongr; linarith
    linarith
  have h7 := abs_sub_le z (n / 100000000) x.r
  linarith

/-! ## C96 -/

theorem abaqusRows_flag {tol f : Dbl} : ∀ (l : List (Dbl × Vec4 Dbl)), ∀ r ∈ abaqusRows tol f l, r.flag = 0 ∨ r.flag = 1 := by
  intro l
  induction l with
  | nil => intro r hr; cases hr
  | cons a l ih =>
    intro r hr
    obtain ⟨t, p⟩ := a
    cases l with
    | nil =>
      rw [abaqusRows, List.mem_singleton] at hr
      subst hr
      exact Or.inl rfl
    | cons b l =>
      obtain ⟨t', p'⟩ := b
      rw [abaqusRows, List.mem_cons] at hr
      rcases hr with rfl | hr
      · simp only
        split
        · exact Or.inr rfl
        · exact Or.inl rfl
      · exact ih r hr

/-- **C96.** The event series that is written can be read back: the lines of the file, split at the commas, are the
returned rows in order; times and extrusion flags are exact and coordinates right to the eighth decimal place. If the
series cannot be made, nothing is written. -/
theorem c96_event_file {pf : List Char → Option Dbl} {num : Dbl → List Char} {round8 : Dbl → Dbl} (hround : Rounds8 round8)
    {bs : List (Block Dbl)} {own : String} {u : Option String} {tol : Dbl} :
    (∀ e, abaqusEvents bs own u tol = .error e → writeEvents num round8 bs own u tol = .error e) ∧
    ∀ rows, abaqusEvents bs own u tol = .ok rows →
      (∀ r ∈ rows, ∀ x ∈ [r.t, round8 r.x, round8 r.y, round8 r.z], Prints pf [',', '\n'] num x) →
      ∃ text table, writeEvents num round8 bs own u tol = .ok (rows, text) ∧ IsTable ',' text table ∧
        List.Forall₂ (EventCells pf) rows table := by
  refine ⟨fun e h => by simp only [writeEvents, h, bind, Except.bind], ?_⟩
  intro rows h hp
  have hflag : ∀ r ∈ rows, r.flag = 0 ∨ r.flag = 1 := by
    unfold abaqusEvents at h
    split at h
    · cases h
    simp only [bind, Except.bind] at h
    split at h
    · cases h
    · cases h
      exact abaqusRows_flag _
  set body : EventRow Dbl → List Char := fun r => num r.t ++ ',' :: (num (round8 r.x) ++ ',' :: (num (round8 r.y) ++
    ',' :: (num (round8 r.z) ++ ',' :: natText r.flag))) with hbody
  have hline : ∀ r, eventLine num round8 r = body r ++ ['\n'] := by
    intro r
    simp [eventLine, hbody]
  have hnl : ∀ r ∈ rows, '\n' ∉ body r := by
    intro r hr
    have k := fun x hx => (hp r hr x hx).clean '\n' (by simp)
    simp only [hbody, List.mem_append, List.mem_cons, not_or]
    exact ⟨k _ (by simp), by decide, k _ (by simp), by decide, k _ (by simp), by decide, k _ (by simp), by decide,
      natText_clean (by decide) _⟩
  refine ⟨_, rows.map fun r => pieces ',' (body r), by simp only [writeEvents, h, bind, Except.bind]; rfl, ?_, ?_⟩
  · refine ⟨rows.map body, ?_, by rw [List.map_map]; rfl⟩
    rw [show eventLine num round8 = fun r => body r ++ ['\n'] from funext hline]
    exact pieces_lines body hnl
  · rw [List.forall₂_map_right_iff, List.forall₂_same]
    intro r hr
    have k := fun x hx => (hp r hr x hx).clean ',' (by simp)
    have b := fun x hx => (hp r hr x hx).back
    refine ⟨num r.t, num (round8 r.x), num (round8 r.y), num (round8 r.z), natText r.flag, ?_, b _ (by simp),
      ⟨_, b _ (by simp), hround _⟩, ⟨_, b _ (by simp), hround _⟩, ⟨_, b _ (by simp), hround _⟩, ?_⟩
    · simp only [hbody]
      rw [pieces_append _ (k _ (by simp)), pieces_append _ (k _ (by simp)), pieces_append _ (k _ (by simp)),
        pieces_append _ (k _ (by simp)), pieces_clean (natText_clean (by decide) _)]
    · rcases hflag r hr with e | e <;> rw [e] <;> rfl

/-- Letters, digits, blanks and slashes. -/
def Headingy (l : List Char) : Prop := ∀ d ∈ l, d.isAlphanum = true ∨ d = ' ' ∨ d = '/'

theorem heading_chars : Headingy "layer".toList ∧ Headingy " layer time in s".toList ∧
    Headingy " travel distance in mm".toList ∧ Headingy " avg speed in mm/s".toList := by
  unfold Headingy
  decide +kernel

theorem header_join (c : Char) : layerHeader [c] = "layer".toList ++ c :: (" layer time in s".toList ++ c ::
    (" travel distance in mm".toList ++ c :: " avg speed in mm/s".toList)) := by
  unfold layerHeader
  generalize "layer".toList = s1
  generalize " layer time in s".toList = s2
  generalize " travel distance in mm".toList = s3
  generalize " avg speed in mm/s".toList = s4
  simp

theorem header_chars (c : Char) : ∀ d ∈ layerHeader [c], d = c ∨ d.isAlphanum = true ∨ d = ' ' ∨ d = '/' := by
  intro d hd
  rw [header_join] at hd
  obtain ⟨m1, m2, m3, m4⟩ := heading_chars
  generalize "layer".toList = s1 at *
  generalize " layer time in s".toList = s2 at *
  generalize " travel distance in mm".toList = s3 at *
  generalize " avg speed in mm/s".toList = s4 at *
  simp only [List.mem_append, List.mem_cons] at hd
  rcases hd with hd | hd | hd | hd | hd | hd | hd
  · exact Or.inr (m1 d hd)
  · exact Or.inl hd
  · exact Or.inr (m2 d hd)
  · exact Or.inl hd
  · exact Or.inr (m3 d hd)
  · exact Or.inl hd
  · exact Or.inr (m4 d hd)

section
variable {K : Type} [Add K] [Sub K] [Mul K] [Div K] [Neg K] [LT K] [LE K] [DecidableLT K]
  [DecidableLE K] [DecidableEq K] [OfNat K 0] [OfNat K 1] [OfNat K 2] [OfScientific K] [PyMath K]

/-- **C96.** The layer metrics that are written can be read back: with a delimiter that is neither a letter, a digit, a
blank, a slash nor a line break, the file is a table with the four headings and then the returned rows in order.
Without a layer cue or without a path nothing is written. -/
theorem c96_layer_file {pf : List Char → Option K} {num : K → List Char} {c : Char} (hc : c.isAlphanum = false)
    (hc' : c ≠ ' ' ∧ c ≠ '/' ∧ c ≠ '\n') {path hasCue : Bool} {bs : List (Block K)} :
    (∀ e, saveLayerMetrics hasCue bs = .error e → writeLayerMetrics num [c] path hasCue bs = .error e) ∧
    (saveLayerMetrics hasCue bs = .ok none → writeLayerMetrics num [c] path hasCue bs = .ok (none, none)) ∧
    ∀ rows, saveLayerMetrics hasCue bs = .ok (some rows) →
      writeLayerMetrics num [c] false hasCue bs = .ok (some rows, none) ∧
      ((∀ r ∈ rows, Prints pf [c, '\n'] num r.duration ∧ Prints pf [c, '\n'] num r.travel ∧
          ∀ x ∈ r.avg, Prints pf [c, '\n'] num x) →
        ∃ text table, writeLayerMetrics num [c] true hasCue bs = .ok (some rows, some text) ∧
          IsTable c text (["layer".toList, " layer time in s".toList, " travel distance in mm".toList,
            " avg speed in mm/s".toList] :: table) ∧ List.Forall₂ (LayerCells pf) rows table) := by
  refine ⟨fun e h => by simp only [writeLayerMetrics, h, bind, Except.bind], fun h => by
    simp only [writeLayerMetrics, h, bind, Except.bind], ?_⟩
  intro rows h
  refine ⟨by simp only [writeLayerMetrics, h, bind, Except.bind]; rfl, ?_⟩
  intro hp
  have hal : ∀ d : Char, d.isAlphanum = true → c ≠ d := by
    rintro d hd rfl
    rw [hd] at hc
    cases hc
  have hdig : c.isDigit = false := by
    rw [Char.isAlphanum, Bool.or_eq_false_iff] at hc
    exact hc.2
  set avg : LayerRow K → List Char := fun r => match r.avg with | none => "NaN".toList | some v => num v with havg
  set body : LayerRow K → List Char := fun r => natText r.layer ++ c :: ((' ' :: num r.duration) ++ c ::
    ((' ' :: num r.travel) ++ c :: (' ' :: avg r))) with hbody
  have hline : ∀ r, layerLine num [c] r = body r ++ ['\n'] := by
    intro r
    simp only [layerLine, hbody, havg]
    cases r.avg <;> simp
  have hclean : ∀ r ∈ rows, ∀ s ∈ [c, '\n'], s ∉ ' ' :: num r.duration ∧ s ∉ ' ' :: num r.travel ∧ s ∉ ' ' :: avg r := by
    intro r hr s hs
    have hb : s ≠ ' ' := by
      simp only [List.mem_cons, List.not_mem_nil, or_false] at hs
      rcases hs with rfl | rfl
      · exact hc'.1
      · decide
    simp only [List.mem_cons, not_or]
    refine ⟨⟨hb, (hp r hr).1.clean s hs⟩, ⟨hb, (hp r hr).2.1.clean s hs⟩, hb, ?_⟩
    simp only [havg]
    cases hv : r.avg with
    | some v => exact ((hp r hr).2.2 v hv).clean s hs
    | none =>
      simp only [List.mem_cons, List.not_mem_nil, or_false] at hs
      have hN : "NaN".toList = ['N', 'a', 'N'] := rfl
      simp only [hN, List.mem_cons, List.not_mem_nil, or_false, not_or]
      rcases hs with rfl | rfl
      · exact ⟨hal _ (by decide), hal _ (by decide), hal _ (by decide)⟩
      · decide
  have hnl : ∀ r ∈ rows, '\n' ∉ body r := by
    intro r hr
    obtain ⟨k1, k2, k3⟩ := hclean r hr '\n' (by simp)
    simp only [hbody, List.mem_append, List.mem_cons, not_or] at k1 k2 k3 ⊢
    exact ⟨natText_clean (by decide) _, hc'.2.2.symm, k1, hc'.2.2.symm, k2, hc'.2.2.symm, k3⟩
  have hhead := header_chars c
  have hcl : ∀ l : List Char, (∀ d ∈ l, d.isAlphanum = true ∨ d = ' ' ∨ d = '/') → c ∉ l := by
    intro l hl hcl
    rcases hl c hcl with h | h | h
    · rw [h] at hc; cases hc
    · exact hc'.1 h
    · exact hc'.2.1 h
  have htext : writeLayerMetrics num [c] true hasCue bs =
      .ok (some rows, some (layerHeader [c] ++ '\n' :: rows.flatMap fun r => body r ++ ['\n'])) := by
    simp only [writeLayerMetrics, h, bind, Except.bind, if_true, List.append_assoc, List.singleton_append]
    rw [show layerLine num [c] = fun r => body r ++ ['\n'] from funext hline]
  refine ⟨_, rows.map fun r => pieces c (body r), htext, ?_, ?_⟩
  · refine ⟨layerHeader [c] :: rows.map body, ?_, ?_⟩
    · rw [pieces_append, pieces_lines body hnl]
      · rfl
      · intro hn
        rcases hhead _ hn with e | e | e | e
        · exact hc'.2.2 e.symm
        · revert e; decide
        · revert e; decide
        · revert e; decide
    · rw [List.map_cons, List.map_map]
      congr 1
      obtain ⟨m1, m2, m3, m4⟩ := heading_chars
      rw [header_join, pieces_append _ (hcl _ m1), pieces_append _ (hcl _ m2), pieces_append _ (hcl _ m3),
        pieces_clean (hcl _ m4)]
  · rw [List.forall₂_map_right_iff, List.forall₂_same]
    intro r hr
    obtain ⟨k1, k2, k3⟩ := hclean r hr c (by simp)
    refine ⟨natText r.layer, num r.duration, num r.travel, avg r, ?_, Nat.toList_repr.symm, (hp r hr).1.back,
      (hp r hr).2.1.back, ?_⟩
    · simp only [hbody]
      rw [pieces_append _ (natText_clean hdig _), pieces_append _ k1, pieces_append _ k2, pieces_clean k3]
    · simp only [havg]
      cases hv : r.avg with
      | none => exact Or.inl ⟨rfl, rfl⟩
      | some v => exact Or.inr ⟨v, rfl, ((hp r hr).2.2 v hv).back⟩

/-! ## C97 -/

theorem lookup_withEntry {V : Type} (d : List (String × V)) (k : String) (v : V) (k' : String) :
    (withEntry d k v).lookup k' = if k' = k then some v else d.lookup k' := by
  induction d with
  | nil =>
    rw [withEntry]
    by_cases h : k' = k
    · simp [h]
    · simp [List.lookup, h, beq_eq_false_iff_ne.2 h]
  | cons a d ih =>
    obtain ⟨a, w⟩ := a
    rw [withEntry]
    by_cases ha : a = k
    · subst ha
      rw [if_pos rfl]
      by_cases h : k' = a
      · simp [h]
      · simp [List.lookup, h, beq_eq_false_iff_ne.2 h]
    · rw [if_neg ha]
      by_cases h : k' = a
      · subst h
        simp [List.lookup, ha]
      · simp only [List.lookup, beq_eq_false_iff_ne.2 h]
        exact ih

/-- **C97.** Whatever the caller adds, the dictionary of `write_submodel_times` has the results under their names; other
entries of the caller are kept, and there are no further ones. It fails exactly if there are no results. -/
theorem c97_extra_entries {V : Type} (kwargs : List (String × V)) (c : Box K) (bs : List (Block K)) :
    (∀ e, submodelTimes c bs = .error e → writeSubmodel kwargs c bs = .error e) ∧
    ∀ r, submodelTimes c bs = .ok r → ∃ d, writeSubmodel kwargs c bs = .ok d ∧
      d.lookup "time_process" = some (.time r.timeProcess) ∧ d.lookup "n_filaments" = some (.count r.nFilaments) ∧
      d.lookup "time_in" = some (.times r.timeIn) ∧ d.lookup "time_out" = some (.times r.timeOut) ∧
      ∀ k, k ∉ ["time_process", "n_filaments", "time_in", "time_out"] → d.lookup k = (kwargs.lookup k).map .extra := by
  refine ⟨fun e h => by simp only [writeSubmodel, h, Except.map], ?_⟩
  intro r h
  refine ⟨submodelDict kwargs r, by simp only [writeSubmodel, h, Except.map], ?_, ?_, ?_, ?_, ?_⟩
  · simp [submodelDict, lookup_withEntry]
  · simp [submodelDict, lookup_withEntry]
  · simp [submodelDict, lookup_withEntry]
  · simp [submodelDict, lookup_withEntry]
  · intro k hk
    simp only [List.mem_cons, List.not_mem_nil, or_false, not_or] at hk
    simp only [submodelDict, lookup_withEntry, if_neg hk.1, if_neg hk.2.1, if_neg hk.2.2.1, if_neg hk.2.2.2]
    exact lookup_conv _ kwargs k

end

/-! ### Examples -/

/-- Texts of four numbers. -/
def Demo.shortText (x : Dbl) : List Char :=
  if x.val = 0 then ['0', '.', '0'] else if x.val = 1 then ['1', '.', '0'] else if x.val = 2 then ['2', '.', '0']
  else if x.val = mkRat 1 2 then ['0', '.', '5'] else ['?']

/-- Reading them. -/
def Demo.shortRead (l : List Char) : Option Dbl :=
  if l = ['0', '.', '0'] then some ⟨0⟩ else if l = ['1', '.', '0'] then some ⟨1⟩ else if l = ['2', '.', '0'] then some ⟨2⟩
  else if l = ['0', '.', '5'] then some ⟨mkRat 1 2⟩ else none

theorem Demo.shortPrints {seps : List Char} (hs : ∀ c ∈ seps, c ∉ ['0', '.', '1', '2', '5']) {x : Dbl}
    (hx : x = ⟨0⟩ ∨ x = ⟨1⟩ ∨ x = ⟨2⟩ ∨ x = ⟨mkRat 1 2⟩) : Prints Demo.shortRead seps Demo.shortText x := by
  have e0 : Demo.shortText ⟨0⟩ = ['0', '.', '0'] := by decide +kernel
  have e1 : Demo.shortText ⟨1⟩ = ['1', '.', '0'] := by decide +kernel
  have e2 : Demo.shortText ⟨2⟩ = ['2', '.', '0'] := by decide +kernel
  have e3 : Demo.shortText ⟨mkRat 1 2⟩ = ['0', '.', '5'] := by decide +kernel
  have hc : ∀ c ∈ seps, c ≠ '0' ∧ c ≠ '.' ∧ c ≠ '1' ∧ c ≠ '2' ∧ c ≠ '5' := by
    intro c h
    have := hs c h
    simpa using this
  rcases hx with rfl | rfl | rfl | rfl
  · refine ⟨by rw [e0]; decide +kernel, fun c h => ?_⟩
    rw [e0]
    simp [hc c h]
  · refine ⟨by rw [e1]; decide +kernel, fun c h => ?_⟩
    rw [e1]
    simp [hc c h]
  · refine ⟨by rw [e2]; decide +kernel, fun c h => ?_⟩
    rw [e2]
    simp [hc c h]
  · refine ⟨by rw [e3]; decide +kernel, fun c h => ?_⟩
    rw [e3]
    simp [hc c h]

/-- Two blocks of a second each: one extrudes along `X`, the other waits. -/
def Demo.twoBlocks : List (Block Dbl) :=
  [⟨some ⟨⟨⟨0⟩, ⟨0⟩, ⟨0⟩, ⟨0⟩⟩, ⟨1⟩, ⟨1⟩, ⟨0⟩, none, none⟩, ⟨⟨⟨1⟩, ⟨0⟩, ⟨0⟩, ⟨1⟩⟩, ⟨1⟩, ⟨1⟩, ⟨0⟩, none, some 1⟩, none, true, none,
    [⟨⟨0⟩, ⟨1⟩, ⟨⟨0⟩, ⟨0⟩, ⟨0⟩, ⟨0⟩⟩, ⟨⟨1⟩, ⟨0⟩, ⟨0⟩, ⟨1⟩⟩, ⟨⟨1⟩, ⟨0⟩, ⟨0⟩, ⟨1⟩⟩, ⟨⟨1⟩, ⟨0⟩, ⟨0⟩, ⟨1⟩⟩⟩], none⟩,
    ⟨some ⟨⟨⟨1⟩, ⟨0⟩, ⟨0⟩, ⟨1⟩⟩, ⟨1⟩, ⟨1⟩, ⟨0⟩, none, some 1⟩, ⟨⟨⟨1⟩, ⟨0⟩, ⟨0⟩, ⟨1⟩⟩, ⟨1⟩, ⟨1⟩, ⟨0⟩, some ⟨1⟩, some 1⟩, none, false, none,
    [⟨⟨1⟩, ⟨2⟩, ⟨⟨1⟩, ⟨0⟩, ⟨0⟩, ⟨1⟩⟩, ⟨⟨0⟩, ⟨0⟩, ⟨0⟩, ⟨0⟩⟩, ⟨⟨1⟩, ⟨0⟩, ⟨0⟩, ⟨1⟩⟩, ⟨⟨0⟩, ⟨0⟩, ⟨0⟩, ⟨0⟩⟩⟩], none⟩]

/-- Their event series. -/
def Demo.twoRows : List (EventRow Dbl) :=
  [⟨⟨0⟩, ⟨0⟩, ⟨0⟩, ⟨0⟩, 1⟩, ⟨⟨1⟩, ⟨1⟩, ⟨0⟩, ⟨0⟩, 0⟩, ⟨⟨2⟩, ⟨1⟩, ⟨0⟩, ⟨0⟩, 0⟩]

theorem Demo.two_events : abaqusEvents Demo.twoBlocks "SImm" none ⟨0⟩ = .ok Demo.twoRows := by
  have h : (match abaqusEvents Demo.twoBlocks "SImm" none ⟨0⟩ with | .ok r => decide (r = Demo.twoRows) | .error _ => false) = true := by
    decide +kernel
  split at h
  · rename_i r hr
    rw [hr, of_decide_eq_true h]
  · cases h

/-- The hypotheses of `c96_event_file` hold for these blocks, with either rounding. -/
example : ∃ text table, writeEvents Demo.shortText round8Py Demo.twoBlocks "SImm" none ⟨0⟩ = .ok (Demo.twoRows, text) ∧
    IsTable ',' text table ∧ List.Forall₂ (EventCells Demo.shortRead) Demo.twoRows table := by
  refine (c96_event_file rounds8_python).2 _ Demo.two_events ?_
  have h : ∀ r ∈ Demo.twoRows, ∀ x ∈ [r.t, round8Py r.x, round8Py r.y, round8Py r.z],
      x = ⟨0⟩ ∨ x = ⟨1⟩ ∨ x = ⟨2⟩ ∨ x = ⟨mkRat 1 2⟩ := by decide +kernel
  exact fun r hr x hx => Demo.shortPrints (by decide) (h r hr x hx)

example : ∃ text table, writeEvents Demo.shortText round8Np Demo.twoBlocks "SImm" none ⟨0⟩ = .ok (Demo.twoRows, text) ∧
    IsTable ',' text table ∧ List.Forall₂ (EventCells Demo.shortRead) Demo.twoRows table := by
  refine (c96_event_file rounds8_numpy).2 _ Demo.two_events ?_
  have h : ∀ r ∈ Demo.twoRows, ∀ x ∈ [r.t, round8Np r.x, round8Np r.y, round8Np r.z],
      x = ⟨0⟩ ∨ x = ⟨1⟩ ∨ x = ⟨2⟩ ∨ x = ⟨mkRat 1 2⟩ := by decide +kernel
  exact fun r hr x hx => Demo.shortPrints (by decide) (h r hr x hx)

/-- The file itself. -/
example : writeEvents Demo.shortText round8Py Demo.twoBlocks "SImm" none ⟨0⟩ =
    .ok (Demo.twoRows, "0.0,0.0,0.0,0.0,1\n1.0,1.0,0.0,0.0,0\n2.0,1.0,0.0,0.0,0\n".toList) := by
  simp only [writeEvents, Demo.two_events, bind, Except.bind]
  have : Demo.twoRows.flatMap (eventLine Demo.shortText round8Py) =
      "0.0,0.0,0.0,0.0,1\n1.0,1.0,0.0,0.0,0\n2.0,1.0,0.0,0.0,0\n".toList := by decide +kernel
  rw [this]

/-- The layer metrics of these blocks. -/
def Demo.twoLayers : List (LayerRow Dbl) := [⟨0, ⟨0⟩, ⟨0⟩, none⟩, ⟨1, ⟨2⟩, ⟨1⟩, some ⟨mkRat 1 2⟩⟩]

theorem Demo.two_layers : saveLayerMetrics true Demo.twoBlocks = .ok (some Demo.twoLayers) := by
  have h : (match saveLayerMetrics true Demo.twoBlocks with | .ok r => decide (r = some Demo.twoLayers) | .error _ => false) = true := by
    decide +kernel
  split at h
  · rename_i r hr
    rw [hr, of_decide_eq_true h]
  · cases h

/-- The hypotheses of `c96_layer_file` hold for them. -/
example : ∃ text table, writeLayerMetrics Demo.shortText [';'] true true Demo.twoBlocks = .ok (some Demo.twoLayers, some text) ∧
    IsTable ';' text (["layer".toList, " layer time in s".toList, " travel distance in mm".toList,
      " avg speed in mm/s".toList] :: table) ∧ List.Forall₂ (LayerCells Demo.shortRead) Demo.twoLayers table := by
  refine ((c96_layer_file (path := true) (by decide) (by decide)).2.2 _ Demo.two_layers).2 ?_
  have h : ∀ r ∈ Demo.twoLayers, ∀ x ∈ [r.duration, r.travel] ++ r.avg.toList,
      x = ⟨0⟩ ∨ x = ⟨1⟩ ∨ x = ⟨2⟩ ∨ x = ⟨mkRat 1 2⟩ := by decide +kernel
  intro r hr
  refine ⟨Demo.shortPrints (by decide) (h r hr _ (by simp)), Demo.shortPrints (by decide) (h r hr _ (by simp)), ?_⟩
  intro x hx
  exact Demo.shortPrints (by decide) (h r hr x (by simp [Option.mem_def.1 hx]))

/-- An entry of the caller with the name of a result is lost, another one is kept. -/
example (r : SubmodelTimes Dbl) : (submodelDict [("time_in", 1), ("part", 2)] r).lookup "time_in" = some (.times r.timeIn) ∧
    (submodelDict [("time_in", 1), ("part", 2)] r).map Prod.fst =
      ["time_in", "part", "time_process", "n_filaments", "time_out"] := ⟨rfl, rfl⟩

end PyGCD
