import Verif.Model.Texts
import Verif.Spec.Printed
import Verif.Props.Written
import Verif.Props.Console

/-!
# The summary on the console (C103)
-/

set_option linter.unusedSectionVars false
set_option linter.unusedSimpArgs false

namespace PyGCD
open PyGCD.Spec

/-! ## Reading numbers -/

theorem pieces_join {sep : Char} (a b : List Char) : pieces sep (a ++ sep :: b) = pieces sep a ++ pieces sep b := by
  induction a with
  | nil => simp [pieces]
  | cons c a ih =>
    by_cases hc : c = sep
    · rw [List.cons_append, pieces, if_pos hc, ih, pieces, if_pos hc, List.cons_append]
    · rw [List.cons_append, pieces, if_neg hc, ih, pieces, if_neg hc]
      have : pieces sep a ≠ [] := by
        cases a with
        | nil => simp [pieces]
        | cons x a =>
          rw [pieces]
          split
          · simp
          · split <;> simp
      cases h : pieces sep a with
      | nil => exact absurd h this
      | cons p ps => rfl

theorem numbers_join (a b : List Char) : numbers (a ++ ' ' :: b) = numbers a ++ numbers b := by
  rw [numbers, pieces_join, List.filterMap_append]
  rfl

theorem numbers_word {w : List Char} (h : ' ' ∉ w) {x : ℚ} (hx : number? w = some x) : numbers w = [x] := by
  rw [numbers, pieces_clean h]
  simp [hx]

theorem digits?_eq : ∀ {l : List Char} (acc : ℕ), (∀ c ∈ l, c.isDigit = true) →
    digits? acc l = some (Nat.ofDigitChars 10 l acc) := by
  intro l
  induction l with
  | nil => intro acc _; simp [digits?]
  | cons c l ih =>
    intro acc h
    rw [digits?, digit?, if_pos (h c (by simp)), Option.bind_some, ih _ fun x hx => h x (by simp [hx]),
      Nat.ofDigitChars_cons]
    rfl

theorem natText_digits (n : ℕ) : ∀ c ∈ natText n, c.isDigit = true := fun _ h =>
  Nat.isDigit_of_mem_toDigits (by norm_num) (by norm_num) h

theorem natText_ne (n : ℕ) : natText n ≠ [] := Nat.toDigits_ne_nil

theorem digits?_natText (n : ℕ) : digits? 0 (natText n) = some n := by
  rw [digits?_eq 0 (natText_digits n)]
  exact congrArg some Nat.ofDigitChars_ten_toDigits

theorem unsigned?_natText (n : ℕ) : unsigned? (natText n) = some (n : ℚ) := by
  rw [unsigned?, pieces_clean (natText_clean (by decide) n)]
  simp [natText_ne, digits?_natText]

theorem number?_of_digit {c : Char} {t : List Char} (h : c.isDigit = true) : number? (c :: t) = unsigned? (c :: t) := by
  unfold number?
  split
  · rename_i h'
    simp only [List.cons.injEq] at h'
    rw [h'.1] at h
    cases h
  · rfl

theorem number?_natText (n : ℕ) : number? (natText n) = some (n : ℚ) := by
  cases h : natText n with
  | nil => exact absurd h (natText_ne n)
  | cons c t =>
    rw [number?_of_digit (natText_digits n c (by simp [h])), ← h, unsigned?_natText]

theorem numbers_natText (n : ℕ) : numbers (natText n) = [(n : ℚ)] :=
  numbers_word (natText_clean (by decide) n) (number?_natText n)

theorem natText_one {n : ℕ} (h : n < 10) : (natText n).length = 1 := by
  rw [natText, Nat.toDigits_of_lt_base h]
  rfl

theorem unsigned?_hundredths (n : ℕ) : unsigned? (hundredthsText n) = some ((n : ℚ) / 100) := by
  have h1 : n / 10 % 10 < 10 := Nat.mod_lt _ (by norm_num)
  have h2 : n % 10 < 10 := Nat.mod_lt _ (by norm_num)
  have hd : ∀ c ∈ natText (n / 10 % 10) ++ natText (n % 10), c.isDigit = true := by
    intro c hc
    rcases List.mem_append.1 hc with hc | hc
    · exact natText_digits _ _ hc
    · exact natText_digits _ _ hc
  have hcl : '.' ∉ natText (n / 10 % 10) ++ natText (n % 10) := by
    intro hc
    have := hd _ hc
    cases this
  have hv : digits? 0 (natText (n / 10 % 10) ++ natText (n % 10)) = some (n % 100) := by
    rw [digits?_eq 0 hd, Nat.ofDigitChars_append, natText, natText, Nat.ofDigitChars_ten_toDigits,
      Nat.toDigits_of_lt_base h2, Nat.ofDigitChars_cons_digitChar_of_lt_ten h2, Nat.ofDigitChars_nil]
    congr 1
    omega
  have hp : pieces '.' (hundredthsText n) = [natText (n / 100), natText (n / 10 % 10) ++ natText (n % 10)] := by
    rw [hundredthsText, List.append_assoc, List.append_assoc, List.singleton_append,
      pieces_append _ (natText_clean (by decide) _), pieces_clean hcl]
  rw [unsigned?, hp]
  simp only [natText_ne, false_or, List.append_eq_nil_iff, and_self, if_false, digits?_natText, Option.bind_some, hv,
    Option.map_some, List.length_append, natText_one h1, natText_one h2]
  have := Nat.div_add_mod n 100
  have : (100 : ℚ) * (n / 100 : ℕ) + (n % 100 : ℕ) = n := by exact_mod_cast this
  rw [← this]
  norm_num
  ring

theorem number?_hundredths (n : ℕ) : number? (hundredthsText n) = some ((n : ℚ) / 100) := by
  rw [← unsigned?_hundredths]
  cases h : natText (n / 100) with
  | nil => exact absurd h (natText_ne _)
  | cons c t =>
    have : hundredthsText n = c :: (t ++ ['.'] ++ natText (n / 10 % 10) ++ natText (n % 10)) := by
      rw [hundredthsText, h]; simp
    rw [this, number?_of_digit (natText_digits (n / 100) c (by simp [h]))]

/-- Two decimal places are read as a number at most half a hundredth away. -/
theorem number?_fixed2 (x : ℚ) : ∃ y, number? (fixed2 x) = some y ∧ |y - x| ≤ 0.005 := by
  have key : ∀ z : ℚ, 0 ≤ z → |(((pyRound (z * 100)).toNat : ℕ) : ℚ) / 100 - z| ≤ 0.005 := by
    intro z hz
    have h1 := pyRound_near (z * 100)
    have h2 : 0 ≤ pyRound (z * 100) := by
      have := pyRound_mono (x := 0) (y := z * 100) (by positivity)
      have h0 : pyRound 0 = 0 := pyRound_int 0
      rwa [h0] at this
    have h3 : (((pyRound (z * 100)).toNat : ℕ) : ℚ) = pyRound (z * 100) := by
      exact_mod_cast congrArg (Int.cast : ℤ → ℚ) (Int.toNat_of_nonneg h2)
    rw [h3]
    rw [abs_le] at h1 ⊢
    norm_num at h1 ⊢
    constructor <;> linarith [h1.1, h1.2]
  unfold fixed2
  split
  · rename_i h
    refine ⟨_, by rw [number?, unsigned?_hundredths]; rfl, ?_⟩
    have := key (-x) (by linarith)
    rw [← abs_neg]
    convert this using 2
    ring
  · rename_i h
    exact ⟨_, number?_hundredths _, key x (not_lt.1 h)⟩

theorem fixed2_clean {c : Char} (h1 : c.isDigit = false) (h2 : c ≠ '.') (h3 : c ≠ '-') (x : ℚ) : c ∉ fixed2 x := by
  have key : ∀ n, c ∉ hundredthsText n := by
    intro n
    simp [hundredthsText, natText_clean h1, h2]
  unfold fixed2
  split
  · simp [key, h3]
  · exact key _

/-! ## C103 -/

theorem tells_of_parts {a1 a2 a3 a4 a5 a6 a7 a8 : List Char} (n : ℕ) (file : List Char) (m : ℕ) (t took : ℚ)
    (h : ∀ a ∈ [a1, a2, a3, a4, a5, a6, a7, a8], '\n' ∉ a ∧ numbers a = []) :
    SummaryTells ((a1 ++ [' ']) ++ natText n ++ (' ' :: a2) ++ file ++ (a3 ++ [' ']) ++ natText m ++
      (' ' :: (a4 ++ ['\n'])) ++ (a5 ++ [' ']) ++ fixed2 t ++ (' ' :: (a6 ++ ['\n'])) ++ (a7 ++ [' ']) ++ fixed2 took ++
      (' ' :: a8)) file n m t took := by
  simp only [List.mem_cons, List.not_mem_nil, or_false, forall_eq_or_imp, forall_eq] at h
  obtain ⟨⟨p1, q1⟩, ⟨p2, q2⟩, ⟨p3, q3⟩, ⟨p4, q4⟩, ⟨p5, q5⟩, ⟨p6, q6⟩, ⟨p7, q7⟩, p8, q8⟩ := h
  obtain ⟨x, x1, x2⟩ := number?_fixed2 t
  obtain ⟨y, y1, y2⟩ := number?_fixed2 took
  have nx := numbers_word (fixed2_clean (by decide) (by decide) (by decide) t) x1
  have ny := numbers_word (fixed2_clean (by decide) (by decide) (by decide) took) y1
  have c1 := natText_clean (c := '\n') (by decide)
  have c2 := fixed2_clean (c := '\n') (by decide) (by decide) (by decide)
  refine ⟨⟨a1 ++ ' ' :: (natText n ++ ' ' :: a2), a3 ++ ' ' :: (natText m ++ ' ' :: a4), a5 ++ ' ' :: (fixed2 t ++ ' ' :: a6),
    a7 ++ ' ' :: (fixed2 took ++ ' ' :: a8), x, y, ?_, ?_, ?_, ?_, ?_, ?_, ?_, ?_, x2, y2⟩⟩
  · simp only [List.append_assoc, List.cons_append, List.nil_append]
  · simp only [List.mem_append, List.mem_cons, p1, p2, p3, p4, c1, show '\n' ≠ ' ' by decide, or_self, not_false_iff]
  · simp only [List.mem_append, List.mem_cons, p5, p6, c2, show '\n' ≠ ' ' by decide, or_self, not_false_iff]
  · simp only [List.mem_append, List.mem_cons, p7, p8, c2, show '\n' ≠ ' ' by decide, or_self, not_false_iff]
  · rw [numbers_join, numbers_join, q1, q2, numbers_natText]
    rfl
  · rw [numbers_join, numbers_join, q3, q4, numbers_natText]
    rfl
  · rw [numbers_join, numbers_join, q5, q6, nx]
    rfl
  · rw [numbers_join, numbers_join, q7, q8, ny]
    rfl

theorem summary_parts : ∀ a ∈ [" >> pyGCodeDecode extracted".toList, "states from ".toList, " and generated".toList,
    "planner blocks.".toList, "Estimated time to travel all states with provided printer settings is".toList,
    "seconds.".toList, "The Simulation took".toList, "s.".toList], '\n' ∉ a ∧ numbers a = [] := by
  decide +kernel

/-- The summary tells what it is given. -/
theorem summary_tells (n : ℕ) (file : List Char) (m : ℕ) (t took : ℚ) :
    SummaryTells (summaryText n file m t took) file n m t took := by
  have e1 : " >> pyGCodeDecode extracted ".toList = " >> pyGCodeDecode extracted".toList ++ [' '] := by decide +kernel
  have e2 : " states from ".toList = ' ' :: "states from ".toList := by decide +kernel
  have e3 : " and generated ".toList = " and generated".toList ++ [' '] := by decide +kernel
  have e4 : " planner blocks.\n".toList = ' ' :: ("planner blocks.".toList ++ ['\n']) := by decide +kernel
  have e5 : "Estimated time to travel all states with provided printer settings is ".toList =
    "Estimated time to travel all states with provided printer settings is".toList ++ [' '] := by decide +kernel
  have e6 : " seconds.\n".toList = ' ' :: ("seconds.".toList ++ ['\n']) := by decide +kernel
  have e7 : "The Simulation took ".toList = "The Simulation took".toList ++ [' '] := by decide +kernel
  have e8 : " s.".toList = ' ' :: "s.".toList := by decide +kernel
  have h := summary_parts
  unfold summaryText
  rw [e1, e2, e3, e4, e5, e6, e7, e8]
  generalize " >> pyGCodeDecode extracted".toList = a1 at h ⊢
  generalize "states from ".toList = a2 at h ⊢
  generalize " and generated".toList = a3 at h ⊢
  generalize "planner blocks.".toList = a4 at h ⊢
  generalize "Estimated time to travel all states with provided printer settings is".toList = a5 at h ⊢
  generalize "seconds.".toList = a6 at h ⊢
  generalize "The Simulation took".toList = a7 at h ⊢
  generalize "s.".toList = a8 at h ⊢
  exact tells_of_parts n file m t took h

theorem active_length_near : ∀ (zs : List (PState ℝ × PState ℝ)) (pa : Option (PState ℝ × PState ℝ)),
    (∀ u ∈ zs, SameSettings u) → (pa.toList ++ zs).IsChain (fun u v => SameMoves u v ∧ LongMoves u v) →
    (active (pa.map Prod.fst) (zs.map Prod.fst)).length = (active (pa.map Prod.snd) (zs.map Prod.snd)).length := by
  intro zs
  induction zs with
  | nil =>
    intro pa _ _
    simp [active, withPrev]
  | cons u zs ih =>
    intro pa hs hc
    have hc' : ((some u).toList ++ zs).IsChain (fun u v => SameMoves u v ∧ LongMoves u v) := by
      cases pa with
      | none => simpa using hc
      | some w =>
        simp only [Option.toList_some, List.singleton_append] at hc ⊢
        exact hc.tail
    have i := ih (some u) (fun x hx => hs x (by simp [hx])) hc'
    simp only [List.map_cons]
    rcases (hs u (by simp)).pause with ⟨n1, n2⟩ | ⟨p, q, n1, n2, n3⟩
    · cases pa with
      | none =>
        simp only [Option.map_none]
        rw [active_cons_skip _ (by simp) n1, active_cons_skip _ (by simp) n2]
        exact i
      | some w =>
        simp only [Option.toList_some, List.singleton_append, List.isChain_cons_cons] at hc
        obtain ⟨⟨m1, m2⟩, _⟩ := hc
        obtain ⟨l1, _⟩ := moveLength_near m1 m2
        simp only [Option.map_some]
        by_cases he : u.1.position = w.1.position
        · rw [active_cons_skip _ (by simpa using he) n1, active_cons_skip _ (by simpa using l1.1 he) n2]
          exact i
        · have he' : u.2.position ≠ w.2.position := fun h => he (l1.2 h)
          rw [active_cons_take _ (Or.inr ⟨w.1, rfl, he⟩), active_cons_take _ (Or.inr ⟨w.2, rfl, he'⟩), List.length_cons,
            List.length_cons]
          exact congrArg (· + 1) i
    · rw [active_cons_take (s := u.1) _ (Or.inl (by simp [n1])), active_cons_take (s := u.2) _ (Or.inl (by simp [n2])),
        List.length_cons, List.length_cons]
      exact congrArg (· + 1) i

section
variable {K : Type} [Add K] [Sub K] [Mul K] [Div K] [Neg K] [LT K] [LE K] [DecidableLT K] [DecidableLE K]
    [DecidableEq K] [OfNat K 0] [OfNat K 1] [OfNat K 2] [OfNat K 10] [OfNat K 18] [OfNat K 30] [OfNat K 33] [OfNat K 35]
    [OfNat K 60] [OfNat K 180] [OfNat K 200] [OfNat K 1000] [OfScientific K] [PyMath K]

/-- **C103.** Whenever a file is simulated, the summary tells the numbers of states and blocks and the end time to two
places; the summary changes neither the result nor the exceptions. -/
theorem c103_summary (val : K → ℚ) (pf : List Char → Option K) (file : List Char) (took : ℚ) (d : Dict (SVal K))
    (content : List Char) :
    (simulateFileText val pf file took d content).map Prod.fst = simulateFile pf d content ∧
    ∀ bs txt, simulateFileText val pf file took d content = .ok (bs, txt) →
      ∃ ps t, fileStates pf d content = .ok ps ∧ endTime bs = .ok t ∧
        SummaryTells txt file ps.length bs.length (val t) took := by
  unfold simulateFileText simulateFile simulate
  simp only [bind, Except.bind]
  cases checkInitialSetup d with
  | error e => exact ⟨rfl, fun _ _ h => by cases h⟩
  | ok u =>
    simp only
    cases fileStates pf d content with
    | error e => exact ⟨rfl, fun _ _ h => by cases h⟩
    | ok ps =>
      simp only
      cases plan (firmwareOf d) ps with
      | error e => exact ⟨rfl, fun _ _ h => by cases h⟩
      | ok bs =>
        simp only
        cases ht : endTime bs with
        | error e => exact ⟨rfl, fun _ _ h => by cases h⟩
        | ok t =>
          refine ⟨rfl, fun bs' txt h => ?_⟩
          simp only [Except.ok.injEq, Prod.mk.injEq] at h
          obtain ⟨rfl, rfl⟩ := h
          exact ⟨ps, t, rfl, ht, summary_tells _ _ _ _ _⟩

end

theorem run_length (pf : List Char → Option ℝ) (q : Printer) (ls : List Line) : (q.run pf ls).length = ls.length := by
  induction ls generalizing q with
  | nil => rfl
  | cons l ls ih => rw [Printer.run, List.length_cons, ih, List.length_cons]

/-- **C103.** For a plain file that never returns to absolute coordinates, with default junction handling and doubles, the
summary tells one state for the begin and one for each line, as many blocks as without rounding, and a time that is within
`0.015` s of the exact one. -/
theorem c103_plain_files {rd : List Char → Option ℚ} {d : Dict (SVal ℚ)} {q : Printer} (hpf : FloatLike (rdReal rd))
    (hacc : SetupAccepted (convSettings toReal d)) (hfw : firmwareOf (convSettings toReal d) = .default)
    (hq : PrinterOf (convSettings toReal d) q) {ls : List Line} (hp : ∀ l ∈ ls, l.Plain (rdReal rd))
    (hw : Workable (rdReal rd) q ls) (hback : NeverBack ls) {text : List Char} (hc : FileOf ls text)
    {ss : List (PState ℝ)} (hs : fileStates (fun cs => (rd cs).map toReal) (convSettings toReal d) text = .ok ss)
    (hord : Ordinary ss) (file : List Char) (took : ℚ) :
    ∃ bs bs' txt t t', simulateFileText Dbl.val (fun cs => (rd cs).map toDbl) file took (convSettings toDbl d) text =
        .ok (bs, txt) ∧
      simulateFile (fun cs => (rd cs).map toReal) (convSettings toReal d) text = .ok bs' ∧ endTime bs' = .ok t' ∧
      SummaryTells txt file (ls.length + 1) bs'.length t took ∧ |(t : ℝ) - t'| ≤ 0.01 := by
  obtain ⟨bs, bs', t, t', k1, k2, k3, k4, k5⟩ := c85_plain_files_partial hpf hacc hfw hq hp hw hback hc hs hord
  obtain ⟨ss', r1, r2⟩ := c67_read_as_written hpf hq hp hc
  rw [hs] at r1
  cases r1
  have hlen := r2.length_eq
  rw [List.length_cons, run_length] at hlen
  have hcount := hord.count
  have hreach : ∀ x ∈ (q, none) :: q.run (rdReal rd) ls, InReach x.1.point := by
    intro x hx
    obtain ⟨s, h1, h2⟩ := shows_mem r2 hx
    rw [← h2.position]
    exact hord.coord s h1
  obtain ⟨ds, rs, g1, g2, g3, g4⟩ := c95_read_with_rounding hpf hq hp hback (by omega) hreach hc
  rw [hs] at g2
  cases g2
  obtain ⟨hreg, hact⟩ := workable_regular hw g3
  have hreg' := g4.regular hreg hord
  have hplan := simulateFile_plan k1 g1
  have hplan' := simulateFile_plan k3 hs
  rw [firmware_rounded, hfw] at hplan
  rw [hfw] at hplan'
  have hb : bs.length = bs'.length := by
    obtain ⟨cs, cs', c1, c2, c3, _⟩ := c84_default_partial hreg' (g4.moderate hreg hord)
    rw [hplan] at c1
    cases c1
    rw [c3]
    have a1 := congrArg List.length (c28_blocks hreg' c2)
    have a2 := congrArg List.length (c28_blocks hreg hplan')
    rw [List.length_map] at a1 a2
    rw [a1, a2]
    have := active_length_near _ none g4.settings (by simpa using g4.chain hord)
    simpa only [Option.map_none, g4.maps.1, g4.maps.2] using this
  obtain ⟨e1, e2⟩ := c103_summary Dbl.val (fun cs => (rd cs).map toDbl) file took (convSettings toDbl d) text
  rw [k1] at e1
  cases hsim : simulateFileText Dbl.val (fun cs => (rd cs).map toDbl) file took (convSettings toDbl d) text with
  | error e => rw [hsim] at e1; cases e1
  | ok r =>
    obtain ⟨cs, txt⟩ := r
    rw [hsim] at e1
    simp only [Except.map, Except.ok.injEq] at e1
    subst e1
    obtain ⟨ps, t2, f1, f2, f3⟩ := e2 _ _ hsim
    rw [g1] at f1
    cases f1
    rw [k2] at f2
    cases f2
    have hl := g4.length
    rw [List.length_map] at hl
    rw [hl, hlen, hb] at f3
    exact ⟨_, bs', txt, _, t', rfl, k3, k4, f3, k5⟩

/-- The summary of the first of the two files of `Props/Rounded`: four states. -/
example (file : List Char) (took : ℚ) : ∃ bs bs' txt t t',
    simulateFileText Dbl.val (fun cs => (Demo.numbers cs).map toDbl) file took (convSettings toDbl Demo.plainJob)
      "G1 X0.1 F60\nG91\nG1 X0.2 E-5".toList = .ok (bs, txt) ∧
    simulateFile (fun cs => (Demo.numbers cs).map toReal) (convSettings toReal Demo.plainJob)
      "G1 X0.1 F60\nG91\nG1 X0.2 E-5".toList = .ok bs' ∧ endTime bs' = .ok t' ∧
    SummaryTells txt file 4 bs'.length t took ∧ |(t : ℝ) - t'| ≤ 0.01 :=
  c103_plain_files Demo.numbers_floatLike Demo.plainJob_accepted rfl Demo.plainPrinter_of
    (fun l hl => Demo.onward_lines l (by simp [hl])) Demo.onward_workable Demo.onward_never Demo.onward_file
    Demo.onward_states Demo.onward_ordinary file took

end PyGCD
