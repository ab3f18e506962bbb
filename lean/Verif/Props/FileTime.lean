import Verif.Spec.FileTime
import Verif.Props.Estimate
import Verif.Props.Longer

/-!
# Property C127: how long a G-code file takes
-/

set_option linter.unusedSectionVars false
set_option linter.unusedSimpArgs false

namespace PyGCD
open Vec4 Spec

variable {pf : List Char → Option ℝ} {d : Dict (SVal ℝ)} {q : Printer} {ls more : List Line} {content content' : List Char}
  {bs bs' : List (Block ℝ)}

theorem moveLength_shift (src a b : Vec4 ℝ) : moveLength src (src.add (b.sub a)) = moveLength a b := by
  have h : (src.add (b.sub a)).sub src = b.sub a := by ext <;> simp [Vec4.add, Vec4.sub]
  have he : (src.add (b.sub a)).e - src.e = b.e - a.e := by simp [Vec4.add, Vec4.sub]
  rw [moveLength, moveLength, h, he]

theorem moveLength_self (a : Vec4 ℝ) : moveLength a a = 0 := by
  have h : (a.sub a) = Vec4.zero := by ext <;> simp [Vec4.sub, Vec4.zero]
  have h0 : (a.sub a).norm3 = 0 := by
    rw [h]
    unfold norm3
    rw [sqrt_real]
    simp [Vec4.zero]
  rw [moveLength, if_pos h0]
  simp

/-- The estimate for the states of a file is the one for its lines. -/
theorem file_bare : ∀ {ls : List Line} {q : Printer} {A : PState ℝ} {w : Option ℝ} {ps : List (PState ℝ)} (here : Option (Vec4 ℝ)),
    Shows A (q, w) → List.Forall₂ Shows ps (q.run pf ls) →
    ((executed here (some A) ps).map bareTime).sum = fileTime pf q ls
  | [], q, A, w, ps, here, hA, h => by
    cases h
    simp [executed, fileTime]
  | l :: ls, q, A, w, ps, here, hA, h => by
    rw [Printer.run] at h
    cases h with
    | @cons s _ ps _ hs h =>
      rw [executed, fileTime, lineTime]
      have hw := hs.pause
      simp only at hw
      by_cases hp : s.pause ≠ none
      · obtain ⟨v, hv⟩ := Option.ne_none_iff_exists'.1 hp
        simp only [if_pos hp, List.map_cons, List.sum_cons]
        rw [file_bare _ hs h, ← hw, hv, bareTime, hv]
      · simp only [if_neg hp]
        rw [not_not] at hp
        rw [← hw, hp]
        simp only
        by_cases hx : Executes A s
        · simp only [if_pos hx, List.map_cons, List.sum_cons]
          have hf := hx.2.2
          rw [file_bare _ hs h, bareTime, hp]
          simp only
          rw [hs.speed] at hf
          rw [moveLength_shift, hs.position, hA.position, hs.speed, if_pos hf]
        · simp only [if_neg hx]
          rw [file_bare _ hs h]
          split_ifs with hf
          · have he : s.position = A.position := by
              by_contra hne
              exact hx ⟨hp, hne, by rw [hs.speed]; exact hf⟩
            rw [hs.position, hA.position] at he
            simp only at he
            rw [he, moveLength_self, zero_div, _root_.zero_add]
          · rw [_root_.zero_add]

theorem file_ramps : ∀ {ls : List Line} {q : Printer} {A : PState ℝ} {w : Option ℝ} {ps : List (PState ℝ)} (here : Option (Vec4 ℝ)),
    Shows A (q, w) → List.Forall₂ Shows ps (q.run pf ls) → (∀ s ∈ ps, 0 ≤ s.speed) →
    ((executed here (some A) ps).map speedUpTime).sum = fileRamps pf q ls
  | [], q, A, w, ps, here, hA, h, _ => by
    cases h
    simp [executed, fileRamps]
  | l :: ls, q, A, w, ps, here, hA, h, hsp => by
    rw [Printer.run] at h
    cases h with
    | @cons s _ ps _ hs h =>
      rw [executed, fileRamps, lineRamp]
      have ih := fun here => file_ramps here hs h (fun x hx => hsp x (by simp [hx]))
      have hw := hs.pause
      simp only at hw
      by_cases hp : s.pause ≠ none
      · obtain ⟨v, hv⟩ := Option.ne_none_iff_exists'.1 hp
        simp only [if_pos hp, List.map_cons, List.sum_cons]
        rw [ih, ← hw, if_neg (fun h => hp h.2), speedUpTime, hv]
      · simp only [if_neg hp]
        rw [not_not] at hp
        have hpos : (q.exec pf l).point ≠ q.point ↔ s.position ≠ A.position := by rw [hs.position, hA.position]
        by_cases hx : Executes A s
        · simp only [if_pos hx, List.map_cons, List.sum_cons]
          rw [ih, speedUpTime, hp, if_pos ⟨hpos.2 hx.2.1, hw ▸ hp⟩]
          simp only
          rw [hs.speed, hs.acc]
        · simp only [if_neg hx]
          rw [ih]
          split_ifs with hm
          · have h0 : (q.exec pf l).feed = 0 := by
              have h1 := hsp s (by simp)
              have h2 : ¬ 0 < s.speed := fun hf => hx ⟨hp, hpos.1 hm.1, hf⟩
              have h3 := hs.speed
              simp only at h3
              linarith
            rw [h0, zero_div, _root_.zero_add]
          · rw [_root_.zero_add]

/-- What is known about a simulated plain file. -/
theorem simulated_states (hpf : FloatLike pf) (hd : SetupAccepted d) (hq : PrinterOf d q) (hp : ∀ l ∈ ls, l.Plain pf)
    (hw : Decent pf q ls) (hc : FileOf ls content) (h : simulateFile pf d content = .ok bs) :
    ∃ A ps, fileStates pf d content = .ok (A :: ps) ∧ Shows A (q, none) ∧ List.Forall₂ Shows ps (q.run pf ls) ∧
      Sensible (A :: ps) ∧ plan (firmwareOf d) (A :: ps) = .ok bs := by
  obtain ⟨ps, h1, h2⟩ := c67_read_as_written hpf hq hp hc
  simp only [simulateFile, (c46_validation d).1.2 hd, h1, bind, Except.bind, simulate] at h
  have hs := decent_sensible hw h2
  cases h2 with
  | @cons A _ ps _ hA h2 =>
    refine ⟨A, ps, h1, hA, h2, hs, ?_⟩
    cases hpl : plan (firmwareOf d) (A :: ps) with
    | error e => simp [hpl] at h
    | ok cs =>
      simp only [hpl] at h
      cases he : endTime cs with
      | error e => simp [he] at h
      | ok t =>
        simp only [he] at h
        cases h
        rfl

/-- **C127, at least.** A file takes at least its waits and its lengths divided by the feedrates. -/
theorem c127_at_least (hpf : FloatLike pf) (hd : SetupAccepted d) (hq : PrinterOf d q) (hp : ∀ l ∈ ls, l.Plain pf)
    (hw : Decent pf q ls) (hc : FileOf ls content) (h : simulateFile pf d content = .ok bs) {t : ℝ}
    (ht : EndTime (Spec.path bs) t) : fileTime pf q ls ≤ t := by
  obtain ⟨A, ps, _, hA, h2, hs, hpl⟩ := simulated_states hpf hd hq hp hw hc h
  have := c125_at_least hs hpl ht
  rwa [estimate, executed, file_bare _ hA h2] at this

/-- **C127, at most.** A file takes at most one ramp per moving line longer. -/
theorem c127_at_most (hpf : FloatLike pf) (hd : SetupAccepted d) (hq : PrinterOf d q) (hp : ∀ l ∈ ls, l.Plain pf)
    (hw : Decent pf q ls) (hc : FileOf ls content) (h : simulateFile pf d content = .ok bs) {t : ℝ}
    (ht : EndTime (Spec.path bs) t) : t ≤ fileTime pf q ls + fileRamps pf q ls := by
  obtain ⟨A, ps, _, hA, h2, hs, hpl⟩ := simulated_states hpf hd hq hp hw hc h
  have := c125_at_most hs hpl ht
  rwa [estimate, speedUpTimes, executed, file_bare _ hA h2, file_ramps _ hA h2 (fun s hx => hs.speed s (by simp [hx]))] at this

theorem run_more : ∀ (q : Printer) (ls more : List Line), q.run pf (ls ++ more) = q.run pf ls ++ (q.after pf ls).run pf more
  | _, [], _ => rfl
  | q, l :: ls, more => by
    rw [List.cons_append, Printer.run, Printer.run, run_more (q.exec pf l) ls more]
    rfl

/-- The states of a file that goes on begin with the states of the file. -/
theorem states_more (hpf : FloatLike pf) (hd : SetupAccepted d) (hq : PrinterOf d q) (hp : ∀ l ∈ ls ++ more, l.Plain pf)
    (hc : FileOf ls content) (hc' : FileOf (ls ++ more) content') {ps ps' : List (PState ℝ)}
    (h : fileStates pf d content = .ok ps) (h' : fileStates pf d content' = .ok ps') : ∃ R, ps' = ps ++ R := by
  have hp1 : ∀ l ∈ ls, l.Plain pf := fun l hl => hp l (by simp [hl])
  obtain ⟨_, g1, g2⟩ := c67_read_as_written hpf hq hp1 hc
  obtain ⟨_, k1, k2⟩ := c67_read_as_written hpf hq hp hc'
  rw [h] at g1
  rw [h'] at k1
  cases g1
  cases k1
  rw [run_more, ← List.cons_append] at k2
  have hrun : ∀ (ls : List Line) (q : Printer), (q.run pf ls).length = ls.length := by
    intro ls
    induction ls with
    | nil => intro q; rfl
    | cons l ls ih => intro q; rw [Printer.run, List.length_cons, List.length_cons, ih]
  have hlen : ps.length = ls.length + 1 := by
    rw [g2.length_eq, List.length_cons, hrun]
  have hle : ps.length ≤ ps'.length := by
    rw [g2.length_eq, k2.length_eq, List.length_append]
    omega
  refine ⟨ps'.drop ps.length, ?_⟩
  suffices he : ps = ps'.take ps.length by
    conv_lhs => rw [← List.take_append_drop ps.length ps', ← he]
  refine List.ext_getElem (by rw [List.length_take]; omega) fun i hi _ => ?_
  rw [List.getElem_take]
  have hi' : i < ps'.length := by omega
  have e1 := List.Forall₂.get g2 hi (by rw [← g2.length_eq]; exact hi)
  have e2 := List.Forall₂.get k2 hi' (by rw [← k2.length_eq]; exact hi')
  simp only [List.get_eq_getElem] at e1 e2
  rw [List.getElem_append_left (by rw [← g2.length_eq]; exact hi)] at e2
  obtain ⟨a1, a2, a3, a4⟩ := c67_layers hpf hd hp1 hc h (List.getElem?_eq_getElem hi)
  obtain ⟨b1, b2, b3, b4⟩ := c67_layers hpf hd hp hc' h' (List.getElem?_eq_getElem hi')
  have hlay : ps[i].layer = ps'[i].layer := by
    by_cases h0 : i = 0
    · rw [a1 h0, b1 h0]
    · cases hcue : d.lookup "layer_cue" with
      | none => rw [a2 hcue, b2 hcue]
      | some v =>
        by_cases hv : ∀ c, v ≠ .text c
        · rw [a3 v hcue hv h0, b3 v hcue hv h0]
        · push Not at hv
          obtain ⟨c, rfl⟩ := hv
          rw [a4 c hcue h0, b4 c hcue h0, List.take_append_of_le_length (by omega)]
  generalize ps[i] = s at e1 hlay
  generalize ps'[i] = s' at e2 hlay
  obtain ⟨x1, x2, x3, x4, x5, x6⟩ := s
  obtain ⟨y1, y2, y3, y4, y5, y6⟩ := s'
  simp only at hlay
  rw [hlay]
  congr 1
  · exact e1.position.trans e2.position.symm
  · exact e1.speed.trans e2.speed.symm
  · exact e1.acc.trans e2.acc.symm
  · exact e1.jerk.trans e2.jerk.symm
  · exact e1.pause.trans e2.pause.symm

theorem slack_file {A : PState ℝ} {ps : List (PState ℝ)} (hA : Shows A (q, none)) (h : List.Forall₂ Shows ps (q.run pf ls)) :
    slack (A :: ps) = fileSlack pf q ls := by
  have hrun : ∀ (ls : List Line) (q : Printer), (q.run pf ls).length = ls.length := by
    intro ls
    induction ls with
    | nil => intro q; rfl
    | cons l ls ih => intro q; rw [Printer.run, List.length_cons, List.length_cons, ih]
  have hsum : ∀ {ps : List (PState ℝ)} {xs : List (Printer × Option ℝ)}, List.Forall₂ Shows ps xs →
      ps.map (fun s => 1 / s.pAcc) = xs.map fun x => 1 / x.1.acc := by
    intro ps xs h
    induction h with
    | nil => rfl
    | cons h _ ih => rw [List.map_cons, List.map_cons, ih, h.acc]
  rw [slack, fileSlack, List.length_cons, h.length_eq, hrun, List.map_cons, List.sum_cons, hsum h, hA.acc]
  push_cast
  ring

/-- **C127, the part that was there.** Further lines do not delay what a file does before. -/
theorem c127_part (hpf : FloatLike pf) (hd : SetupAccepted d) (hq : PrinterOf d q) (hfw : firmwareOf d ≠ .marlinJerk)
    (hp : ∀ l ∈ ls ++ more, l.Plain pf) (hw : Decent pf q (ls ++ more)) (hc : FileOf ls content)
    (hc' : FileOf (ls ++ more) content') (h : simulateFile pf d content = .ok bs)
    (h' : simulateFile pf d content' = .ok bs') {t : ℝ} (ht : EndTime (Spec.path bs) t) :
    ∃ t', EndTime (Spec.path (bs'.take bs.length)) t' ∧ t' ≤ t + fileSlack pf q ls := by
  have hw1 : Decent pf q ls := ⟨hw.settings, fun l hl => hw.feed l (by simp [hl]), fun l hl => hw.acc l (by simp [hl]),
    fun l hl => hw.jerk l (by simp [hl])⟩
  obtain ⟨A, ps, g1, g2, g3, g4, g5⟩ := simulated_states hpf hd hq (fun l hl => hp l (by simp [hl])) hw1 hc h
  obtain ⟨A', ps', k1, k2, k3, k4, k5⟩ := simulated_states hpf hd hq hp hw hc' h'
  obtain ⟨R, hR⟩ := states_more hpf hd hq hp hc hc' g1 k1
  rw [hR] at k4 k5
  rw [← slack_file g2 g3]
  exact c126_part hfw k4 g5 ht k5

/-- A file without `M204` keeps its acceleration. -/
theorem run_acc : ∀ {ls : List Line} {q : Printer}, (∀ l ∈ ls, l.cmd ≠ some .M204) → ∀ x ∈ q.run pf ls, x.1.acc = q.acc
  | [], _, _, x, hx => by cases hx
  | l :: ls, q, h, x, hx => by
    have hl : (q.exec pf l).acc = q.acc := by
      have := h l (by simp)
      unfold Printer.exec
      split <;> simp_all
    rw [Printer.run, List.mem_cons] at hx
    rcases hx with rfl | hx
    · exact hl
    · rw [run_acc (fun k hk => h k (by simp [hk])) x hx, hl]

/-- **C127, longer.** If no line changes the acceleration, a file with further lines takes no less time. -/
theorem c127_longer (hpf : FloatLike pf) (hd : SetupAccepted d) (hq : PrinterOf d q) (hfw : firmwareOf d ≠ .marlinJerk)
    (hp : ∀ l ∈ ls ++ more, l.Plain pf) (hw : Decent pf q (ls ++ more)) (hM : ∀ l ∈ ls ++ more, l.cmd ≠ some .M204)
    (hc : FileOf ls content) (hc' : FileOf (ls ++ more) content') (h : simulateFile pf d content = .ok bs)
    (h' : simulateFile pf d content' = .ok bs') {t t' : ℝ} (ht : EndTime (Spec.path bs) t) (ht' : EndTime (Spec.path bs') t') :
    t ≤ t' + fileSlack pf q (ls ++ more) := by
  have hw1 : Decent pf q ls := ⟨hw.settings, fun l hl => hw.feed l (by simp [hl]), fun l hl => hw.acc l (by simp [hl]),
    fun l hl => hw.jerk l (by simp [hl])⟩
  obtain ⟨A, ps, g1, g2, g3, g4, g5⟩ := simulated_states hpf hd hq (fun l hl => hp l (by simp [hl])) hw1 hc h
  obtain ⟨A', ps', k1, k2, k3, k4, k5⟩ := simulated_states hpf hd hq hp hw hc' h'
  obtain ⟨R, hR⟩ := states_more hpf hd hq hp hc hc' g1 k1
  have hacc : ∀ s ∈ A' :: ps', s.pAcc = q.acc := by
    intro s hs
    rcases List.mem_cons.1 hs with rfl | hs
    · exact k2.acc
    · obtain ⟨i, hi, rfl⟩ := List.getElem_of_mem hs
      have e := List.Forall₂.get k3 hi (by rw [← k3.length_eq]; exact hi)
      simp only [List.get_eq_getElem] at e
      rw [e.acc]
      exact run_acc hM _ (List.getElem_mem _)
  rw [← slack_file k2 k3]
  rw [hR] at k4 k5 hacc ⊢
  exact c126_longer hfw hw.settings.2.1 k4 (fun s hs => hacc s (List.mem_append_left _ hs))
    (fun s hs => (hacc s (List.mem_append_right _ hs)).le) g5 ht k5 ht'

/-! ## An example -/

theorem Demo.plain_accepted : SetupAccepted Demo.plainSetup := by
  refine ⟨by decide, ?_⟩
  intro k hk
  rw [← mem_keys_iff] at hk
  exact Or.inl hk

theorem Demo.plain_decent : Decent Demo.num Demo.printer Demo.plain :=
  ⟨by simp [Demo.printer], by simp [Demo.plain, Line.value, Demo.num], by simp [Demo.plain], by simp [Demo.plain]⟩

/-- 9 mm and 10 mm of filament at 10 mm/min, and a wait of 10 ms. -/
theorem Demo.plain_time : fileTime Demo.num Demo.printer Demo.plain = 114.01 := by
  have h9 : norm3 (⟨9, 0, 0, 0⟩ : Vec4 ℝ) = 9 := by
    unfold norm3
    rw [sqrt_real, show (9 * 9 + 0 * 0 + 0 * 0 : ℝ) = 9 ^ 2 by norm_num]
    exact Real.sqrt_sq (by norm_num)
  have h0 : norm3 (⟨0, 0, 0, 10⟩ : Vec4 ℝ) = 0 := by
    unfold norm3
    rw [sqrt_real]
    simp
  have h1 : moveLength ⟨1, 2, 3, 4⟩ ⟨10, 2, 3, 4⟩ = 9 := by
    rw [moveLength, show Vec4.sub (⟨10, 2, 3, 4⟩ : Vec4 ℝ) ⟨1, 2, 3, 4⟩ = ⟨9, 0, 0, 0⟩ by ext <;> norm_num [Vec4.sub], h9]
    norm_num
  have h2 : moveLength ⟨10, 2, 3, 4⟩ ⟨10, 2, 3, 4 + 10⟩ = 10 := by
    rw [moveLength, show Vec4.sub (⟨10, 2, 3, 4 + 10⟩ : Vec4 ℝ) ⟨10, 2, 3, 4⟩ = ⟨0, 0, 0, 10⟩ by ext <;> norm_num [Vec4.sub], h0]
    norm_num
  simp [fileTime, lineTime, Demo.plain, Line.wait, Line.value, Demo.num, Printer.exec, Demo.printer, Printer.point, letter,
    Printer.abs, h1, h2, moveLength_self]
  norm_num

theorem Demo.plain_ramps : fileRamps Demo.num Demo.printer Demo.plain = 1 / 600 := by
  simp [fileRamps, lineRamp, Demo.plain, Line.wait, Line.value, Demo.num, Printer.exec, Demo.printer, Printer.point, letter,
    Printer.abs]
  norm_num

/-- The file takes at least 114.01 s, and at most a six-hundredth of a second longer. -/
example : ∃ bs t, simulateFile Demo.num Demo.plainSetup Demo.plainText = .ok bs ∧ EndTime (Spec.path bs) t ∧
    114.01 ≤ t ∧ t ≤ 114.01 + 1 / 600 := by
  obtain ⟨bs, t, _, _, h1, h2, _⟩ := c69_simulated_as_written Demo.num_floatLike Demo.plain_accepted Demo.printer_of
    Demo.plain_lines Demo.workable Demo.plain_file
  refine ⟨bs, t, h1, h2, ?_, ?_⟩
  · rw [← Demo.plain_time]
    exact c127_at_least Demo.num_floatLike Demo.plain_accepted Demo.printer_of Demo.plain_lines Demo.plain_decent
      Demo.plain_file h1 h2
  · rw [← Demo.plain_time, ← Demo.plain_ramps]
    exact c127_at_most Demo.num_floatLike Demo.plain_accepted Demo.printer_of Demo.plain_lines Demo.plain_decent
      Demo.plain_file h1 h2

/-- The first line of the file in a file of its own. -/
example : ∃ bs bs' t t' t'', simulateFile Demo.num Demo.plainSetup "G1 X10 F10 ; go\r\n".toList = .ok bs ∧
    simulateFile Demo.num Demo.plainSetup Demo.plainText = .ok bs' ∧ EndTime (Spec.path bs) t ∧
    EndTime (Spec.path bs') t' ∧ EndTime (Spec.path (bs'.take bs.length)) t'' ∧
    t'' ≤ t + fileSlack Demo.num Demo.printer (Demo.plain.take 1) ∧ t ≤ t' + fileSlack Demo.num Demo.printer Demo.plain := by
  have hfile : FileOf (Demo.plain.take 1) "G1 X10 F10 ; go\r\n".toList := by
    refine ⟨"G1 X10 F10 ; go\n".toList, ["G1 X10 F10 ; go\n".toList], ?_, ?_, ?_⟩
    · repeat' first | exact .nil | refine .crlf ?_ | refine .other (by decide) ?_
    · exact .line (l := "G1 X10 F10 ; go".toList) (by decide) .none
    · exact .cons (Or.inr rfl) .nil
  have hp : ∀ l ∈ Demo.plain.take 1, l.Plain Demo.num := fun l hl => Demo.plain_lines l (List.mem_of_mem_take hl)
  have hw : Workable Demo.num Demo.printer (Demo.plain.take 1) := by
    refine ⟨by simp [Demo.printer], by simp [Demo.plain, Line.value, Demo.num], by simp [Demo.plain], by simp [Demo.plain],
      by simp [Demo.plain, Line.wait], ?_, ⟨_, List.mem_cons_self, Demo.first_move⟩⟩
    intro pre l post he hl
    have hm : l ∈ Demo.plain.take 1 := by rw [he]; simp
    rw [Demo.plain, List.take_succ_cons, List.take_zero, List.mem_singleton] at hm
    subst hm
    simp [Line.wait] at hl
  obtain ⟨bs, t, _, _, h1, h2, _⟩ := c69_simulated_as_written Demo.num_floatLike Demo.plain_accepted Demo.printer_of hp hw hfile
  obtain ⟨bs', t', _, _, h3, h4, _⟩ := c69_simulated_as_written Demo.num_floatLike Demo.plain_accepted Demo.printer_of
    Demo.plain_lines Demo.workable Demo.plain_file
  have e : Demo.plain.take 1 ++ Demo.plain.drop 1 = Demo.plain := List.take_append_drop _ _
  have hfw : firmwareOf Demo.plainSetup ≠ .marlinJerk := by
    have : Demo.plainSetup.lookup "firmware" = some (.text "klipper") := rfl
    simp [firmwareOf, this, Firmware.ofName]
  obtain ⟨t'', h5, h6⟩ := c127_part (more := Demo.plain.drop 1) Demo.num_floatLike Demo.plain_accepted Demo.printer_of hfw
    (by rw [e]; exact Demo.plain_lines) (by rw [e]; exact Demo.plain_decent) hfile (by rw [e]; exact Demo.plain_file) h1 h3 h2
  have h7 := c127_longer (more := Demo.plain.drop 1) Demo.num_floatLike Demo.plain_accepted Demo.printer_of hfw
    (by rw [e]; exact Demo.plain_lines) (by rw [e]; exact Demo.plain_decent) (by rw [e]; simp [Demo.plain]) hfile
    (by rw [e]; exact Demo.plain_file) h1 h3 h2 h4
  rw [e] at h7
  exact ⟨bs, bs', t, t', t'', h1, h3, h2, h4, h5, h6, h7⟩

end PyGCD
