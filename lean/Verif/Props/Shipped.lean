import Verif.Model.Presets
import Verif.Spec.Shipped
import Verif.Props.Runnable
import Verif.Props.Session

/-!
# Property C101: the printers that come with the package
-/

set_option linter.unusedSimpArgs false

namespace PyGCD
open PyGCD.Spec

/-- What a stock printer's setup dictionary says. -/
structure StockSetup (r : Stock) (d : Dict (SVal ℝ)) : Prop where
  accepted : SetupAccepted d
  printer : PrinterOf d r.printer
  firmware : firmwareOf d = r.firmware

/-- What the file says about a stock printer. -/
theorem stock_preset {r : Stock} (hr : r ∈ stock) :
    ∃ pre, (shippedPresets fun v : ℚ => (v : ℝ)).lookup r.name = some pre ∧
      (pre.lookup "p_vel" = some (.num (r.feed : ℝ)) ∧ pre.lookup "p_acc" = some (.num (r.acc : ℝ)) ∧
      pre.lookup "jerk" = some (.num (r.jerk : ℝ)) ∧ pre.lookup "layer_cue" = none ∧
      firmwareFor (pre.lookup "firmware") = r.firmware ∧ (pre.lookup "firmware").isSome) ∧
      (∀ k ∈ ["vX", "vY", "vZ", "vE"], ∃ v, pre.lookup k = some (.num v)) ∧
      ∀ k, (pre.lookup k).isSome → k ∈ ["nozzle_diam", "filament_diam", "p_vel", "p_acc", "jerk", "vX", "vY", "vZ", "vE",
        "firmware"] := by
  simp only [stock, List.mem_cons, List.not_mem_nil, or_false] at hr
  rcases hr with rfl | rfl | rfl | rfl
  · refine ⟨readPreset (fun v : ℚ => (v : ℝ)) presetAnisoprint, by simp [shippedPresets, List.lookup], ?_, ?_, ?_⟩
    · simp [readPreset, presetAnisoprint, List.lookup, firmwareFor]
    · simp [readPreset, presetAnisoprint, List.lookup]
    · intro k hk
      rw [← mem_keys_iff] at hk
      simpa [readPreset, presetAnisoprint] using hk
  · refine ⟨readPreset (fun v : ℚ => (v : ℝ)) presetPrusaMini, by simp [shippedPresets, List.lookup], ?_, ?_, ?_⟩
    · simp [readPreset, presetPrusaMini, List.lookup, firmwareFor]
    · simp [readPreset, presetPrusaMini, List.lookup]
    · intro k hk
      rw [← mem_keys_iff] at hk
      simpa [readPreset, presetPrusaMini] using hk
  · refine ⟨readPreset (fun v : ℚ => (v : ℝ)) presetPrusaMiniKlipper, by simp [shippedPresets, List.lookup], ?_, ?_, ?_⟩
    · simp [readPreset, presetPrusaMiniKlipper, List.lookup, firmwareFor]
    · simp [readPreset, presetPrusaMiniKlipper, List.lookup]
    · intro k hk
      rw [← mem_keys_iff] at hk
      simpa [readPreset, presetPrusaMiniKlipper] using hk
  · refine ⟨readPreset (fun v : ℚ => (v : ℝ)) presetDebugging, by simp [shippedPresets, List.lookup], ?_, ?_, ?_⟩
    · simp [readPreset, presetDebugging, List.lookup, firmwareFor]
    · simp [readPreset, presetDebugging, List.lookup]
    · intro k hk
      rw [← mem_keys_iff] at hk
      simpa [readPreset, presetDebugging] using hk

/-- The entries that a setup object of a stock printer has. -/
theorem stock_setup {r : Stock} {pre d : Dict (SVal ℝ)} {cue : Option String} {bk : Book}
    (hbk : bk.props r.name = fun _ => none) (hpos : ∀ k ∈ ["X", "Y", "Z", "E"], bk.pos k = 0)
    (hlook : (shippedPresets fun v : ℚ => (v : ℝ)).lookup r.name = some pre)
    (h1 : pre.lookup "p_vel" = some (.num (r.feed : ℝ)) ∧ pre.lookup "p_acc" = some (.num (r.acc : ℝ)) ∧
      pre.lookup "jerk" = some (.num (r.jerk : ℝ)) ∧ pre.lookup "layer_cue" = none ∧
      firmwareFor (pre.lookup "firmware") = r.firmware ∧ (pre.lookup "firmware").isSome)
    (h2 : ∀ k ∈ ["vX", "vY", "vZ", "vE"], ∃ v, pre.lookup k = some (.num v))
    (h3 : ∀ k, (pre.lookup k).isSome → k ∈ ["nozzle_diam", "filament_diam", "p_vel", "p_acc", "jerk", "vX", "vY", "vZ", "vE",
        "firmware"])
    (hd : ∀ k, d.lookup k = bk.wanted (shippedPresets fun v : ℚ => (v : ℝ)) cue r.name k) :
    StockSetup r d ∧ d.lookup "layer_cue" = cue.map .text := by
  obtain ⟨a1, a2, a3, a4, a5, a6⟩ := h1
  have hw : ∀ k, k ≠ "printer_name" → k ≠ "layer_cue" → k ∉ ["X", "Y", "Z", "E"] → d.lookup k = pre.lookup k := by
    intro k k1 k2 k3
    rw [hd, Book.wanted, if_neg k1, if_neg (fun h => k2 h.1), if_neg k3, hbk, hlook]
    rfl
  have hp : ∀ k ∈ ["X", "Y", "Z", "E"], d.lookup k = some (.num 0) := by
    intro k hk
    have k1 : k ≠ "printer_name" := by rintro rfl; simp at hk
    have k2 : k ≠ "layer_cue" := by rintro rfl; simp at hk
    rw [hd, Book.wanted, if_neg k1, if_neg (fun h => k2 h.1), if_pos hk, hpos k hk]
  have hn : d.lookup "printer_name" = some (.text r.name) := by
    rw [hd, Book.wanted, if_pos rfl]
  have hc : d.lookup "layer_cue" = cue.map .text := by
    rw [hd, Book.wanted, if_neg (by decide)]
    cases cue with
    | none =>
      rw [if_neg (by simp), if_neg (by decide), hbk, hlook]
      exact a4
    | some c => rw [if_pos ⟨rfl, rfl⟩]
  have hv := hw "p_vel" (by decide) (by decide) (by decide)
  have ha := hw "p_acc" (by decide) (by decide) (by decide)
  have hj := hw "jerk" (by decide) (by decide) (by decide)
  have hf := hw "firmware" (by decide) (by decide) (by decide)
  have hl : ∀ k ∈ ["vX", "vY", "vZ", "vE"], ∃ v, d.lookup k = some (.num v) := by
    intro k hk
    have hk' := hk
    simp only [List.mem_cons, List.not_mem_nil, or_false] at hk'
    rw [hw k (by rcases hk' with rfl | rfl | rfl | rfl <;> decide) (by rcases hk' with rfl | rfl | rfl | rfl <;> decide)
      (by rcases hk' with rfl | rfl | rfl | rfl <;> decide)]
    exact h2 k hk
  refine ⟨⟨⟨?_, ?_⟩, ?_, ?_⟩, hc⟩
  · intro k hk
    simp only [List.mem_cons, List.not_mem_nil, or_false] at hk
    rcases hk with rfl | rfl | rfl | rfl | rfl | rfl | rfl | rfl | rfl | rfl | rfl | rfl | rfl
    · rw [hv, a1]; rfl
    · rw [ha, a2]; rfl
    · rw [hj, a3]; rfl
    · obtain ⟨v, h⟩ := hl "vX" (by simp); rw [h]; rfl
    · obtain ⟨v, h⟩ := hl "vY" (by simp); rw [h]; rfl
    · obtain ⟨v, h⟩ := hl "vZ" (by simp); rw [h]; rfl
    · obtain ⟨v, h⟩ := hl "vE" (by simp); rw [h]; rfl
    · rw [hp "X" (by simp)]; rfl
    · rw [hp "Y" (by simp)]; rfl
    · rw [hp "Z" (by simp)]; rfl
    · rw [hp "E" (by simp)]; rfl
    · rw [hn]; rfl
    · rw [hf]; exact a6
  · intro k hk
    by_cases k1 : k = "printer_name"
    · rw [k1]; left; simp
    by_cases k2 : k = "layer_cue"
    · rw [k2]; right; simp
    by_cases k3 : k ∈ ["X", "Y", "Z", "E"]
    · left
      simp only [List.mem_cons, List.not_mem_nil, or_false] at k3 ⊢
      grind
    · rw [hw k k1 k2 k3] at hk
      have := h3 k hk
      simp only [List.mem_cons, List.not_mem_nil, or_false] at this ⊢
      grind
  · exact ⟨hp "X" (by simp), hp "Y" (by simp), hp "Z" (by simp), hp "E" (by simp), fun _ => rfl, ⟨rfl, rfl⟩, hv.trans a1,
      ha.trans a2, hj.trans a3, hl⟩
  · rw [firmwareOf_eq, hf, a5]

/-- **C101.** Every name in the table gives a setup: it is accepted, the machine stands at the origin and has the
feedrate, acceleration, jerk and firmware of the table, and layers are not counted. -/
theorem c101_setup {r : Stock} (hr : r ∈ stock) {unit : String} (hu : mmPer unit ≠ none) :
    ∃ d s, simulationGuards unit (some r.name) none (shippedPresets fun v : ℚ => (v : ℝ)) = .ok (d, s) ∧
      StockSetup r d ∧ d.lookup "layer_cue" = none := by
  obtain ⟨s0, hs0⟩ : ∃ s0, Setup.create (K := ℝ) [] none none = .ok s0 := ⟨_, rfl⟩
  obtain ⟨-, g⟩ := c47_guards hs0 [] (by simp) unit (some r.name) (shippedPresets fun v : ℚ => (v : ℝ))
  obtain ⟨-, -, -, -, -, g, -⟩ := g hu
  obtain ⟨pre, h1, h2, h3, h4⟩ := stock_preset hr
  obtain ⟨⟨d, s⟩, e1, e2⟩ := g r.name pre rfl h1 h2.2.2.2.2.2
  exact ⟨d, s, e1, stock_setup rfl (fun _ _ => rfl) h1 h2 h3 h4 e2⟩

/-- **C101.** The empty firmware entry of the `debugging` printer stays `None` in the dictionary of the setup. -/
theorem c101_debugging {unit : String} (hu : mmPer unit ≠ none) :
    ∃ d s, simulationGuards unit (some "debugging") none (shippedPresets fun v : ℚ => (v : ℝ)) = .ok (d, s) ∧
      d.lookup "firmware" = some .null ∧ d.lookup "printer_name" = some (.text "debugging") := by
  have hu' : ¬ ¬ (unit = "SI" ∨ unit = "SImm" ∨ unit = "inch") := by
    intro h
    push Not at h
    exact hu (by simp [mmPer, h.1, h.2.1, h.2.2])
  simp only [simulationGuards, if_neg hu']
  simp [Setup.create, Setup.selectPrinter, Setup.getDict, shippedPresets, presetDebugging, readPreset, List.lookup, bind,
    Except.bind, dictSet, dictUpdate]

/-- **C101.** Any other name raises a `ValueError`. -/
theorem c101_unknown {n : String} (hn : ∀ r ∈ stock, r.name ≠ n) (unit : String) :
    simulationGuards unit (some n) none (shippedPresets fun v : ℚ => (v : ℝ)) = .error .valueError := by
  simp only [stock, List.mem_cons, List.not_mem_nil, or_false, forall_eq_or_imp, forall_eq] at hn
  obtain ⟨h1, h2, h3, h4⟩ := hn
  unfold simulationGuards
  split
  · rfl
  · simp only [Setup.create, Setup.selectPrinter, shippedPresets, List.lookup, beq_eq_false_iff_ne.2 h1.symm,
      beq_eq_false_iff_ne.2 h2.symm, beq_eq_false_iff_ne.2 h3.symm, beq_eq_false_iff_ne.2 h4.symm, bind, Except.bind,
      Option.isSome_none, Bool.false_eq_true, if_false]

/-- **C101.** The example of the package: its setup is that of the `prusa_mini`, with layers counted at the cue of the
slicer. -/
theorem c101_benchy {unit : String} (hu : mmPer unit ≠ none) (presets : Dict (Dict (SVal ℝ))) :
    ∃ s d s', benchySetup (fun v : ℚ => (v : ℝ)) = .ok s ∧ simulationGuards unit none (some s) presets = .ok (d, s') ∧
      StockSetup ⟨"prusa_mini", 35, 1250, 8, .marlinJerk⟩ d ∧ d.lookup "layer_cue" = some (.text "LAYER_CHANGE") := by
  obtain ⟨pre, h1, h2, h3, h4⟩ := stock_preset (r := ⟨"prusa_mini", 35, 1250, 8, .marlinJerk⟩) (by simp [stock])
  obtain ⟨s0, hs0⟩ : ∃ s0, Setup.create (shippedPresets fun v : ℚ => (v : ℝ)) (some "prusa_mini") (some "LAYER_CHANGE") =
      .ok s0 := by
    simp [Setup.create, Setup.selectPrinter, Setup.getDict, shippedPresets, presetPrusaMini, readPreset, List.lookup, bind,
      Except.bind, dictSet, dictUpdate]
  have hd : SetupOp.WellFormed (.setPos (.dict [("X", 0), ("Y", 0), ("Z", 0), ("E", 0)]) (some "SImm")) :=
    ⟨by simp, by simp⟩
  obtain ⟨-, g⟩ := c47_guards hs0 [.setPos (.dict [("X", 0), ("Y", 0), ("Z", 0), ("E", 0)]) (some "SImm")]
    (by simpa using hd) unit none presets
  obtain ⟨g, -⟩ := g hu
  obtain ⟨⟨d, s'⟩, e1, e2⟩ := g "prusa_mini" (by simp [Book.note, Book.start, mmPer]) (Or.inl rfl)
  obtain ⟨s1, hs1⟩ : ∃ s1, s0.setInitialPosition (.dict [("X", 0), ("Y", 0), ("Z", 0), ("E", 0)]) (some "SImm") = .ok s1 := by
    simp [Setup.setInitialPosition, setupScaling, bind, Except.bind, List.lookup]
  refine ⟨s1, d, s', ?_, ?_, ?_⟩
  · simp only [benchySetup, hs0, bind, Except.bind]
    exact hs1
  · have : s0.call (.setPos (.dict [("X", 0), ("Y", 0), ("Z", 0), ("E", 0)]) (some "SImm")) = s1 := by
      simp only [Setup.call, hs1]
    simpa only [List.foldl_cons, List.foldl_nil, this] using e1
  · refine stock_setup (r := ⟨"prusa_mini", 35, 1250, 8, .marlinJerk⟩) ?_ ?_ h1 h2 h3 h4 e2
    · simp [Book.note, Book.start, mmPer, List.lookup]
    · simp [Book.note, Book.start, mmPer, List.lookup]

/-- **C101.** With a stock printer, every plain file of sensible moves is simulated as written: the machine starts at the
origin and visits the places that the lines say. -/
theorem c101_simulated {pf : List Char → Option ℝ} (hpf : FloatLike pf) {r : Stock} (hr : r ∈ stock) {unit : String}
    (hu : mmPer unit ≠ none) {ls : List Line} (hp : ∀ l ∈ ls, l.Plain pf) (hw : Workable pf r.printer ls)
    {content : List Char} (hc : FileOf ls content) :
    ∃ d s bs T τ pos, simulationGuards unit (some r.name) none (shippedPresets fun v : ℚ => (v : ℝ)) = .ok (d, s) ∧
      simulateFile pf d content = .ok bs ∧ EndTime (Spec.path bs) T ∧
      Itinerary (((r.printer, none) :: r.printer.run pf ls).map fun x => (x.1.point, x.2)) τ T pos ∧
      ∀ u f, InUnit (Option.getD u unit) f → ∀ start history t,
        (0 ≤ t → t < T → ∃ v p,
          (getValues (unpack bs) unit u t (queryHistory (unpack bs) unit history start)).1 = .ok (v, p)) ∧
        ∀ v p, (getValues (unpack bs) unit u t (queryHistory (unpack bs) unit history start)).1 = .ok (v, p) →
          p = (pos t).mul f := by
  obtain ⟨d, s, h1, h2, _⟩ := c101_setup hr hu
  obtain ⟨bs, T, τ, pos, g1, g2, g3, g4⟩ := c69_simulated_as_written hpf h2.accepted h2.printer hp hw hc
  exact ⟨d, s, bs, T, τ, pos, h1, g1, g2, g3, g4 unit⟩

theorem Demo.stock_first {r : Stock} :
    (r.printer.exec Demo.num ⟨some .G1, [⟨1, 'X', ['1', '0']⟩, ⟨1, 'F', ['1', '0']⟩], 1, some [' ', 'g', 'o'], []⟩).point ≠
      r.printer.point := by
  intro h
  have := congrArg Vec4.x h
  simp [Printer.exec, Printer.point, Line.value, Demo.num, Stock.printer, letter, Printer.abs] at this

/-- The hypotheses of `c101_simulated` hold for the file of `Demo.plain` and every stock printer. -/
theorem Demo.stock_workable {r : Stock} (hr : r ∈ stock) : Workable Demo.num r.printer Demo.plain where
  settings := by
    simp only [stock, List.mem_cons, List.not_mem_nil, or_false] at hr
    rcases hr with rfl | rfl | rfl | rfl <;> simp [Stock.printer]
  feed := by simp [Demo.plain, Line.value, Demo.num]
  acc := by simp [Demo.plain]
  jerk := by simp [Demo.plain]
  wait := by
    simp [Demo.plain, Line.wait, Line.value, Demo.num]
    norm_num
  warm := by
    intro pre l post he hl
    cases pre with
    | nil =>
      rw [List.nil_append, Demo.plain, List.cons.injEq] at he
      rw [← he.1] at hl
      simp [Line.wait] at hl
    | cons y pre =>
      rw [List.cons_append, Demo.plain, List.cons.injEq] at he
      refine ⟨_, List.mem_cons_self, ?_⟩
      rw [← he.1]
      exact Demo.stock_first
  moves := ⟨_, List.mem_cons_self, Demo.stock_first⟩

end PyGCD
