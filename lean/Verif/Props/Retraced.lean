import Verif.Spec.Retraced
import Verif.Props.Retuned
import Verif.Props.Backwards

/-!
# Property C133: G-code files that go there and back
-/

set_option linter.unusedSectionVars false
set_option linter.unusedSimpArgs false

namespace PyGCD
open Vec4 Spec

variable {pf : List Char → Option ℝ} {d d' : Dict (SVal ℝ)} {q q' : Printer} {ls ls' : List Line} {content content' : List Char}
  {bs bs' : List (Block ℝ)} {fw : Firmware} {J : ℝ}

/-- The program for what is done from a place, with a jerk for the place itself. -/
noncomputable def programWith (J : ℝ) (p : Vec4 ℝ) (l : List Doing) : List (PState ℝ) :=
  ⟨p, 1, 1, J, none, none⟩ :: l.map Doing.state

theorem programWith_planned (hpf : FloatLike pf) (hd : SetupAccepted d) (hq : PrinterOf d q) (hp : ∀ l ∈ ls, l.Plain pf)
    (hc : FileOf ls content) (J : ℝ) (h : simulateFile pf d content = .ok bs) :
    ∃ cs, plan (firmwareOf d) (programWith J q.point (q.doings pf ls)) = .ok cs ∧ Spec.path cs = Spec.path bs := by
  have hs := simulate_program hpf hd hq hp hc
  rw [c128_idle (l := program q.point (q.doings pf ls)) (l' := programWith J q.point (q.doings pf ls))
    (.first rfl rfl rfl (thinned_refl _ _)), h] at hs
  unfold simulate at hs
  simp only [bind] at hs
  cases hpl : plan (firmwareOf d) (programWith J q.point (q.doings pf ls)) with
  | error e =>
    rw [hpl] at hs
    cases hs
  | ok cs =>
    rw [hpl] at hs
    simp only [Except.bind] at hs
    cases he : endTime cs with
    | error e =>
      rw [he] at hs
      cases hs
    | ok t =>
      rw [he] at hs
      simp only [Except.map, Except.ok.injEq] at hs
      exact ⟨cs, rfl, (path_of_segments hs).symm⟩

theorem slack_programWith (p : Vec4 ℝ) (l : List Doing) : slack (programWith J p l) = doingsSlack l := by
  unfold slack doingsSlack programWith
  simp [Doing.state, Function.comp_def]

theorem programWith_regular {p : Vec4 ℝ} {l : List Doing} (hJ : 0 ≤ J) (hv : ∀ x ∈ l, 0 < x.feed) (ha : ∀ x ∈ l, 0 < x.acc)
    (hj : ∀ x ∈ l, x.jerk = J) (hw : ∀ x ∈ l, x.wait = none) : Regular (programWith J p l) := by
  have none' : ∀ s ∈ programWith J p l, s.pause = none := by
    intro s hs
    rcases List.mem_cons.1 hs with rfl | hs
    · rfl
    · obtain ⟨x, hx, rfl⟩ := List.mem_map.1 hs
      exact hw x hx
  refine ⟨?_, ?_, ?_, ?_, ?_, ?_⟩
  · intro s hs
    rcases List.mem_cons.1 hs with rfl | hs
    · exact one_pos
    · obtain ⟨x, hx, rfl⟩ := List.mem_map.1 hs
      exact hv x hx
  · intro s hs
    rcases List.mem_cons.1 hs with rfl | hs
    · exact one_pos
    · obtain ⟨x, hx, rfl⟩ := List.mem_map.1 hs
      exact ha x hx
  · intro s hs
    rcases List.mem_cons.1 hs with rfl | hs
    · exact hJ
    · obtain ⟨x, hx, rfl⟩ := List.mem_map.1 hs
      exact hJ.trans_eq (hj x hx).symm
  · intro s hs p hp
    rw [none' s hs] at hp
    cases hp
  · intro pre s post he hn
    exact absurd (none' s (by rw [he]; simp)) hn
  · intro pre s post he hn
    exact absurd (none' s (by rw [he]; simp)) hn

theorem map_const {α β : Type} {l : List α} {f : α → β} {b : β} (h : ∀ x ∈ l, f x = b) : l.map f = List.replicate l.length b := by
  rw [List.eq_replicate_iff]
  refine ⟨by simp, fun y hy => ?_⟩
  obtain ⟨x, hx, rfl⟩ := List.mem_map.1 hy
  exact h x hx

theorem Spec.Retraced.length {p p' : Vec4 ℝ} {l l' : List Doing} (h : Retraced p l p' l' J) : l'.length = l.length := by
  have := congrArg List.length h.feeds
  simpa using this

theorem Spec.Retraced.backwards {p p' : Vec4 ℝ} {l l' : List Doing} (h : Retraced p l p' l' J) :
    Backwards (programWith J p l) (programWith J p' l') where
  positions := by
    have := h.places
    simp only [programWith, List.map_cons, List.map_map]
    exact this
  jerks := by
    have e : ∀ {p : Vec4 ℝ} {m : List Doing}, (∀ x ∈ m, x.jerk = J) →
        (programWith J p m).map (·.jerk) = List.replicate (m.length + 1) J := by
      intro p m hm
      rw [map_const (b := J)]
      · simp [programWith]
      · intro s hs
        rcases List.mem_cons.1 hs with rfl | hs
        · rfl
        · obtain ⟨x, hx, rfl⟩ := List.mem_map.1 hs
          exact hm x hx
    rw [e fun x hx => h.jerk x (by simp [hx]), e fun x hx => h.jerk x (by simp [hx]), List.reverse_replicate, h.length]
  speeds := by
    have := h.feeds
    simp only [programWith, List.tail_cons, List.map_map]
    exact this
  accs := by
    have := h.accs
    simp only [programWith, List.tail_cons, List.map_map]
    exact this
  pauses := by
    simp only [programWith, List.tail_cons, List.map_map]
    rw [map_const (f := (fun s : PState ℝ => s.pause) ∘ Doing.state) (b := none) (fun x hx => h.wait x (by simp [hx])),
      map_const (f := (fun s : PState ℝ => s.pause) ∘ Doing.state) (b := none) (fun x hx => h.wait x (by simp [hx])), List.reverse_replicate, h.length]

theorem programWith_steady {p : Vec4 ℝ} {l : List Doing} (hj : ∀ x ∈ l, x.jerk = J) : SteadyJerk (programWith J p l) := by
  have e : ∀ s ∈ programWith J p l, s.jerk = J := by
    intro s hs
    rcases List.mem_cons.1 hs with rfl | hs
    · rfl
    · obtain ⟨x, hx, rfl⟩ := List.mem_map.1 hs
      exact hj x hx
  unfold SteadyJerk
  refine List.Pairwise.isChain (List.pairwise_iff_forall_sublist.2 fun {A B} hAB _ => ?_)
  rw [e A (hAB.subset (by simp)), e B (hAB.subset (by simp))]

/-- **C133.** If the second file makes its printer go the way of the first one in the opposite direction, both without waits and
with the same jerk everywhere, its print takes as long, up to the planner's tolerance: with `marlin_jd`, with default junction
handling, and with `MKA` if there is only one feedrate. -/
theorem c133_back (hpf : FloatLike pf) (hd : SetupAccepted d) (hd' : SetupAccepted d') (hq : PrinterOf d q)
    (hq' : PrinterOf d' q') (hfw : firmwareOf d' = firmwareOf d) (hp : ∀ l ∈ ls, l.Plain pf) (hp' : ∀ l ∈ ls', l.Plain pf)
    (hc : FileOf ls content) (hc' : FileOf ls' content')
    (hR : Retraced q.point (q.doings pf ls) q'.point (q'.doings pf ls') J) (hJ : 0 ≤ J)
    (hv : ∀ x ∈ q.doings pf ls, 0 < x.feed) (ha : ∀ x ∈ q.doings pf ls, 0 < x.acc)
    (hfs : firmwareOf d = .marlinJd ∨ firmwareOf d = .default ∨
      firmwareOf d = .mka ∧ ∃ V, ∀ x ∈ q.doings pf ls, x.feed = V) {t t' : ℝ}
    (h : simulateFile pf d content = .ok bs) (ht : EndTime (Spec.path bs) t)
    (h' : simulateFile pf d' content' = .ok bs') (ht' : EndTime (Spec.path bs') t') :
    |t' - t| ≤ doingsSlack (q.doings pf ls) + doingsSlack (q'.doings pf ls') := by
  obtain ⟨cs, k1, k2⟩ := programWith_planned hpf hd hq hp hc J h
  obtain ⟨cs', k1', k2'⟩ := programWith_planned hpf hd' hq' hp' hc' J h'
  rw [← k2] at ht
  rw [← k2'] at ht'
  rw [hfw] at k1'
  rw [← slack_programWith (J := J) q.point, ← slack_programWith (J := J) q'.point]
  have j1 : ∀ x ∈ q.doings pf ls, x.jerk = J := fun x hx => hR.jerk x (by simp [hx])
  have j2 : ∀ x ∈ q'.doings pf ls', x.jerk = J := fun x hx => hR.jerk x (by simp [hx])
  have w1 : ∀ x ∈ q.doings pf ls, x.wait = none := fun x hx => hR.wait x (by simp [hx])
  have w2 : ∀ x ∈ q'.doings pf ls', x.wait = none := fun x hx => hR.wait x (by simp [hx])
  have v2 : ∀ x ∈ q'.doings pf ls', 0 < x.feed := by
    intro x hx
    have : x.feed ∈ (q'.doings pf ls').map Doing.feed := List.mem_map_of_mem hx
    rw [hR.feeds, List.mem_reverse] at this
    obtain ⟨y, hy, e⟩ := List.mem_map.1 this
    rw [← e]
    exact hv y hy
  have a2 : ∀ x ∈ q'.doings pf ls', 0 < x.acc := by
    intro x hx
    have : x.acc ∈ (q'.doings pf ls').map Doing.acc := List.mem_map_of_mem hx
    rw [hR.accs, List.mem_reverse] at this
    obtain ⟨y, hy, e⟩ := List.mem_map.1 this
    rw [← e]
    exact ha y hy
  refine c89_backwards_partial (programWith_regular hJ hv ha j1 w1) (programWith_regular hJ v2 a2 j2 w2) hR.backwards
    (programWith_steady j1) (hfs.imp id (Or.imp id fun ⟨e, V, hV⟩ => ⟨e, V, ?_⟩)) k1 ht k1' ht'
  intro s hs
  obtain ⟨x, hx, rfl⟩ := List.mem_map.1 hs
  exact hV x hx

/-! ## Example -/

/-- Two moves with a corner, and back. -/
def Demo.there : List Line :=
  [⟨some .G1, [⟨1, 'X', ['1', '0']⟩, ⟨1, 'F', ['1', '0']⟩], 0, none, []⟩, ⟨some .G1, [⟨1, 'Y', ['1', '0']⟩], 0, none, []⟩]

def Demo.again : List Line :=
  [⟨some .G1, [⟨1, 'Y', ['0']⟩, ⟨1, 'F', ['1', '0']⟩], 0, none, []⟩, ⟨some .G1, [⟨1, 'X', ['0']⟩], 0, none, []⟩]

theorem Demo.there_lines : ∀ l ∈ Demo.there, l.Plain Demo.num := by
  intro l hl
  simp only [Demo.there, List.mem_cons, List.not_mem_nil, or_false] at hl
  rcases hl with rfl | rfl <;>
    exact ⟨by simp, by simp, by simp, by simp [plainLetters], by simp, by simp [Demo.num, numChars], by simp, by simp⟩

theorem Demo.again_lines : ∀ l ∈ Demo.again, l.Plain Demo.num := by
  intro l hl
  simp only [Demo.again, List.mem_cons, List.not_mem_nil, or_false] at hl
  rcases hl with rfl | rfl <;>
    exact ⟨by simp, by simp, by simp, by simp [plainLetters], by simp, by simp [Demo.num, numChars], by simp, by simp⟩

theorem Demo.there_file : FileOf Demo.there "G1 X10 F10\nG1 Y10\n".toList := by
  refine ⟨"G1 X10 F10\nG1 Y10\n".toList, ["G1 X10 F10\n".toList, "G1 Y10\n".toList], ?_, ?_, ?_⟩
  · repeat' first | exact .nil | refine .other (by decide) ?_
  · exact .line (l := "G1 X10 F10".toList) (by decide) (.line (l := "G1 Y10".toList) (by decide) .none)
  · exact .cons (Or.inr rfl) (.cons (Or.inr rfl) .nil)

theorem Demo.again_file : FileOf Demo.again "G1 Y0 F10\nG1 X0\n".toList := by
  refine ⟨"G1 Y0 F10\nG1 X0\n".toList, ["G1 Y0 F10\n".toList, "G1 X0\n".toList], ?_, ?_, ?_⟩
  · repeat' first | exact .nil | refine .other (by decide) ?_
  · exact .line (l := "G1 Y0 F10".toList) (by decide) (.line (l := "G1 X0".toList) (by decide) .none)
  · exact .cons (Or.inr rfl) (.cons (Or.inr rfl) .nil)

theorem Demo.there_workable : Workable Demo.num (Demo.printerAt 0 0 35 200 10) Demo.there where
  settings := by norm_num [Demo.printerAt]
  feed := by simp [Demo.there, Line.value, Demo.num]
  acc := by simp [Demo.there]
  jerk := by simp [Demo.there]
  wait := by simp [Demo.there, Line.wait]
  warm := by
    intro pre l post he hl
    have : l ∈ Demo.there := by rw [he]; simp
    simp only [Demo.there, List.mem_cons, List.not_mem_nil, or_false] at this
    rcases this with rfl | rfl <;> simp [Line.wait] at hl
  moves := by
    refine ⟨_, List.mem_cons_self, fun h => ?_⟩
    have := congrArg Vec4.x h
    norm_num [Printer.exec, Printer.point, Line.value, Demo.num, Demo.printerAt, letter, Printer.abs] at this

theorem Demo.again_workable : Workable Demo.num (Demo.printerAt 10 10 35 200 10) Demo.again where
  settings := by norm_num [Demo.printerAt]
  feed := by simp [Demo.again, Line.value, Demo.num]
  acc := by simp [Demo.again]
  jerk := by simp [Demo.again]
  wait := by simp [Demo.again, Line.wait]
  warm := by
    intro pre l post he hl
    have : l ∈ Demo.again := by rw [he]; simp
    simp only [Demo.again, List.mem_cons, List.not_mem_nil, or_false] at this
    rcases this with rfl | rfl <;> simp [Line.wait] at hl
  moves := by
    refine ⟨_, List.mem_cons_self, fun h => ?_⟩
    have := congrArg Vec4.y h
    norm_num [Printer.exec, Printer.point, Line.value, Demo.num, Demo.printerAt, letter, Printer.abs] at this

theorem Demo.there_doings : (Demo.printerAt 0 0 35 200 10).doings Demo.num Demo.there =
    [⟨⟨10, 0, 3, 4⟩, 1 / 6, 200, 10, none⟩, ⟨⟨10, 10, 3, 4⟩, 1 / 6, 200, 10, none⟩] := by
  simp [Printer.doings, Demo.there, Line.wait, Line.value, Demo.num, Printer.exec, Demo.printerAt, Printer.point,
    letter, Printer.abs]
  norm_num

theorem Demo.again_doings : (Demo.printerAt 10 10 35 200 10).doings Demo.num Demo.again =
    [⟨⟨10, 0, 3, 4⟩, 1 / 6, 200, 10, none⟩, ⟨⟨0, 0, 3, 4⟩, 1 / 6, 200, 10, none⟩] := by
  simp [Printer.doings, Demo.again, Line.wait, Line.value, Demo.num, Printer.exec, Demo.printerAt, Printer.point,
    letter, Printer.abs]
  norm_num

/-- `c133_back`: the corner there and back. -/
example : ∃ bs bs' t t', simulateFile Demo.num (Demo.setupAt 0 0 35 200 10 "marlin_jd") "G1 X10 F10\nG1 Y10\n".toList = .ok bs ∧
    EndTime (Spec.path bs) t ∧
    simulateFile Demo.num (Demo.setupAt 10 10 35 200 10 "marlin_jd") "G1 Y0 F10\nG1 X0\n".toList = .ok bs' ∧
    EndTime (Spec.path bs') t' ∧ |t' - t| ≤ 1e-9 := by
  have hf : ∀ x y v a j, firmwareOf (Demo.setupAt x y v a j "marlin_jd") = .marlinJd := fun _ _ _ _ _ => rfl
  obtain ⟨bs, t, _, _, h, ht, _⟩ := c69_simulated_as_written Demo.num_floatLike (Demo.at_accepted 0 0 35 200 10 "marlin_jd")
    (Demo.at_printer ..) Demo.there_lines Demo.there_workable Demo.there_file
  obtain ⟨bs', t', _, _, h', ht', _⟩ := c69_simulated_as_written Demo.num_floatLike (Demo.at_accepted 10 10 35 200 10 "marlin_jd")
    (Demo.at_printer ..) Demo.again_lines Demo.again_workable Demo.again_file
  have key := c133_back (J := 10) Demo.num_floatLike (Demo.at_accepted 0 0 35 200 10 "marlin_jd")
    (Demo.at_accepted 10 10 35 200 10 "marlin_jd") (Demo.at_printer ..) (Demo.at_printer ..) (by rw [hf, hf]) Demo.there_lines
    Demo.again_lines Demo.there_file Demo.again_file (by
      rw [Demo.there_doings, Demo.again_doings]
      refine ⟨?_, by simp, by simp, by simp, by simp⟩
      simp [Printer.point, Demo.printerAt]) (by norm_num) (by rw [Demo.there_doings]; simp) (by rw [Demo.there_doings]; simp)
    (Or.inl (hf ..)) h ht h' ht'
  refine ⟨bs, bs', t, t', h, ht, h', ht', key.trans ?_⟩
  rw [Demo.there_doings, Demo.again_doings]
  norm_num [doingsSlack]

end PyGCD
