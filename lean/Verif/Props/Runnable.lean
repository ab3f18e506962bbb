import Verif.Spec.Runnable
import Verif.Props.Files
import Verif.Props.Executed

/-!
# Property C88: exactly which plain files can be simulated
-/

set_option linter.unusedSectionVars false
set_option linter.unusedSimpArgs false

namespace PyGCD
open Vec4 Spec

variable {fw : Firmware} {states : List (PState ℝ)} {bs : List (Block ℝ)}

/-! ## Programs -/

theorem started_cons {s s' : PState ℝ} {l : List (PState ℝ)} :
    Started (s :: s' :: l) ↔ Executes s s' ∨ Started (s' :: l) := by
  constructor
  · rintro ⟨a, A, B, r, h, hr⟩
    cases a with
    | nil =>
      rw [List.nil_append, List.cons.injEq, List.cons.injEq] at h
      left
      rw [h.1, h.2.1]
      exact hr
    | cons x a =>
      rw [List.cons_append, List.cons.injEq] at h
      exact Or.inr ⟨a, A, B, r, h.2, hr⟩
  · rintro (h | ⟨a, A, B, r, h, hr⟩)
    · exact ⟨[], s, s', l, rfl, h⟩
    · exact ⟨s :: a, A, B, r, by rw [h]; rfl, hr⟩

theorem not_started_one {s : PState ℝ} : ¬ Started [s] := by
  rintro ⟨a, A, B, r, h, _⟩
  have := congrArg List.length h
  simp at this
  omega

/-- Nothing is carried out exactly if there is no move that is. -/
theorem executed_nil_iff : ∀ (rest done : List (PState ℝ)) (A : PState ℝ), PausesFollow (done ++ rest) →
    done.getLast? = some A → ¬ Started done → (executed none (some A) rest = [] ↔ ¬ Started (A :: rest)) := by
  intro rest
  induction rest with
  | nil =>
    intro done A _ _ _
    rw [executed]
    exact ⟨fun _ => not_started_one, fun _ => rfl⟩
  | cons s rest ih =>
    intro done A hpf hA hns
    have hp : s.pause = none := by
      cases hp : s.pause with
      | none => rfl
      | some p => exact absurd (hpf done s rest rfl p hp).2 hns
    rw [started_cons]
    by_cases hr : Executes A s
    · rw [executed_run hr rfl rfl]
      simp [hr]
    · rw [executed_skip hp (by simpa using hr)]
      simp only [hr, false_or]
      refine ih (done ++ [s]) s (by simpa using hpf) (by simp) ?_
      intro h
      rcases started_concat.1 h with h | ⟨A', hA', h⟩
      · exact hns h
      · rw [hA] at hA'
        cases hA'
        exact hr h

theorem plan_empty_iff (hsens : Sensible states) (h : plan fw states = .ok bs) : bs = [] ↔ ¬ Started states := by
  have hpf := (c86_plannable fw hsens).1 ⟨bs, h⟩
  have hc := c87_carried_out hsens h
  have : bs = [] ↔ executed none none states = [] := by
    constructor
    · intro he
      rw [he] at hc
      exact List.forall₂_nil_left_iff.1 hc
    · intro he
      rw [he] at hc
      exact List.forall₂_nil_right_iff.1 hc
  rw [this]
  cases states with
  | nil => exact ⟨fun _ => not_started_nil, fun _ => by rw [executed]⟩
  | cons s rest =>
    rw [executed_none]
    exact executed_nil_iff rest [s] s hpf rfl not_started_one

/-- **C88.** A program with sensible settings gives a simulation, whatever the firmware, if and only if some move is
carried out, and every pause is not negative and comes after such a move. -/
theorem c88_program (fw : Firmware) (hsens : Sensible states) :
    (∃ bs, simulate fw states = .ok bs) ↔ Started states ∧ PausesFollow states := by
  unfold simulate
  constructor
  · rintro ⟨bs, h⟩
    cases hp : plan fw states with
    | error e =>
      rw [hp] at h
      cases h
    | ok bs' =>
      refine ⟨?_, (c86_plannable fw hsens).1 ⟨_, hp⟩⟩
      by_contra hns
      rw [hp, (plan_empty_iff hsens hp).2 hns] at h
      cases h
  · rintro ⟨hst, hpf⟩
    obtain ⟨bs, hp⟩ := (c86_plannable fw hsens).2 hpf
    obtain ⟨bs', h1, h2, h3⟩ := plan_anchored hsens hp
    clear h3
    have hne : bs ≠ [] := fun h => (plan_empty_iff hsens hp).1 h hst
    obtain ⟨b, hb⟩ : ∃ b, bs.getLast? = some b := by
      cases hl : bs.getLast? with
      | none => exact absurd (List.getLast?_eq_none_iff.1 hl) hne
      | some b => exact ⟨b, rfl⟩
    have hsegs : b.segments ≠ [] := by
      have hg := h2.good
      have hmem := List.mem_of_getLast? hb
      clear hb h2 hp hne
      induction h1 with
      | nil => cases hmem
      | cons ha _ ih =>
        rcases List.mem_cons.1 hmem with rfl | hm
        · rw [ha.segs]
          exact (hg _ (by simp)).ne_nil
        · exact ih (fun c hc => hg c (by simp [hc])) hm
    obtain ⟨s, hs⟩ : ∃ s, b.segments.getLast? = some s := by
      cases hl : b.segments.getLast? with
      | none => exact absurd (List.getLast?_eq_none_iff.1 hl) hsegs
      | some s => exact ⟨s, rfl⟩
    refine ⟨bs, ?_⟩
    simp only [hp, endTime, hb, lastSeg_ok hs, bind, Except.bind, Except.map]

/-- **C88.** Why a program gives no simulation: the first pause that is negative or comes too early raises
`ValueError` or `AttributeError`; if there is none, nothing moves and the summary of the simulation raises
`IndexError`. -/
theorem c88_program_errors (fw : Firmware) (hsens : Sensible states) :
    (∀ pre s post p, states = pre ++ s :: post → PausesFollow pre → s.pause = some p →
      (¬ Started pre → simulate fw states = .error .attributeError) ∧
      (Started pre → p < 0 → simulate fw states = .error .valueError)) ∧
    (PausesFollow states → ¬ Started states → simulate fw states = .error .indexError) := by
  constructor
  · intro pre s post p he hpf hp
    subst he
    obtain ⟨h1, h2⟩ := c86_errors fw hsens hpf hp
    unfold simulate
    constructor
    · intro h
      rw [h1 h]
      rfl
    · intro h hp0
      rw [h2 h hp0]
      rfl
  · intro hpf hns
    obtain ⟨bs, hp⟩ := (c86_plannable fw hsens).2 hpf
    unfold simulate
    rw [hp, (plan_empty_iff hsens hp).2 hns]
    rfl

/-! ## Plain files -/

variable {pf : List Char → Option ℝ}

theorem drives_cons {q : Printer} {l : Line} {ls : List Line} :
    Drives pf q (l :: ls) ↔ ((q.exec pf l).point ≠ q.point ∧ 0 < (q.exec pf l).feed) ∨ Drives pf (q.exec pf l) ls := by
  constructor
  · rintro ⟨pre, x, post, h, hd⟩
    cases pre with
    | nil =>
      rw [List.nil_append, List.cons.injEq] at h
      rw [h.1]
      exact Or.inl hd
    | cons y pre =>
      rw [List.cons_append, List.cons.injEq] at h
      rw [h.1]
      exact Or.inr ⟨pre, x, post, h.2, hd⟩
  · rintro (h | ⟨pre, x, post, h, hd⟩)
    · exact ⟨[], l, ls, rfl, h⟩
    · exact ⟨l :: pre, x, post, by rw [h]; rfl, hd⟩

theorem not_drives_nil {q : Printer} : ¬ Drives pf q [] := by
  rintro ⟨pre, l, post, h, _⟩
  simp at h

/-- The states of a plain file contain a move that is carried out exactly if the printer travels. -/
theorem started_drives {ls : List Line} : ∀ {q : Printer} {w : Option ℝ} {s : PState ℝ} {ss : List (PState ℝ)},
    Shows s (q, w) → List.Forall₂ Shows ss (q.run pf ls) → (Started (s :: ss) ↔ Drives pf q ls) := by
  induction ls with
  | nil =>
    intro q w s ss _ h
    cases h
    exact iff_of_false not_started_one not_drives_nil
  | cons l ls ih =>
    intro q w s ss hs h
    rw [Printer.run] at h
    cases h with
    | @cons s' _ ss' _ h1 h2 =>
      rw [started_cons, drives_cons, ih h1 h2]
      refine or_congr ?_ Iff.rfl
      unfold Executes
      rw [h1.pause, h1.position, h1.speed, hs.position]
      constructor
      · exact fun h => h.2
      · intro h
        refine ⟨?_, h⟩
        by_contra hw
        rw [exec_wait hw] at h
        exact h.1 rfl

/-- A place in the states of a plain file is a place in the file. -/
theorem shows_place {q : Printer} {ls : List Line} {ps : List (PState ℝ)}
    (h : List.Forall₂ Shows ps ((q, none) :: q.run pf ls)) {pre post : List (PState ℝ)} {s : PState ℝ}
    (he : ps = pre ++ s :: post) (hp : s.pause ≠ none) :
    ∃ lp l lq, ls = lp ++ l :: lq ∧ s.pause = l.wait pf ∧ List.Forall₂ Shows pre ((q, none) :: q.run pf lp) := by
  obtain ⟨pre', b, post', g1, g2, g3⟩ := shows_split h he
  cases pre' with
  | nil =>
    rw [List.nil_append, List.cons.injEq] at g1
    rw [g2.pause, ← g1.1] at hp
    exact absurd rfl hp
  | cons z pre' =>
    rw [List.cons_append, List.cons.injEq] at g1
    obtain ⟨lp, l, lq, r, e1, e2, e3, e4⟩ := run_split g1.2
    refine ⟨lp, l, lq, e1, by rw [g2.pause, e4], ?_⟩
    rw [g1.1, ← e2]
    exact g3

/-- A place in the file is a place in its states. -/
theorem place_shows {q : Printer} {lp lq : List Line} {l : Line} {ps : List (PState ℝ)}
    (h : List.Forall₂ Shows ps ((q, none) :: q.run pf (lp ++ l :: lq))) :
    ∃ pre s post, ps = pre ++ s :: post ∧ s.pause = l.wait pf ∧ List.Forall₂ Shows pre ((q, none) :: q.run pf lp) := by
  have hrun : ∀ (lp : List Line) (q : Printer), ∃ x t, q.run pf (lp ++ l :: lq) = q.run pf lp ++ x :: t ∧
      x.2 = l.wait pf := by
    intro lp
    induction lp with
    | nil =>
      intro q
      exact ⟨(q.exec pf l, l.wait pf), _, rfl, rfl⟩
    | cons y lp ih =>
      intro q
      obtain ⟨x, t, h1, h2⟩ := ih (q.exec pf y)
      exact ⟨x, t, by rw [List.cons_append, Printer.run, h1, Printer.run]; rfl, h2⟩
  obtain ⟨x, t, h1, h2⟩ := hrun lp q
  rw [h1] at h
  obtain ⟨pre, s, post, g1, g2, g3⟩ := shows_split (R := fun a b => Shows b a) h.flip
    (show (q, none) :: (q.run pf lp ++ x :: t) = ((q, none) :: q.run pf lp) ++ x :: t from rfl)
  exact ⟨pre, s, post, g1, by rw [g2.pause, h2], g3.flip⟩

theorem started_file {q : Printer} {ls : List Line} {ps : List (PState ℝ)}
    (h : List.Forall₂ Shows ps ((q, none) :: q.run pf ls)) : Started ps ↔ Drives pf q ls := by
  cases h with
  | cons h1 h2 => exact started_drives h1 h2

theorem follow_file {q : Printer} {ls : List Line} {ps : List (PState ℝ)}
    (h : List.Forall₂ Shows ps ((q, none) :: q.run pf ls)) : PausesFollow ps ↔ WaitsFollow pf q ls := by
  constructor
  · intro hf lp l lq he v hv
    subst he
    obtain ⟨pre, s, post, g1, g2, g3⟩ := place_shows h
    obtain ⟨k1, k2⟩ := hf pre s post g1 v (by rw [g2]; exact hv)
    exact ⟨k1, (started_file g3).1 k2⟩
  · intro hw pre s post he p hp
    obtain ⟨lp, l, lq, g1, g2, g3⟩ := shows_place h he (by rw [hp]; simp)
    obtain ⟨k1, k2⟩ := hw lp l lq g1 p (by rw [← g2]; exact hp)
    exact ⟨k1, (started_file g3).2 k2⟩

theorem decent_sensible {q : Printer} {ls : List Line} (hw : Decent pf q ls) {ps : List (PState ℝ)}
    (h : List.Forall₂ Shows ps ((q, none) :: q.run pf ls)) : Sensible ps := by
  have hset : ∀ (ls : List Line) (q : Printer), Decent pf q ls →
      ∀ x ∈ (q, none) :: q.run pf ls, 0 ≤ x.1.feed ∧ 0 < x.1.acc ∧ 0 ≤ x.1.jerk := by
    intro ls
    induction ls with
    | nil =>
      intro q hd x hx
      rw [Printer.run, List.mem_singleton] at hx
      rw [hx]
      exact hd.settings
    | cons l ls ih =>
      intro q hd x hx
      rcases List.mem_cons.1 hx with rfl | hx
      · exact hd.settings
      rw [Printer.run] at hx
      have hq : 0 ≤ (q.exec pf l).feed ∧ 0 < (q.exec pf l).acc ∧ 0 ≤ (q.exec pf l).jerk := by
        have g1 := hd.feed l (by simp)
        have g2 := hd.acc l (by simp)
        have g3 := hd.jerk l (by simp)
        have h0 := hd.settings
        unfold Printer.exec
        split
        · refine ⟨?_, h0.2⟩
          rename_i hc
          cases hv : l.value pf 'F' with
          | none => exact h0.1
          | some v => exact div_nonneg (g1 (Or.inl hc) v hv) (by norm_num)
        · refine ⟨?_, h0.2⟩
          rename_i hc
          cases hv : l.value pf 'F' with
          | none => exact h0.1
          | some v => exact div_nonneg (g1 (Or.inr hc) v hv) (by norm_num)
        · exact h0
        · exact h0
        · exact h0
        · exact h0
        · exact h0
        · rename_i hc
          refine ⟨h0.1, ?_, h0.2.2⟩
          cases hv : l.value pf 'P' with
          | none => simpa [hv] using h0.2.1
          | some v => simpa [hv] using g2 hc v hv
        · rename_i hc
          refine ⟨h0.1, h0.2.1, ?_⟩
          cases hv : l.value pf 'X' with
          | none => simpa [hv] using h0.2.2
          | some v => simpa [hv] using g3 hc v hv
        · exact h0
      have := ih (q.exec pf l) ⟨hq, fun l hl => hd.feed l (List.mem_cons_of_mem _ hl),
        fun l hl => hd.acc l (List.mem_cons_of_mem _ hl), fun l hl => hd.jerk l (List.mem_cons_of_mem _ hl)⟩
      rcases List.mem_cons.1 hx with rfl | hx
      · exact hq
      · exact this x (List.mem_cons_of_mem _ hx)
  have hall : ∀ s ∈ ps, ∃ x ∈ (q, none) :: q.run pf ls, Shows s x := fun s hs => shows_mem h.flip hs
  have hset := hset ls q hw
  refine ⟨?_, ?_, ?_⟩
  · intro s hs
    obtain ⟨x, hx, hsx⟩ := hall s hs
    rw [hsx.speed]
    exact (hset x hx).1
  · intro s hs
    obtain ⟨x, hx, hsx⟩ := hall s hs
    rw [hsx.acc]
    exact (hset x hx).2.1
  · intro s hs
    obtain ⟨x, hx, hsx⟩ := hall s hs
    rw [hsx.jerk]
    exact (hset x hx).2.2

/-- **C88.** A plain file with sensible settings gives a simulation if and only if some line makes the printer travel,
and every wait is not negative and comes after such a line. -/
theorem c88_simulated (hpf : FloatLike pf) {d : Dict (SVal ℝ)} (hd : SetupAccepted d) {q : Printer}
    (hq : PrinterOf d q) {ls : List Line} (hp : ∀ l ∈ ls, l.Plain pf) (hw : Decent pf q ls)
    {content : List Char} (hc : FileOf ls content) :
    (∃ bs, simulateFile pf d content = .ok bs) ↔ Drives pf q ls ∧ WaitsFollow pf q ls := by
  obtain ⟨ps, h1, h2⟩ := c67_read_as_written hpf hq hp hc
  rw [← started_file h2, ← follow_file h2, ← c88_program (firmwareOf d) (decent_sensible hw h2)]
  simp only [simulateFile, (c46_validation d).1.2 hd, h1, bind, Except.bind]

/-- **C88.** Why a plain file gives no simulation: its first wait that comes before the printer travels raises
`AttributeError`, the first negative one after that `ValueError`; a file in which nothing moves raises
`IndexError`. -/
theorem c88_errors (hpf : FloatLike pf) {d : Dict (SVal ℝ)} (hd : SetupAccepted d) {q : Printer}
    (hq : PrinterOf d q) {ls : List Line} (hp : ∀ l ∈ ls, l.Plain pf) (hw : Decent pf q ls)
    {content : List Char} (hc : FileOf ls content) :
    (∀ pre l post v, ls = pre ++ l :: post → WaitsFollow pf q pre → l.wait pf = some v →
      (¬ Drives pf q pre → simulateFile pf d content = .error .attributeError) ∧
      (Drives pf q pre → v < 0 → simulateFile pf d content = .error .valueError)) ∧
    (WaitsFollow pf q ls → ¬ Drives pf q ls → simulateFile pf d content = .error .indexError) := by
  obtain ⟨ps, h1, h2⟩ := c67_read_as_written hpf hq hp hc
  have hsim : simulateFile pf d content = simulate (firmwareOf d) ps := by
    simp only [simulateFile, (c46_validation d).1.2 hd, h1, bind, Except.bind]
  obtain ⟨e1, e2⟩ := c88_program_errors (firmwareOf d) (decent_sensible hw h2)
  rw [hsim]
  constructor
  · intro pre l post v he hf hv
    subst he
    obtain ⟨p, s, r, g1, g2, g3⟩ := place_shows h2
    rw [← started_file g3]
    exact e1 p s r v g1 ((follow_file g3).2 hf) (by rw [g2, hv])
  · intro hf hn
    exact e2 ((follow_file h2).2 hf) (fun h => hn ((started_file h2).1 h))

/-! ### Files -/

/-- The file of `Demo.plain` gives a simulation. -/
example : Drives Demo.num Demo.printer Demo.plain :=
  ⟨[], _, _, rfl, Demo.first_move, by simp [Printer.exec, Printer.after, Line.value, Demo.num]⟩

/-- A file that waits before it moves. -/
def Demo.early : List Line :=
  [⟨some .G4, [⟨1, 'P', ['1', '0']⟩], 0, none, []⟩, ⟨some .G1, [⟨1, 'X', ['1', '0']⟩], 0, none, []⟩]

/-- It can be written down, is plain and sensible, and raises an `AttributeError`. -/
theorem Demo.early_raises :
    simulateFile Demo.num Demo.plainSetup "G4 P10\nG1 X10\n".toList = .error .attributeError := by
  have hacc : SetupAccepted Demo.plainSetup := by
    refine ⟨by decide, ?_⟩
    intro k hk
    have : k ∈ Demo.plainSetup.map Prod.fst := by
      rw [← mem_keys_iff] at hk
      exact hk
    revert this
    simp only [Demo.plainSetup, List.map_cons, List.map_nil, List.mem_cons, List.not_mem_nil, or_false]
    grind
  have hp : ∀ l ∈ Demo.early, l.Plain Demo.num := by
    intro l hl
    simp only [Demo.early, List.mem_cons, List.not_mem_nil, or_false] at hl
    rcases hl with rfl | rfl <;>
      exact ⟨by simp, by simp, by simp, by simp [plainLetters], by simp, by simp [Demo.num, numChars], by simp,
        by simp⟩
  have hfile : FileOf Demo.early "G4 P10\nG1 X10\n".toList := by
    refine ⟨"G4 P10\nG1 X10\n".toList, ["G4 P10\n".toList, "G1 X10\n".toList], ?_, ?_, ?_⟩
    · repeat' first | exact .nil | refine .other (by decide) ?_
    · exact .line (l := "G4 P10".toList) (by decide) (.line (l := "G1 X10".toList) (by decide) .none)
    · exact .cons (Or.inr rfl) (.cons (Or.inr rfl) .nil)
  have hdec : Decent Demo.num Demo.printer Demo.early :=
    ⟨by simp [Demo.printer], by simp [Demo.early, Line.value], by simp [Demo.early], by simp [Demo.early]⟩
  refine ((c88_errors Demo.num_floatLike hacc Demo.printer_of hp hdec hfile).1 [] _ _ 0.01 rfl ?_ ?_).1
    not_drives_nil
  · intro pre l post he
    simp at he
  · simp [Line.wait, Line.value, Demo.num]
    norm_num

end PyGCD
