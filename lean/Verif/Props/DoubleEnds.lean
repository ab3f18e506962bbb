import Verif.Proofs.DoubleFits
import Verif.Props.Doubles

/-!
# Where the blocks of a program are in double precision, with every junction handling (C109)
-/

set_option linter.unusedSectionVars false
set_option linter.unusedSimpArgs false

namespace PyGCD
open PyGCD.Spec Vec4

/-- **C109** Whenever planning an executable program of usual size succeeds with doubles, whatever the firmware, its
blocks are the moves and pauses of the program, block number `n` begins within `n * 1e-8` mm of the position of its first
state and ends within `(n + 1) * 1e-8` mm of the position of its last state, and its segments join number for number. -/
theorem c109_ends {fw : Firmware} {states : List (PState Dbl)} (hreg : Regular (states.map PState.real))
    (hus : Usual (states.map PState.real)) {bs : List (Block Dbl)} (h : plan fw states = .ok bs) :
    bs.map (fun b => (b.stateA.map PState.real, b.stateB.real)) = active none (states.map PState.real) ∧
    ∀ (n : ℕ) (b : Block Dbl), bs[n]? = some b → ∃ A f l, b.stateA = some A ∧ b.segments.head? = some f ∧
      b.segments.getLast? = some l ∧ Near4 (n * 1e-8) f.posBegin A.position.real ∧
      Near4 ((n + 1) * 1e-8) l.posEnd b.stateB.position.real ∧ Leads f.posBegin b.segments l.posEnd := by
  obtain ⟨h1, h2, _⟩ := plan_fits hreg hus h
  refine ⟨h1, ?_⟩
  intro n b hb
  obtain ⟨A, hA, f, l, g1, g2, g3, g4, g5⟩ := h2 n b hb
  push_cast at g4
  exact ⟨A, f, l, hA.1, g1, g2, g3, g4, g5⟩

/-- **C109** From one block to the next the nozzle and the filament jump by at most `2 * (n + 1) * 1e-8` mm. -/
theorem c109_joints {fw : Firmware} {states : List (PState Dbl)} (hreg : Regular (states.map PState.real))
    (hus : Usual (states.map PState.real)) {bs : List (Block Dbl)} (h : plan fw states = .ok bs) (n : ℕ)
    (b c : Block Dbl) (hb : bs[n]? = some b) (hc : bs[n + 1]? = some c) :
    ∃ l f, b.segments.getLast? = some l ∧ c.segments.head? = some f ∧
      Near4 (2 * (n + 1) * 1e-8) f.posBegin l.posEnd.real := by
  obtain ⟨_, h2, h3⟩ := plan_fits hreg hus h
  obtain ⟨_, _, _, l, _, b2, _, b4, _⟩ := h2 n b hb
  obtain ⟨A, hA, f, _, c1, _, c3, _, _⟩ := h2 (n + 1) c hc
  rw [h3 n b c hb hc A hA.1] at c3
  refine ⟨l, f, b2, c1, ?_⟩
  have key : ∀ p q a : ℝ, |p - a| ≤ ((n + 1 : ℕ) : ℝ) * 1e-8 → |q - a| ≤ ((n + 1 : ℕ) : ℝ) * 1e-8 →
      |p - q| ≤ 2 * (n + 1) * 1e-8 := by
    intro p q a hp hq
    rw [abs_sub_comm] at hq
    have := abs_add_le (p - a) (a - q)
    rw [sub_add_sub_cancel] at this
    push_cast at hp hq
    linarith
  exact ⟨key _ _ _ c3.1 b4.1, key _ _ _ c3.2.1 b4.2.1, key _ _ _ c3.2.2.1 b4.2.2.1, key _ _ _ c3.2.2.2 b4.2.2.2⟩

/-- **C109, C84** The plan without rounding has the same blocks, and block number `n` ends within `(n + 1) * 1e-8` mm of
where it ends without rounding. -/
theorem c109_compared {fw : Firmware} {states : List (PState Dbl)} (hreg : Regular (states.map PState.real))
    (hus : Usual (states.map PState.real)) {bs : List (Block Dbl)} (h : plan fw states = .ok bs) :
    ∃ bs', plan fw (states.map PState.real) = .ok bs' ∧ bs.length = bs'.length ∧
      ∀ (n : ℕ) (b : Block Dbl) (b' : Block ℝ), bs[n]? = some b → bs'[n]? = some b' →
        b.stateA.map PState.real = b'.stateA ∧ b.stateB.real = b'.stateB ∧
        ∃ s s', b.segments.getLast? = some s ∧ b'.segments.getLast? = some s' ∧
          Near4 ((n + 1) * 1e-8) s.posEnd s'.posEnd := by
  obtain ⟨bs', h'⟩ := c83_exact fw hreg
  obtain ⟨hg, _, _, ha, _⟩ := plan_ok hreg h'
  obtain ⟨h1, h2⟩ := c109_ends hreg hus h
  have ha' : bs'.map (fun b => (b.stateA, b.stateB)) = active none (states.map PState.real) := ha
  rw [← h1] at ha'
  refine ⟨bs', h', by simpa using (congrArg List.length ha').symm, ?_⟩
  intro n b b' hb hb'
  have hn := congrArg (fun l => l[n]?) ha'
  simp only [List.getElem?_map, hb, hb', Option.map_some, Option.some.injEq, Prod.mk.injEq] at hn
  obtain ⟨A, f, l, _, _, g2, _, g4, _⟩ := h2 n b hb
  obtain ⟨_, _, s', _, _, e3, _, _, _, _, e7, _⟩ := (hg b' (List.mem_of_getElem? hb')).facts
  refine ⟨hn.1.symm, hn.2.symm, l, s', g2, e3, ?_⟩
  rw [e7, hn.2]
  exact g4

/-- **C109** The restriction to usual programs matters: after a move of 5.6e-17 mm that is to retract 1 mm, the filament
is a quarter of a millimetre off. -/
theorem c109_size_matters : ∃ (states : List (PState Dbl)) (bs : List (Block Dbl)) (b : Block Dbl) (l : Segment Dbl),
    Regular (states.map PState.real) ∧ plan .marlinJerk states = .ok bs ∧ bs.getLast? = some b ∧
    b.segments.getLast? = some l ∧ b.stateB.position.e = -1 ∧ l.posEnd.e.r < -1.25 := by
  have he := Demo.residue_ends
  unfold Demo.lastE at he
  split at he
  · rename_i bs hbs
    obtain ⟨s, hs, hse⟩ := Option.map_eq_some_iff.1 he
    obtain ⟨b, hb, hs⟩ := Option.bind_eq_some_iff.1 hs
    have hB : (match plan .marlinJerk Demo.residue with
        | .ok bs => bs.getLast?.map (fun b => b.stateB.position.e)
        | .error _ => none) = some (-1) := by decide +kernel
    rw [hbs] at hB
    simp only [hb, Option.map_some, Option.some.injEq] at hB
    refine ⟨Demo.residue, bs, b, s, Demo.residue_regular, hbs, hb, hs, hB, ?_⟩
    rw [Dbl.r_of hse, Rat.mkRat_eq_div]
    push_cast
    norm_num
  · cases he

theorem Demo.straight_usual : Usual Demo.straightReal := by
  have h5 : 1 ≤ √5 := Real.le_sqrt_of_sq_le (by norm_num)
  refine ⟨?_, ?_, Demo.straight_moderate.length, ?_, by simp [Demo.straightReal]⟩
  · exact Demo.straight_moderate.coord
  · intro s hs
    simp only [Demo.straightReal, List.mem_cons, List.not_mem_nil, or_false] at hs
    rcases hs with rfl | rfl | rfl <;> norm_num
  · intro pre A B post h hne
    have hl := Demo.straight_moderate.length pre A B post h hne
    have he : ∀ s ∈ Demo.straightReal, s.position.e = 0 := by
      intro s hs
      simp only [Demo.straightReal, List.mem_cons, List.not_mem_nil, or_false] at hs
      rcases hs with rfl | rfl | rfl <;> rfl
    rw [he A (by rw [h]; simp), he B (by rw [h]; simp), _root_.sub_self, abs_zero]
    linarith

/-- The two moves of C83 can be planned with klipper, and pass the corner without stopping. -/
theorem Demo.straight_klipper : (match plan .klipper Demo.straight with
    | .ok bs => decide (bs.length = 2 ∧ ∀ s ∈ bs.head?.bind (fun b => b.segments.getLast?), 40 < s.velEnd.norm3)
    | .error _ => false) = true := by
  decide +kernel

/-- The hypotheses of C109 hold for them. -/
example : ∃ bs b l, plan .klipper Demo.straight = .ok bs ∧ bs[1]? = some b ∧ b.segments.getLast? = some l ∧
    Near4 (2 * 1e-8) l.posEnd b.stateB.position.real := by
  have hk := Demo.straight_klipper
  split at hk
  · rename_i bs hbs
    rw [decide_eq_true_eq] at hk
    obtain ⟨_, h2⟩ := c109_ends (by rw [Demo.straight_real]; exact Demo.straight_regular)
      (by rw [Demo.straight_real]; exact Demo.straight_usual) hbs
    have hb : bs[1]? = some (bs[1]'(by omega)) := List.getElem?_eq_getElem _
    obtain ⟨_, _, l, _, _, g, _, g', _⟩ := h2 1 _ hb
    refine ⟨bs, _, l, hbs, hb, g, ?_⟩
    norm_num at g' ⊢
    exact g'
  · cases hk

end PyGCD
