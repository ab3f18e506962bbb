import Verif.Props.Session
import Verif.Props.Extent
import Verif.Props.Output

/-!
# Property C63: the saved summary
-/

set_option linter.unusedSectionVars false
set_option linter.unusedSimpArgs false

namespace PyGCD
open Vec4 Spec

variable {fw : Firmware} {states : List (PState ℝ)} {bs : List (Block ℝ)}

/-- **C63.** If the program pushes filament on some move, the saved summary has the end time of the simulation,
the bounding box of the moves that push filament, and their largest travel speed, all lengths in the unit
system of the simulation. -/
theorem c63_summary (hreg : Regular states) (h : plan fw states = .ok bs) {own : String} {f : ℝ}
    (hf : InUnit own f) (hext : ∃ A B, ExtrudingMove states A B) :
    ∃ sm, saveSummary bs own = .ok sm ∧ EndTime (Spec.path bs) sm.tEnd ∧
      (∀ b ∈ bs, ∀ A, ExtrudingMove states A b.stateB → b.stateA = some A →
        ∀ s ∈ b.segments, ∀ t p, s.getPosition t = .ok p →
        (sm.lo.x ≤ p.x * f ∧ p.x * f ≤ sm.hi.x) ∧ (sm.lo.y ≤ p.y * f ∧ p.y * f ≤ sm.hi.y) ∧
          (sm.lo.z ≤ p.z * f ∧ p.z * f ≤ sm.hi.z)) ∧
      (∀ c : Vec4 ℝ → ℝ, c = Vec4.x ∨ c = Vec4.y ∨ c = Vec4.z →
        (∃ A B, ExtrudingMove states A B ∧ (c sm.lo = c A.position * f ∨ c sm.lo = c B.position * f)) ∧
        ∃ A B, ExtrudingMove states A B ∧ (c sm.hi = c A.position * f ∨ c sm.hi = c B.position * f)) ∧
      (∀ b ∈ bs, ∀ A, ExtrudingMove states A b.stateB → b.stateA = some A →
        ∀ s ∈ b.segments, ∀ t v, s.getVelocity t = .ok v → f * v.norm3 ≤ sm.maxVel) ∧
      ∃ b ∈ bs, ∃ A, ExtrudingMove states A b.stateB ∧ b.stateA = some A ∧ ∃ s ∈ b.segments,
        sm.maxVel = f * s.velBegin.norm3 ∨ sm.maxVel = f * s.velEnd.norm3 := by
  obtain ⟨lo, hi, a1, a2, a3⟩ := (c36_extent hreg h (own := own) (u := none) hf).2 hext
  obtain ⟨m, b1, b2, b3⟩ := (c37_max_vel hreg h (own := own) (u := none) hf).2 hext
  have hne : bs ≠ [] := by
    rintro rfl
    obtain ⟨b, hb, _⟩ := b3
    cases hb
  obtain ⟨_, s', _, h2, h3, _⟩ := unpack_ends hreg h hne
  refine ⟨⟨s'.tEnd, lo, hi, m⟩, ?_, ⟨s', h2, rfl⟩, a2, a3, b2, b3⟩
  simp only [saveSummary, h3, a1, b1, bind, Except.bind]

/-- **C63.** A program that never pushes filament has no summary: saving it raises a `ValueError`, or an
`IndexError` if nothing happens at all. -/
theorem c63_no_summary (hreg : Regular states) (h : plan fw states = .ok bs) {own : String} {f : ℝ}
    (hf : InUnit own f) (hext : ∀ A B, ¬ ExtrudingMove states A B) :
    saveSummary bs own = .error (if active none states = [] then .indexError else .valueError) := by
  have hx := (c36_extent hreg h (own := own) (u := none) hf).1 hext
  have hact := c28_blocks hreg h
  by_cases hne : bs = []
  · subst hne
    rw [if_pos (by simpa using hact.symm)]
    simp [saveSummary, endTime, bind, Except.bind]
  · obtain ⟨_, s', _, h2, h3, _⟩ := unpack_ends hreg h hne
    rw [if_neg]
    · simp only [saveSummary, h3, hx, bind, Except.bind]
    · rw [← hact]
      simpa using hne

/-- The demo program pushes filament, so its summary can be saved. -/
example (fw : Firmware) : ∃ bs sm, plan fw Demo.prog = .ok bs ∧ saveSummary bs "SI" = .ok sm := by
  obtain ⟨bs, h, b, hb, hext⟩ := Demo.extrudes fw
  obtain ⟨A, hA, _⟩ := ((extruding_blocks Demo.regular h).1 b hb).1 hext
  obtain ⟨sm, h1, _⟩ := c63_summary Demo.regular h (own := "SI") (f := 1 / 1000) (by simp [InUnit])
    ⟨A, b.stateB, ((extruding_blocks Demo.regular h).2 _ _).2 ⟨b, hb, hext, hA, rfl⟩⟩
  exact ⟨bs, sm, h, h1⟩

/-- A program with two states at the same place has no summary. -/
example (fw : Firmware) : ∃ bs, plan fw [Demo.s0, Demo.s0] = .ok bs ∧
    saveSummary bs "SImm" = .error .indexError := by
  have hreg : Regular [Demo.s0, Demo.s0] := by
    refine regular_of_no_pause fun s hs => ?_
    simp only [List.mem_cons, List.not_mem_nil, or_false, or_self] at hs
    subst hs
    norm_num [Demo.s0]
  obtain ⟨_, bs, _, _, h, _⟩ := c26_correction_total fw hreg
  have hact : active none [Demo.s0, Demo.s0] = [] := by
    rw [active_cons_skip _ (by simp) rfl, active_cons_skip _ (by simp) rfl]
    rfl
  have := c63_no_summary hreg h (own := "SImm") (f := 1) (by simp [InUnit]) (by
    rintro A B ⟨hm, hE⟩
    simp only [withPrev, List.map_cons, List.map_nil, List.zip_cons_cons, List.zip_nil_right, List.mem_cons, Prod.mk.injEq, reduceCtorEq, false_and, Option.some.injEq,
      List.not_mem_nil, or_false, false_or] at hm
    rw [hm.1, hm.2] at hE
    exact lt_irrefl _ hE)
  rw [if_pos hact] at this
  exact ⟨bs, h, this⟩

end PyGCD
