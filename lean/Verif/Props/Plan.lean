import Verif.Proofs.PlanLemmas
import Verif.Spec.Timeline

/-!
# Properties C18 and C20 to C29: the planned motion of a whole program

All theorems quantify over every firmware and every list of states that is `Spec.Regular`: positive feedrates
and accelerations, non-negative jerk, pauses that stand still after some motion. `demo_regular` shows a
program with two moves, a pause and an extrusion-only move that satisfies this.
-/

set_option linter.unusedSectionVars false
set_option linter.unusedSimpArgs false

namespace PyGCD
open Vec4 Spec

theorem path_eq (bs : List (Block ℝ)) : Spec.path bs = unpack bs := rfl

/-! ## A regular program -/

namespace Demo

/-- The state at rest before the first move. -/
noncomputable def s0 : PState ℝ := ⟨⟨0, 0, 0, 0⟩, 10, 100, 5, none, none⟩
/-- A move with extrusion. -/
noncomputable def s1 : PState ℝ := ⟨⟨10, 0, 0, 1⟩, 10, 100, 5, none, none⟩
/-- A pause. -/
noncomputable def s2 : PState ℝ := ⟨⟨10, 0, 0, 1⟩, 10, 100, 5, some 2, none⟩
/-- A move around a corner. -/
noncomputable def s3 : PState ℝ := ⟨⟨10, 10, 0, 1⟩, 10, 100, 5, none, none⟩
/-- A retraction. -/
noncomputable def s4 : PState ℝ := ⟨⟨10, 10, 0, 0⟩, 10, 100, 5, none, none⟩
/-- The program. -/
noncomputable def prog : List (PState ℝ) := [s0, s1, s2, s3, s4]

theorem regular : Regular prog := by
  have hall : ∀ s ∈ prog, s.speed = 10 ∧ s.pAcc = 100 ∧ s.jerk = 5 ∧ (s.pause = none ∨ s.pause = some 2) := by
    intro s hs
    simp only [prog, List.mem_cons, List.not_mem_nil, or_false] at hs
    rcases hs with rfl | rfl | rfl | rfl | rfl <;> simp [s0, s1, s2, s3, s4]
  have hsplit : ∀ pre s post, prog = pre ++ s :: post → s.pause ≠ none → pre = [s0, s1] ∧ s = s2 := by
    intro pre s post h hp
    unfold prog at h
    rcases pre with _ | ⟨a, _ | ⟨b, _ | ⟨c, _ | ⟨d, _ | ⟨e, pre⟩⟩⟩⟩⟩ <;>
      simp only [List.nil_append, List.cons_append, List.cons.injEq, List.nil_eq, List.append_eq_nil_iff,
        reduceCtorEq, and_false] at h
    · exact absurd (by rw [← h.1]; rfl) hp
    · exact absurd (by rw [← h.2.1]; rfl) hp
    · exact ⟨by rw [h.1, h.2.1], h.2.2.1.symm⟩
    · exact absurd (by rw [← h.2.2.2.1]; rfl) hp
    · exact absurd (by rw [← h.2.2.2.2.1]; rfl) hp
  refine ⟨?_, ?_, ?_, ?_, ?_, ?_⟩
  · intro s hs
    rw [(hall s hs).1]
    norm_num
  · intro s hs
    rw [(hall s hs).2.1]
    norm_num
  · intro s hs
    rw [(hall s hs).2.2.1]
    norm_num
  · intro s hs p hp
    rcases (hall s hs).2.2.2 with h | h
    · rw [h] at hp
      cases hp
    · rw [h] at hp
      cases hp
      norm_num
  · intro pre s post h hp
    obtain ⟨rfl, rfl⟩ := hsplit pre s post h hp
    exact ⟨s1, rfl, rfl⟩
  · intro pre s post h hp
    obtain ⟨rfl, rfl⟩ := hsplit pre s post h hp
    refine ⟨s0, by simp, s1, by simp, ?_⟩
    intro h
    have := congrArg Vec4.x h
    simp [s0, s1] at this

/-- Four of the five states of the program give blocks. -/
theorem active_prog : active none prog =
    [(some s0, s1), (some s1, s2), (some s2, s3), (some s3, s4)] := by
  unfold prog
  have n01 : s1.position ≠ s0.position := fun h => by simpa [s0, s1] using congrArg Vec4.x h
  have n23 : s3.position ≠ s2.position := fun h => by simpa [s2, s3] using congrArg Vec4.y h
  have n34 : s4.position ≠ s3.position := fun h => by simpa [s3, s4] using congrArg Vec4.e h
  rw [active_cons_skip _ (by simp) rfl, active_cons_take _ (Or.inr ⟨_, rfl, n01⟩),
    active_cons_take _ (Or.inl (by simp [s2])), active_cons_take _ (Or.inr ⟨_, rfl, n23⟩),
    active_cons_take _ (Or.inr ⟨_, rfl, n34⟩)]
  rfl

end Demo

variable {fw : Firmware} {states : List (PState ℝ)} {bs : List (Block ℝ)}

/-! ## C26, C28 -/

/-- **C26.** Planning and correction complete for every regular program, and the correction changes only
the segments: states, directions, extrusion flags and junction velocities stay as generated. -/
theorem c26_correction_total (fw : Firmware) {states : List (PState ℝ)} (hreg : Regular states) :
    ∃ bs₀ bs, genBlocks fw none none states = .ok bs₀ ∧ correctAll bs₀ = .ok bs ∧
      plan fw states = .ok bs ∧ bs.length = bs₀.length ∧
      bs.map (fun b => (b.stateA, b.stateB, b.direction, b.isExtruding, b.jd)) =
        bs₀.map fun b => (b.stateA, b.stateB, b.direction, b.isExtruding, b.jd) := by
  obtain ⟨bs₀, bs, h1, h2, h3, _⟩ := plan_spec fw hreg
  refine ⟨bs₀, bs, h1, h2, by simp [plan, h1, bind, Except.bind, h2], ?_, by
    have := congrArg (List.map fun k => (k.1, k.2.1, k.2.2.1, k.2.2.2.1, k.2.2.2.2.1)) h3
    rw [List.map_map, List.map_map] at this
    exact this⟩
  simpa using congrArg List.length h3

/-- **C28.** The blocks are, in order, exactly the states that move or pause, each with its
predecessor. -/
theorem c28_blocks (hreg : Regular states) (h : plan fw states = .ok bs) :
    bs.map (fun b => (b.stateA, b.stateB)) = active none states :=
  (plan_ok hreg h).2.2.2.1

/-- The demo program gives four blocks, for every firmware. -/
example (fw : Firmware) : ∃ bs, plan fw Demo.prog = .ok bs ∧ bs.length = 4 ∧
    bs.map (·.stateB) = [Demo.s1, Demo.s2, Demo.s3, Demo.s4] := by
  obtain ⟨bs₀, bs, _, _, h, _⟩ := c26_correction_total fw Demo.regular
  have h' := c28_blocks Demo.regular h
  rw [Demo.active_prog] at h'
  refine ⟨bs, h, by simpa using congrArg List.length h', ?_⟩
  have := congrArg (List.map Prod.snd) h'
  simpa [List.map_map, Function.comp_def] using this

/-! ## C20 -/

/-- **C20.** The segments of a block begin at the position of the previous state and end exactly at the
target, in all four coordinates. -/
theorem c20_targets (hreg : Regular states) (h : plan fw states = .ok bs) {b : Block ℝ} (hb : b ∈ bs) :
    ∃ A s s', b.stateA = some A ∧ b.segments.head? = some s ∧ b.segments.getLast? = some s' ∧
      s.posBegin = A.position ∧ s'.posEnd = b.stateB.position := by
  obtain ⟨A, s, s', h1, h2, h3, _, h5, _, _, h8, _⟩ := ((plan_ok hreg h).1 b hb).facts
  exact ⟨A, s, s', h1, h2, h3, h5, h8⟩

/-! ## C21, C22, C29: inside a block -/

theorem getVelocity_defined {s : Segment ℝ} {t : ℝ} {v : Vec4 ℝ} (h : s.getVelocity t = .ok v) :
    s.tBegin ≤ t ∧ t ≤ s.tEnd := by
  unfold Segment.getVelocity at h
  split at h
  · cases h
  · rename_i hc
    push Not at hc
    exact hc

theorem getPosition_defined {s : Segment ℝ} {t : ℝ} {v : Vec4 ℝ} (h : s.getPosition t = .ok v) :
    s.tBegin ≤ t ∧ t ≤ s.tEnd := by
  unfold Segment.getPosition at h
  split at h
  · cases h
  · rename_i hc
    push Not at hc
    exact hc

theorem getVelocity_total {s : Segment ℝ} {t : ℝ} (h : s.tBegin ≤ t ∧ t ≤ s.tEnd) :
    ∃ v, s.getVelocity t = .ok v := by
  unfold Segment.getVelocity
  rw [if_neg (by push Not; exact h)]
  exact ⟨_, rfl⟩

theorem getPosition_total {s : Segment ℝ} {t : ℝ} (h : s.tBegin ≤ t ∧ t ≤ s.tEnd) :
    ∃ v, s.getPosition t = .ok v := by
  obtain ⟨v, hv⟩ := getVelocity_total h
  unfold Segment.getPosition
  rw [if_neg (by push Not; exact h), hv]
  exact ⟨_, rfl⟩

theorem static_velocity {t0 t1 t : ℝ} {p v : Vec4 ℝ}
    (h : (⟨t0, t1, p, Vec4.zero, p, Vec4.zero⟩ : Segment ℝ).getVelocity t = .ok v) : v = Vec4.zero := by
  have hd := getVelocity_defined h
  unfold Segment.getVelocity at h
  rw [if_neg (by push Not; exact hd)] at h
  simp only [Vec4.sub_self, Except.ok.injEq] at h
  rw [← h]
  split <;> ext <;> simp [Vec4.zero, Vec4.add, Vec4.mul, Vec4.div]

theorem static_position {t0 t1 t : ℝ} {p v : Vec4 ℝ}
    (h : (⟨t0, t1, p, Vec4.zero, p, Vec4.zero⟩ : Segment ℝ).getPosition t = .ok v) : v = p := by
  have hd := getPosition_defined h
  unfold Segment.getPosition at h
  rw [if_neg (by push Not; exact hd)] at h
  cases hv : (⟨t0, t1, p, Vec4.zero, p, Vec4.zero⟩ : Segment ℝ).getVelocity t with
  | error e => rw [hv] at h; cases h
  | ok w =>
    rw [hv, static_velocity hv] at h
    simp only [bind, Except.bind, Except.ok.injEq] at h
    rw [← h]
    ext <;> simp [Vec4.zero, Vec4.add, Vec4.mul, Vec4.div]

/-- **C21.** At every time in a move the travel speed is at most the feedrate of the move; in a move without
travel the extruder speed is. -/
theorem c21_feedrate (hreg : Regular states) (h : plan fw states = .ok bs) {b : Block ℝ} (hb : b ∈ bs)
    {s : Segment ℝ} (hs : s ∈ b.segments) {t : ℝ} {v : Vec4 ℝ} (hv : s.getVelocity t = .ok v) :
    v.norm3 ≤ b.stateB.speed ∧
      (b.stateA.map (fun A => (b.stateB.position.sub A.position).norm3) = some 0 →
        |v.e| ≤ b.stateB.speed) := by
  have hd := getVelocity_defined hv
  have hmem : b.stateB ∈ states := by
    have h1 : (b.stateA, b.stateB) ∈ active none states := by
      rw [← c28_blocks hreg h]
      exact List.mem_map.2 ⟨b, hb, rfl⟩
    have h2 := (List.mem_filter.1 h1).1
    exact (List.of_mem_zip h2).2
  have hsp := hreg.speed _ hmem
  rcases (plan_ok hreg h).1 b hb with ⟨A, u, s0, s1, hm⟩ | ⟨A, p, hm⟩
  · obtain ⟨hu, hdist, hpos, heo, _⟩ := hm.toHdr.unit
    obtain ⟨L, _, _, hL⟩ := hm.hramp.mem
    obtain ⟨w, w₁, l, l₁, g⟩ := hL s hs
    obtain ⟨b1, b2⟩ := g.speed_bounds hd
    rw [g.getVelocity hd, Except.ok.injEq] at hv
    have hn := hu.norms.1
    rw [← hv, norm3_mul, abs_of_nonneg b1, hm.hA]
    constructor
    · have : u.norm3 ≤ 1 := by rw [hn]; split <;> norm_num
      calc u.norm3 * SegOn.speed s w w₁ t ≤ 1 * SegOn.speed s w w₁ t :=
            mul_le_mul_of_nonneg_right this b1
        _ ≤ b.stateB.speed := by rw [one_mul]; exact b2
    · intro h0
      simp only [Option.map_some, Option.some.injEq] at h0
      have h1 := heo.2 h0
      rw [h1] at hu
      simp only [UnitDir, if_true] at hu
      simp only [Vec4.mul, abs_mul, hu.2.2.2, one_mul, abs_of_nonneg b1]
      exact b2
  · obtain ⟨t0, ht0⟩ := hm.hseg
    rw [ht0, List.mem_singleton] at hs
    subst hs
    rw [static_velocity hv, norm3_zero]
    refine ⟨hsp.le, fun _ => ?_⟩
    simp only [Vec4.zero, abs_zero]
    exact hsp.le

/-- **C22.** A moving block has a direction `u` (travel length one, or pure extrusion), and in each of its
segments the velocity changes along `u` at a constant rate which is `0`, the acceleration in force, or its
negative. -/
theorem c22_acceleration (hreg : Regular states) (h : plan fw states = .ok bs) {b : Block ℝ}
    (hb : b ∈ bs) (hp : b.stateB.pause = none) :
    ∃ (A : PState ℝ) (u : Vec4 ℝ) (d : ℝ), b.stateA = some A ∧
      (u.norm3 = 1 ∨ u.norm3 = 0 ∧ |u.e| = 1) ∧ 0 < d ∧
      b.stateB.position.sub A.position = u.mul d ∧
      ∀ s ∈ b.segments, ∃ k, (k = 0 ∨ k = b.stateB.pAcc ∨ k = -b.stateB.pAcc) ∧
        ∀ t, s.tBegin ≤ t → t ≤ s.tEnd →
          s.getVelocity t = .ok (s.velBegin.add (u.mul (k * (t - s.tBegin)))) := by
  rcases (plan_ok hreg h).1 b hb with ⟨A, u, s0, s1, hm⟩ | ⟨A, p, hm⟩
  · obtain ⟨hu, hdist, hpos, heo, _⟩ := hm.toHdr.unit
    obtain ⟨L, _, _, hL⟩ := hm.hramp.mem
    refine ⟨A, u, (moveDistance A b.stateB).1, hm.hA, ?_, hdist, ?_, ?_⟩
    · cases he : (moveDistance A b.stateB).2
      · rw [he] at hu
        left
        simpa [UnitDir] using hu
      · have h1 := hu.norms.1
        rw [he] at hu h1
        simp only [UnitDir, if_true] at hu h1
        exact Or.inr ⟨h1, hu.2.2.2⟩
    · conv_lhs => rw [hpos]
      ext <;> simp [Vec4.sub, Vec4.add]
    · intro s hs
      obtain ⟨w, w₁, l, l₁, g⟩ := hL s hs
      have hd := (sub_pos.2 g.ht).ne'
      refine ⟨(w₁ - w) / (s.tEnd - s.tBegin), ?_, ?_⟩
      · rcases g.hacc with h | h | h
        · left
          rw [h, zero_div]
        · right; left
          rw [h, mul_div_assoc, div_self hd, mul_one]
        · right; right
          rw [h, mul_div_assoc, div_self hd, mul_one]
      · intro t h1 h2
        rw [g.getVelocity ⟨h1, h2⟩, g.hvb]
        congr 1
        ext <;> simp only [Vec4.add, Vec4.mul, SegOn.speed] <;> ring
  · rw [hm.hpause] at hp
    cases hp

/-- **C29.** At every time in a block the position (X, Y, Z and E) lies on the straight line between the two
states' positions. -/
theorem c29_straight (hreg : Regular states) (h : plan fw states = .ok bs) {b : Block ℝ} (hb : b ∈ bs)
    {s : Segment ℝ} (hs : s ∈ b.segments) {t : ℝ} {p : Vec4 ℝ} (hv : s.getPosition t = .ok p) :
    ∃ A c, b.stateA = some A ∧ 0 ≤ c ∧ c ≤ 1 ∧
      p = A.position.add ((b.stateB.position.sub A.position).mul c) := by
  have hd := getPosition_defined hv
  rcases (plan_ok hreg h).1 b hb with ⟨A, u, s0, s1, hm⟩ | ⟨A, q, hm⟩
  · obtain ⟨hu, hdist, hpos, heo, _⟩ := hm.toHdr.unit
    obtain ⟨L, hL0, hLp, hL⟩ := hm.hramp.mem
    have hLd : L = (moveDistance A b.stateB).1 := by
      refine unit_cancel hu (p := A.position) ?_
      rw [← hLp, ← hpos]
    rw [← hLd] at hdist hpos
    obtain ⟨w, w₁, l, l₁, g⟩ := hL s hs
    obtain ⟨b1, b2⟩ := g.dist_bounds hd
    rw [g.getPosition hd, Except.ok.injEq] at hv
    refine ⟨A, (l + (w + SegOn.speed s w w₁ t) / 2 * (t - s.tBegin)) / L, hm.hA, ?_, ?_, ?_⟩
    · exact div_nonneg (le_trans g.hl b1) hL0
    · exact (div_le_one hdist).2 (le_trans b2 g.hl₁)
    · rw [← hv, hpos]
      ext <;> simp only [Vec4.add, Vec4.sub, Vec4.mul] <;> field_simp <;> ring
  · obtain ⟨t0, ht0⟩ := hm.hseg
    rw [ht0, List.mem_singleton] at hs
    subst hs
    refine ⟨A, 0, hm.hA, le_refl _, zero_le_one, ?_⟩
    rw [static_position hv, Vec4.mul_zero, Vec4.add_zero]

/-! ## C23, C24, C25: the whole timeline -/

/-- Well-formed blocks that follow each other smoothly from time `0` and standstill on. -/
structure SoundRun (bs : List (Block ℝ)) : Prop where
  good : ∀ b ∈ bs, Good b
  chain : bs.IsChain LinkT
  first : ∀ f ∈ bs.head?, f.t0 = 0 ∧ f.nIn = 0 ∧ f.stateB.pause = none

theorem plan_sound (hreg : Regular states) (h : plan fw states = .ok bs) : SoundRun bs :=
  ⟨(plan_ok hreg h).1, (plan_ok hreg h).2.1, (plan_ok hreg h).2.2.1⟩

/-- How the segments of the whole path follow each other. -/
theorem SoundRun.unpack_chain (h : SoundRun bs) :
    (unpack bs).IsChain fun s s' => s'.tBegin = s.tEnd ∧ s'.posBegin = s.posEnd ∧
      |s.velEnd.norm3 - s'.velBegin.norm3| ≤ 1e-12 := by
  obtain ⟨hg, hc, _⟩ := h
  unfold unpack
  rw [List.flatMap_def, List.isChain_flatten]
  · constructor
    · intro l hl
      obtain ⟨b, hb, rfl⟩ := List.mem_map.1 hl
      rcases hg b hb with ⟨A, u, s0, s1, hm⟩ | ⟨A, q, hm⟩
      · refine hm.hramp.chain.imp ?_
        rintro s s' ⟨h1, h2, h3⟩
        refine ⟨h1, h2, ?_⟩
        rw [h3, sub_self, abs_zero]
        norm_num
      · obtain ⟨t0, ht0⟩ := hm.hseg
        rw [ht0]
        exact List.isChain_singleton _
    · rw [List.isChain_map]
      refine List.IsChain.imp_of_mem_imp ?_ hc
      rintro b c hb hc ⟨l1, l2, l3, l4⟩ x hx y hy
      obtain ⟨A, s, s', e1, e2, e3, e4, e5, e6, e7, e8, e9, _⟩ := (hg b hb).facts
      obtain ⟨A', q, q', f1, f2, f3, f4, f5, f6, f7, f8, f9, _⟩ := (hg c hc).facts
      rw [Option.mem_def] at hx hy
      rw [hx] at e3
      rw [hy] at f2
      cases e3
      cases f2
      rw [f1, Option.map_some, Option.some.injEq] at l1
      refine ⟨by rw [f4, e7, l4], by rw [f5, e8, l1], ?_⟩
      rw [e9, f6, abs_of_nonneg (by linarith)]
      linarith
  · intro hn
    obtain ⟨b, hb, hb'⟩ := List.mem_map.1 hn
    exact (hg b hb).ne_nil hb'

theorem unpack_chain (hreg : Regular states) (h : plan fw states = .ok bs) :
    (unpack bs).IsChain fun s s' => s'.tBegin = s.tEnd ∧ s'.posBegin = s.posEnd ∧
      |s.velEnd.norm3 - s'.velBegin.norm3| ≤ 1e-12 := (plan_sound hreg h).unpack_chain

theorem SoundRun.timeline (h : SoundRun bs) :
    (∀ s ∈ (Spec.path bs).head?, s.tBegin = 0) ∧
      ((Spec.path bs).IsChain fun s s' => s'.tBegin = s.tEnd) ∧
      (∀ s ∈ Spec.path bs, s.tBegin ≤ s.tEnd) ∧
      ∀ b ∈ bs, b.stateB.pause = none → ∀ s ∈ b.segments, s.tBegin < s.tEnd := by
  simp only [path_eq] at *
  have hg := h.good
  have hf := h.first
  have hmove : ∀ b ∈ bs, b.stateB.pause = none → ∀ s ∈ b.segments, s.tBegin < s.tEnd := by
    intro b hb hp s hs
    rcases hg b hb with ⟨A, u, s0, s1, hm⟩ | ⟨A, q, hm⟩
    · obtain ⟨L, _, _, hL⟩ := hm.hramp.mem
      obtain ⟨w, w₁, l, l₁, g⟩ := hL s hs
      exact g.ht
    · rw [hm.hpause] at hp
      cases hp
  refine ⟨?_, h.unpack_chain.imp fun _ _ h => h.1, ?_, hmove⟩
  · intro s hs
    cases bs with
    | nil => cases hs
    | cons b tl =>
      obtain ⟨A, q, q', f1, f2, f3, f4, _⟩ := (hg b (by simp)).facts
      unfold unpack at hs
      rw [List.flatMap_cons, List.head?_append, f2, Option.some_or, Option.mem_def,
        Option.some.injEq] at hs
      subst hs
      rw [f4]
      exact (hf b (by simp)).1
  · intro s hs
    obtain ⟨b, hb, hs⟩ := List.mem_flatMap.1 hs
    cases hp : b.stateB.pause with
    | none => exact (hmove b hb hp s hs).le
    | some p =>
      rcases hg b hb with ⟨A, u, s0, s1, hm⟩ | ⟨A, q, hm⟩
      · rw [hm.hpause] at hp
        cases hp
      · obtain ⟨t0, ht0⟩ := hm.hseg
        rw [ht0, List.mem_singleton] at hs
        subst hs
        simpa using hm.hp

/-- **C23.** The first segment begins at time `0`, every other one exactly when its predecessor ends, no
segment has negative duration, and the segments of moves have positive duration. -/
theorem c23_timeline (hreg : Regular states) (h : plan fw states = .ok bs) :
    (∀ s ∈ (Spec.path bs).head?, s.tBegin = 0) ∧
      ((Spec.path bs).IsChain fun s s' => s'.tBegin = s.tEnd) ∧
      (∀ s ∈ Spec.path bs, s.tBegin ≤ s.tEnd) ∧
      ∀ b ∈ bs, b.stateB.pause = none → ∀ s ∈ b.segments, s.tBegin < s.tEnd :=
  (plan_sound hreg h).timeline

/-- **C24.** Every segment begins at the position where its predecessor ends. -/
theorem c24_continuous (hreg : Regular states) (h : plan fw states = .ok bs) :
    (Spec.path bs).IsChain fun s s' => s'.posBegin = s.posEnd :=
  (unpack_chain hreg h).imp fun _ _ h => h.2.1

theorem SoundRun.speed_continuous (h : SoundRun bs) :
    ((Spec.path bs).IsChain fun s s' => |s.velEnd.norm3 - s'.velBegin.norm3| ≤ 1e-12) ∧
      (∀ b ∈ bs, b.segments.IsChain fun s s' => s'.velBegin = s.velEnd) ∧
      ∀ s ∈ (Spec.path bs).head?, s.velBegin.norm3 = 0 := by
  simp only [path_eq] at *
  have hg := h.good
  have hf := h.first
  refine ⟨h.unpack_chain.imp fun _ _ h => h.2.2, ?_, ?_⟩
  · intro b hb
    rcases hg b hb with ⟨A, u, s0, s1, hm⟩ | ⟨A, q, hm⟩
    · exact hm.hramp.chain.imp fun _ _ h => h.2.2
    · obtain ⟨t0, ht0⟩ := hm.hseg
      rw [ht0]
      exact List.isChain_singleton _
  · intro s hs
    cases bs with
    | nil => cases hs
    | cons b tl =>
      obtain ⟨A, q, q', f1, f2, f3, f4, f5, f6, _⟩ := (hg b (by simp)).facts
      unfold unpack at hs
      rw [List.flatMap_cons, List.head?_append, f2, Option.some_or, Option.mem_def,
        Option.some.injEq] at hs
      subst hs
      rw [f6]
      exact (hf b (by simp)).2.1

/-- **C25.** Travel speeds agree up to `1e-12` wherever two segments meet, velocities agree exactly inside a
block, and the first segment begins at standstill. -/
theorem c25_speed_continuous (hreg : Regular states) (h : plan fw states = .ok bs) :
    ((Spec.path bs).IsChain fun s s' => |s.velEnd.norm3 - s'.velBegin.norm3| ≤ 1e-12) ∧
      (∀ b ∈ bs, b.segments.IsChain fun s s' => s'.velBegin = s.velEnd) ∧
      ∀ s ∈ (Spec.path bs).head?, s.velBegin.norm3 = 0 :=
  (plan_sound hreg h).speed_continuous

/-! ## C27: dwell -/

/-- **C27.** A pausing state has exactly one segment, which lasts exactly the pause, and at every time in it
the machine stands at the position of the previous state. -/
theorem c27_dwell (hreg : Regular states) (h : plan fw states = .ok bs) {b : Block ℝ} (hb : b ∈ bs)
    {p : ℝ} (hp : b.stateB.pause = some p) :
    ∃ A s, b.stateA = some A ∧ b.segments = [s] ∧ s.tEnd - s.tBegin = p ∧
      b.stateB.position = A.position ∧ ∀ t, s.tBegin ≤ t → t ≤ s.tEnd →
        s.getVelocity t = .ok Vec4.zero ∧ s.getPosition t = .ok A.position := by
  rcases (plan_ok hreg h).1 b hb with ⟨A, u, s0, s1, hm⟩ | ⟨A, q, hm⟩
  · rw [hm.hpause] at hp
    cases hp
  · obtain ⟨t0, ht0⟩ := hm.hseg
    rw [hm.hpause] at hp
    cases hp
    refine ⟨A, _, hm.hA, ht0, by simp, hm.hpos, ?_⟩
    intro t h1 h2
    constructor
    · obtain ⟨v, hv⟩ := getVelocity_total ⟨h1, h2⟩
      rw [hv, static_velocity hv]
    · obtain ⟨v, hv⟩ := getPosition_total ⟨h1, h2⟩
      rw [hv, static_position hv]

/-! ## C18: the end -/

/-- C18 as wanted: at the end of the last move the machine is at rest, for every firmware. -/
def C18Full : Prop :=
  ∀ (fw : Firmware) (states : List (PState ℝ)) (bs : List (Block ℝ)), Regular states →
    plan fw states = .ok bs → ∀ b ∈ bs.getLast?, ∀ s ∈ b.segments.getLast?, s.velEnd.norm3 = 0

/-- **C18, for all firmware models except `marlin_jerk`.** What is missing is `marlin_jerk`, for which it is
false (`c18_refuted`). -/
theorem c18_last_stop_partial (hfw : fw ≠ .marlinJerk) (hreg : Regular states)
    (h : plan fw states = .ok bs) :
    ∀ b ∈ bs.getLast?, ∀ s ∈ b.segments.getLast?, s.velEnd.norm3 = 0 := by
  intro b hb s hs
  obtain ⟨hg, _, _, _, hl⟩ := plan_ok hreg h
  have := hl hfw b hb
  unfold Block.nOut at this
  rw [Option.mem_def] at hs
  rw [hs] at this
  simpa using this

/-- With `marlin_jerk` the junction speed at the end of the last move is twice the jerk, limited by the
feedrate; the feedrate itself if the jerk is zero. -/
theorem c18_marlin_jerk_end (A B : PState ℝ) (hs : 0 < B.speed) (hj : 0 ≤ B.jerk)
    (hd : (B.position.sub A.position).norm3 ≠ 0) :
    junctionVel .marlinJerk (some A) B [] =
      if B.jerk = 0 then B.speed else min B.speed (2 * B.jerk) := by
  have h0 : (targetVel (some A) B).norm3 = B.speed := by
    show (connectState A B).norm3 = _
    rw [connectState_norm3 A B hs.le, if_neg hd]
  have h1 : velNext B [] = Vec4.zero := velNext_stop (by simp)
  simp only [junctionVel, calcJerk, h1]
  have h2 : ((targetVel (some A) B).sub Vec4.zero).norm3 = B.speed := by
    rw [← h0]
    congr 1
    ext <;> simp [Vec4.sub, Vec4.zero]
  rw [h2, norm3_div, h0]
  by_cases hz : B.jerk = 0
  · simp [hz]
  · have hjp : 0 < B.jerk := lt_of_le_of_ne hj (Ne.symm hz)
    rw [if_neg hz, if_pos (by linarith : 0 < B.jerk * 2)]
    have hsc : 0 < B.speed / (B.jerk * 2) := by positivity
    split
    · rename_i hc
      rw [le_div_iff₀ (by linarith)] at hc
      rw [min_eq_right (by linarith), abs_of_pos hsc]
      field_simp
    · rename_i hc
      push Not at hc
      rw [div_lt_one (by linarith)] at hc
      rw [min_eq_left (by linarith)]

/-- C18 is false of the code: with `marlin_jerk` a single move ends while the machine is moving. -/
theorem c18_refuted : ¬ C18Full := by
  intro hfull
  let A : PState ℝ := ⟨⟨0, 0, 0, 0⟩, 10, 100, 5, none, none⟩
  let B : PState ℝ := ⟨⟨10, 0, 0, 0⟩, 10, 100, 5, none, none⟩
  have hreg : Regular [A, B] := by
    have hall : ∀ s ∈ [A, B], s.speed = 10 ∧ s.pAcc = 100 ∧ s.jerk = 5 ∧ s.pause = none := by
      intro s hs
      simp only [List.mem_cons, List.not_mem_nil, or_false] at hs
      rcases hs with rfl | rfl <;> exact ⟨rfl, rfl, rfl, rfl⟩
    refine ⟨fun s hs => ?_, fun s hs => ?_, fun s hs => ?_, fun s hs p hp => ?_, fun pre s post he hp => ?_,
      fun pre s post he hp => ?_⟩
    · rw [(hall s hs).1]; norm_num
    · rw [(hall s hs).2.1]; norm_num
    · rw [(hall s hs).2.2.1]; norm_num
    · rw [(hall s hs).2.2.2] at hp; cases hp
    · exact absurd (hall s (by rw [he]; simp)).2.2.2 hp
    · exact absurd (hall s (by rw [he]; simp)).2.2.2 hp
  have hne : B.position ≠ A.position := fun h => by simpa [A, B] using congrArg Vec4.x h
  have hn3 : (B.position.sub A.position).norm3 ≠ 0 := by
    intro h
    have := (norm3_eq_zero.1 h).1
    simp [A, B, Vec4.sub] at this
  have hj : junctionVel .marlinJerk (some A) B [] = 10 := by
    rw [c18_marlin_jerk_end A B (by norm_num [B]) (by norm_num [B]) hn3]
    norm_num [B]
  obtain ⟨b0, k1, k2⟩ := mkBlock_skip .marlinJerk (A := none) (B := A) (rest := [B]) (pb := none)
    (by simp) rfl
  obtain ⟨b, m1, m2, m3, m4, _, _, _, m8, _⟩ := mkBlock_move .marlinJerk (rest := []) (pb := none) hne
    (by norm_num [B]) (by norm_num [B]) (by norm_num [B]) rfl (by simp)
  have hplan : plan .marlinJerk [A, B] = .ok [b] := by
    simp [plan, genBlocks, k1, k2, m1, m2.ne_nil, correctAll, correctFrom, selfCorrection, bind,
      Except.bind]
  have hout := m8 (by rw [hj]; norm_num)
  obtain ⟨_, s, s', _, _, e3, _, _, _, _, _, e9, _⟩ := m2.facts
  have := hfull .marlinJerk [A, B] [b] hreg hplan b (by simp) s' e3
  rw [e9] at this
  linarith

/-! ## All theorems apply to the demo program, for each firmware -/

example (fw : Firmware) : ∃ bs, plan fw Demo.prog = .ok bs ∧ bs ≠ [] ∧
    ((unpack bs).IsChain fun s s' => s'.tBegin = s.tEnd) ∧
    ∀ b ∈ bs, ∀ s ∈ b.segments, ∀ t v, s.getVelocity t = .ok v → v.norm3 ≤ 10 := by
  obtain ⟨_, bs, _, _, h, _⟩ := c26_correction_total fw Demo.regular
  have h28 := c28_blocks Demo.regular h
  refine ⟨bs, h, ?_, (c23_timeline Demo.regular h).2.1, ?_⟩
  · rintro rfl
    rw [Demo.active_prog] at h28
    cases h28
  · intro b hb s hs t v hv
    have := (c21_feedrate Demo.regular h hb hs hv).1
    have hm : (b.stateA, b.stateB) ∈ active none Demo.prog := by
      rw [← h28]
      exact List.mem_map.2 ⟨b, hb, rfl⟩
    rw [Demo.active_prog] at hm
    have : b.stateB.speed = 10 := by
      simp only [List.mem_cons, Prod.mk.injEq, List.not_mem_nil, or_false] at hm
      rcases hm with h | h | h | h <;> rw [h.2] <;> rfl
    linarith

end PyGCD
