import Verif.Model.Warnings
import Verif.Props.Objects
import Verif.Props.Plan
import Verif.Props.Query

/-!
# Property C78: the correction prints no warnings
-/

set_option linter.unusedSimpArgs false
set_option linter.unusedSectionVars false

namespace PyGCD
open Spec

section
variable {K : Type} [Add K] [Sub K] [Mul K] [Div K] [Neg K] [LT K] [LE K] [DecidableLT K]
  [DecidableLE K] [DecidableEq K] [OfNat K 0] [OfNat K 1] [OfNat K 2] [OfNat K 18] [OfNat K 180]
  [OfScientific K] [PyMath K]

/-- Writing the checks into the correction does not change its blocks, and every check is one of a block
that is returned. -/
theorem selfCorrectionW_step {rp : List (Block K)} (ih : ∀ p rp', rp = p :: rp' → ∀ b,
    (selfCorrectionW rp' p (some b)).map Prod.fst = selfCorrection rp' p (some b) ∧
    ∀ r w, selfCorrectionW rp' p (some b) = .ok (r, w) →
      w ≠ [] ∧ ∀ x ∈ w, ∃ c ∈ r.2.1 :: r.1, x = c.warns)
    (b nx : Block K) :
    (selfCorrectionW rp b (some nx)).map Prod.fst = selfCorrection rp b (some nx) ∧
    ∀ r w, selfCorrectionW rp b (some nx) = .ok (r, w) →
      w ≠ [] ∧ ∀ x ∈ w, ∃ c ∈ r.2.1 :: r.1, x = c.warns := by
  rw [selfCorrectionW.eq_def, selfCorrection.eq_def]
  simp only
  rcases b.lastSeg with e | last
  · simp only [bind_error]
    exact ⟨rfl, fun _ _ h => Except.noConfusion rfl rfl (heq_of_eq h)⟩
  simp only [bind_ok]
  rcases nx.firstSeg with e | nfirst
  · simp only [bind_error]
    exact ⟨rfl, fun _ _ h => Except.noConfusion rfl rfl (heq_of_eq h)⟩
  simp only [bind_ok]
  -- the common end of all cases
  have fin : ∀ (rp : List (Block K)) (b : Block K) (w : List Bool),
      (∀ x ∈ w, ∃ c ∈ rp, x = c.warns) →
      (Except.map Prod.fst (do
        let last ← b.lastSeg
        if last.posEnd.eq nfirst.posBegin = true then
          (.ok ((rp, b, some (nx.timeshift (last.tEnd - nfirst.tBegin))), w ++ [b.warns]) :
            Except PyErr ((List (Block K) × Block K × Option (Block K)) × List Bool))
        else if (1e-12 : K) < (last.posEnd.sub nfirst.posBegin).norm3 then .error .nameError
        else .ok ((rp, b, some (nx.timeshift (last.tEnd - nfirst.tBegin))), w ++ [b.warns]))) = (do
        let last ← b.lastSeg
        if last.posEnd.eq nfirst.posBegin = true then
          (.ok (rp, b, some (nx.timeshift (last.tEnd - nfirst.tBegin))) :
            Except PyErr (List (Block K) × Block K × Option (Block K)))
        else if (1e-12 : K) < (last.posEnd.sub nfirst.posBegin).norm3 then .error .nameError
        else .ok (rp, b, some (nx.timeshift (last.tEnd - nfirst.tBegin)))) ∧
      ∀ r w', (do
        let last ← b.lastSeg
        if last.posEnd.eq nfirst.posBegin = true then
          (.ok ((rp, b, some (nx.timeshift (last.tEnd - nfirst.tBegin))), w ++ [b.warns]) :
            Except PyErr ((List (Block K) × Block K × Option (Block K)) × List Bool))
        else if (1e-12 : K) < (last.posEnd.sub nfirst.posBegin).norm3 then .error .nameError
        else .ok ((rp, b, some (nx.timeshift (last.tEnd - nfirst.tBegin))), w ++ [b.warns])) = .ok (r, w') →
        w' ≠ [] ∧ ∀ x ∈ w', ∃ c ∈ r.2.1 :: r.1, x = c.warns := by
    intro rp b w hw
    rcases b.lastSeg with e | last
    · simp only [bind_error]
      exact ⟨rfl, fun _ _ h => Except.noConfusion rfl rfl (heq_of_eq h)⟩
    simp only [bind_ok]
    have hmem : ∀ (r : List (Block K) × Block K × Option (Block K)) (w' : List Bool),
        (Except.ok ((rp, b, some (nx.timeshift (last.tEnd - nfirst.tBegin))), w ++ [b.warns]) :
          Except PyErr ((List (Block K) × Block K × Option (Block K)) × List Bool)) = .ok (r, w') →
        w' ≠ [] ∧ ∀ x ∈ w', ∃ c ∈ r.2.1 :: r.1, x = c.warns := by
      intro r w' h
      simp only [Except.ok.injEq, Prod.mk.injEq] at h
      obtain ⟨rfl, rfl⟩ := h
      refine ⟨by simp, fun x hx => ?_⟩
      rcases List.mem_append.1 hx with hx | hx
      · obtain ⟨c, hc, h⟩ := hw x hx
        exact ⟨c, List.mem_cons_of_mem _ hc, h⟩
      · exact ⟨b, List.mem_cons_self, List.mem_singleton.1 hx⟩
    by_cases h1 : last.posEnd.eq nfirst.posBegin = true
    · simp only [if_pos h1]
      exact ⟨rfl, hmem⟩
    · simp only [if_neg h1]
      by_cases h2 : (1e-12 : K) < (last.posEnd.sub nfirst.posBegin).norm3
      · simp only [if_pos h2]
        exact ⟨rfl, fun _ _ h => Except.noConfusion rfl rfl (heq_of_eq h)⟩
      · simp only [if_neg h2]
        exact ⟨rfl, hmem⟩
  cases (decide (¬ last.velEnd.norm3 = nfirst.velBegin.norm3) &&
      decide ((1e-12 : K) < pyAbs (last.velEnd.norm3 - nfirst.velBegin.norm3)))
  · simp only [Bool.false_eq_true, if_false, bind_ok]
    exact fin rp b [] (by simp)
  · simp only [if_true]
    rcases moveMaker b rp.head? nfirst.velBegin.norm3 with e | b'
    · simp only [bind_error]
      exact ⟨rfl, fun _ _ h => Except.noConfusion rfl rfl (heq_of_eq h)⟩
    simp only [bind_ok]
    by_cases hs : b'.blocktype = some .single
    · simp only [if_pos hs]
      cases rp with
      | nil =>
        simp only [bind_error]
        exact ⟨rfl, fun _ _ h => Except.noConfusion rfl rfl (heq_of_eq h)⟩
      | cons p rp' =>
        obtain ⟨i1, i2⟩ := ih p rp' rfl b'
        simp only
        rcases hr : selfCorrectionW rp' p (some b') with e | ⟨⟨rp'', p', o⟩, w⟩
        · rw [hr] at i1
          rw [← i1]
          simp only [bind_error, Except.map]
          exact ⟨trivial, fun _ _ h => Except.noConfusion rfl rfl (heq_of_eq h)⟩
        · rw [hr] at i1
          rw [← i1]
          cases o with
          | none =>
            simp only [Except.map, bind_ok]
            exact fin (p' :: rp'') b' w (fun x hx => (i2 _ _ hr).2 x hx)
          | some b'' =>
            simp only [Except.map, bind_ok]
            exact fin (p' :: rp'') b'' w (fun x hx => (i2 _ _ hr).2 x hx)
    · simp only [if_neg hs, bind_ok]
      exact fin rp b' [] (by simp)

theorem selfCorrectionW_spec : ∀ (rp : List (Block K)) (b : Block K) (nx : Option (Block K)),
    (selfCorrectionW rp b nx).map Prod.fst = selfCorrection rp b nx ∧
    ∀ r w, selfCorrectionW rp b nx = .ok (r, w) →
      w ≠ [] ∧ ∀ x ∈ w, ∃ c ∈ r.2.1 :: r.1, x = c.warns := by
  intro rp
  induction rp with
  | nil =>
    intro b nx
    cases nx with
    | none =>
      rw [selfCorrectionW.eq_def, selfCorrection.eq_def]
      refine ⟨rfl, ?_⟩
      intro r w h
      simp only [Except.ok.injEq, Prod.mk.injEq] at h
      obtain ⟨rfl, rfl⟩ := h
      exact ⟨by simp, fun x hx => ⟨b, by simp, List.mem_singleton.1 hx⟩⟩
    | some nx => exact selfCorrectionW_step (by intro p rp' e; cases e) b nx
  | cons p rp ih =>
    intro b nx
    cases nx with
    | none =>
      rw [selfCorrectionW.eq_def, selfCorrection.eq_def]
      refine ⟨rfl, ?_⟩
      intro r w h
      simp only [Except.ok.injEq, Prod.mk.injEq] at h
      obtain ⟨rfl, rfl⟩ := h
      exact ⟨by simp, fun x hx => ⟨b, by simp, List.mem_singleton.1 hx⟩⟩
    | some nx => exact selfCorrectionW_step (by intro p' rp' e; cases e; exact fun b' => ih p (some b')) b nx

theorem correctFromW_blocks : ∀ (tl rp : List (Block K)) (b : Block K),
    (correctFromW rp b tl).map Prod.fst = correctFrom rp b tl := by
  intro tl
  induction tl with
  | nil =>
    intro rp b
    rw [correctFromW, correctFrom, ← (selfCorrectionW_spec rp b none).1]
    rcases selfCorrectionW rp b none with e | ⟨r, w⟩
    · rfl
    · rfl
  | cons nx tl ih =>
    intro rp b
    rw [correctFromW, correctFrom, ← (selfCorrectionW_spec rp b (some nx)).1]
    rcases selfCorrectionW rp b (some nx) with e | ⟨r, w⟩
    · rfl
    · simp only [Except.map, bind_ok]
      rw [← ih]
      rcases correctFromW (r.2.1 :: r.1) (r.2.2.getD nx) tl with e | ⟨bs, w'⟩
      · rfl
      · rfl

end

/-! ### The check passes for every block of a plan -/

theorem near_refl (p : Vec4 ℝ) : (p.sub p).norm3 = 0 := by
  simp [Vec4.sub, Vec4.norm3, PyMath.sqrt]

theorem adheres_iff (s : Segment ℝ) (f : ℝ) : s.adheres f = true ↔
    (s.posEnd.sub (s.posBegin.add (((s.velBegin.add s.velEnd).mul (s.tEnd - s.tBegin)).div 2))).norm3 ≤ 1e-6 ∧
    s.tBegin ≤ s.tEnd ∧ (s.velBegin.norm3 ≤ f ∨ |s.velBegin.norm3 - f| ≤ 1e-8 + 1e-5 * |f|) ∧
    (s.velEnd.norm3 ≤ f ∨ |s.velEnd.norm3 - f| ≤ 1e-8 + 1e-5 * |f|) := by
  simp only [Segment.adheres, Segment.selfCheckOk, Bool.and_eq_true, Bool.not_eq_true', Bool.and_eq_false_imp,
    decide_eq_true_eq, decide_eq_false_iff_not, not_lt, Bool.not_eq_false', isClose_iff]
  constructor
  · rintro ⟨⟨⟨h1, h2⟩, h3⟩, h4⟩
    refine ⟨h1, h2, ?_, ?_⟩
    · rcases le_or_gt s.velBegin.norm3 f with h | h
      · exact .inl h
      · exact .inr (by simpa using h3 h)
    · rcases le_or_gt s.velEnd.norm3 f with h | h
      · exact .inl h
      · exact .inr (by simpa using h4 h)
  · rintro ⟨h1, h2, h3, h4⟩
    refine ⟨⟨⟨h1, h2⟩, fun h => ?_⟩, fun h => ?_⟩
    · simpa using h3.resolve_left (not_le.2 h)
    · simpa using h4.resolve_left (not_le.2 h)

theorem adheres_of {s : Segment ℝ} {f : ℝ}
    (hp : s.posBegin.add (((s.velBegin.add s.velEnd).mul (s.tEnd - s.tBegin)).div 2) = s.posEnd)
    (ht : s.tBegin ≤ s.tEnd) (h0 : s.velBegin.norm3 ≤ f) (h1 : s.velEnd.norm3 ≤ f) : s.adheres f = true := by
  rw [adheres_iff, hp, near_refl]
  exact ⟨by norm_num, ht, .inl h0, .inl h1⟩

theorem Good.quiet {b : Block ℝ} (h : Good b) (hf : 0 ≤ b.stateB.speed) : b.warns = false := by
  simp only [Block.warns, List.any_eq_false, Bool.not_eq_true', Bool.not_eq_false]
  intro s hs
  rcases h with ⟨A, u, s0, s1, h⟩ | ⟨A, p, h⟩
  · obtain ⟨L, _, _, hmem⟩ := h.hramp.mem
    obtain ⟨w, w₁, l, l₁, g⟩ := hmem s hs
    have hu : u.norm3 ≤ 1 := by
      have := h.toHdr.unit.1.norms.1
      rw [this]
      split <;> norm_num
    have hn : ∀ x, 0 ≤ x → x ≤ b.stateB.speed → (u.mul x).norm3 ≤ b.stateB.speed := by
      intro x h0 h1
      rw [Vec4.norm3_mul, abs_of_nonneg h0]
      calc u.norm3 * x ≤ 1 * x := mul_le_mul_of_nonneg_right hu h0
        _ ≤ _ := by rw [one_mul]; exact h1
    refine adheres_of (s := s) (f := b.stateB.speed) ?_ g.ht.le (by rw [g.hvb]; exact hn _ g.hw.1 g.hw.2)
      (by rw [g.hve]; exact hn _ g.hw₁.1 g.hw₁.2)
    rw [g.hpb, g.hvb, g.hve, g.hpe, g.hlen]
    ext <;> simp only [Vec4.add, Vec4.mul, Vec4.div] <;> ring
  · obtain ⟨t, ht⟩ := h.hseg
    rw [ht, List.mem_singleton] at hs
    subst hs
    have hz : (Vec4.zero : Vec4 ℝ).norm3 ≤ b.stateB.speed := by
      rw [Vec4.norm3_zero]
      exact hf
    refine adheres_of (f := b.stateB.speed) ?_ (le_add_of_nonneg_right h.hp) hz hz
    ext <;> simp [Vec4.add, Vec4.mul, Vec4.div, Vec4.zero]

theorem key_speed {l l' : List (Block ℝ)} (h : l.map Block.key = l'.map Block.key)
    (hs : ∀ c ∈ l', 0 ≤ c.stateB.speed) : ∀ c ∈ l, 0 ≤ c.stateB.speed := by
  intro c hc
  have hk : c.key ∈ l'.map Block.key := by
    rw [← h]
    exact List.mem_map_of_mem hc
  obtain ⟨c', hc', he⟩ := List.mem_map.1 hk
  have : c'.stateB = c.stateB := congrArg (fun k => k.2.1) he
  rw [← this]
  exact hs c' hc'

theorem correctFromW_quiet : ∀ (tl rp : List (Block ℝ)) (b : Block ℝ), Zip rp b →
    (∀ c ∈ tl, Good c) → (b :: tl).IsChain Link → (∀ c ∈ b :: rp, 0 ≤ c.stateB.speed) →
    (∀ c ∈ tl, 0 ≤ c.stateB.speed) →
    ∃ out w, correctFromW rp b tl = .ok (out, w) ∧ (∀ x ∈ w, x = false) ∧ tl.length + 1 ≤ w.length := by
  intro tl
  induction tl with
  | nil =>
    intro rp b hz _ _ hs _
    refine ⟨rp.reverse ++ [b], [b.warns], ?_, ?_, by simp⟩
    · rw [correctFromW, selfCorrectionW.eq_def]
      rfl
    · intro x hx
      rw [List.mem_singleton.1 hx]
      exact (hz.good b (by simp)).quiet (hs b (by simp))
  | cons nx tl ih =>
    intro rp b hz hg hch hs hs'
    obtain ⟨hl, hch'⟩ := List.isChain_cons_cons.1 hch
    have hnx := hg nx (by simp)
    obtain ⟨rp', b', δ, h1, h2, h3, h4⟩ := selfCorrection_spec rp b nx hz hnx hl
    have hz' : Zip (b' :: rp') (nx.timeshift δ) := h2.cons (hnx.timeshift δ) h3
    have hch'' : (nx.timeshift δ :: tl).IsChain Link := by
      cases tl with
      | nil => exact List.isChain_singleton _
      | cons y tl =>
        rw [List.isChain_cons_cons] at hch' ⊢
        exact ⟨hch'.1.timeshift hnx δ, hch'.2⟩
    have hsp : ∀ c ∈ b' :: rp', 0 ≤ c.stateB.speed := key_speed h4 hs
    obtain ⟨out, w', o1, o2, o3⟩ := ih (b' :: rp') _ hz' (fun c hc => hg c (by simp [hc])) hch'' (by
      intro c hc
      rcases List.mem_cons.1 hc with rfl | hc
      · exact hs' nx (by simp)
      · exact hsp c hc) (fun c hc => hs' c (by simp [hc]))
    obtain ⟨w1, w2⟩ := selfCorrectionW_spec rp b (some nx)
    rcases hw : selfCorrectionW rp b (some nx) with e | ⟨r, w⟩
    · rw [hw, h1] at w1
      cases w1
    · rw [hw, h1] at w1
      simp only [Except.map, Except.ok.injEq] at w1
      obtain ⟨hpos, hw'⟩ := w2 _ _ hw
      subst w1
      refine ⟨out, w ++ w', ?_, ?_, ?_⟩
      · rw [correctFromW, hw]
        simp only [bind_ok, Option.getD_some, o1]
      · intro x hx
        rcases List.mem_append.1 hx with hx | hx
        · obtain ⟨c, hc, rfl⟩ := hw' x hx
          exact (h2.good c hc).quiet (hsp c hc)
        · exact o2 x hx
      · have := List.length_pos_iff.2 hpos
        simp only [List.length_cons, List.length_append]
        omega

/-- **C78, no warnings.** Planning a regular program with any firmware succeeds, and while it corrects the
blocks it checks every block at least once and never prints that a segment "does not adhere to machine
limits". The blocks are those of the model without the checks. -/
theorem c78_quiet (fw : Firmware) {states : List (PState ℝ)} (hreg : Regular states) :
    ∃ bs w, planW fw states = .ok (bs, w) ∧ plan fw states = .ok bs ∧ (∀ x ∈ w, x = false) ∧
      bs.length ≤ w.length := by
  obtain ⟨bs₀, g1, g2, g3, g4, g5, g6, g7, g8, _, _⟩ := genBlocks_spec fw hreg states [] none rfl (by simp)
    (by simp)
  simp only [Option.toList_none, List.nil_append, List.getLast?_nil] at g1 g3 g5 g6 g8
  cases bs₀ with
  | nil => exact ⟨[], [], by simp only [planW, g1, bind_ok, correctAllW], by simp only [plan, g1, bind_ok, correctAll],
      by simp, by simp⟩
  | cons b tl =>
    have hz : Zip [] b := ⟨by simpa using (g2 b (by simp)).1, List.isChain_singleton _, by
      intro f hf
      simp only [List.getLast?_singleton, Option.mem_def, Option.some.injEq] at hf
      subst hf
      exact g4 rfl b (by simp)⟩
    have hsp : ∀ c ∈ b :: tl, 0 ≤ c.stateB.speed := by
      intro c hc
      have : (c.stateA, c.stateB) ∈ active none states := by
        rw [← g5]
        exact List.mem_map_of_mem hc
      have hm := List.mem_filter.1 this
      exact (hreg.speed _ (List.of_mem_zip hm.1).2).le
    obtain ⟨out, w, o1, o2, o3⟩ := correctFromW_quiet tl [] b hz (fun c hc => (g2 c (by simp [hc])).1) g3
      (by simpa using hsp b (by simp)) (fun c hc => hsp c (by simp [hc]))
    obtain ⟨out', p1, _, _, p4, _⟩ := correctFrom_spec tl [] b hz (fun c hc => (g2 c (by simp [hc])).1) g3
    have he := correctFromW_blocks tl [] b
    rw [o1, p1] at he
    simp only [Except.map, Except.ok.injEq] at he
    subst he
    refine ⟨out, w, by simp only [planW, g1, bind_ok, correctAllW, o1],
      by simp only [plan, g1, bind_ok, correctAll, p1], o2, ?_⟩
    have := congrArg List.length p4
    simp at this
    omega

/-- **C78, what is checked.** The check of a segment with the settings of a state passes exactly if the
segment ends within 1e-6 of where its velocities lead, time does not run backwards, and neither end is faster than the feedrate (up to the
tolerance of `np.isclose`); otherwise it is a `ValueError`. The limits of the axes are not looked at. -/
theorem c78_check (s : Segment ℝ) (f : ℝ) :
    let ok := (s.posEnd.sub
        (s.posBegin.add (((s.velBegin.add s.velEnd).mul (s.tEnd - s.tBegin)).div 2))).norm3 ≤ 1e-6 ∧
      s.tBegin ≤ s.tEnd ∧ (s.velBegin.norm3 ≤ f ∨ |s.velBegin.norm3 - f| ≤ 1e-8 + 1e-5 * |f|) ∧
      (s.velEnd.norm3 ≤ f ∨ |s.velEnd.norm3 - f| ≤ 1e-8 + 1e-5 * |f|)
    let out := TSegment.selfCheck s.tBegin s.tEnd ⟨.position, s.posBegin⟩ ⟨.velocity, s.velBegin⟩
      (.obj ⟨.position, s.posEnd⟩) (.obj ⟨.velocity, s.velEnd⟩) (some f)
    (ok → s.adheres f = true ∧ out = .ok ()) ∧ (¬ ok → s.adheres f = false ∧ out = .error .valueError) := by
  intro ok out
  have h1 : s.adheres f = true ↔ ok := adheres_iff s f
  have h2 : out = if s.adheres f = true then .ok () else .error .valueError := by
    simp only [out, TSegment.selfCheck, Obj.add, Cls.isA, decide_true, Bool.true_or, if_true, bind_ok, Obj.mul, Obj.div,
      Obj.getVec, vecOf, Segment.adheres, Segment.selfCheckOk, Obj.getNorm, Bool.false_eq_true, if_false]
    by_cases c1 : (1e-6 : ℝ) <
        (s.posEnd.sub (s.posBegin.add (((s.velBegin.add s.velEnd).mul (s.tEnd - s.tBegin)).div 2))).norm3
    · simp [c1]
    · by_cases c2 : s.tEnd < s.tBegin
      · simp [c1, c2]
      · simp only [c1, c2, if_false, decide_false, Bool.not_false, Bool.true_and]
        by_cases c3 : f < s.velBegin.norm3 ∧ ¬ isClose s.velBegin.norm3 f = true
        · simp [c3]
        · rw [if_neg c3]
          have c3' : (decide (f < s.velBegin.norm3) && !isClose s.velBegin.norm3 f) = false := by
            rw [← Bool.not_eq_true, Bool.and_eq_true, decide_eq_true_eq, Bool.not_eq_true',
              ← Bool.not_eq_true]
            exact c3
          rw [c3']
          by_cases c4 : f < s.velEnd.norm3 ∧ ¬ isClose s.velEnd.norm3 f = true
          · simp [c4]
          · rw [if_neg c4]
            have c4' : (decide (f < s.velEnd.norm3) && !isClose s.velEnd.norm3 f) = false := by
              rw [← Bool.not_eq_true, Bool.and_eq_true, decide_eq_true_eq, Bool.not_eq_true',
                ← Bool.not_eq_true]
              exact c4
            rw [c4']
            simp
  refine ⟨fun h => ⟨h1.2 h, by rw [h2, if_pos (h1.2 h)]⟩, fun h => ?_⟩
  have : s.adheres f = false := Bool.eq_false_iff.2 fun hc => h (h1.1 hc)
  exact ⟨this, by rw [h2, this]; rfl⟩

/-- A warning is possible: a segment of 20 mm/s in a state with a feedrate of 10 mm/s. -/
example : (⟨0, 1, ⟨0, 0, 0, 0⟩, ⟨20, 0, 0, 0⟩, ⟨20, 0, 0, 0⟩, ⟨20, 0, 0, 0⟩⟩ : Segment ℝ).adheres 10 = false := by
  refine ((c78_check _ _).2 fun h => ?_).1
  have hn : (⟨20, 0, 0, 0⟩ : Vec4 ℝ).norm3 = 20 := by
    simp only [Vec4.norm3, PyMath.sqrt]
    rw [show (20 * 20 + 0 * 0 + 0 * 0 : ℝ) = 20 ^ 2 by norm_num]
    exact Real.sqrt_sq (by norm_num)
  have := h.2.2.1
  rw [hn] at this
  rcases this with h | h <;> norm_num [abs_of_pos] at h

/-- The program of the queries: every block is checked, nothing is printed. -/
example (fw : Firmware) : ∃ bs w, planW fw Demo.prog = .ok (bs, w) ∧ plan fw Demo.prog = .ok bs ∧
    (∀ x ∈ w, x = false) ∧ bs.length ≤ w.length := c78_quiet fw Demo.regular

end PyGCD
