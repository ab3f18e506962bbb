import Verif.Props.Runnable

/-!
# Property C123: negative feedrates

A negative feedrate turns the direction of the planner block around while the speed it starts with stays negative. What
comes out is inconsistent, and the checks of the planner notice it.
-/

set_option linter.unusedSectionVars false
set_option linter.unusedSimpArgs false

namespace PyGCD
open Vec4 Spec

variable {fw : Firmware} {states : List (PState ℝ)} {bs : List (Block ℝ)}

theorem segment_make_cases (t t' : ℝ) (p v p' v' : Vec4 ℝ) :
    Segment.make t t' p v p' v' = .ok ⟨t, t', p, v, p', v'⟩ ∨ Segment.make t t' p v p' v' = .error .valueError := by
  unfold Segment.make
  by_cases h : Segment.selfCheckOk ⟨t, t', p, v, p', v'⟩ = true
  · exact Or.inl (if_pos h)
  · exact Or.inr (if_neg h)

theorem segment_make_backwards {t t' : ℝ} (h : t' < t) (p v p' v' : Vec4 ℝ) :
    Segment.make t t' p v p' v' = .error .valueError := by
  unfold Segment.make
  rw [if_neg]
  simp [Segment.selfCheckOk, h]

theorem segment_make_astray {t t' : ℝ} {p v p' v' : Vec4 ℝ}
    (h : 1e-6 < (p'.sub (p.add (((v.add v').mul (t' - t)).div 2))).norm3) :
    Segment.make t t' p v p' v' = .error .valueError := by
  unfold Segment.make
  rw [if_neg]
  simp [Segment.selfCheckOk, h]

/-- The trapezoid of a negative feedrate is inconsistent. -/
theorem trapezoid_negative (prev : Segment ℝ) {u : Vec4 ℝ} {acc vT vE d : ℝ} {eo : Bool} (hacc : 0 < acc) (hv : vT < 0)
    (h : (eo = false ∧ u.norm3 = 1 ∧ 5e-7 < d) ∨ vT < vE) :
    trapezoid prev u acc vT vT vE d eo = .error .valueError := by
  unfold trapezoid
  simp only [bind, Except.bind]
  rcases segment_make_cases prev.tEnd (prev.tEnd + (vT - vT) / acc) prev.posEnd (u.mul vT)
    (prev.posEnd.add (u.mul ((vT - vT) * (vT + vT) / (2 * acc)))) (u.mul vT) with hA | hA
  swap
  · rw [hA]
  rw [hA]
  simp only
  by_cases hE : vT < vE
  · generalize hp1 : prev.posEnd.add (u.mul ((vT - vT) * (vT + vT) / (2 * acc))) = p1
    generalize ht1 : prev.tEnd + (vT - vT) / acc = t1
    generalize hc : d - (vE - vT) * (vE + vT) / (2 * -acc) - (vT - vT) * (vT + vT) / (2 * acc) = c
    generalize ht2 : t1 + c / (if eo = true then (u.mul vT).norm4 else (u.mul vT).norm3) = t2
    rcases segment_make_cases t1 t2 p1 (u.mul vT) (p1.add (u.mul c)) (u.mul vT) with hB | hB
    · rw [hB]
      simp only
      rw [segment_make_backwards]
      have : (vT - vE) / acc < 0 := div_neg_of_neg_of_pos (by linarith) hacc
      linarith
    · rw [hB]
  · obtain ⟨rfl, hu, hd⟩ := h.resolve_right hE
    rw [segment_make_astray]
    have hdown : 0 ≤ (vE - vT) * (vE + vT) / (2 * acc) :=
      div_nonneg (mul_nonneg_of_nonpos_of_nonpos (by linarith) (by linarith)) (by positivity)
    have hc : d - (vE - vT) * (vE + vT) / (2 * -acc) - (vT - vT) * (vT + vT) / (2 * acc) =
        d + (vE - vT) * (vE + vT) / (2 * acc) := by
      rw [mul_neg, div_neg]
      ring
    rw [hc]
    set c := d + (vE - vT) * (vE + vT) / (2 * acc) with hcd
    have hn : (u.mul vT).norm3 = -vT := by
      rw [norm3_mul, hu, one_mul, abs_of_neg hv]
    simp only [Bool.false_eq_true, if_false, hn]
    have e : ∀ p : Vec4 ℝ, (p.add (u.mul c)).sub (p.add ((((u.mul vT).add (u.mul vT)).mul
        (prev.tEnd + (vT - vT) / acc + c / -vT - (prev.tEnd + (vT - vT) / acc))).div 2)) = u.mul (2 * c) := by
      intro p
      have hz : c = -(vT * (c / -vT)) := by
        have := hv.ne
        field_simp
      rw [add_sub_cancel_left]
      generalize c / -vT = w at hz
      rw [hz]
      ext <;> simp only [Vec4.add, Vec4.sub, Vec4.mul, Vec4.div] <;> ring
    rw [e, norm3_mul, hu, one_mul, abs_of_pos (by linarith)]
    linarith

/-- A move with a negative feedrate cannot be planned. -/
theorem planMove_negative (prev : Segment ℝ) {u : Vec4 ℝ} {B : PState ℝ} {vE d : ℝ} {eo : Bool} (hacc : 0 < B.pAcc)
    (hv : B.speed ≤ -1e-7) (h : (eo = false ∧ u.norm3 = 1 ∧ 5e-7 < d) ∨ B.speed < vE) :
    planMove prev u B d eo vE = .error .runtimeError ∨ planMove prev u B d eo vE = .error .nameError := by
  have hneg : B.speed < 0 := by linarith
  have hvb : (if prev.velEnd.norm3 < B.speed then prev.velEnd.norm3 else B.speed) = B.speed :=
    if_neg (by have := norm3_nonneg prev.velEnd; linarith)
  have far : ∀ x : ℝ, 0 ≤ x → ¬ (x < B.speed ∨ isClose x B.speed = true) := by
    rintro x hx (h | h)
    · linarith
    · rw [isClose_real] at h
      rw [abs_of_pos (by linarith), abs_of_neg hneg] at h
      norm_num at h hv
      linarith
  have sq : ∀ x : ℝ, 0 ≤ (PyMath.sqrt x : ℝ) := fun x => Real.sqrt_nonneg x
  have nn : ∀ x : ℝ, 0 ≤ (if 0 ≤ x then (PyMath.sqrt x : ℝ) else 0) := by
    intro x
    split
    · exact sq _
    · exact le_refl _
  unfold planMove
  simp only [hvb]
  split
  · left
    rw [trapezoid_negative prev hacc hneg h]
    rfl
  · right
    rw [if_neg fun hc => far _ (sq _) hc.2.2, if_neg, if_neg]
    · rfl
    · intro hc
      have := nn (if vE < B.speed then B.speed * B.speed - 2 * B.pAcc * d else B.speed * B.speed + 2 * B.pAcc * d)
      linarith
    · exact fun hc => far _ (nn _) hc.2

theorem mkaStep_zero (j f : ℝ) (s : MkaAcc ℝ) (v v' : ℝ) (h : s.vMaxJunc = 0) : (mkaStep j f s v v').vMaxJunc = 0 := by
  unfold mkaStep
  simp only
  split_ifs <;> simp_all

/-- A move of the filament alone ends at rest. -/
theorem junctionVel_filament {A B : PState ℝ} (h : (B.position.sub A.position).norm3 = 0) (rest : List (PState ℝ)) :
    junctionVel fw (some A) B rest = 0 := by
  have hn : (connectState A B).norm3 = 0 := by
    unfold connectState
    simp only [h, pyAbs_real, abs_zero, lt_irrefl, if_false]
    rw [norm3_eq_zero] at h ⊢
    split <;> simp [Vec4.mul, Vec4.div, Vec4.zero, h.1, h.2.1, h.2.2]
  unfold junctionVel
  simp only [targetVel]
  cases fw <;> simp only
  · unfold calcJD
    simp only [hn, true_or, if_true, ite_self]
  · unfold calcKlipper
    simp only [hn, true_or, if_true]
  · unfold calcJerk
    simp only [hn, norm3_div, zero_div, ite_self]
  · unfold calcMKA
    have : pyMin (0 : ℝ) (velNext B rest).norm3 = 0 := by
      unfold pyMin
      split
      · exact le_antisymm (by linarith) (norm3_nonneg _)
      · rfl
    rw [hn, this]
    exact mkaStep_zero _ _ _ _ _ (mkaStep_zero _ _ _ _ _ (mkaStep_zero _ _ _ _ _ (mkaStep_zero _ _ _ _ _ rfl)))

/-- **C123, the block.** No planner block can be made for a move with a negative feedrate (faster than 1e-7 mm/s and
farther than 5e-7 mm, or of the filament alone), whatever the firmware and whatever comes before and after. -/
theorem c123_block {A B : PState ℝ} {rest : List (PState ℝ)} {pb : Option (Block ℝ)}
    (hpb : ∀ b ∈ pb, b.segments ≠ []) (hacc : 0 < B.pAcc) (hv : B.speed ≤ -1e-7)
    (hd : 5e-7 < (B.position.sub A.position).norm3 ∨
      (B.position.sub A.position).norm3 = 0 ∧ B.position.e ≠ A.position.e) :
    mkBlock fw (some A) B rest pb = .error .runtimeError ∨ mkBlock fw (some A) B rest pb = .error .nameError := by
  have hneg : B.speed < 0 := by linarith
  set N := (B.position.sub A.position).norm3 with hN
  have key : ∃ u, (connectState A B).normDir4 = some u ∧ (connectState A B).notZero = true ∧ 0 < (moveDistance A B).1 ∧
      (((moveDistance A B).2 = false ∧ u.norm3 = 1 ∧ 5e-7 < (moveDistance A B).1) ∨
        B.speed < junctionVel fw (some A) B rest) := by
    rcases hd with hd | ⟨hd, he⟩
    · have hN0 : 0 < N := by linarith
      have hc : connectState A B = ((B.position.sub A.position).div N).mul B.speed := by
        unfold connectState
        simp only [← hN, pyAbs_real, abs_of_pos hN0, hN0, if_true]
      have hn : (connectState A B).norm3 = -B.speed := by
        rw [hc, norm3_mul, norm3_div, ← hN, abs_of_pos hN0, div_self hN0.ne', one_mul, abs_of_neg hneg]
      have hp : 0 < (connectState A B).norm3 := by linarith
      have hm : moveDistance A B = (N, false) := by
        unfold moveDistance tDistance
        simp only [← hN, hN0.ne', if_false]
      refine ⟨_, by rw [normDir4, if_pos hp], ?_, by rw [hm]; exact hN0, Or.inl ⟨by rw [hm], ?_, by rw [hm]; exact hd⟩⟩
      · rw [notZero, decide_eq_true_eq]
        refine lt_of_le_of_ne (norm4_nonneg _) fun h => ?_
        rw [eq_comm, norm4_eq_zero] at h
        rw [h, norm3_zero] at hp
        exact lt_irrefl _ hp
      · rw [norm3_div, abs_of_pos hp, div_self hp.ne']
    · have hE : (B.position.sub A.position).e ≠ 0 := sub_ne_zero.2 he
      have hc : connectState A B = ((B.position.sub A.position).div |(B.position.sub A.position).e|).mul B.speed := by
        unfold connectState
        simp only [← hN, hd, pyAbs_real, abs_zero, lt_irrefl, if_false, abs_pos.2 hE, if_true]
      have hn4 : 0 < (connectState A B).norm4 := by
        refine lt_of_le_of_ne (norm4_nonneg _) fun h => ?_
        rw [eq_comm, norm4_eq_zero, hc] at h
        have := congrArg Vec4.e h
        simp only [Vec4.mul, Vec4.div, Vec4.zero, mul_eq_zero, div_eq_zero_iff, abs_eq_zero, hE, or_self, false_or] at this
        exact hneg.ne this
      have hn3 : (connectState A B).norm3 = 0 := by
        rw [hc, norm3_mul, norm3_div, ← hN, hd, zero_div, MulZeroClass.zero_mul]
      refine ⟨_, by rw [normDir4, if_neg (by rw [hn3]; exact lt_irrefl _), if_pos hn4], ?_, ?_, Or.inr ?_⟩
      · rw [notZero, decide_eq_true_eq]
        exact hn4
      · unfold moveDistance tDistance tDistance4
        simp only [← hN, hd, if_true]
        refine lt_of_le_of_ne (norm4_nonneg _) fun h => ?_
        rw [eq_comm, norm4_eq_zero] at h
        exact hE (congrArg Vec4.e h)
      · rw [junctionVel_filament hd]
        exact hneg
  obtain ⟨u, k1, k2, _, k4⟩ := key
  unfold mkBlock
  simp only [targetVel, k1, k2, if_true, moveMaker, bind, Except.bind]
  cases pb with
  | none =>
    simp only
    rcases planMove_negative (Segment.initial A.position) hacc hv k4 with h | h
    · exact Or.inl (by rw [h])
    · exact Or.inr (by rw [h])
  | some pb =>
    obtain ⟨s, hs⟩ : ∃ s, pb.segments.getLast? = some s := by
      cases hl : pb.segments.getLast? with
      | none => exact absurd (List.getLast?_eq_none_iff.1 hl) (hpb pb rfl)
      | some s => exact ⟨s, rfl⟩
    simp only [Block.lastSeg, hs]
    rcases planMove_negative s hacc hv k4 with h | h
    · exact Or.inl (by rw [h])
    · exact Or.inr (by rw [h])

/-- **C123.** A program that moves with a negative feedrate (faster than 1e-7 mm/s and farther than 5e-7 mm, or moves the
filament alone) is never simulated, whatever the firmware, the other settings and the other lines. -/
theorem c123_rejected {pre post : List (PState ℝ)} {A B : PState ℝ} (hs : states = pre ++ A :: B :: post)
    (hacc : 0 < B.pAcc) (hv : B.speed ≤ -1e-7)
    (hd : 5e-7 < (B.position.sub A.position).norm3 ∨
      (B.position.sub A.position).norm3 = 0 ∧ B.position.e ≠ A.position.e) :
    ∃ err, plan fw states = .error err := by
  have step : ∀ pb : Option (Block ℝ), (∀ b ∈ pb, b.segments ≠ []) →
      ∃ err, genBlocks fw (some A) pb (B :: post) = .error err := by
    intro pb hpb
    rw [genBlocks]
    rcases c123_block (fw := fw) (rest := post) hpb hacc hv hd with h | h <;> rw [h] <;> exact ⟨_, rfl⟩
  have key : ∀ (pre : List (PState ℝ)) (pa : Option (PState ℝ)) (pb : Option (Block ℝ)), (∀ b ∈ pb, b.segments ≠ []) →
      ∃ err, genBlocks fw pa pb (pre ++ A :: B :: post) = .error err := by
    intro pre
    induction pre with
    | nil =>
      intro pa pb hpb
      rw [List.nil_append, genBlocks]
      cases hm : mkBlock fw pa A (B :: post) pb with
      | error err => exact ⟨err, rfl⟩
      | ok b =>
        simp only [bind, Except.bind]
        by_cases he : b.segments.isEmpty = true
        · rw [if_pos he]
          exact step pb hpb
        · rw [if_neg he]
          obtain ⟨err, h⟩ := step (some b) (by
            intro b' hb'
            cases hb'
            simpa using he)
          exact ⟨err, by rw [h]⟩
    | cons x pre ih =>
      intro pa pb hpb
      rw [List.cons_append, genBlocks]
      cases hm : mkBlock fw pa x (pre ++ A :: B :: post) pb with
      | error err => exact ⟨err, rfl⟩
      | ok b =>
        simp only [bind, Except.bind]
        by_cases he : b.segments.isEmpty = true
        · rw [if_pos he]
          exact ih (some x) pb hpb
        · rw [if_neg he]
          obtain ⟨err, h⟩ := ih (some x) (some b) (by
            intro b' hb'
            cases hb'
            simpa using he)
          exact ⟨err, by rw [h]⟩
  obtain ⟨err, h⟩ := key pre none none (by simp)
  exact ⟨err, by rw [plan, hs, h]; rfl⟩

theorem norm3_ten (y z e : ℝ) : (5e-7 : ℝ) < ((⟨10, y, z, e⟩ : Vec4 ℝ).norm3) := by
  have h : (10 : ℝ) ≤ (⟨10, y, z, e⟩ : Vec4 ℝ).norm3 := by
    have := Real.le_sqrt' (x := 10) (y := 10 * 10 + y * y + z * z) (by norm_num)
    unfold Vec4.norm3
    exact this.2 (by nlinarith [mul_self_nonneg y, mul_self_nonneg z])
  norm_num at h ⊢
  linarith

/-- Two states, ten millimetres apart, with a negative feedrate meet the hypotheses. -/
example : ∃ err, plan .klipper
    [(⟨⟨0, 0, 0, 0⟩, 10, 100, 5, none, none⟩ : PState ℝ), ⟨⟨10, 0, 0, 0⟩, -10, 100, 5, none, none⟩] = .error err :=
  c123_rejected (pre := []) (post := []) rfl (by norm_num) (by norm_num)
    (Or.inl (by simpa [Vec4.sub] using norm3_ten 0 0 0))

/-- A line of the file is a pair of neighbouring states. -/
theorem pair_shows {pf : List Char → Option ℝ} {l : Line} {lq : List Line} : ∀ (lp : List Line) {q : Printer} {w : Option ℝ}
    {ps : List (PState ℝ)}, List.Forall₂ Shows ps ((q, w) :: q.run pf (lp ++ l :: lq)) →
    ∃ pre A B post wA, ps = pre ++ A :: B :: post ∧ Shows A (q.after pf lp, wA) ∧
      Shows B ((q.after pf lp).exec pf l, l.wait pf) := by
  intro lp
  induction lp with
  | nil =>
    intro q w ps h
    cases h with
    | cons h1 h2 =>
      cases h2 with
      | cons h3 h4 => exact ⟨[], _, _, _, w, rfl, h1, h3⟩
  | cons y lp ih =>
    intro q w ps h
    cases h with
    | cons h1 h2 =>
      obtain ⟨pre, A, B, post, wA, e, h3, h4⟩ := ih h2
      exact ⟨_ :: pre, A, B, post, wA, by rw [e]; rfl, h3, h4⟩

/-- **C123, for files.** A file with a line that moves the printer while the feedrate is negative raises an error. -/
theorem c123_file {pf : List Char → Option ℝ} {d : Dict (SVal ℝ)} {q : Printer} {pre post : List Line} {l : Line}
    {content : List Char} (hpf : FloatLike pf) (hd : SetupAccepted d) (hq : PrinterOf d q)
    (hp : ∀ k ∈ pre ++ l :: post, k.Plain pf) (hc : FileOf (pre ++ l :: post) content)
    (hacc : 0 < ((q.after pf pre).exec pf l).acc) (hv : ((q.after pf pre).exec pf l).feed ≤ -1e-7)
    (hm : 5e-7 < (((q.after pf pre).exec pf l).point.sub (q.after pf pre).point).norm3 ∨
      (((q.after pf pre).exec pf l).point.sub (q.after pf pre).point).norm3 = 0 ∧
        ((q.after pf pre).exec pf l).place .E ≠ (q.after pf pre).place .E) :
    ∃ err, simulateFile pf d content = .error err := by
  obtain ⟨ps, h1, h2⟩ := c67_read_as_written hpf hq hp hc
  obtain ⟨p, A, B, r, wA, e, hA, hB⟩ := pair_shows pre h2
  have key : ∀ fw, ∃ err, plan fw ps = .error err := fun fw =>
    c123_rejected e (by rw [hB.acc]; exact hacc) (by rw [hB.speed]; exact hv) (by
      rw [hA.position, hB.position]
      exact hm)
  simp only [simulateFile, (c46_validation d).1.2 hd, h1, bind, Except.bind]
  obtain ⟨err, h⟩ := key (firmwareOf d)
  exact ⟨err, by simp only [simulate, h, bind, Except.bind]⟩

/-- A reading of numbers that knows `11` and `-6`. -/
noncomputable def Demo.signed (cs : List Char) : Option ℝ :=
  if cs = ['1', '1'] then some 11 else if cs = ['-', '6'] then some (-6) else none

theorem Demo.signed_floatLike : FloatLike Demo.signed where
  empty := by simp [Demo.signed]
  letter := by
    intro l c t hl _
    have h1 : l ≠ '1' := by rintro rfl; simp at hl
    have h2 : l ≠ '-' := by rintro rfl; simp at hl
    simp [Demo.signed, h1, h2]

/-- The one line of the file. -/
def Demo.backwards : Line := ⟨some .G1, [⟨1, 'X', ['1', '1']⟩, ⟨1, 'F', ['-', '6']⟩], 0, none, []⟩

/-- A file with a negative feedrate meets the hypotheses. -/
example : ∃ err, simulateFile Demo.signed Demo.plainSetup "G1 X11 F-6\n".toList = .error err := by
  have hacc : SetupAccepted Demo.plainSetup := by
    refine ⟨by decide, ?_⟩
    intro k hk
    rw [← mem_keys_iff] at hk
    exact Or.inl hk
  refine c123_file (pre := []) (l := Demo.backwards) (post := []) Demo.signed_floatLike hacc Demo.printer_of ?_ ?_ ?_ ?_
    (Or.inl ?_)
  · intro l hl
    rw [List.nil_append, List.mem_singleton] at hl
    subst hl
    exact ⟨by simp [Demo.backwards], by simp [Demo.backwards], by simp [Demo.backwards],
      by simp [Demo.backwards, plainLetters], by simp [Demo.backwards], by simp [Demo.backwards, Demo.signed, numChars],
      by simp [Demo.backwards], by simp [Demo.backwards]⟩
  · refine ⟨"G1 X11 F-6\n".toList, ["G1 X11 F-6\n".toList], ?_, ?_, ?_⟩
    · repeat' first | exact .nil | refine .other (by decide) ?_
    · exact .line (l := "G1 X11 F-6".toList) (by decide) .none
    · exact .cons (Or.inr rfl) .nil
  · simp [Printer.after, Printer.exec, Demo.backwards, Demo.printer]
  · simp [Printer.after, Printer.exec, Demo.backwards, Demo.printer, Line.value, Demo.signed]
    norm_num
  · have h : ((Demo.printer.after Demo.signed []).exec Demo.signed Demo.backwards).point.sub
        (Demo.printer.after Demo.signed []).point = ⟨10, 0, 0, 0⟩ := by
      simp [Printer.after, Printer.exec, Demo.backwards, Demo.printer, Line.value, Demo.signed, Printer.point, letter,
        Printer.abs, Vec4.sub]
      norm_num
    rw [h]
    exact norm3_ten 0 0 0

end PyGCD
