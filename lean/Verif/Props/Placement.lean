import Verif.Spec.Placement
import Verif.Proofs.PlacementLemmas
import Verif.Props.Corners
import Verif.Props.Stops
import Verif.Props.Query

/-!
# Property C70: where and how a part is placed does not change the print
-/

set_option linter.unusedSectionVars false
set_option linter.unusedSimpArgs false

namespace PyGCD
open Vec4 Spec

variable {fw : Firmware} {states : List (PState ℝ)} {bs : List (Block ℝ)} {g L : Vec4 ℝ → Vec4 ℝ}

theorem Sym.inj (h : Sym g L) {p q : Vec4 ℝ} : g p = g q ↔ p = q := by
  constructor
  · intro e
    have h1 := h.gsub p q
    rw [e] at h1
    have h2 : L (p.sub q) = Vec4.zero := by
      rw [← h1]
      ext <;> simp [Vec4.sub, Vec4.zero]
    have h3 := h.dot (p.sub q) (p.sub q)
    have h4 := h.le (p.sub q)
    rw [h2] at h3 h4
    refine vec_eq_of_dot (by rw [← h3]; simp [Vec4.dot3, Vec4.zero]) ?_
    simp only [Vec4.zero, Vec4.sub] at h4
    linarith
  · rintro rfl
    rfl

theorem Sym.regular (h : Sym g L) (hreg : Regular states) : Regular (states.map (placed g)) := by
  have key : ∀ pre s post, states.map (placed g) = pre ++ s :: post → ∃ pre' s' post',
      states = pre' ++ s' :: post' ∧ pre = pre'.map (placed g) ∧ s = placed g s' := by
    intro pre s post he
    obtain ⟨l1, l2, e1, e2, e3⟩ := List.map_eq_append_iff.1 he
    obtain ⟨s', l3, e4, e5, e6⟩ := List.map_eq_cons_iff.1 e3
    exact ⟨l1, s', l3, by rw [e1, e4], e2.symm, e5.symm⟩
  have all : ∀ P : PState ℝ → Prop, (∀ s, P s → P (placed g s)) → (∀ s ∈ states, P s) →
      ∀ s ∈ states.map (placed g), P s := by
    intro P hP hs s hm
    obtain ⟨s', h1, rfl⟩ := List.mem_map.1 hm
    exact hP _ (hs _ h1)
  refine ⟨all _ (fun s hs => hs) hreg.speed, all _ (fun s hs => hs) hreg.acc, all _ (fun s hs => hs) hreg.jerk,
    all (fun s => ∀ p ∈ s.pause, 0 ≤ p) (fun s hs => hs) hreg.pause, ?_, ?_⟩
  · intro pre s post he hp
    obtain ⟨pre', s', post', e1, rfl, rfl⟩ := key pre s post he
    obtain ⟨A, h1, h2⟩ := hreg.stays pre' s' post' e1 hp
    refine ⟨placed g A, by rw [List.getLast?_map, h1]; rfl, ?_⟩
    simp only [placed, h2]
  · intro pre s post he hp
    obtain ⟨pre', s', post', e1, rfl, rfl⟩ := key pre s post he
    obtain ⟨x, hx, y, hy, hxy⟩ := hreg.moved pre' s' post' e1 hp
    exact ⟨_, List.mem_map_of_mem hx, _, List.mem_map_of_mem hy, fun e => hxy (h.inj.1 e)⟩

theorem Sym.plan_ok (h : Sym g L) (hfw : fw ≠ .mka ∨ L = id) (hreg : Regular states)
    (hp : plan fw states = .ok bs) : plan fw (states.map (placed g)) = .ok (bs.map (placedBlock g L)) := by
  obtain ⟨_, bs', _, _, h', _⟩ := c26_correction_total fw (h.regular hreg)
  rw [h', h.plan_placed fw hfw states bs bs' hp h']

theorem path_placed (bs : List (Block ℝ)) :
    Spec.path (bs.map (placedBlock g L)) = (Spec.path bs).map (placedSeg g L) := by
  simp only [Spec.path, List.flatMap_map, List.map_flatMap]
  rfl

theorem searchFresh_placed (t : ℝ) : ∀ (path : List (Segment ℝ)) (i : ℕ),
    searchFresh t i (path.map (placedSeg g L)) =
      (searchFresh t i path).map fun r => (placedSeg g L r.1, r.2) := by
  intro path
  induction path with
  | nil => intro i; rfl
  | cons s path ih =>
    intro i
    rw [List.map_cons, searchFresh, searchFresh, ih]
    have e : (placedSeg g L s).tBegin = s.tBegin ∧ (placedSeg g L s).tEnd = s.tEnd := ⟨rfl, rfl⟩
    rw [e.1, e.2]
    by_cases hc : s.tBegin ≤ t ∧ t < s.tEnd
    · rw [if_pos hc, if_pos hc]
      rfl
    · rw [if_neg hc, if_neg hc]

theorem searchWarm_placed (t : ℝ) : ∀ (path : List (Segment ℝ)) (i : ℕ),
    searchWarm t i (path.map (placedSeg g L)) =
      (searchWarm t i path).map fun r => (placedSeg g L r.1, r.2) := by
  intro path
  induction path with
  | nil => intro i; rfl
  | cons s path ih =>
    intro i
    rw [List.map_cons, searchWarm, searchWarm, ih]
    have e : (placedSeg g L s).tBegin = s.tBegin ∧ (placedSeg g L s).tEnd = s.tEnd := ⟨rfl, rfl⟩
    rw [e.1, e.2]
    by_cases hc : s.tBegin ≤ t ∧ t ≤ s.tEnd
    · rw [if_pos hc, if_pos hc]
      rfl
    · rw [if_neg hc, if_neg hc]

theorem findSegment_placed (path : List (Segment ℝ)) (t : ℝ) (last : Option ℕ) :
    findSegment (path.map (placedSeg g L)) t last =
      (findSegment path t last).map (Option.map fun r => (placedSeg g L r.1, r.2)) := by
  have hu : useFresh (path.map (placedSeg g L)) t last = useFresh path t last := by
    unfold useFresh
    cases last with
    | none => rfl
    | some i =>
      simp only [List.getElem?_map]
      cases path[i]? <;> rfl
  unfold findSegment
  rw [hu, List.getLast?_map, ← List.map_drop, searchFresh_placed, searchWarm_placed]
  cases path.getLast? with
  | none => rfl
  | some l =>
    simp only [Option.map_some, placedSeg]
    split
    · rfl
    · split
      · cases searchFresh t 0 path <;> rfl
      · cases searchWarm t (last.getD 0) (path.drop (last.getD 0)) <;> rfl

theorem Sym.velocity (h : Sym g L) (s : Segment ℝ) (t : ℝ) :
    (placedSeg g L s).getVelocity t = (s.getVelocity t).map L := by
  unfold Segment.getVelocity
  by_cases hc : t < s.tBegin ∨ s.tEnd < t
  · rw [if_pos hc, if_pos (show t < (placedSeg g L s).tBegin ∨ (placedSeg g L s).tEnd < t from hc)]
    rfl
  · rw [if_neg hc, if_neg (show ¬ (t < (placedSeg g L s).tBegin ∨ (placedSeg g L s).tEnd < t) from hc)]
    simp only [Except.map, h.ladd, h.lmul]
    by_cases h0 : 0 < s.tEnd - s.tBegin
    · rw [if_pos h0, if_pos (show 0 < (placedSeg g L s).tEnd - (placedSeg g L s).tBegin from h0), h.ldiv, h.lsub]
      rfl
    · rw [if_neg h0, if_neg (show ¬ 0 < (placedSeg g L s).tEnd - (placedSeg g L s).tBegin from h0), h.lzero]
      rfl

theorem Sym.position (h : Sym g L) (s : Segment ℝ) (t : ℝ) :
    (placedSeg g L s).getPosition t = (s.getPosition t).map g := by
  unfold Segment.getPosition
  rw [h.velocity]
  by_cases hc : t < s.tBegin ∨ s.tEnd < t
  · rw [if_pos hc, if_pos (show t < (placedSeg g L s).tBegin ∨ (placedSeg g L s).tEnd < t from hc)]
    rfl
  · rw [if_neg hc, if_neg (show ¬ (t < (placedSeg g L s).tBegin ∨ (placedSeg g L s).tEnd < t) from hc)]
    refine bind_placed _ fun v => ?_
    simp only [placedSeg, Except.map, ← h.ladd, ← h.lmul, ← h.ldiv, ← h.shift]

theorem Sym.answers (h : Sym g L) (path : List (Segment ℝ)) (own : String) (u : Option String) {f : ℝ}
    (hu : InUnit (u.getD own) f) (t : ℝ) (last : Option ℕ) :
    ((∃ e, (getValues path own u t last).1 = .error e ∧
        (getValues (path.map (placedSeg g L)) own u t last).1 = .error e) ∨
      ∃ v p, (getValues path own u t last).1 = .ok (v.mul f, p.mul f) ∧
        (getValues (path.map (placedSeg g L)) own u t last).1 = .ok ((L v).mul f, (g p).mul f)) := by
  unfold getValues
  rw [findSegment_placed]
  cases findSegment path t last with
  | error e => exact Or.inl ⟨e, rfl, rfl⟩
  | ok r =>
    cases r with
    | none => exact Or.inl ⟨_, rfl, rfl⟩
    | some r =>
      obtain ⟨s, i⟩ := r
      simp only [Except.map, Option.map_some, h.velocity, h.position, hu.scaling, bind, Except.bind]
      cases s.getVelocity t with
      | error e => exact Or.inl ⟨e, rfl, rfl⟩
      | ok v =>
        simp only
        cases s.getPosition t with
        | error e => exact Or.inl ⟨e, rfl, rfl⟩
        | ok p => exact Or.inr ⟨v, p, rfl, rfl⟩

theorem getValues_index (path : List (Segment ℝ)) (own : String) (u : Option String) (t : ℝ) (last : Option ℕ) :
    (getValues (path.map (placedSeg g L)) own u t last).2 = (getValues path own u t last).2 := by
  unfold getValues
  rw [findSegment_placed]
  cases findSegment path t last with
  | error e => rfl
  | ok r => cases r <;> rfl

theorem history_placed (path : List (Segment ℝ)) (own : String) (ts : List (ℝ × Option String)) :
    ∀ last, queryHistory (path.map (placedSeg g L)) own ts last = queryHistory path own ts last := by
  induction ts with
  | nil => intro last; rfl
  | cons q ts ih =>
    intro last
    simp only [queryHistory, List.foldl_cons] at ih ⊢
    rw [getValues_index]
    exact ih _

theorem endTime_placed (path : List (Segment ℝ)) (T : ℝ) :
    EndTime (path.map (placedSeg g L)) T ↔ EndTime path T := by
  unfold EndTime
  rw [List.getLast?_map]
  constructor
  · rintro ⟨s, h1, h2⟩
    obtain ⟨s', h3, rfl⟩ := Option.map_eq_some_iff.1 h1
    exact ⟨s', h3, h2⟩
  · rintro ⟨s, h1, h2⟩
    exact ⟨placedSeg g L s, by rw [h1]; rfl, h2⟩

/-- C70 as wanted: a part may be shifted, turned or mirrored, with any firmware. -/
def C70Full : Prop :=
  ∀ (fw : Firmware) (g : Vec4 ℝ → Vec4 ℝ) (states : List (PState ℝ)) (bs bs' : List (Block ℝ)) (T : ℝ), Rigid g →
    Regular states → plan fw states = .ok bs → plan fw (states.map (placed g)) = .ok bs' →
    EndTime (Spec.path bs) T → EndTime (Spec.path bs') T

theorem shift_of_plan (c : Vec4 ℝ)
    (hp : plan fw (states.map (placed fun p => p.add c)) = .ok (bs.map (placedBlock (fun p => p.add c) id))) :
    ∃ bs', plan fw (states.map (placed fun p => p.add c)) = .ok bs' ∧ bs'.length = bs.length ∧
      (∀ T, EndTime (Spec.path bs') T ↔ EndTime (Spec.path bs) T) ∧
      ∀ own u f, InUnit (u.getD own) f → ∀ t history,
        ShiftedAnswer (c.mul f) (getValues (Spec.path bs) own u t (queryHistory (Spec.path bs) own history none)).1
          (getValues (Spec.path bs') own u t (queryHistory (Spec.path bs') own history none)).1 := by
  have h := sym_shift c
  refine ⟨_, hp, by simp, ?_, ?_⟩
  · intro T
    rw [path_placed, endTime_placed]
  · intro own u f hu t history
    rw [path_placed, history_placed]
    rcases h.answers (Spec.path bs) own u hu t (queryHistory (Spec.path bs) own history none) with
      ⟨e, h1, h2⟩ | ⟨v, p, h1, h2⟩
    · exact Or.inl ⟨e, h1, h2⟩
    · refine Or.inr ⟨v.mul f, p.mul f, h1, ?_⟩
      rw [h2]
      congr 2
      ext <;> simp only [Vec4.add, Vec4.mul] <;> ring

/-- **C70.** Shifting a part: with every firmware the print takes as long, and to every query, whatever was asked
before, the answer is the same error or the shifted position and the same velocity. -/
theorem c70_shift (c : Vec4 ℝ) (hreg : Regular states) (hp : plan fw states = .ok bs) :
    ∃ bs', plan fw (states.map (placed fun p => p.add c)) = .ok bs' ∧ bs'.length = bs.length ∧
      (∀ T, EndTime (Spec.path bs') T ↔ EndTime (Spec.path bs) T) ∧
      ∀ own u f, InUnit (u.getD own) f → ∀ t history,
        ShiftedAnswer (c.mul f) (getValues (Spec.path bs) own u t (queryHistory (Spec.path bs) own history none)).1
          (getValues (Spec.path bs') own u t (queryHistory (Spec.path bs') own history none)).1 :=
  shift_of_plan c ((sym_shift c).plan_ok (Or.inr rfl) hreg hp)

theorem rigid_of_plan (hg : Rigid g)
    (hp : plan fw (states.map (placed g)) = .ok (bs.map (placedBlock g fun v => (g v).sub (g Vec4.zero)))) :
    ∃ bs', plan fw (states.map (placed g)) = .ok bs' ∧ bs'.length = bs.length ∧
      (∀ T, EndTime (Spec.path bs') T ↔ EndTime (Spec.path bs) T) ∧
      ∀ own u f, InUnit (u.getD own) f → ∀ t history,
        PlacedAnswer g f (getValues (Spec.path bs) own u t (queryHistory (Spec.path bs) own history none)).1
          (getValues (Spec.path bs') own u t (queryHistory (Spec.path bs') own history none)).1 := by
  have h := hg.sym
  refine ⟨_, hp, by simp, ?_, ?_⟩
  · intro T
    rw [path_placed, endTime_placed]
  · intro own u f hu t history
    rw [path_placed, history_placed]
    rcases h.answers (Spec.path bs) own u hu t (queryHistory (Spec.path bs) own history none) with
      ⟨e, h1, h2⟩ | ⟨v, p, h1, h2⟩
    · exact Or.inl ⟨e, h1, h2⟩
    · refine Or.inr ⟨v.mul f, p, _, h1, h2, ?_, ?_⟩
      · rw [norm3_mul, norm3_mul, h.norm3]
      · simp only [Vec4.mul, h.le]

/-- **C70**, for all firmwares but `MKA`: shifting, turning or mirroring a part. The print takes as long, and to
every query, whatever was asked before, the answer is the same error or the corresponding position with the same
travel speed and the same flow of filament. Missing: with `MKA` it is false, see `c70_refuted`. -/
theorem c70_rigid_partial (hg : Rigid g) (hfw : fw ≠ .mka) (hreg : Regular states) (hp : plan fw states = .ok bs) :
    ∃ bs', plan fw (states.map (placed g)) = .ok bs' ∧ bs'.length = bs.length ∧
      (∀ T, EndTime (Spec.path bs') T ↔ EndTime (Spec.path bs) T) ∧
      ∀ own u f, InUnit (u.getD own) f → ∀ t history,
        PlacedAnswer g f (getValues (Spec.path bs) own u t (queryHistory (Spec.path bs) own history none)).1
          (getValues (Spec.path bs') own u t (queryHistory (Spec.path bs') own history none)).1 :=
  rigid_of_plan hg (hg.sym.plan_ok (Or.inl hfw) hreg hp)

/-! ## `MKA` -/

namespace Demo

/-- The axes, re-labelled: X becomes Y, Y becomes Z, Z becomes X (a turn by 120 degrees). -/
def turned (p : Vec4 ℝ) : Vec4 ℝ := ⟨p.z, p.x, p.y, p.e⟩

theorem rigid_turned : Rigid turned := by
  intro p q
  refine ⟨?_, rfl⟩
  unfold Vec4.norm3
  congr 1
  simp only [turned, Vec4.sub]
  ring

/-- A state of the program `ell`. -/
noncomputable def at3 (x y z : ℝ) : PState ℝ := ⟨⟨x, y, z, 0⟩, 20, 1000, 5, none, none⟩

end Demo

theorem regular_moves {l : List (PState ℝ)} (h : ∀ s ∈ l, 0 < s.speed ∧ 0 < s.pAcc ∧ 0 ≤ s.jerk ∧ s.pause = none) :
    Regular l := by
  have none' : ∀ pre s post, l = pre ++ s :: post → s.pause = none :=
    fun pre s post e => (h s (by rw [e]; simp)).2.2.2
  refine ⟨fun s hs => (h s hs).1, fun s hs => (h s hs).2.1, fun s hs => (h s hs).2.2.1, ?_, ?_, ?_⟩
  · intro s hs p hp
    rw [(h s hs).2.2.2] at hp
    cases hp
  · intro pre s post e hp
    exact absurd (none' pre s post e) hp
  · intro pre s post e hp
    exact absurd (none' pre s post e) hp

/-- The print time of two long moves of 100 mm at 20 mm/s that meet with the junction speed `J`. -/
theorem two_moves {A B C : PState ℝ} {J T : ℝ} (hA : A.pause = none)
    (hB : B.speed = 20 ∧ B.pAcc = 1000 ∧ B.pause = none) (hC : C.speed = 20 ∧ C.pAcc = 1000 ∧ C.pause = none)
    (hAB : (B.position.sub A.position).norm3 = 100) (hBC : (C.position.sub B.position).norm3 = 100)
    (hJ : junctionVel .mka (some A) B [C] = J) (h1 : J ≤ 1) (hreg : Regular [A, B, C])
    (h : plan .mka [A, B, C] = .ok bs) (hT : EndTime (Spec.path bs) T) :
    ∃ w, 0 ≤ w ∧ w ≤ J ∧ J ≤ w + 1e-12 ∧
      T = 10 + 0.04 - J / 1000 - w / 1000 + 0.04 - (1600 - J ^ 2 - w ^ 2) / 40000 := by
  have nAB : B.position ≠ A.position := by
    intro e
    rw [e, norm3_eq_zero.2 (by simp [Vec4.sub])] at hAB
    norm_num at hAB
  have nBC : C.position ≠ B.position := by
    intro e
    rw [e, norm3_eq_zero.2 (by simp [Vec4.sub])] at hBC
    norm_num at hBC
  obtain ⟨hF, hO, _⟩ := plan_opt hreg h
  obtain ⟨hg, hL, hf, _, hl⟩ := PyGCD.plan_ok hreg h
  have hsum := endTime_sum hreg h hT
  rw [actions_cons_skip _ (by simp) hA, actions_cons_take _ (Or.inr ⟨_, rfl, nAB⟩),
    actions_cons_take _ (Or.inr ⟨_, rfl, nBC⟩), actions] at hF
  obtain ⟨b, bs1, f1, f2, rfl⟩ : ∃ b bs1, Acts .mka b (some A, B, [C]) ∧ List.Forall₂ (Acts .mka) bs1 [(some B, C, [])] ∧
      bs = b :: bs1 := by
    cases hF with
    | cons h1 h2 => exact ⟨_, _, h1, h2, rfl⟩
  obtain ⟨c, f3, rfl⟩ : ∃ c, Acts .mka c (some B, C, []) ∧ bs1 = [c] := by
    cases f2 with
    | cons h1 h2 =>
      cases h2
      exact ⟨_, h1, rfl⟩
  have one : ∀ {b : Block ℝ} {A B : PState ℝ} {rest}, Acts .mka b (some A, B, rest) → B.pause = none →
      (B.position.sub A.position).norm3 = 100 → Good b → ∃ u s0 s1, MoveB b A u s0 s1 ∧ u.norm3 = 1 ∧
        b.stateB = B ∧ b.jd = some (u.mul (junctionVel .mka (some A) B rest)) ∧ b.nIn = s0 ∧ b.nOut = s1 := by
    intro b A B rest ha hp hd hg
    rcases hg with ⟨A', u, s0, s1, hm⟩ | ⟨A', p, hd⟩
    · have e1 : A' = A := by
        have := hm.hA
        rw [ha.1] at this
        exact (Option.some.inj this).symm
      subst e1
      obtain ⟨u', d1, d2⟩ := ha.2.2 hp
      rw [hm.hdir] at d1
      cases d1
      obtain ⟨g1, _, _, g4, _⟩ := hm.toHdr.unit
      have hu : u.norm3 = 1 := by
        have : (moveDistance A' b.stateB).2 = false := by
          cases hx : (moveDistance A' b.stateB).2
          · rfl
          · have := g4.1 hx
            rw [ha.2.1, hd] at this
            norm_num at this
        rw [this] at g1
        exact g1
      obtain ⟨_, _, _, _, _, _, _, _, _, _, e9, e10⟩ := hm.ends
      refine ⟨u, s0, s1, hm, hu, ha.2.1, d2, ?_, ?_⟩
      · rw [e9, hu, one_mul]
      · rw [e10, hu, one_mul]
    · have := hd.hpause
      rw [ha.2.1, hp] at this
      cases this
  obtain ⟨u, p0, p1, hm, hu, eB, ej, i1, i2⟩ := one f1 hB.2.2 hAB (hg b (by simp))
  obtain ⟨w, q0, q1, hm', hw, eC, ej', k1, k2⟩ := one f3 hC.2.2 hBC (hg c (by simp))
  have z0 : p0 = 0 := by rw [← i1]; exact (hf b (by simp)).2.1
  have z1 : q1 = 0 := by rw [← k2]; exact hl (by simp) c (by simp)
  obtain ⟨lk, -⟩ := List.isChain_cons_cons.1 hL
  obtain ⟨lo, -⟩ := List.isChain_cons_cons.1 hO
  have t1 := hm.time
  have t2 := hm'.time
  rw [eB] at t1
  rw [eC] at t2
  have same : ∀ {b : Block ℝ} {A A' : PState ℝ} {u u' : Vec4 ℝ} {s0 s1 s0' s1' : ℝ}, MoveB b A u s0 s1 →
      MoveB b A' u' s0' s1' → u.norm3 = 1 → A' = A ∧ u' = u ∧ s0' = s0 ∧ s1' = s1 := by
    intro b A A' u u' s0 s1 s0' s1' h1 h2 hu
    have e1 := h1.hdir.symm.trans h2.hdir
    cases e1
    have e2 := h1.hA.symm.trans h2.hA
    cases e2
    obtain ⟨_, _, _, _, _, _, _, _, _, _, e9, e10⟩ := h1.ends
    obtain ⟨_, _, _, _, _, _, _, _, _, _, g9, g10⟩ := h2.ends
    rw [hu, one_mul] at e9 e10 g9 g10
    exact ⟨rfl, rfl, g9.symm.trans e9, g10.symm.trans e10⟩
  have cancel : ∀ {u : Vec4 ℝ} {a b : ℝ}, u.norm3 = 1 → u.mul a = u.mul b → a = b := by
    intro u a b hu e
    have hu' : UnitDir u false := hu
    exact unit_cancel hu' (p := Vec4.zero) (by rw [e])
  have len1 : moveLength A.position B.position = 100 := by
    unfold moveLength
    rw [hAB, if_neg (by norm_num)]
  have len2 : moveLength B.position C.position = 100 := by
    unfold moveLength
    rw [hBC, if_neg (by norm_num)]
  rw [hJ] at ej
  have hp1 : p1 ≤ J := by
    obtain ⟨j, j1, j2⟩ := hm.hjd
    rw [ej] at j1
    rw [cancel hu (Option.some.inj j1)]
    exact j2
  have hq0 : q0 ≤ p1 := by
    rw [← k1, ← i2]
    exact lk.2.1
  have hq0' : p1 ≤ q0 + 1e-12 := by
    rw [← k1, ← i2]
    exact lk.2.2.1
  obtain ⟨_, _, n1, _⟩ := hm.facts
  obtain ⟨n2, _⟩ := hm'.facts
  have hpJ : p1 = J := by
    rcases lo.2 with hx | hx
    · rcases hx with ⟨A', p, hd⟩ | ⟨A', u', s0', s1', hx, hy⟩
      · have := hd.hpause
        rw [eB, hB.2.2] at this
        cases this
      · obtain ⟨rfl, rfl, rfl, rfl⟩ := same hm hx hu
        rcases hy with hy | hy
        · rw [ej] at hy
          exact (cancel hu (Option.some.inj hy)).symm
        · rw [moveDistance_length, eB, len1, hB.2.1, z0] at hy
          have hsq := pow_le_one₀ n1 (hp1.trans h1) (n := 2)
          rw [hy] at hsq
          norm_num at hsq
    · rcases hx with ⟨A', p, hd⟩ | ⟨A', u', s0', s1', hx, hy⟩
      · have := hd.hpause
        rw [eC, hC.2.2] at this
        cases this
      · obtain ⟨rfl, rfl, rfl, rfl⟩ := same hm' hx hw
        rcases hy with hy | hy | hy
        · rw [hw] at hy
          norm_num at hy
        · rw [eC, hC.1] at hy
          linarith
        · rw [moveDistance_length, eC, len2, hC.2.1, z1] at hy
          have hsq := pow_le_one₀ n2 (hq0.trans (hp1.trans h1)) (n := 2)
          rw [hy] at hsq
          norm_num at hsq
  have top : ∀ v v' : ℝ, topSpeed 1000 20 100 v v' = 20 := by
    intro v v'
    unfold topSpeed
    refine min_eq_left ?_
    rw [Real.le_sqrt' (by norm_num)]
    have := sq_nonneg v
    have := sq_nonneg v'
    linarith
  refine ⟨q0, n2, hq0.trans hp1, by rw [← hpJ]; exact hq0', ?_⟩
  rw [← hsum, List.map_cons, List.map_cons, List.map_nil, List.sum_cons, List.sum_cons, List.sum_nil, t1, t2,
    len1, len2, hB.1, hB.2.1, hC.1, hC.2.1, z0, z1, hpJ]
  simp only [moveTime, top]
  ring

/-- **C70** is false for `MKA`: a right-angled bracket lying in the XY plane takes longer than the same bracket
standing in the YZ plane. -/
theorem c70_refuted : ¬ C70Full := by
  intro hfull
  have hreg : Regular [Demo.at3 0 0 0, Demo.at3 100 0 0, Demo.at3 100 100 0] := by
    refine regular_moves ?_
    intro s hs
    simp only [List.mem_cons, List.not_mem_nil, or_false] at hs
    rcases hs with rfl | rfl | rfl <;> norm_num [Demo.at3]
  have e' : [Demo.at3 0 0 0, Demo.at3 100 0 0, Demo.at3 100 100 0].map (placed Demo.turned) =
      [Demo.at3 0 0 0, Demo.at3 0 100 0, Demo.at3 0 100 100] := rfl
  have hreg' := Demo.rigid_turned.sym.regular hreg
  obtain ⟨_, bs, _, _, h, _⟩ := c26_correction_total .mka hreg
  obtain ⟨_, bs', _, _, h', _⟩ := c26_correction_total .mka hreg'
  rw [e'] at h' hreg'
  have n : ∀ {x y z x' y' z' : ℝ}, (x' - x) ^ 2 + (y' - y) ^ 2 + (z' - z) ^ 2 = 100 ^ 2 →
      ((Demo.at3 x' y' z').position.sub (Demo.at3 x y z).position).norm3 = 100 := by
    intro x y z x' y' z' hx
    unfold norm3
    rw [sqrt_real, Real.sqrt_eq_iff_mul_self_eq_of_pos (by norm_num)]
    simp only [Demo.at3, Vec4.sub]
    linarith
  have n1 := n (x := 0) (y := 0) (z := 0) (x' := 100) (y' := 0) (z' := 0) (by norm_num)
  have n2 := n (x := 100) (y := 0) (z := 0) (x' := 100) (y' := 100) (z' := 0) (by norm_num)
  have n3 := n (x := 0) (y := 0) (z := 0) (x' := 0) (y' := 100) (z' := 0) (by norm_num)
  have n4 := n (x := 0) (y := 100) (z := 0) (x' := 0) (y' := 100) (z' := 100) (by norm_num)
  have j1 : junctionVel .mka (some (Demo.at3 0 0 0)) (Demo.at3 100 0 0) [Demo.at3 100 100 0] = 20 / 4 ^ 4 := by
    have hn : NextMove (Demo.at3 100 0 0) [Demo.at3 100 100 0] (Demo.at3 100 100 0) :=
      ⟨[], [], rfl, by simp, by simp [Demo.at3]⟩
    rw [c61_mka_law (u := ⟨1, 0, 0, 0⟩) (w := ⟨0, 1, 0, 0⟩) hn (by rw [n1]; norm_num) (by rw [n2]; norm_num)
      (by norm_num [Demo.at3]) (by norm_num [Demo.at3]) (by norm_num [Demo.at3])
      (by rw [n1]; ext <;> norm_num [Demo.at3, Vec4.add, Vec4.mul])
      (by rw [n2]; ext <;> norm_num [Demo.at3, Vec4.add, Vec4.mul])]
    norm_num [mka, cap, axisJump, Demo.at3]
  have j2 : junctionVel .mka (some (Demo.at3 0 0 0)) (Demo.at3 0 100 0) [Demo.at3 0 100 100] = 20 / 4 ^ 3 := by
    have hn : NextMove (Demo.at3 0 100 0) [Demo.at3 0 100 100] (Demo.at3 0 100 100) :=
      ⟨[], [], rfl, by simp, by simp [Demo.at3]⟩
    rw [c61_mka_law (u := ⟨0, 1, 0, 0⟩) (w := ⟨0, 0, 1, 0⟩) hn (by rw [n3]; norm_num) (by rw [n4]; norm_num)
      (by norm_num [Demo.at3]) (by norm_num [Demo.at3]) (by norm_num [Demo.at3])
      (by rw [n3]; ext <;> norm_num [Demo.at3, Vec4.add, Vec4.mul])
      (by rw [n4]; ext <;> norm_num [Demo.at3, Vec4.add, Vec4.mul])]
    norm_num [mka, cap, axisJump, Demo.at3]
  have hne : bs ≠ [] := by
    rintro rfl
    have := c28_blocks hreg h
    rw [active_cons_skip _ (by simp) rfl, active_cons_take _ (Or.inr ⟨_, rfl, by simp [Demo.at3]⟩)] at this
    cases this
  obtain ⟨s, s', _, hs, _⟩ := unpack_ends hreg h hne
  have hT : EndTime (Spec.path bs) s'.tEnd := ⟨s', hs, rfl⟩
  have hT' := hfull .mka Demo.turned _ bs bs' _ Demo.rigid_turned hreg h (by rw [e']; exact h') hT
  obtain ⟨w, a1, a2, a3, a4⟩ := two_moves rfl ⟨rfl, rfl, rfl⟩ ⟨rfl, rfl, rfl⟩ n1 n2 j1 (by norm_num)
    hreg h hT
  obtain ⟨w', b1, b2, b3, b4⟩ := two_moves rfl ⟨rfl, rfl, rfl⟩ ⟨rfl, rfl, rfl⟩ n3 n4 j2 (by norm_num)
    hreg' h' hT'
  rw [a4] at b4
  norm_num at a2 a3 b2 b3 b4
  nlinarith [sq_nonneg w, sq_nonneg w']

/-! ## Concrete cases -/

/-- The demo program, moved to another corner of the bed and turned. -/
example (hfw : fw ≠ .mka) : ∃ bs bs' T, plan fw Demo.prog = .ok bs ∧
    plan fw (Demo.prog.map (placed Demo.turned)) = .ok bs' ∧ EndTime (Spec.path bs) T ∧
    EndTime (Spec.path bs') T := by
  obtain ⟨bs, T, h, hT, _⟩ := Demo.end_time fw
  obtain ⟨bs', h1, _, h2, _⟩ := c70_rigid_partial Demo.rigid_turned hfw Demo.regular h
  exact ⟨bs, bs', T, h, h1, hT, (h2 T).2 hT⟩

example (c : Vec4 ℝ) : ∃ bs bs' T, plan .mka Demo.prog = .ok bs ∧
    plan .mka (Demo.prog.map (placed fun p => p.add c)) = .ok bs' ∧ EndTime (Spec.path bs) T ∧
    EndTime (Spec.path bs') T := by
  obtain ⟨bs, T, h, hT, _⟩ := Demo.end_time .mka
  obtain ⟨bs', h1, _, h2, _⟩ := c70_shift c Demo.regular h
  exact ⟨bs, bs', T, h, h1, hT, (h2 T).2 hT⟩

end PyGCD
