import Verif.Proofs.DoubleWalk

/-!
# The ends of all blocks of a program in double precision, with every junction handling
-/

set_option linter.unusedSectionVars false
set_option linter.unusedSimpArgs false

namespace PyGCD
open PyGCD.Spec Vec4

/-! ## Junction speeds are not negative -/

theorem dbl_mul_nonneg {a b : Dbl} (ha : 0 ≤ a.r) (hb : 0 ≤ b.r) : 0 ≤ (a * b).r :=
  (Dbl.r_mul a b).nonneg (mul_nonneg ha hb)

theorem dbl_div_nonneg {a b : Dbl} (ha : 0 ≤ a.r) (hb : 0 ≤ b.r) : 0 ≤ (a / b).r :=
  (Dbl.r_div a b).nonneg (div_nonneg ha hb)

theorem mkaStep_nonneg {lim fac : Dbl} {s : MkaAcc Dbl} {v v' : Dbl} (hl : 0 ≤ lim.r) (h1 : 0 ≤ s.vFactor.r)
    (h2 : 0 ≤ s.vMaxJunc.r) :
    0 ≤ (mkaStep lim fac s v v').vFactor.r ∧ 0 ≤ (mkaStep lim fac s v v').vMaxJunc.r := by
  unfold mkaStep
  simp only
  generalize (if (if s.limFlag = true then v * s.vFactor else v) < _ then _ else _ : Dbl) = j
  by_cases hj : lim < j
  · rw [if_pos hj]
    have hj' := (Dbl.lt_iff _ _).1 hj
    have := dbl_mul_nonneg h1 (dbl_div_nonneg hl (hl.trans hj'.le))
    simp only [if_true]
    exact ⟨this, dbl_mul_nonneg h2 this⟩
  · rw [if_neg hj]
    cases s.limFlag
    · simpa using ⟨h1, h2⟩
    · simp only [if_true]
      exact ⟨h1, dbl_mul_nonneg h2 h1⟩

theorem junction_nonneg_dbl (fw : Firmware) (A : Option (PState Dbl)) {B : PState Dbl} (rest : List (PState Dbl))
    (hs : 0 ≤ B.speed.r) (hj : 0 ≤ B.jerk.r) : 0 ≤ (junctionVel fw A B rest).r := by
  have h0 : 0 ≤ (0 : Dbl).r := Dbl.r_zero.ge
  unfold junctionVel
  cases fw with
  | marlinJd =>
    simp only
    unfold calcJD
    simp only
    by_cases c1 : B.jerk = 0
    · rw [if_pos c1]
      exact h0
    rw [if_neg c1]
    by_cases c2 : (targetVel A B).norm3 = 0 ∨ (velNext B rest).norm3 = 0
    · rw [if_pos c2]
      exact h0
    rw [if_neg c2]
    generalize (if _ < (1 : Dbl) then _ else (0 : Dbl)) = sh
    by_cases c3 : sh < PyMath.sin ((180 - 18) * PyMath.pi / (2 * 180))
    · rw [if_pos c3]
      by_cases c4 : PyMath.sin (18 * PyMath.pi / (2 * 180)) < sh
      · rw [if_pos c4]
        split
        · exact dbl_sqrt_nonneg _
        · exact hs
      · rw [if_neg c4]
        exact h0
    · rw [if_neg c3]
      exact hs
  | klipper =>
    simp only
    unfold calcKlipper
    simp only
    split
    · exact h0
    · split
      · exact h0
      · exact dbl_sqrt_nonneg _
  | marlinJerk =>
    simp only
    unfold calcJerk
    simp only
    generalize (if 0 < B.jerk * 2 then _ else (0 : Dbl)) = sc
    split <;> exact dbl_norm3_nonneg _
  | mka =>
    simp only
    unfold calcMKA
    simp only
    have h1 : 0 ≤ (1 : Dbl).r := by
      show (0 : ℝ) ≤ (((1 : Dbl).val : ℚ) : ℝ)
      exact_mod_cast (by decide +kernel : (0 : ℚ) ≤ (1 : Dbl).val)
    have hm : 0 ≤ (pyMin (targetVel A B).norm3 (velNext B rest).norm3).r := by
      unfold pyMin
      split <;> exact dbl_norm3_nonneg _
    obtain ⟨a1, a2⟩ := mkaStep_nonneg (lim := B.jerk)
      (fac := if 0 < pyMin (targetVel A B).norm3 (velNext B rest).norm3 then
        pyMin (targetVel A B).norm3 (velNext B rest).norm3 / (targetVel A B).norm3 else 0)
      (s := ⟨1, false, pyMin (targetVel A B).norm3 (velNext B rest).norm3⟩) (v := (targetVel A B).x)
      (v' := (velNext B rest).x) hj h1 hm
    obtain ⟨b1, b2⟩ := mkaStep_nonneg (v := (targetVel A B).y) (v' := (velNext B rest).y) hj a1 a2
    obtain ⟨c1, c2⟩ := mkaStep_nonneg (v := (targetVel A B).z) (v' := (velNext B rest).z) hj b1 b2
    exact (mkaStep_nonneg (v := (targetVel A B).e) (v' := (velNext B rest).e) hj c1 c2).2
  | default => exact h0

/-! ## Blocks that begin and end where they should -/

/-- The states and the direction of a block belong to a move of usual size or to a pause. -/
def Placed (b : Block Dbl) (A : PState Dbl) : Prop :=
  b.stateA = some A ∧ ((∃ u ur, b.direction = some u ∧ UsualMove A b.stateB u ur) ∨
    b.direction = none ∧ b.stateB.position.real = A.position.real)

/-- The block number `k` begins and ends near the positions of its states, and its segments join. -/
def Fit (k : ℕ) (b : Block Dbl) : Prop :=
  ∃ A, Placed b A ∧ ∃ f l, b.segments.head? = some f ∧ b.segments.getLast? = some l ∧
    Near4 (k * 1e-8) f.posBegin A.position.real ∧ Near4 ((k + 1 : ℕ) * 1e-8) l.posEnd b.stateB.position.real ∧
    Leads f.posBegin b.segments l.posEnd

/-- The states and the direction of two blocks agree. -/
def Same (b c : Block Dbl) : Prop := c.stateA = b.stateA ∧ c.stateB = b.stateB ∧ c.direction = b.direction

theorem Same.placed {b c : Block Dbl} (h : Same b c) {A : PState Dbl} (hb : Placed b A) : Placed c A := by
  obtain ⟨h1, h2, h3⟩ := h
  unfold Placed
  rw [h1, h2, h3]
  exact hb

theorem Same.refl (b : Block Dbl) : Same b b := ⟨rfl, rfl, rfl⟩

theorem Same.trans {a b c : Block Dbl} (h : Same a b) (g : Same b c) : Same a c :=
  ⟨g.1.trans h.1, g.2.1.trans h.2.1, g.2.2.trans h.2.2⟩

/-- The block `b` begins at the position of the state at which `p` ends. -/
def Joined (p b : Block Dbl) : Prop := ∀ A, b.stateA = some A → A.position.real = p.stateB.position.real

theorem Joined.same {p p' b b' : Block Dbl} (h : Joined p b) (hp : Same p p') (hb : Same b b') : Joined p' b' := by
  intro A hA
  rw [hp.2.1]
  exact h A (hb.1 ▸ hA)

/-- Blocks in reverse order, each in its place. -/
def Fits : List (Block Dbl) → Prop
  | [] => True
  | b :: rp => Fit rp.length b ∧ (∀ p ∈ rp.head?, Joined p b) ∧ Fits rp

/-- Blocks after the block `pb`, each in its place, beginning with number `k`. -/
def FitsFrom : ℕ → Option (Block Dbl) → List (Block Dbl) → Prop
  | _, _, [] => True
  | k, pb, b :: bs => Fit k b ∧ (∀ p ∈ pb, Joined p b) ∧ FitsFrom (k + 1) (some b) bs

theorem Fit.last {k : ℕ} {b : Block Dbl} (h : Fit k b) :
    ∃ l, b.lastSeg = .ok l ∧ Near4 ((k + 1 : ℕ) * 1e-8) l.posEnd b.stateB.position.real := by
  obtain ⟨A, _, f, l, _, h2, _, h4, _⟩ := h
  exact ⟨l, by unfold Block.lastSeg; rw [h2], h4⟩

/-- A planned move fits. -/
theorem moveMaker_fit {b b' : Block Dbl} {A : PState Dbl} {pb : Option (Block Dbl)} {v : Dbl} {k : ℕ} {prev : Segment Dbl}
    (hb : Placed b A) (hk : k ≤ 1000000)
    (hprev : (match pb with | some pb => pb.lastSeg | none => .ok (Segment.initial A.position)) = .ok prev)
    (hw : Near4 (k * 1e-8) prev.posEnd A.position.real) (hv : 0 ≤ v.r) (h : moveMaker b pb v = .ok b') :
    Fit k b' ∧ Same b b' := by
  obtain ⟨h1, h2⟩ := hb
  unfold moveMaker at h
  rcases h2 with ⟨u, ur, hu, hm⟩ | ⟨hd, _⟩
  · simp only [h1, hu, bind, Except.bind] at h
    cases pb with
    | none =>
      cases hprev
      simp only at h
      split at h
      · cases h
      · rename_i r hr
        cases h
        obtain ⟨f, l, g1, g2, g3, g4, g5⟩ := hm.plan hr hv hw hk
        exact ⟨⟨A, ⟨rfl, Or.inl ⟨u, ur, rfl, hm⟩⟩, f, l, g1, g2, by rw [g3]; exact hw, g5, g4⟩, h1.symm, rfl, hu.symm⟩
    | some c =>
      simp only at hprev
      simp only [hprev] at h
      split at h
      · cases h
      · rename_i r hr
        cases h
        obtain ⟨f, l, g1, g2, g3, g4, g5⟩ := hm.plan hr hv hw hk
        exact ⟨⟨A, ⟨rfl, Or.inl ⟨u, ur, rfl, hm⟩⟩, f, l, g1, g2, by rw [g3]; exact hw, g5, g4⟩, h1.symm, rfl, hu.symm⟩
  · simp only [h1, hd] at h
    cases h

theorem shift_leads (d : Dbl) : ∀ (l : List (Segment Dbl)) (p q : Vec4 Dbl), Leads p l q →
    Leads p (l.map (Segment.shift d)) q
  | [], _, _, h => h
  | _ :: l, _, _, h => ⟨h.1, shift_leads d l _ _ h.2⟩

theorem Fit.shift {k : ℕ} {b : Block Dbl} (h : Fit k b) (d : Dbl) : Fit k (b.timeshift d) := by
  obtain ⟨A, hA, f, l, h1, h2, h3, h4, h5⟩ := h
  refine ⟨A, hA, f.shift d, l.shift d, ?_, ?_, h3, h4, shift_leads d _ _ _ h5⟩
  · show (b.segments.map _).head? = _
    rw [List.head?_map, h1]
    rfl
  · show (b.segments.map _).getLast? = _
    rw [List.getLast?_map, h2]
    rfl

theorem timeshift_same (b : Block Dbl) (d : Dbl) : Same b (b.timeshift d) := ⟨rfl, rfl, rfl⟩

theorem forall₂_same_refl (l : List (Block Dbl)) : List.Forall₂ Same l l := List.forall₂_same.2 fun b _ => Same.refl b

local macro "fin_tac" h:ident : tactic => `(tactic| (
  (try simp only at $h:ident)
  split at $h:ident
  · cases $h:ident
  · split at $h:ident
    · cases $h:ident
      exact ⟨_, rfl⟩
    · split at $h:ident
      · cases $h:ident
      · cases $h:ident
        exact ⟨_, rfl⟩))

/-- What a correction that succeeds has done. -/
theorem selfCorrection_ok {rp : List (Block Dbl)} {b nx : Block Dbl}
    {r : List (Block Dbl) × Block Dbl × Option (Block Dbl)} (h : selfCorrection rp b (some nx) = .ok r) :
    ∃ y d, r = (y.1, y.2, some (nx.timeshift d)) ∧ (y = (rp, b) ∨ ∃ b' v, moveMaker b rp.head? (norm3 v) = .ok b' ∧
      (y = (rp, b') ∨ ∃ p rp' r', rp = p :: rp' ∧ selfCorrection rp' p (some b') = .ok r' ∧
        y = (r'.2.1 :: r'.1, r'.2.2.getD b'))) := by
  unfold selfCorrection at h
  simp only [bind, Except.bind] at h
  split at h
  · cases h
  · split at h
    · cases h
    · rename_i nfirst _
      split at h
      · split at h
        · cases h
        · rename_i b' hb'
          split at h
          · cases rp with
            | nil => cases h
            | cons p rp' =>
              simp only at h
              cases hr : selfCorrection rp' p (some b') with
              | error e =>
                rw [hr] at h
                cases h
              | ok r' =>
                rw [hr] at h
                obtain ⟨r1, r2, r3⟩ := r'
                cases r3 with
                | none =>
                  obtain ⟨d, hd⟩ : ∃ d, r = (r2 :: r1, b', some (nx.timeshift d)) := by fin_tac h
                  exact ⟨_, d, hd, Or.inr ⟨b', _, hb', Or.inr ⟨p, rp', _, rfl, hr, rfl⟩⟩⟩
                | some b'' =>
                  obtain ⟨d, hd⟩ : ∃ d, r = (r2 :: r1, b'', some (nx.timeshift d)) := by fin_tac h
                  exact ⟨_, d, hd, Or.inr ⟨b', _, hb', Or.inr ⟨p, rp', _, rfl, hr, rfl⟩⟩⟩
          · obtain ⟨d, hd⟩ : ∃ d, r = (rp, b', some (nx.timeshift d)) := by fin_tac h
            exact ⟨_, d, hd, Or.inr ⟨b', _, hb', Or.inl rfl⟩⟩
      · rename_i hl _ _ _
        rw [← hl] at h
        obtain ⟨d, hd⟩ : ∃ d, r = (rp, b, some (nx.timeshift d)) := by fin_tac h
        exact ⟨_, d, hd, Or.inl rfl⟩

/-- The correction of a block keeps the blocks in their places. -/
theorem selfCorrection_fits : ∀ (rp : List (Block Dbl)) (b nx : Block Dbl)
    (r : List (Block Dbl) × Block Dbl × Option (Block Dbl)), Fits (nx :: b :: rp) → rp.length ≤ 1000000 →
    selfCorrection rp b (some nx) = .ok r →
    ∃ nx', r.2.2 = some nx' ∧ Fits (nx' :: r.2.1 :: r.1) ∧ List.Forall₂ Same (nx :: b :: rp) (nx' :: r.2.1 :: r.1) := by
  intro rp
  induction rp with
  | nil =>
    intro b nx r hF hk h
    obtain ⟨hnx, hj, hb, _, _⟩ := hF
    obtain ⟨y, d, rfl, hy⟩ := selfCorrection_ok h
    have hy' : Fit 0 y.2 ∧ Same b y.2 ∧ y.1 = [] := by
      rcases hy with rfl | ⟨b', v, hb', hy⟩
      · exact ⟨hb, Same.refl b, rfl⟩
      · rcases hy with rfl | ⟨p, rp', r', h0, _⟩
        · obtain ⟨A, hA, _⟩ := hb
          have h0 : Near4 ((0 : ℕ) * 1e-8) (Segment.initial A.position).posEnd A.position.real := by
            simp [Near4, Segment.initial, Vec4.real]
          obtain ⟨g1, g2⟩ := moveMaker_fit (pb := none) hA (Nat.zero_le _) rfl h0 (dbl_norm3_nonneg _) hb'
          exact ⟨g1, g2, rfl⟩
        · cases h0
    obtain ⟨y1, y2, y3⟩ := hy'
    obtain ⟨yr, yb⟩ := y
    simp only at y1 y2 y3 ⊢
    subst y3
    refine ⟨_, rfl, ⟨hnx.shift d, ?_, y1, by simp, trivial⟩, .cons (timeshift_same _ _) (.cons y2 .nil)⟩
    intro p hp
    cases hp
    exact (hj b rfl).same y2 (timeshift_same _ _)
  | cons p rp ih =>
    intro b nx r hF hk h
    obtain ⟨hnx, hj, hb, hjb, hrp⟩ := hF
    obtain ⟨y, d, rfl, hy⟩ := selfCorrection_ok h
    have hy' : Fits (y.2 :: y.1) ∧ List.Forall₂ Same (b :: p :: rp) (y.2 :: y.1) := by
      rcases hy with rfl | ⟨b', v, hb', hy⟩
      · exact ⟨⟨hb, hjb, hrp⟩, forall₂_same_refl _⟩
      · have hfit : Fit (p :: rp).length b' ∧ Same b b' := by
          obtain ⟨A, hA, _⟩ := hb
          obtain ⟨l, l1, l2⟩ := hrp.1.last
          refine moveMaker_fit (pb := some p) hA hk l1 ?_ (dbl_norm3_nonneg _) hb'
          rw [hjb p rfl A hA.1]
          exact l2
        have hF' : Fits (b' :: p :: rp) := by
          refine ⟨hfit.1, ?_, hrp⟩
          intro q hq
          exact (hjb q hq).same (Same.refl q) hfit.2
        rcases hy with rfl | ⟨p', rp', r', h0, hr', rfl⟩
        · exact ⟨hF', .cons hfit.2 (forall₂_same_refl _)⟩
        · cases h0
          obtain ⟨n', n1, n2, n3⟩ := ih p b' r' hF' (by simp at hk; omega) hr'
          rw [n1]
          refine ⟨n2, ?_⟩
          cases n3 with
          | cons a c => exact .cons (hfit.2.trans a) c
    obtain ⟨y1, y2⟩ := hy'
    obtain ⟨yr, yb⟩ := y
    simp only at y1 y2 ⊢
    have hlen := y2.length_eq
    refine ⟨_, rfl, ⟨?_, ?_, y1⟩, .cons (timeshift_same _ _) y2⟩
    · rw [← hlen]
      exact hnx.shift d
    · intro q hq
      cases hq
      cases y2 with
      | cons a c => exact (hj b rfl).same a (timeshift_same _ _)

theorem FitsFrom.same {k : ℕ} {b b' : Block Dbl} {bs : List (Block Dbl)} (h : FitsFrom k (some b) bs) (hb : Same b b') :
    FitsFrom k (some b') bs := by
  cases bs with
  | nil => trivial
  | cons c bs =>
    refine ⟨h.1, ?_, h.2.2⟩
    intro p hp
    cases hp
    exact (h.2.1 b rfl).same hb (Same.refl c)

theorem correctFrom_fits : ∀ (tl rp : List (Block Dbl)) (b : Block Dbl) (r : List (Block Dbl)), Fits (b :: rp) →
    FitsFrom (rp.length + 1) (some b) tl → rp.length + tl.length ≤ 1000000 → correctFrom rp b tl = .ok r →
    Fits r.reverse ∧ List.Forall₂ Same (rp.reverse ++ b :: tl) r
  | [], rp, b, r, hF, _, _, h => by
    unfold correctFrom at h
    unfold selfCorrection at h
    cases h
    refine ⟨by simpa using hF, forall₂_same_refl _⟩
  | nx :: tl, rp, b, r, hF, hT, hk, h => by
    unfold correctFrom at h
    simp only [bind, Except.bind] at h
    split at h
    · cases h
    · rename_i q hq
      obtain ⟨t1, t2, t3⟩ := hT
      obtain ⟨nx', n1, n2, n3⟩ := selfCorrection_fits rp b nx q ⟨t1, t2, hF⟩ (by simp at hk; omega) hq
      obtain ⟨q1, q2, q3⟩ := q
      simp only at n1 n2 n3 h
      subst n1
      simp only [Option.getD_some] at h
      have hlen := n3.length_eq
      simp only [List.length_cons] at hlen
      have hsame : Same nx nx' := by
        cases n3 with
        | cons a c => exact a
      have hrest : List.Forall₂ Same (b :: rp) (q2 :: q1) := by
        cases n3 with
        | cons a c => exact c
      obtain ⟨g1, g2⟩ := correctFrom_fits tl (q2 :: q1) nx' r n2 (by
        have := t3.same hsame
        rw [List.length_cons, show q1.length = rp.length by omega]
        exact this) (by simp at hk ⊢; omega) h
      refine ⟨g1, ?_⟩
      have h2 : List.Forall₂ Same (rp.reverse ++ b :: nx :: tl) ((q2 :: q1).reverse ++ nx' :: tl) := by
        have e : rp.reverse ++ b :: nx :: tl = (b :: rp).reverse ++ nx :: tl := by simp
        rw [e]
        exact List.rel_append (List.rel_reverse hrest) (.cons hsame (forall₂_same_refl _))
      have tr : ∀ {a b c : List (Block Dbl)}, List.Forall₂ Same a b → List.Forall₂ Same b c → List.Forall₂ Same a c := by
        intro a b c h
        induction h generalizing c with
        | nil => intro g; exact g
        | cons x _ ih =>
          intro g
          cases g with
          | cons y t => exact .cons (x.trans y) (ih t)
      exact tr h2 g2

theorem Fits.get : ∀ {rp : List (Block Dbl)}, Fits rp → ∀ {i : ℕ} {b : Block Dbl}, rp[i]? = some b →
    Fit (rp.length - 1 - i) b
  | [], _, _, _, h => by cases h
  | c :: rp, hF, 0, b, h => by
    cases h
    exact hF.1
  | c :: rp, hF, i + 1, b, h => by
    have := Fits.get hF.2.2 (i := i) h
    rw [List.length_cons, show rp.length + 1 - 1 - (i + 1) = rp.length - 1 - i by omega]
    exact this

theorem Fits.joined : ∀ {rp : List (Block Dbl)}, Fits rp → ∀ {i : ℕ} {b c : Block Dbl}, rp[i]? = some c →
    rp[i + 1]? = some b → Joined b c
  | [], _, _, _, _, h, _ => by cases h
  | c' :: rp, hF, 0, b, c, h, g => by
    cases h
    refine hF.2.1 b ?_
    rw [List.head?_eq_getElem?]
    exact g
  | c' :: rp, hF, i + 1, b, c, h, g => Fits.joined hF.2.2 (i := i) h g

theorem correctAll_fits {bs r : List (Block Dbl)} (hF : FitsFrom 0 none bs) (hk : bs.length ≤ 1000000)
    (h : correctAll bs = .ok r) :
    (∀ n b, r[n]? = some b → Fit n b) ∧ (∀ n b c, r[n]? = some b → r[n + 1]? = some c → Joined b c) ∧
      List.Forall₂ Same bs r := by
  cases bs with
  | nil =>
    cases h
    exact ⟨fun n b hb => by simp at hb, fun n b c hb => by simp at hb, .nil⟩
  | cons b tl =>
    have hb : Fits [b] := ⟨hF.1, by simp, trivial⟩
    obtain ⟨h1, h2⟩ := correctFrom_fits tl [] b r hb hF.2.2 (by simp at hk ⊢; omega) h
    refine ⟨?_, ?_, h2⟩
    swap
    · intro n b c hb hc
      have hn : n + 1 < r.length := by
        by_contra hn
        rw [List.getElem?_eq_none (by omega)] at hc
        cases hc
      refine Fits.joined h1 (i := r.length - 1 - (n + 1)) ?_ ?_
      · rw [List.getElem?_reverse (by omega), show r.length - 1 - (r.length - 1 - (n + 1)) = n + 1 by omega]
        exact hc
      · rw [List.getElem?_reverse (by omega), show r.length - 1 - (r.length - 1 - (n + 1) + 1) = n by omega]
        exact hb
    intro n c hc
    have hn : n < r.length := by
      by_contra hn
      rw [List.getElem?_eq_none (by omega)] at hc
      cases hc
    have := Fits.get h1 (i := r.length - 1 - n) (b := c) (by
      rw [List.getElem?_reverse (by omega), show r.length - 1 - (r.length - 1 - n) = n by omega]
      exact hc)
    rw [List.length_reverse, show r.length - 1 - (r.length - 1 - n) = n by omega] at this
    exact this

theorem normDir4_still {a : Vec4 Dbl} {b : Vec4 ℝ} {n : ℕ} (h : RelV n a b) (hb : b = Vec4.zero) : a.normDir4 = none := by
  subst hb
  have h3 := h.norm3
  have h4 := h.norm4
  rw [norm4_zero] at h4
  rw [norm3_zero] at h3
  unfold Vec4.normDir4
  rw [if_neg, if_neg]
  · rw [Dbl.lt_iff, Dbl.r_zero, h4.zero]
    exact lt_irrefl _
  · rw [Dbl.lt_iff, Dbl.r_zero, h3.zero]
    exact lt_irrefl _

theorem mkBlock_move_fit {fw : Firmware} {A B : PState Dbl} {rest : List (PState Dbl)} {pb : Option (Block Dbl)}
    {prev : Segment Dbl} {k : ℕ} {b : Block Dbl} {u : Vec4 Dbl} {ur : Vec4 ℝ} (hm : UsualMove A B u ur)
    (hd : (connectState A B).normDir4 = some u) (hz : (connectState A B).notZero = true) (hj : 0 ≤ B.jerk.r)
    (hprev : (match pb with | some pb => pb.lastSeg | none => .ok (Segment.initial A.position)) = .ok prev)
    (hw : Near4 (k * 1e-8) prev.posEnd A.position.real) (hk : k ≤ 1000000) (hp : B.pause = none)
    (h : mkBlock fw (some A) B rest pb = .ok b) : Fit k b ∧ b.stateA = some A ∧ b.stateB = B := by
  unfold mkBlock at h
  simp only [targetVel, hz, if_true, hp, bind, Except.bind] at h
  split at h
  · cases h
  · rename_i b1 hb1
    cases h
    obtain ⟨⟨A', g1, g2⟩, g3⟩ := moveMaker_fit (A := A) (k := k) (prev := prev) ⟨rfl, Or.inl ⟨u, ur, hd, hm⟩⟩ hk hprev hw
      (junction_nonneg_dbl fw (some A) rest hm.speed.le hj) hb1
    exact ⟨⟨A', g1, g2⟩, g3.1, g3.2.1⟩

theorem mkBlock_dwell_fit {fw : Firmware} {A B : PState Dbl} {rest : List (PState Dbl)} {c : Block Dbl}
    {prev : Segment Dbl} {k : ℕ} {b : Block Dbl} {p : Dbl} (heq : B.position.real = A.position.real)
    (hprev : c.segments.getLast? = some prev)
    (hw : Near4 (k * 1e-8) prev.posEnd A.position.real) (hp : B.pause = some p)
    (h : mkBlock fw (some A) B rest (some c) = .ok b) : Fit k b ∧ b.stateA = some A ∧ b.stateB = B := by
  unfold mkBlock at h
  simp only [targetVel, move_nowhere_dbl heq, Bool.false_eq_true, if_false, hp, dwellSegment, Block.lastSeg, hprev,
    bind, Except.bind] at h
  split at h
  · cases h
  · rename_i s hs
    cases h
    have hs' := make_dbl hs
    have hn : (connectState A B).normDir4 = none := normDir4_still (connect_rel A B) (connectState_self heq)
    have hw' : Near4 ((k + 1 : ℕ) * 1e-8) prev.posEnd B.position.real := by
      rw [heq]
      obtain ⟨w1, w2, w3, w4⟩ := hw
      push_cast
      refine ⟨?_, ?_, ?_, ?_⟩ <;> linarith
    refine ⟨⟨A, ⟨rfl, Or.inr ⟨hn, heq⟩⟩, s, s, rfl, rfl, ?_, ?_, rfl, rfl⟩, rfl, rfl⟩
    · rw [hs']
      exact hw
    · rw [hs']
      exact hw'

theorem genBlocks_fits {fw : Firmware} {states : List (PState Dbl)} (hreg : Regular (states.map PState.real))
    (hus : Usual (states.map PState.real)) :
    ∀ (rest done : List (PState Dbl)) (pb : Option (Block Dbl)) (k : ℕ) (bs : List (Block Dbl)), states = done ++ rest →
    k ≤ done.length →
    (pb = none → (∀ x ∈ done, ∀ y ∈ done, x.position = y.position) ∧ k = 0) →
    (∀ c ∈ pb, ∃ A l, done.getLast? = some A ∧ c.stateB.position.real = A.position.real ∧ c.segments.getLast? = some l ∧
      Near4 (k * 1e-8) l.posEnd A.position.real) →
    genBlocks fw done.getLast? pb rest = .ok bs →
    FitsFrom k pb bs ∧ bs.length ≤ rest.length ∧ bs.map (fun b => (b.stateA.map PState.real, b.stateB.real)) =
      active (done.getLast?.map PState.real) (rest.map PState.real) := by
  intro rest
  induction rest with
  | nil =>
    intro done pb k bs _ _ _ _ h
    cases h
    refine ⟨trivial, le_rfl, ?_⟩
    simp [active, withPrev]
  | cons s rest ih =>
    intro done pb k bs hst hk hnone hsome h
    have hmem : s ∈ states := by rw [hst]; simp
    have hmem' : s.real ∈ states.map PState.real := List.mem_map_of_mem hmem
    have hst' : states = (done ++ [s]) ++ rest := by rw [hst]; simp
    have hlast : (done ++ [s]).getLast? = some s := by simp
    have hlen : done.length + (rest.length + 1) ≤ 1000000 := by
      have := hus.count
      rw [List.length_map, hst, List.length_append, List.length_cons] at this
      exact this
    have hk' : k ≤ 1000000 := by omega
    unfold genBlocks at h
    simp only [bind, Except.bind] at h
    by_cases hact : s.pause ≠ none ∨ ∃ A, done.getLast? = some A ∧ s.position.real ≠ A.position.real
    · have hact' : s.real.pause ≠ none ∨
          ∃ A, done.getLast?.map PState.real = some A ∧ s.real.position ≠ A.position := by
        rcases hact with h | ⟨A, hA, hne⟩
        · left
          simpa [PState.real] using h
        · exact Or.inr ⟨A.real, by rw [hA]; rfl, hne⟩
      have hblock : ∀ b, mkBlock fw done.getLast? s rest pb = .ok b → ∃ A, done.getLast? = some A ∧ Fit k b ∧
          b.stateA = some A ∧ b.stateB = s := by
        intro b hb
        by_cases hp : s.pause = none
        · obtain ⟨A, hA, hne⟩ := hact.resolve_left (by simpa using hp)
          have hAmem : A ∈ states := by
            rw [hst]
            exact List.mem_append_left _ (List.mem_of_getLast? hA)
          obtain ⟨pre, hpre⟩ := List.getLast?_eq_some_iff.1 hA
          have hsplit : states.map PState.real = pre.map PState.real ++ A.real :: s.real :: rest.map PState.real := by
            rw [hst, hpre]; simp
          obtain ⟨u, ur, u1, u2, u3, _, u5, u6, u7⟩ := move_direction_dbl hne (hreg.speed _ hmem')
          have hm : UsualMove A s u ur := ⟨u2, u3, u5, u6, hreg.speed _ hmem', hreg.acc _ hmem', hus.ramp _ hmem',
            hus.length _ _ _ _ hsplit hne, hus.flow _ _ _ _ hsplit hne, hus.coord _ (List.mem_map_of_mem hAmem),
            hus.coord _ hmem'⟩
          rw [hA] at hb
          refine ⟨A, hA, ?_⟩
          cases pb with
          | none =>
            obtain ⟨_, rfl⟩ := hnone rfl
            have h0 : Near4 ((0 : ℕ) * 1e-8) (Segment.initial A.position).posEnd A.position.real := by
              simp [Near4, Segment.initial, Vec4.real]
            exact mkBlock_move_fit hm u1 u7 (hreg.jerk _ hmem') rfl h0 hk' hp hb
          | some c =>
            obtain ⟨A', l, hA', _, hl, hw⟩ := hsome c rfl
            rw [hA] at hA'
            cases hA'
            exact mkBlock_move_fit (prev := l) hm u1 u7 (hreg.jerk _ hmem') (by simp [Block.lastSeg, hl]) hw hk' hp hb
        · have hp' : s.real.pause ≠ none := by simpa [PState.real] using hp
          have hst2 : states.map PState.real = done.map PState.real ++ s.real :: rest.map PState.real := by
            rw [hst]; simp
          obtain ⟨A', hA', heq⟩ := hreg.stays _ _ _ hst2 hp'
          obtain ⟨x, hx, y, hy, hxy⟩ := hreg.moved _ _ _ hst2 hp'
          rw [List.getLast?_map] at hA'
          obtain ⟨A, hA, rfl⟩ := Option.map_eq_some_iff.1 hA'
          obtain ⟨p, hpp⟩ := Option.ne_none_iff_exists'.1 hp
          rw [hA] at hb
          refine ⟨A, hA, ?_⟩
          cases pb with
          | none =>
            exfalso
            obtain ⟨x', hx', rfl⟩ := List.mem_map.1 hx
            obtain ⟨y', hy', rfl⟩ := List.mem_map.1 hy
            apply hxy
            show x'.position.real = y'.position.real
            rw [(hnone rfl).1 x' hx' y' hy']
          | some c =>
            obtain ⟨A', l, hA', _, hl, hw⟩ := hsome c rfl
            rw [hA] at hA'
            cases hA'
            exact mkBlock_dwell_fit heq hl hw hpp hb
      split at h
      · cases h
      · rename_i b hb
        obtain ⟨A, hA, hfit, hsA, hsB⟩ := hblock b hb
        have hne : b.segments ≠ [] := by
          obtain ⟨_, _, f, l, hf, _⟩ := hfit
          intro h0
          rw [h0] at hf
          cases hf
        simp only [List.isEmpty_iff, hne, if_false] at h
        split at h
        · cases h
        · rename_i bs' hbs
          cases h
          obtain ⟨_, _, f, l, _, hl, _, hwl, _⟩ := hfit
          obtain ⟨r1, r2, r3⟩ := ih (done ++ [s]) (some b) (k + 1) bs' hst' (by simp; omega) (by simp) (by
            intro c hc
            cases hc
            rw [hsB] at hwl
            exact ⟨s, l, hlast, by rw [hsB], hl, hwl⟩) (by rw [hlast]; exact hbs)
          refine ⟨⟨(hblock b hb).choose_spec.2.1, ?_, r1⟩, by simpa using r2, ?_⟩
          · intro c hc A' hA'
            obtain ⟨A'', _, hA'', hc', _⟩ := hsome c hc
            rw [hA] at hA''
            cases hA''
            rw [hsA] at hA'
            cases hA'
            exact hc'.symm
          · rw [List.map_cons, List.map_cons, active_cons_take _ hact', r3, hlast, hsA, hsB, hA]
            rfl
    · push Not at hact
      obtain ⟨hp, heq⟩ := hact
      have heq' : ∀ A' ∈ done.getLast?.map PState.real, s.real.position = A'.position := by
        intro A' hA'
        obtain ⟨A, hA, rfl⟩ := Option.map_eq_some_iff.1 hA'
        exact heq A hA
      have hskip : active (done.getLast?.map PState.real) ((s :: rest).map PState.real) =
          active (some s.real) (rest.map PState.real) := by
        rw [List.map_cons]
        exact active_cons_skip _ heq' (by simp [PState.real, hp])
      rw [hskip]
      have hpos : ∀ A, done.getLast? = some A → s.position = A.position := by
        intro A hA
        have := heq A hA
        have hx := congrArg Vec4.x this
        have hy := congrArg Vec4.y this
        have hz := congrArg Vec4.z this
        have he := congrArg Vec4.e this
        exact Vec4.ext (Dbl.ext_r hx) (Dbl.ext_r hy) (Dbl.ext_r hz) (Dbl.ext_r he)
      have hb : ∃ b, mkBlock fw done.getLast? s rest pb = .ok b ∧ b.segments = [] := by
        cases hd : done.getLast? with
        | none =>
          refine ⟨_, by
            unfold mkBlock
            simp only [targetVel, hp]
            rw [if_neg (by rw [dbl_zero_still]; exact Bool.false_ne_true)]
            rfl, rfl⟩
        | some A =>
          refine ⟨_, by
            unfold mkBlock
            simp only [targetVel, hp, move_nowhere_dbl (heq A hd), Bool.false_eq_true, if_false]
            rfl, rfl⟩
      obtain ⟨b, b1, b2⟩ := hb
      simp only [b1, b2, List.isEmpty_nil, if_true] at h
      obtain ⟨r1, r2, r3⟩ := ih (done ++ [s]) pb k bs hst' (by simp; omega) (by
          intro h
          obtain ⟨h1, h2⟩ := hnone h
          refine ⟨?_, h2⟩
          have hs : ∀ x ∈ done, x.position = s.position := by
            intro x hx
            have hd : done ≠ [] := List.ne_nil_of_mem hx
            have hg := List.getLast?_eq_getLast_of_ne_nil hd
            rw [hpos _ hg]
            exact h1 x hx _ (List.getLast_mem hd)
          intro x hx y hy
          simp only [List.mem_append, List.mem_singleton] at hx hy
          rcases hx with hx | rfl <;> rcases hy with hy | rfl
          · exact h1 x hx y hy
          · exact hs x hx
          · exact (hs y hy).symm
          · rfl) (by
          intro c hc
          obtain ⟨A, l, hA, hc', hl, hw⟩ := hsome c hc
          refine ⟨s, l, hlast, ?_, hl, ?_⟩
          · rw [heq A hA]
            exact hc'
          · rw [heq A hA]
            exact hw) (by rw [hlast]; exact h)
      rw [hlast] at r3
      exact ⟨r1, by simp; omega, r3⟩

/-- The plan of a usual program in double precision, with any junction handling. -/
theorem plan_fits {fw : Firmware} {states : List (PState Dbl)} (hreg : Regular (states.map PState.real))
    (hus : Usual (states.map PState.real)) {bs : List (Block Dbl)} (h : plan fw states = .ok bs) :
    bs.map (fun b => (b.stateA.map PState.real, b.stateB.real)) = active none (states.map PState.real) ∧
      (∀ n b, bs[n]? = some b → Fit n b) ∧ ∀ n b c, bs[n]? = some b → bs[n + 1]? = some c → Joined b c := by
  unfold plan at h
  simp only [bind, Except.bind] at h
  split at h
  · cases h
  · rename_i gs hg
    obtain ⟨g1, g2, g3⟩ := genBlocks_fits hreg hus states [] none 0 gs rfl le_rfl (by simp) (by simp) hg
    have hc := hus.count
    rw [List.length_map] at hc
    obtain ⟨c1, c3, c2⟩ := correctAll_fits g1 (by omega) h
    refine ⟨?_, c1, c3⟩
    rw [List.getLast?_nil, Option.map_none] at g3
    rw [← g3]
    clear h hg g1 g2 g3 c1 c3
    induction c2 with
    | nil => rfl
    | cons a _ ih =>
      rw [List.map_cons, List.map_cons, ih, a.1, a.2.1]

end PyGCD
