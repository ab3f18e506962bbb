import Verif.Model.Sim
import Mathlib.Data.List.Forall2

/-!
# A rule for what holds for all blocks of a plan

What newly planned blocks have (`F`), what blocks keep when they are shifted in time behind the block before them (`G`),
and what relates every block to the next one (`R`).
-/

set_option linter.unusedSectionVars false
set_option linter.unusedSimpArgs false

namespace PyGCD

section
variable {K : Type} [Add K] [Sub K] [Mul K] [Div K] [Neg K] [LT K] [LE K] [DecidableLT K]
  [DecidableLE K] [DecidableEq K] [OfNat K 0] [OfNat K 1] [OfNat K 2] [OfNat K 18] [OfNat K 180]
  [OfScientific K] [PyMath K]

/-- The states of a block. -/
def Block.ends (b : Block K) : Option (PState K) × PState K := (b.stateA, b.stateB)

/-- What has to be shown: `F` and `G` know the states of the blocks before a block, nearest first. -/
structure PlanRule (F G : List (Option (PState K) × PState K) → Block K → Prop)
    (R : List (Option (PState K) × PState K) → Block K → Block K → Prop) : Prop where
  kept : ∀ hist b, F hist b → G hist b
  again : ∀ hist b pb v b', G hist b → (pb = none → hist = []) →
    (∀ p ∈ pb, ∃ h, hist = p.ends :: h ∧ G h p) → moveMaker b pb (Vec4.norm3 v) = .ok b' →
    b'.segments ≠ [] → F hist b' ∧ ∀ p ∈ pb, R hist.tail p b'
  shifted : ∀ hist p b l f, G hist p → F (p.ends :: hist) b → p.lastSeg = .ok l → b.firstSeg = .ok f →
    G (p.ends :: hist) (b.timeshift (l.tEnd - f.tBegin)) ∧ R hist p (b.timeshift (l.tEnd - f.tBegin))

/-- Blocks in reverse order that are as they should be. -/
def Held (G : List (Option (PState K) × PState K) → Block K → Prop)
    (R : List (Option (PState K) × PState K) → Block K → Block K → Prop) : List (Block K) → Prop
  | [] => True
  | b :: rp => G (rp.map Block.ends) b ∧ (∀ p ∈ rp.head?, R (rp.tail.map Block.ends) p b) ∧ Held G R rp

/-- New blocks in order. -/
def Fresh (F : List (Option (PState K) × PState K) → Block K → Prop) :
    List (Option (PState K) × PState K) → List (Block K) → Prop
  | _, [] => True
  | hist, b :: bs => F hist b ∧ Fresh F (b.ends :: hist) bs

theorem moveMaker_ends {b b' : Block K} {pb : Option (Block K)} {v : K} (h : moveMaker b pb v = .ok b') :
    b'.ends = b.ends := by
  unfold moveMaker at h
  split at h
  · simp only [bind, Except.bind] at h
    cases pb with
    | none =>
      simp only at h
      split at h
      · cases h
      · cases h
        rfl
    | some c =>
      simp only at h
      split at h
      · cases h
      · split at h
        · cases h
        · cases h
          rfl
  · cases h
  · cases h

theorem timeshift_ends (b : Block K) (d : K) : (b.timeshift d).ends = b.ends := rfl

local macro "fin_tac" h:ident : tactic => `(tactic| (
  (try simp only at $h:ident)
  split at $h:ident
  · cases $h:ident
  · split at $h:ident
    · cases $h:ident
      exact ⟨_, rfl, by assumption⟩
    · split at $h:ident
      · cases $h:ident
      · cases $h:ident
        exact ⟨_, rfl, by assumption⟩))

/-- What a correction that succeeds has done. -/
theorem selfCorrection_done {rp : List (Block K)} {b nx : Block K}
    {r : List (Block K) × Block K × Option (Block K)} (h : selfCorrection rp b (some nx) = .ok r) :
    ∃ y l f, r = (y.1, y.2, some (nx.timeshift (l.tEnd - f.tBegin))) ∧ y.2.lastSeg = .ok l ∧ nx.firstSeg = .ok f ∧
      (y = (rp, b) ∨ ∃ b' v, moveMaker b rp.head? (Vec4.norm3 v) = .ok b' ∧
      (y = (rp, b') ∨ ∃ p rp' r', rp = p :: rp' ∧ selfCorrection rp' p (some b') = .ok r' ∧
        y = (r'.2.1 :: r'.1, r'.2.2.getD b'))) := by
  unfold selfCorrection at h
  simp only [bind, Except.bind] at h
  split at h
  · cases h
  · rename_i l0 hl0
    split at h
    · cases h
    · rename_i nfirst hnf
      split at h
      · split at h
        · cases h
        · rename_i b' hb'
          split at h
          · cases rp with
            | nil => cases h
            | cons p rp' =>
              simp only at h
              cases hr : selfCorrection rp' p (some b') with
              | error e =>
                rw [hr] at h
                cases h
              | ok r' =>
                rw [hr] at h
                obtain ⟨r1, r2, r3⟩ := r'
                cases r3 with
                | none =>
                  obtain ⟨l, hd, hl⟩ : ∃ l : Segment K,
                    r = (r2 :: r1, b', some (nx.timeshift (l.tEnd - nfirst.tBegin))) ∧ b'.lastSeg = .ok l := by fin_tac h
                  exact ⟨_, l, _, hd, hl, hnf, Or.inr ⟨b', _, hb', Or.inr ⟨p, rp', _, rfl, hr, rfl⟩⟩⟩
                | some b'' =>
                  obtain ⟨l, hd, hl⟩ : ∃ l : Segment K,
                    r = (r2 :: r1, b'', some (nx.timeshift (l.tEnd - nfirst.tBegin))) ∧ b''.lastSeg = .ok l := by fin_tac h
                  exact ⟨_, l, _, hd, hl, hnf, Or.inr ⟨b', _, hb', Or.inr ⟨p, rp', _, rfl, hr, rfl⟩⟩⟩
          · obtain ⟨l, hd, hl⟩ : ∃ l : Segment K, r = (rp, b', some (nx.timeshift (l.tEnd - nfirst.tBegin))) ∧
              b'.lastSeg = .ok l := by fin_tac h
            exact ⟨_, l, _, hd, hl, hnf, Or.inr ⟨b', _, hb', Or.inl rfl⟩⟩
      · obtain ⟨l, hd, hl⟩ : ∃ l : Segment K, r = (rp, b, some (nx.timeshift (l.tEnd - nfirst.tBegin))) ∧
          b.lastSeg = .ok l := by
            simp only [hl0] at h
            split at h
            · cases h
              exact ⟨_, rfl, hl0⟩
            · split at h
              · cases h
              · cases h
                exact ⟨_, rfl, hl0⟩
        exact ⟨_, l, _, hd, hl, hnf, Or.inl rfl⟩

variable {F G : List (Option (PState K) × PState K) → Block K → Prop}
  {R : List (Option (PState K) × PState K) → Block K → Block K → Prop}

theorem lastSeg_ne {b : Block K} {s : Segment K} (h : b.lastSeg = .ok s) : b.segments ≠ [] := by
  intro h0
  unfold Block.lastSeg at h
  rw [h0] at h
  cases h

theorem firstSeg_ne {b : Block K} {s : Segment K} (h : b.firstSeg = .ok s) : b.segments ≠ [] := by
  intro h0
  unfold Block.firstSeg at h
  rw [h0] at h
  cases h

theorem PlanRule.correction (hr : PlanRule F G R) : ∀ (rp : List (Block K)) (b nx : Block K)
    (r : List (Block K) × Block K × Option (Block K)), Held G R (b :: rp) → F (b.ends :: rp.map Block.ends) nx →
    selfCorrection rp b (some nx) = .ok r →
    ∃ nx', r.2.2 = some nx' ∧ Held G R (nx' :: r.2.1 :: r.1) ∧ nx'.ends = nx.ends ∧
      (r.2.1 :: r.1).map Block.ends = (b :: rp).map Block.ends := by
  intro rp
  induction rp with
  | nil =>
    intro b nx r hH hF h
    obtain ⟨y, l, f, rfl, hl, hf, hy⟩ := selfCorrection_done h
    have hy' : Held G R (y.2 :: y.1) ∧ (y.2 :: y.1).map Block.ends = [b.ends] := by
      rcases hy with rfl | ⟨b', v, hb', hy⟩
      · exact ⟨hH, rfl⟩
      · rcases hy with rfl | ⟨p, rp', r', h0, _⟩
        · obtain ⟨g1, _⟩ := hr.again [] b none v b' hH.1 (by simp) (by simp) hb' (lastSeg_ne hl)
          exact ⟨⟨hr.kept _ _ g1, by simp, trivial⟩, by simp [moveMaker_ends hb']⟩
        · cases h0
    obtain ⟨y1, y2⟩ := hy'
    obtain ⟨yr, yb⟩ := y
    simp only [List.map_cons, List.cons.injEq, List.map_nil] at y1 y2 hl ⊢
    have hF' : F (yb.ends :: yr.map Block.ends) nx := by
      rw [y2.1, y2.2]
      exact hF
    obtain ⟨s1, s2⟩ := hr.shifted _ _ _ _ _ y1.1 hF' hl hf
    exact ⟨_, rfl, ⟨s1, by rintro _ ⟨⟩; exact s2, y1⟩, rfl, y2⟩
  | cons p rp ih =>
    intro b nx r hH hF h
    obtain ⟨y, l, f, rfl, hl, hf, hy⟩ := selfCorrection_done h
    have hy' : Held G R (y.2 :: y.1) ∧ (y.2 :: y.1).map Block.ends = (b :: p :: rp).map Block.ends := by
      rcases hy with rfl | ⟨b', v, hb', hy⟩
      · exact ⟨hH, rfl⟩
      · have hne : b'.segments ≠ [] := by
          rcases hy with rfl | ⟨p', rp', r', h0, hr', rfl⟩
          · exact lastSeg_ne hl
          · obtain ⟨_, _, _, _, _, hf', _⟩ := selfCorrection_done hr'
            exact firstSeg_ne hf'
        obtain ⟨g1, g2⟩ := hr.again (p.ends :: rp.map Block.ends) b (some p) v b' hH.1 (by simp) (by
          rintro _ ⟨⟩
          exact ⟨_, rfl, hH.2.2.1⟩) hb' hne
        have he := moveMaker_ends hb'
        rcases hy with rfl | ⟨p', rp', r', h0, hr', rfl⟩
        · exact ⟨⟨hr.kept _ _ g1, fun q hq => g2 q (by simpa using hq), hH.2.2⟩, by simp [he]⟩
        · cases h0
          obtain ⟨n', n1, n2, n3, n4⟩ := ih p b' r' hH.2.2 g1 hr'
          rw [n1]
          refine ⟨n2, ?_⟩
          rw [List.map_cons, n4, Option.getD_some, n3, he]
          rfl
    obtain ⟨y1, y2⟩ := hy'
    obtain ⟨yr, yb⟩ := y
    simp only [List.map_cons, List.cons.injEq, List.map_nil] at y1 y2 hl ⊢
    have hF' : F (yb.ends :: yr.map Block.ends) nx := by
      rw [y2.1, y2.2]
      exact hF
    obtain ⟨s1, s2⟩ := hr.shifted _ _ _ _ _ y1.1 hF' hl hf
    exact ⟨_, rfl, ⟨s1, by rintro _ ⟨⟩; exact s2, y1⟩, rfl, y2⟩

theorem PlanRule.corrections (hr : PlanRule F G R) : ∀ (tl rp : List (Block K)) (b : Block K) (r : List (Block K)),
    Held G R (b :: rp) → Fresh F ((b :: rp).map Block.ends) tl → correctFrom rp b tl = .ok r → Held G R r.reverse
  | [], rp, b, r, hH, _, h => by
    unfold correctFrom at h
    unfold selfCorrection at h
    cases h
    simpa using hH
  | nx :: tl, rp, b, r, hH, hT, h => by
    unfold correctFrom at h
    simp only [bind, Except.bind] at h
    split at h
    · cases h
    · rename_i q hq
      obtain ⟨nx', n1, n2, n3, n4⟩ := hr.correction rp b nx q hH hT.1 hq
      rw [n1, Option.getD_some] at h
      refine hr.corrections tl _ _ r n2 ?_ h
      rw [List.map_cons, n4, n3]
      exact hT.2

theorem Held.get : ∀ {rp : List (Block K)}, Held G R rp → ∀ {i : ℕ} {b : Block K}, rp[i]? = some b →
    G ((rp.drop (i + 1)).map Block.ends) b
  | [], _, _, _, h => by cases h
  | c :: rp, hF, 0, b, h => by
    cases h
    exact hF.1
  | c :: rp, hF, i + 1, b, h => Held.get hF.2.2 (i := i) h

theorem Held.next : ∀ {rp : List (Block K)}, Held G R rp → ∀ {i : ℕ} {b c : Block K}, rp[i]? = some c →
    rp[i + 1]? = some b → R ((rp.drop (i + 2)).map Block.ends) b c
  | [], _, _, _, _, h, _ => by cases h
  | c' :: rp, hF, 0, b, c, h, g => by
    cases h
    have := hF.2.1 b (by rw [List.head?_eq_getElem?]; exact g)
    rw [← List.drop_one] at this
    exact this
  | c' :: rp, hF, i + 1, b, c, h, g => Held.next hF.2.2 (i := i) h g

/-- **The rule.** -/
theorem PlanRule.plan (hr : PlanRule F G R) {fw : Firmware} {states : List (PState K)}
    (hnew : ∀ done s rest hist pb b, states = done ++ s :: rest → (pb = none → hist = []) →
      (∀ p ∈ pb, ∃ h, hist = p.ends :: h ∧ F h p) → mkBlock fw done.getLast? s rest pb = .ok b → b.segments ≠ [] →
      F hist b)
    {bs : List (Block K)} (h : plan fw states = .ok bs) :
    (∀ n b, bs[n]? = some b → G (((bs.take n).map Block.ends).reverse) b) ∧
      ∀ n b c, bs[n]? = some b → bs[n + 1]? = some c → R (((bs.take n).map Block.ends).reverse) b c := by
  have gen : ∀ (rest done : List (PState K)) (hist) (pb : Option (Block K)) (bs : List (Block K)),
      states = done ++ rest → (pb = none → hist = []) → (∀ p ∈ pb, ∃ h, hist = p.ends :: h ∧ F h p) →
      genBlocks fw done.getLast? pb rest = .ok bs → Fresh F hist bs := by
    intro rest
    induction rest with
    | nil =>
      intro done hist pb bs _ _ _ h
      cases h
      trivial
    | cons s rest ih =>
      intro done hist pb bs hst h0 h1 h
      have hst' : states = (done ++ [s]) ++ rest := by rw [hst]; simp
      have hlast : (done ++ [s]).getLast? = some s := by simp
      unfold genBlocks at h
      simp only [bind, Except.bind] at h
      split at h
      · cases h
      · rename_i b hb
        by_cases he : b.segments = []
        · simp only [he, List.isEmpty_nil, if_true] at h
          exact ih (done ++ [s]) hist pb bs hst' h0 h1 (by rw [hlast]; exact h)
        · simp only [List.isEmpty_iff, he, if_false] at h
          split at h
          · cases h
          · rename_i bs' hbs
            cases h
            have hF := hnew done s rest hist pb b hst h0 h1 hb he
            exact ⟨hF, ih (done ++ [s]) (b.ends :: hist) (some b) bs' hst' (by simp) (by
              rintro _ ⟨⟩
              exact ⟨_, rfl, hF⟩) (by rw [hlast]; exact hbs)⟩
  unfold PyGCD.plan at h
  simp only [bind, Except.bind] at h
  split at h
  · cases h
  · rename_i gs hg
    have hfresh := gen states [] [] none gs rfl (by simp) (by simp) hg
    have hH : Held G R bs.reverse := by
      cases gs with
      | nil =>
        cases h
        trivial
      | cons b tl => exact hr.corrections tl [] b bs ⟨hr.kept _ _ hfresh.1, by simp, trivial⟩ hfresh.2 h
    have hdrop : ∀ i n, i + n = bs.length → (bs.reverse.drop i).map Block.ends = ((bs.take n).map Block.ends).reverse := by
      intro i n hin
      rw [List.drop_reverse, ← List.map_reverse, show bs.length - i = n by omega]
    refine ⟨?_, ?_⟩
    · intro n b hb
      have hn : n < bs.length := by
        by_contra hn
        rw [List.getElem?_eq_none (by omega)] at hb
        cases hb
      have := Held.get hH (i := bs.length - 1 - n) (b := b) (by
        rw [List.getElem?_reverse (by omega), show bs.length - 1 - (bs.length - 1 - n) = n by omega]
        exact hb)
      rwa [hdrop _ n (by omega)] at this
    · intro n b c hb hc
      have hn : n + 1 < bs.length := by
        by_contra hn
        rw [List.getElem?_eq_none (by omega)] at hc
        cases hc
      have := Held.next hH (i := bs.length - 1 - (n + 1)) (b := b) (c := c) (by
        rw [List.getElem?_reverse (by omega), show bs.length - 1 - (bs.length - 1 - (n + 1)) = n + 1 by omega]
        exact hc) (by
        rw [List.getElem?_reverse (by omega), show bs.length - 1 - (bs.length - 1 - (n + 1) + 1) = n by omega]
        exact hb)
      rwa [hdrop _ n (by omega)] at this

end
end PyGCD
