import Verif.Proofs.LinkedLemmas
import Verif.Proofs.SpeedLemmas

/-!
# How deeply the correction nests
-/

set_option linter.unusedSectionVars false
set_option linter.unusedSimpArgs false

namespace PyGCD
open Vec4 Spec

/-- The action a block belongs to. -/
def Block.act (b : Block ℝ) : Option (PState ℝ) × PState ℝ := (b.stateA, b.stateB)

/-- Planning a block again with a lower end speed: what it becomes, and when the block before has to follow. -/
theorem recorrect {c b nx : Block ℝ} {rp : List (Block ℝ)} (hz : Zip (c :: rp) b) (hn : Good nx) (hlink : Link b nx)
    (hlt : nx.nIn < b.nOut) :
    Travelling b.act ∧ ∃ b', moveMaker b (some c) nx.nIn = .ok b' ∧ Good b' ∧ b'.act = b.act ∧ b'.nOut = nx.nIn ∧
      b'.nIn ≤ b.stateB.speed ∧
      (b'.blocktype = some .single → Link c b' ∧ b'.nIn ^ 2 = nx.nIn ^ 2 + squareGain b.act) ∧
      (squareGain b.act < min c.nOut b.stateB.speed ^ 2 - nx.nIn ^ 2 → b'.blocktype = some .single) := by
  have hb := hz.good b (by simp)
  have hc := hz.good c (by simp)
  obtain ⟨A, s, last, e1, e2, e3, e4, e5, e6, e7, e8, e9, e10, e11, _⟩ := hb.facts
  obtain ⟨A', nfirst, q', f1, f2, f3, f4, f5, f6, f7, f8, f9, f10, _⟩ := hn.facts
  obtain ⟨A'', cs, clast, c1, c2, c3, c4, c5, c6, c7, c8, c9, c10, c11, _⟩ := hc.facts
  obtain ⟨⟨l1, l2, l3, l4⟩, lo⟩ := hz.link
  obtain ⟨A₁, u, s0, s1, hm⟩ : ∃ A u s0 s1, MoveB b A u s0 s1 := by
    rcases hb with h | ⟨A, p, h⟩
    · exact h
    · exfalso
      obtain ⟨t, ht⟩ := h.hseg
      have : b.nOut = 0 := by simp [Block.nOut, ht, norm3_zero]
      linarith
  have hz' : (b.stateB.position.sub A₁.position).norm3 ≠ 0 := by
    intro h0
    have := (hm.filament h0).2
    linarith
  obtain ⟨hu1, g9, g10, hdist⟩ := hm.travel hz'
  obtain ⟨k1, k2, k3, k4, k5, k6⟩ := hm.facts
  have hve : 0 ≤ nx.nIn ∧ nx.nIn ≤ b.stateB.speed := ⟨f10, by linarith⟩
  have hcpos : clast.posEnd = A₁.position := by
    rw [hm.hA, Option.map_some, Option.some.injEq] at l1
    rw [c8, l1]
  obtain ⟨segs, bt, r0, r1, m1, m2, mp, m3, m4⟩ := moveMaker_spec hm.toHdr (pb := some c)
    (prev := clast) (lastSeg_ok c3) hcpos hve
  rw [c9, hdist] at m2
  rw [hdist] at k5
  have hvb : s0 ≤ min c.nOut b.stateB.speed := le_min (by rw [← g9]; exact l2) k2
  have hgain : squareGain b.act = 2 * b.stateB.pAcc * (b.stateB.position.sub A₁.position).norm3 := by
    unfold squareGain Block.act
    simp only [hm.hA]
  have hbt : r1 = nx.nIn ∧ r0 ≤ min c.nOut b.stateB.speed ∧
      (bt = .single → r0 ^ 2 = r1 ^ 2 + 2 * b.stateB.pAcc * (b.stateB.position.sub A₁.position).norm3) := by
    cases m2 with
    | trapezoid => exact ⟨rfl, le_refl _, fun h => by cases h⟩
    | triangle => exact ⟨rfl, le_refl _, fun h => by cases h⟩
    | up h =>
      exfalso
      have h1 := le_trans (le_abs_self _) k5
      have h2 := (sq_lt_sq₀ f10 k3).2 (by rw [← g10]; exact hlt)
      have h3 := (sq_le_sq₀ k1 (le_trans k1 hvb)).2 hvb
      linarith
    | down h hb h1 => exact ⟨rfl, hb.2, fun _ => h1⟩
  have hsingle : squareGain b.act < min c.nOut b.stateB.speed ^ 2 - nx.nIn ^ 2 → bt = .single := by
    intro hlt'
    rw [hgain] at hlt'
    have h3 := (sq_le_sq₀ (le_trans k1 hvb) hm.hs.le).2 (min_le_right c.nOut b.stateB.speed)
    cases m2 with
    | trapezoid h => exfalso; linarith
    | triangle h h' =>
      exfalso
      have := neg_le_abs (nx.nIn ^ 2 - min c.nOut b.stateB.speed ^ 2)
      linarith
    | up => rfl
    | down => rfl
  obtain ⟨rfl, hr0, hr0''⟩ := hbt
  have hm' := replanned hm (m4 ({ b with segments := segs, blocktype := some bt } : Block ℝ) rfl) mp
    (by rw [← g10]; exact hlink.2.1)
  obtain ⟨_, j9, j10, _⟩ := hm'.travel hz'
  refine ⟨⟨hm.hpause, A₁, hm.hA, hz'⟩, _, m1, Or.inl ⟨_, _, _, _, hm'⟩, rfl, j10, ?_, ?_, ?_⟩
  · rw [j9]
    exact hr0.trans (min_le_right _ _)
  · intro hs
    simp only [Option.some.injEq] at hs
    have hE : ({ b with segments := segs, blocktype := some bt } : Block ℝ).EntryR :=
      Or.inr ⟨_, _, _, _, hm', Or.inr (Or.inr (by rw [hr0'' hs, ← hdist]))⟩
    refine ⟨⟨l1, ?_, Or.inr hE, Or.inr hE⟩, ?_⟩
    · rw [j9]
      exact hr0.trans (min_le_left _ _)
    · rw [j9, hr0'' hs, hgain]
  · intro h
    rw [hsingle h]

/-- Without a difference nothing is planned again. -/
theorem correctZip_same {b nx : Block ℝ} {limit : ℕ} {rp : List (Block ℝ)} (hb : Good b) (hn : Good nx)
    (hpos : nx.stateA.map PState.position = some b.stateB.position) (h : b.nOut = nx.nIn) :
    ∃ d, correctZip (limit + 1) rp b (some nx) = .ok (rp, b, some (nx.timeshift d)) := by
  obtain ⟨A, s, last, e1, e2, e3, e4, e5, e6, e7, e8, e9, e10, e11, _⟩ := hb.facts
  obtain ⟨A', nfirst, q', f1, f2, f3, f4, f5, f6, f7, f8, f9, f10, _⟩ := hn.facts
  obtain ⟨fin1, _⟩ := finish_ok hb hn e3 f2 hpos h.ge (by rw [h]; norm_num)
  refine ⟨last.tEnd - nfirst.tBegin, ?_⟩
  unfold correctZip
  have hd : differs last nfirst = false := by
    unfold differs
    rw [e9, f6, h]
    simp
  simp only [lastSeg_ok e3, firstSeg_ok f2, hd, Bool.false_eq_true, if_false, finishZip, fin1, if_true]

theorem finishZip_recursion {nx : Block ℝ} {nfirst : Segment ℝ} {x : List (Block ℝ) × Block ℝ} :
    finishZip nx nfirst x ≠ .error .recursion := by
  unfold finishZip
  cases x.2.lastSeg with
  | error e => simp
  | ok l =>
    simp only
    by_cases h1 : l.posEnd.eq nfirst.posBegin = true
    · rw [if_pos h1]
      simp
    · rw [if_neg h1]
      by_cases h2 : (1e-12 : ℝ) < (l.posEnd.sub nfirst.posBegin).norm3
      · rw [if_pos h2]
        simp
      · rw [if_neg h2]
        simp

/-- Where a recursion error comes from. -/
theorem correctZip_step {limit : ℕ} {rp : List (Block ℝ)} {b nx : Block ℝ} (hz : Zip rp b) (hn : Good nx)
    (hl : Link b nx) (h : correctZip (limit + 1) rp b (some nx) = .error .recursion) :
    ∃ c rp' b', rp = c :: rp' ∧ Travelling b.act ∧ Zip rp' c ∧ Good b' ∧ Link c b' ∧ b'.act = b.act ∧
      b'.nIn ^ 2 = nx.nIn ^ 2 + squareGain b.act ∧ b'.nIn ≤ b.stateB.speed ∧
      correctZip limit rp' c (some b') = .error .recursion := by
  have hb := hz.good b (by simp)
  obtain ⟨A, s, last, e1, e2, e3, e4, e5, e6, e7, e8, e9, e10, e11, _⟩ := hb.facts
  obtain ⟨A', nfirst, q', f1, f2, f3, f4, f5, f6, f7, f8, f9, f10, _⟩ := hn.facts
  unfold correctZip at h
  simp only [lastSeg_ok e3, firstSeg_ok f2] at h
  by_cases hd : differs last nfirst = true
  · rw [if_pos hd] at h
    have hne : b.nOut ≠ nx.nIn := by
      intro heq
      unfold differs at hd
      rw [e9, f6, heq] at hd
      simp at hd
    have hlt : nx.nIn < b.nOut := lt_of_le_of_ne hl.2.1 (Ne.symm hne)
    rw [f6] at h
    cases rp with
    | nil =>
      exfalso
      cases hm : moveMaker b ([] : List (Block ℝ)).head? nx.nIn with
      | error e => rw [hm] at h; cases h
      | ok b' =>
        simp only [hm] at h
        by_cases hs : b'.blocktype = some .single
        · rw [if_pos hs] at h; cases h
        · rw [if_neg hs] at h
          exact finishZip_recursion h
    | cons c rp' =>
      obtain ⟨t, b', m1, m2, m3, m4, m5, m6, _⟩ := recorrect hz hn hl hlt
      simp only [List.head?_cons, m1] at h
      by_cases hs : b'.blocktype = some .single
      · rw [if_pos hs] at h
        obtain ⟨n1, n2⟩ := m6 hs
        refine ⟨c, rp', b', rfl, t, hz.tail, m2, n1, m3, n2, m5, ?_⟩
        cases hr : correctZip limit rp' c (some b') with
        | error e =>
          rw [hr] at h
          exact h
        | ok r =>
          rw [hr] at h
          exact absurd h finishZip_recursion
      · rw [if_neg hs] at h
        exact absurd h finishZip_recursion
  · rw [if_neg hd] at h
    exact absurd h finishZip_recursion

theorem Good.nIn_nonneg {b : Block ℝ} (h : Good b) : 0 ≤ b.nIn := by
  obtain ⟨_, _, _, _, _, _, _, _, _, _, _, _, h10, _⟩ := h.facts
  exact h10

/-- If the blocks before are long enough to brake, the nesting is not too deep. -/
theorem correctZip_short : ∀ (limit : ℕ) (rp : List (Block ℝ)) (b nx : Block ℝ), Zip rp b → Good nx → Link b nx →
    (∀ l x, (b :: rp).take (limit + 1) = l ++ [x] → l.length = limit →
      (∃ y ∈ l ++ [x], ¬ Travelling y.act) ∨
        x.stateB.speed ^ 2 < nx.nIn ^ 2 + ((l ++ [x]).map fun y => squareGain y.act).sum) →
    correctZip (limit + 1) rp b (some nx) ≠ .error .recursion := by
  intro limit
  induction limit with
  | zero =>
    intro rp b nx hz hn hl hbr h
    obtain ⟨c, rp', b', rfl, t, _, g, _, _, m4, m5, _⟩ := correctZip_step hz hn hl h
    rcases hbr [] b rfl rfl with ⟨y, hy, hy'⟩ | hlt
    · rw [List.nil_append, List.mem_singleton] at hy
      subst hy
      exact hy' t
    · simp only [List.nil_append, List.map_cons, List.map_nil, List.sum_cons, List.sum_nil, _root_.add_zero] at hlt
      rw [← m4] at hlt
      have := (sq_lt_sq₀ (le_trans g.nIn_nonneg m5) g.nIn_nonneg).1 hlt
      linarith
  | succ limit ih =>
    intro rp b nx hz hn hl hbr h
    obtain ⟨c, rp', b', rfl, t, m0, g, m1, m2, m4, m5, m6⟩ := correctZip_step hz hn hl h
    refine ih rp' c b' m0 g m1 ?_ m6
    intro l x hlx hlen
    rcases hbr (b :: l) x (by rw [List.take_succ_cons, hlx, List.cons_append]) (by rw [List.length_cons, hlen]) with
      ⟨y, hy, hy'⟩ | hlt
    · left
      rw [List.cons_append, List.mem_cons] at hy
      rcases hy with rfl | hy
      · exact absurd t hy'
      · exact ⟨y, hy, hy'⟩
    · right
      rw [List.cons_append, List.map_cons, List.sum_cons] at hlt
      rw [m4]
      linarith

/-- The same for the whole list. -/
theorem correctZipFrom_short (limit : ℕ) {acts : List (Option (PState ℝ) × PState ℝ)}
    (hbr : ∀ x l, x :: l <:+: acts → (x :: l).length = limit + 1 →
      (∃ y ∈ x :: l, ¬ Travelling y) ∨ x.2.speed ^ 2 < ((x :: l).map squareGain).sum) :
    ∀ (tl rp : List (Block ℝ)) (b : Block ℝ), Zip rp b → (∀ c ∈ tl, Good c) → (b :: tl).IsChain Link →
    (rp.reverse ++ b :: tl).map Block.act = acts →
    correctZipFrom (limit + 1) rp b tl ≠ .error .recursion := by
  intro tl
  induction tl with
  | nil =>
    intro rp b _ _ _ _ h
    unfold correctZipFrom correctZip at h
    cases h
  | cons nx tl ih =>
    intro rp b hz hg hch hacts h
    obtain ⟨hl, hch'⟩ := List.isChain_cons_cons.1 hch
    have hnx := hg nx (by simp)
    have hshort : correctZip (limit + 1) rp b (some nx) ≠ .error .recursion := by
      refine correctZip_short limit rp b nx hz hnx hl ?_
      intro l x hlx hlen
      have hinf : x.act :: (l.reverse.map Block.act) <:+: acts := by
        obtain ⟨d, hd⟩ : ∃ d, b :: rp = (l ++ [x]) ++ d :=
          ⟨(b :: rp).drop (limit + 1), by rw [← hlx, List.take_append_drop]⟩
        refine ⟨d.reverse.map Block.act, (nx :: tl).map Block.act, ?_⟩
        rw [← hacts]
        have : rp.reverse ++ b :: nx :: tl = (b :: rp).reverse ++ (nx :: tl) := by simp
        rw [this, hd]
        simp
      rcases hbr _ _ hinf (by simp [hlen]) with ⟨y, hy, hy'⟩ | hlt
      · left
        rw [List.mem_cons, List.mem_map] at hy
        rcases hy with rfl | ⟨z, hz', rfl⟩
        · exact ⟨x, by simp, hy'⟩
        · exact ⟨z, by simpa using Or.inl (by simpa using hz'), hy'⟩
      · right
        have he : ((x.act :: (l.reverse.map Block.act)).map squareGain).sum =
            ((l ++ [x]).map fun y => squareGain y.act).sum := by
          rw [List.map_cons, List.sum_cons, List.map_append, List.sum_append, List.map_map, List.map_reverse,
            List.sum_reverse]
          simp only [List.map_cons, List.map_nil, List.sum_cons, List.sum_nil, _root_.add_zero]
          rw [_root_.add_comm]
          rfl
        rw [he] at hlt
        have := sq_nonneg nx.nIn
        have h2 : x.act.2.speed = x.stateB.speed := rfl
        rw [h2] at hlt
        linarith
    unfold correctZipFrom at h
    rcases correctZip_eq (limit + 1) rp b (some nx) with he | he
    · obtain ⟨rp', b', δ, h1, h2, h3, h4⟩ := selfCorrection_spec rp b nx hz hnx hl
      rw [he, h1] at h
      simp only [raised, Option.getD_some] at h
      have hz' : Zip (b' :: rp') (nx.timeshift δ) := h2.cons (hnx.timeshift δ) h3
      refine ih (b' :: rp') _ hz' (fun c hc => hg c (by simp [hc])) ?_ ?_ h
      · cases tl with
        | nil => exact List.isChain_singleton _
        | cons y tl =>
          rw [List.isChain_cons_cons] at hch' ⊢
          exact ⟨hch'.1.timeshift hnx δ, hch'.2⟩
      · rw [← hacts]
        have hk : (b' :: rp').map Block.act = (b :: rp).map Block.act := by
          have : ∀ l : List (Block ℝ), l.map Block.act = (l.map Block.key).map fun k => (k.1, k.2.1) := by
            intro l
            rw [List.map_map]
            rfl
          rw [this, h4, ← this]
        have e1 : (b' :: rp').reverse ++ nx.timeshift δ :: tl = (b' :: rp').reverse ++ (nx.timeshift δ :: tl) := rfl
        have e2 : rp.reverse ++ b :: nx :: tl = (b :: rp).reverse ++ (nx :: tl) := by simp
        rw [e1, e2, List.map_append, List.map_append, List.map_reverse, hk, ← List.map_reverse]
        rfl
    · exact hshort he.1

/-- Blocks too short to brake in: the correction nests as deeply as there are blocks. -/
theorem correctZip_deep {v g : ℝ} (hv : 1 ≤ v) : ∀ (limit : ℕ) (rp : List (Block ℝ)) (b nx : Block ℝ), Zip rp b →
    Good nx → Link b nx → limit ≤ rp.length →
    (∀ x ∈ (b :: rp).take (limit + 1), x.nOut = v ∧ x.stateB.speed = v ∧ squareGain x.act = g) → 0 ≤ g →
    nx.nIn ^ 2 + limit * g + v ≤ v ^ 2 → correctZip limit rp b (some nx) = .error .recursion := by
  intro limit
  induction limit with
  | zero =>
    intro rp b nx _ _ _ _ _ _ _
    unfold correctZip
    rfl
  | succ limit ih =>
    intro rp b nx hz hn hl hlen hall hg hroom
    cases rp with
    | nil => simp at hlen
    | cons c rp' =>
      have hb := hz.good b (by simp)
      obtain ⟨A, s, last, e1, e2, e3, e4, e5, e6, e7, e8, e9, e10, e11, _⟩ := hb.facts
      obtain ⟨A', nfirst, q', f1, f2, f3, f4, f5, f6, f7, f8, f9, f10, _⟩ := hn.facts
      obtain ⟨b1, b2, b3⟩ := hall b (by simp)
      obtain ⟨c1, _, _⟩ := hall c (by simp)
      push_cast at hroom
      have hlg : 0 ≤ (limit : ℝ) * g := by positivity
      have hlt : nx.nIn < b.nOut := by
        rw [b1]
        exact lt_of_pow_lt_pow_left₀ 2 (by linarith) (by nlinarith)
      obtain ⟨t, b', m1, m2, m3, m4, m5, m6, m7⟩ := recorrect hz hn hl hlt
      have hs : b'.blocktype = some .single := by
        apply m7
        rw [b2, c1, min_self, b3]
        nlinarith
      obtain ⟨n1, n2⟩ := m6 hs
      have hd : differs last nfirst = true := by
        unfold differs
        rw [e9, f6, b1, pyAbs_real]
        rw [b1] at hlt
        have h1 : 1 / 2 ≤ v - nx.nIn := by
          by_contra hc
          push Not at hc
          nlinarith
        have h2 : (1e-12 : ℝ) < |v - nx.nIn| := lt_of_lt_of_le (by norm_num) (h1.trans (le_abs_self _))
        simp [hlt.ne', h2]
      have hrec := ih rp' c b' hz.tail m2 n1 (by simpa using hlen) (fun x hx => hall x (by
        rw [List.take_succ_cons]
        exact List.mem_cons_of_mem _ hx)) hg (by rw [n2, b3]; linarith)
      unfold correctZip
      simp only [lastSeg_ok e3, firstSeg_ok f2, hd, if_true, f6, List.head?_cons, m1, hs, hrec]

/-- On a straight line of equal short moves that is entered with the feedrate, the feedrate is kept; the last
move would have to begin more slowly. -/
theorem straight_speeds {v g : ℝ} (hv : 0 < v) (hg : 0 < g) (hgv : g < v ^ 2) : ∀ (m : ℕ) (b : Block ℝ)
    (tl : List (Block ℝ)), List.Forall₂ LegOf (List.replicate m ⟨g, v, v⟩ ++ [⟨g, v, 0⟩]) tl → b.nOut = v →
    (b :: tl).IsChain Link → (∀ c ∈ tl, c.ExitR) →
    ∃ mid z, tl = mid ++ [z] ∧ mid.length = m ∧ (∀ x ∈ mid, x.nIn = v ∧ x.nOut = v) ∧ z.nIn ^ 2 = g := by
  intro m
  induction m with
  | zero =>
    intro b tl hF hb hch hex
    rw [List.replicate_zero, List.nil_append] at hF
    cases hF with
    | cons h1 h2 =>
      rename_i z tl'
      cases h2
      obtain ⟨⟨_, l1, l2, l3⟩, _⟩ := List.isChain_cons_cons.1 hch
      refine ⟨[], z, rfl, rfl, by simp, ?_⟩
      have h0 : z.nOut = 0 := le_antisymm h1.last h1.fin
      have hd := h1.down
      simp only at hd
      rw [h0] at hd
      have hz : z.nIn ≠ v := by
        intro h
        rw [h] at hd
        nlinarith
      have hE : z.EntryR := by
        rcases l2 with l2 | l2
        · rw [hb] at l2
          exact absurd l2 hz
        · exact l2
      rcases h1.entry hE with h | h
      · have := h1.feed
        exact absurd (le_antisymm this h) hz
      · rw [h0] at h
        simpa using h
  | succ m ih =>
    intro b tl hF hb hch hex
    rw [List.replicate_succ, List.cons_append] at hF
    cases hF with
    | cons h1 h2 =>
      rename_i c tl'
      obtain ⟨⟨_, l1, l2, l3⟩, hch'⟩ := List.isChain_cons_cons.1 hch
      have h3 := h1.feed
      have h4 := h1.feed'
      have h5 := h1.fin
      have h6 := h1.beg
      simp only at h3 h4
      have hin : c.nIn = v ∨ c.nIn ^ 2 = c.nOut ^ 2 + g := by
        rcases l2 with l2 | l2
        · exact Or.inl (l2.trans hb)
        · rcases h1.entry l2 with h | h
          · exact Or.inl (le_antisymm h3 h)
          · exact Or.inr h
      have hout : c.nOut = v := by
        rcases h1.exit (hex c (by simp)) with h | h
        · exact le_antisymm h4 h
        · simp only at h
          exfalso
          rcases hin with h' | h'
          · rw [h'] at h
            nlinarith
          · linarith
      have hin' : c.nIn = v := by
        rcases hin with h | h
        · exact h
        · rw [hout] at h
          exfalso
          nlinarith
      obtain ⟨mid, z, e1, e2, e3, e4⟩ := ih c tl' h2 hout hch' (fun x hx => hex x (by simp [hx]))
      refine ⟨c :: mid, z, by rw [e1]; rfl, by simp [e2], ?_, e4⟩
      intro x hx
      rcases List.mem_cons.1 hx with rfl | hx
      · exact ⟨hin', hout⟩
      · exact e3 x hx

/-- The correction runs over blocks without differences until it gets to the last junction. -/
theorem correctZipFrom_until {limit : ℕ} {z : Block ℝ} {v : ℝ} : ∀ (mid rp : List (Block ℝ)) (b : Block ℝ), Zip rp b →
    (∀ c ∈ mid ++ [z], Good c) → (b :: (mid ++ [z])).IsChain Link → b.nOut = v →
    (∀ x ∈ mid, x.nIn = v ∧ x.nOut = v) →
    (∀ rp' b', Zip rp' b' → Link b' z → (b' :: rp').map Block.act = ((b :: mid).reverse ++ rp).map Block.act →
      (b' :: rp').map Block.nOut = ((b :: mid).reverse ++ rp).map Block.nOut →
      correctZip limit rp' b' (some z) = .error .recursion) →
    correctZipFrom limit rp b (mid ++ [z]) = .error .recursion := by
  intro mid
  induction mid with
  | nil =>
    intro rp b hz hg hch hb _ hrec
    rw [List.nil_append] at hch ⊢
    unfold correctZipFrom
    rw [hrec rp b hz (List.isChain_cons_cons.1 hch).1 (by simp) (by simp)]
  | cons nx mid ih =>
    intro rp b hz hg hch hb hmid hrec
    rw [List.cons_append] at hch ⊢
    obtain ⟨hl, hch'⟩ := List.isChain_cons_cons.1 hch
    have hnx := hg nx (by simp)
    obtain ⟨i1, i2⟩ := hmid nx (by simp)
    cases limit with
    | zero =>
      unfold correctZipFrom correctZip
      rfl
    | succ limit =>
      obtain ⟨d, hd⟩ := correctZip_same (limit := limit) (rp := rp) (hz.good b (by simp)) hnx hl.1 (hb.trans i1.symm)
      unfold correctZipFrom
      rw [hd]
      simp only [Option.getD_some]
      have hz' : Zip (b :: rp) (nx.timeshift d) := by
        rcases correctZip_eq (limit + 1) rp b (some nx) with he | he
        · obtain ⟨rp', b', δ, h1, h2, h3, h4⟩ := selfCorrection_spec rp b nx hz hnx hl
          rw [hd, h1] at he
          simp only [raised, Except.ok.injEq, Prod.mk.injEq, Option.some.injEq] at he
          obtain ⟨rfl, rfl, he⟩ := he
          rw [he]
          exact h2.cons (hnx.timeshift δ) h3
        · rw [hd] at he
          cases he.1
      refine ih (b :: rp) (nx.timeshift d) hz' (fun c hc => hg c (by simp at hc ⊢; tauto)) ?_ ?_ (fun x hx =>
        hmid x (by simp [hx])) ?_
      · cases hm : mid ++ [z] with
        | nil => simp at hm
        | cons y tl =>
          rw [hm, List.isChain_cons_cons] at hch'
          rw [List.isChain_cons_cons]
          exact ⟨hch'.1.timeshift hnx d, hch'.2⟩
      · rw [(timeshift_views hnx.ne_nil d).2.2.2, i2]
      · intro rp' b' hz'' hl' ha ho
        refine hrec rp' b' hz'' hl' ?_ ?_
        · rw [ha]
          simp [Block.act, Block.timeshift]
        · rw [ho]
          simp [(timeshift_views hnx.ne_nil d).2.2.2]

end PyGCD
