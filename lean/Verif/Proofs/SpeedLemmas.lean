import Verif.Spec.Speeds
import Verif.Props.Faster

/-!
# The speeds at the junctions of a plan
-/

set_option linter.unusedSectionVars false

namespace PyGCD
open PyGCD.Spec Vec4

/-- The speeds `I` at the begin and `O` at the end of `n` actions, which are limited by `g`, `F` and `L` and nowhere
lower than necessary. -/
structure Trace (n : ℕ) (g F L I O : ℕ → ℝ) (ε : ℝ) : Prop where
  gain : ∀ k, 0 ≤ g k
  beg : ∀ k < n, 0 ≤ I k
  fin : ∀ k < n, 0 ≤ O k
  up : ∀ k < n, O k ^ 2 ≤ I k ^ 2 + g k
  down : ∀ k < n, I k ^ 2 ≤ O k ^ 2 + g k
  feed : ∀ k < n, I k ≤ F k
  feed' : ∀ k < n, O k ≤ F k
  last : ∀ k < n, O k ≤ L k
  le : ∀ k, k + 1 < n → I (k + 1) ≤ O k
  near : ∀ k, k + 1 < n → O k ≤ I (k + 1) + ε
  first : 0 < n → I 0 = 0
  same : ∀ k, k + 1 < n → I (k + 1) = O k ∨ F (k + 1) ≤ I (k + 1) ∨ I (k + 1) ^ 2 = O (k + 1) ^ 2 + g (k + 1)
  tight : ∀ k, k + 1 < n → (L k ≤ O k ∨ O k ^ 2 = I k ^ 2 + g k) ∨
    (F (k + 1) ≤ I (k + 1) ∨ I (k + 1) ^ 2 = O (k + 1) ^ 2 + g (k + 1))
  stop : ∀ k, k + 1 = n → L k ≤ O k ∨ O k ^ 2 = I k ^ 2 + g k
  still : ∀ k < n, 0 < g k ∨ F k = 0 ∧ L k = 0

/-- The speeds that the junctions allow by themselves, and the changes added up. -/
structure Bounds (n : ℕ) (g F L w r : ℕ → ℝ) : Prop where
  zero : w 0 = 0
  mid : ∀ k, k + 1 < n → w (k + 1) = min (L k) (F (k + 1))
  final : ∀ k, k + 1 = n → w (k + 1) = L k
  sum : ∀ k < n, r (k + 1) = r k + g k

section
variable {n : ℕ} {g F L I O w r : ℕ → ℝ} {ε : ℝ}

theorem Bounds.nonneg (hb : Bounds n g F L w r) (h : Trace n g F L I O ε) {i : ℕ} (hi : i ≤ n) : 0 ≤ w i := by
  cases i with
  | zero => rw [hb.zero]
  | succ k =>
    have h1 := (h.fin k hi).trans (h.last k hi)
    rcases Nat.lt_or_eq_of_le hi with hk | hk
    · rw [hb.mid k hk]
      exact le_min h1 ((h.beg _ hk).trans (h.feed _ hk))
    · rw [hb.final k hk]
      exact h1

theorem Bounds.le_last (hb : Bounds n g F L w r) {k : ℕ} (hk : k < n) : w (k + 1) ≤ L k := by
  rcases Nat.lt_or_eq_of_le (show k + 1 ≤ n from hk) with h | h
  · rw [hb.mid k h]
    exact min_le_left _ _
  · rw [hb.final k h]

theorem Bounds.le_feed (hb : Bounds n g F L w r) (h : Trace n g F L I O ε) {k : ℕ} (hk : k < n) : w k ≤ F k := by
  cases k with
  | zero =>
    rw [hb.zero]
    exact (h.beg _ hk).trans (h.feed _ hk)
  | succ k =>
    rw [hb.mid k hk]
    exact min_le_right _ _

theorem Bounds.mono (hb : Bounds n g F L w r) (h : Trace n g F L I O ε) {i j : ℕ} (hij : i ≤ j) (hj : j ≤ n) :
    r i ≤ r j := by
  induction j with
  | zero =>
    have : i = 0 := by omega
    rw [this]
  | succ j ih =>
    rcases Nat.lt_or_eq_of_le hij with hk | hk
    · have := ih (by omega) (by omega)
      rw [hb.sum j (by omega)]
      linarith [h.gain j]
    · rw [hk]

/-- A block that begins as fast as it can is held back by a junction after it. -/
theorem Trace.forward (h : Trace n g F L I O ε) (hb : Bounds n g F L w r) : ∀ (m k : ℕ), n - k = m → k < n →
    (F k ≤ I k ∨ I k ^ 2 = O k ^ 2 + g k) → ∃ j, k ≤ j ∧ j ≤ n ∧ w j ^ 2 + (r j - r k) ≤ I k ^ 2 := by
  intro m
  induction m with
  | zero => intro k h1 h2; omega
  | succ m ih =>
    intro k hm hk hE
    have own : w k ≤ I k → ∃ j, k ≤ j ∧ j ≤ n ∧ w j ^ 2 + (r j - r k) ≤ I k ^ 2 := fun hw =>
      ⟨k, le_rfl, hk.le, by
        have := pow_le_pow_left₀ (hb.nonneg h hk.le) hw 2
        linarith⟩
    have hg := h.gain k
    rcases hE with hE | hE
    · exact own ((hb.le_feed h hk).trans hE)
    · have hzero : O k ^ 2 = I k ^ 2 + g k → ∃ j, k ≤ j ∧ j ≤ n ∧ w j ^ 2 + (r j - r k) ≤ I k ^ 2 := by
        intro hx
        rcases h.still k hk with hp | ⟨hp, _⟩
        · linarith
        · have := hb.le_feed h hk
          rw [hp] at this
          exact own (this.trans (h.beg k hk))
      have hlast : L k ≤ O k → ∃ j, k ≤ j ∧ j ≤ n ∧ w j ^ 2 + (r j - r k) ≤ I k ^ 2 := by
        intro hx
        refine ⟨k + 1, by omega, hk, ?_⟩
        have := pow_le_pow_left₀ (hb.nonneg h hk) ((hb.le_last hk).trans hx) 2
        rw [hb.sum k hk]
        linarith
      rcases Nat.lt_or_eq_of_le (show k + 1 ≤ n from hk) with hk1 | hk1
      · rcases h.tight k hk1 with (hx | hx) | hx
        · exact hlast hx
        · exact hzero hx
        · obtain ⟨j, j1, j2, j3⟩ := ih (k + 1) (by omega) hk1 hx
          refine ⟨j, by omega, j2, ?_⟩
          have := pow_le_pow_left₀ (h.beg _ hk1) (h.le k hk1) 2
          rw [hb.sum k hk] at j3
          linarith
      · rcases h.stop k hk1 with hx | hx
        · exact hlast hx
        · exact hzero hx

/-- A block that ends as fast as it can is held back by its end or a junction before it. -/
theorem Trace.backward (h : Trace n g F L I O ε) (hb : Bounds n g F L w r) : ∀ k : ℕ, k < n →
    (L k ≤ O k ∨ O k ^ 2 = I k ^ 2 + g k) → ∃ j, j ≤ k + 1 ∧ w j ^ 2 + (r (k + 1) - r j) ≤ O k ^ 2 := by
  intro k
  induction k with
  | zero =>
    intro hk hX
    rcases hX with hX | hX
    · refine ⟨1, le_rfl, ?_⟩
      have := pow_le_pow_left₀ (hb.nonneg h hk) ((hb.le_last hk).trans hX) 2
      simp only [_root_.zero_add, _root_.sub_self, _root_.add_zero] at this ⊢
      exact this
    · refine ⟨0, by omega, ?_⟩
      rw [hb.sum 0 hk, hb.zero, hX, h.first hk]
      linarith
  | succ k ih =>
    intro hk hX
    have own : w (k + 1 + 1) ≤ O (k + 1) → ∃ j, j ≤ k + 1 + 1 ∧ w j ^ 2 + (r (k + 1 + 1) - r j) ≤ O (k + 1) ^ 2 :=
      fun hw => ⟨k + 1 + 1, le_rfl, by
        have := pow_le_pow_left₀ (hb.nonneg h hk) hw 2
        linarith⟩
    rcases hX with hX | hX
    · exact own ((hb.le_last hk).trans hX)
    · rcases h.still (k + 1) hk with hp | ⟨_, hp⟩
      · have hno : ¬(F (k + 1) ≤ I (k + 1) ∨ I (k + 1) ^ 2 = O (k + 1) ^ 2 + g (k + 1)) := by
          rintro (hx | hx)
          · have h1 := (h.feed' _ hk).trans hx
            have := pow_le_pow_left₀ (h.fin _ hk) h1 2
            linarith
          · linarith
        have hs := (h.same k hk).resolve_right hno
        have ht := (h.tight k hk).resolve_right hno
        obtain ⟨j, j1, j2⟩ := ih (by omega) ht
        refine ⟨j, by omega, ?_⟩
        rw [hb.sum (k + 1) hk, hX, hs]
        linarith
      · have := hb.le_last hk
        rw [hp] at this
        exact own (this.trans (h.fin _ hk))

/-- The speeds are not lower than the formula says. -/
theorem Trace.lower (h : Trace n g F L I O ε) (hb : Bounds n g F L w r) {k : ℕ} (hk : k < n) :
    ∃ j, j ≤ n ∧ w j ^ 2 + |r (k + 1) - r j| ≤ O k ^ 2 := by
  have back : (L k ≤ O k ∨ O k ^ 2 = I k ^ 2 + g k) → ∃ j, j ≤ n ∧ w j ^ 2 + |r (k + 1) - r j| ≤ O k ^ 2 := by
    intro hX
    obtain ⟨j, j1, j2⟩ := h.backward hb k hk hX
    refine ⟨j, by omega, ?_⟩
    rw [abs_of_nonneg (by linarith [hb.mono h j1 hk])]
    exact j2
  rcases Nat.lt_or_eq_of_le (show k + 1 ≤ n from hk) with hk1 | hk1
  · rcases h.tight k hk1 with hX | hE
    · exact back hX
    · obtain ⟨j, j1, j2, j3⟩ := h.forward hb _ (k + 1) rfl hk1 hE
      refine ⟨j, j2, ?_⟩
      rw [abs_of_nonpos (by linarith [hb.mono h j1 j2])]
      have := pow_le_pow_left₀ (h.beg _ hk1) (h.le k hk1) 2
      linarith
  · exact back (h.stop k hk1)

/-- The speed at the junctions. -/
def vAt (O : ℕ → ℝ) : ℕ → ℝ
  | 0 => 0
  | k + 1 => O k

theorem Trace.vAt_nonneg (h : Trace n g F L I O ε) {i : ℕ} (hi : i ≤ n) : 0 ≤ vAt O i := by
  cases i with
  | zero => exact le_rfl
  | succ k => exact h.fin k hi

theorem Trace.own (h : Trace n g F L I O ε) (hε : 0 ≤ ε) (hb : Bounds n g F L w r) {i : ℕ} (hi : i ≤ n) :
    vAt O i ≤ w i + ε := by
  cases i with
  | zero =>
    rw [hb.zero]
    show (0 : ℝ) ≤ 0 + ε
    linarith
  | succ k =>
    show O k ≤ _
    have h1 := h.last k hi
    rcases Nat.lt_or_eq_of_le hi with hk | hk
    · rw [hb.mid k hk, ← min_add_add_right]
      exact le_min (by linarith) ((h.near k hk).trans (by linarith [h.feed _ hk]))
    · rw [hb.final k hk]
      linarith

theorem slope_sqrt {a b X c e : ℝ} (ha : 0 ≤ a) (hb : 0 ≤ b) (hX : 0 ≤ X) (hc : 0 ≤ c) (he : 0 ≤ e) (h : a ^ 2 ≤ b ^ 2 + c)
    (hbx : b ≤ √X + e) : a ≤ √(X + c) + e :=
  ramp_close (s' := √X) (Real.sqrt_nonneg _) (Real.sqrt_nonneg _) ha hb hc h
    (by rw [Real.sq_sqrt (by linarith), Real.sq_sqrt hX]) hbx he

theorem Trace.upper_forward (h : Trace n g F L I O ε) (hε : 0 ≤ ε) (hb : Bounds n g F L w r) {j : ℕ} (hj : j ≤ n) :
    ∀ (m i : ℕ), i + m = j → vAt O i ≤ √(w j ^ 2 + (r j - r i)) + (m + 1) * ε := by
  intro m
  induction m with
  | zero =>
    intro i hi
    have hi' : i = j := by omega
    subst hi'
    rw [_root_.sub_self, _root_.add_zero, Real.sqrt_sq (hb.nonneg h hj)]
    have := h.own hε hb hj
    push_cast
    linarith
  | succ m ih =>
    intro i hi
    have hin : i < n := by omega
    have h1 := ih (i + 1) (by omega)
    have h2 : vAt O i ≤ I i + ε := by
      cases i with
      | zero =>
        show (0 : ℝ) ≤ _
        linarith [h.beg 0 hin]
      | succ k => exact h.near k hin
    have hm : r (i + 1) ≤ r j := hb.mono h (by omega) hj
    have h3 := slope_sqrt (h.beg i hin) (h.fin i hin) (by nlinarith [sq_nonneg (w j)]) (h.gain i)
      (by positivity) (h.down i hin) (show O i ≤ √(w j ^ 2 + (r j - r (i + 1))) + (m + 1) * ε from h1)
    rw [hb.sum i hin, show w j ^ 2 + (r j - (r i + g i)) + g i = w j ^ 2 + (r j - r i) by ring] at h3
    push_cast
    linarith

theorem Trace.upper_backward (h : Trace n g F L I O ε) (hε : 0 ≤ ε) (hb : Bounds n g F L w r) {j : ℕ} :
    ∀ (m i : ℕ), j + m = i → i ≤ n → vAt O i ≤ √(w j ^ 2 + (r i - r j)) + ε := by
  intro m
  induction m with
  | zero =>
    intro i hi hn
    have hi' : j = i := by omega
    subst hi'
    rw [_root_.sub_self, _root_.add_zero, Real.sqrt_sq (hb.nonneg h hn)]
    exact h.own hε hb hn
  | succ m ih =>
    intro i hi hn
    obtain ⟨i, rfl⟩ : ∃ i', i = i' + 1 := ⟨i - 1, by omega⟩
    have hin : i < n := by omega
    have h1 := ih i (by omega) (by omega)
    have h2 : I i ≤ vAt O i := by
      cases i with
      | zero =>
        rw [h.first hin]
        exact le_rfl
      | succ k => exact h.le k hin
    have hm : r j ≤ r i := hb.mono h (by omega) (by omega)
    have h3 := slope_sqrt (h.fin i hin) (h.beg i hin) (by nlinarith [sq_nonneg (w j)]) (h.gain i) hε (h.up i hin)
      (h2.trans h1)
    rw [hb.sum i hin]
    rw [show w j ^ 2 + (r i - r j) + g i = w j ^ 2 + (r i + g i - r j) by ring] at h3
    exact h3

/-- The speeds are not higher than the formula says, up to the tolerance at the junctions. -/
theorem Trace.upper (h : Trace n g F L I O ε) (hε : 0 ≤ ε) (hb : Bounds n g F L w r) {i j : ℕ} (hi : i ≤ n) (hj : j ≤ n) :
    vAt O i ≤ √(w j ^ 2 + |r i - r j|) + (n + 1) * ε := by
  rcases le_total i j with hij | hij
  · obtain ⟨m, hm⟩ := Nat.exists_eq_add_of_le hij
    have := h.upper_forward hε hb hj m i hm.symm
    rw [abs_of_nonpos (by linarith [hb.mono h hij hj]), neg_sub]
    refine this.trans ?_
    have hmn : (m : ℝ) ≤ n := by exact_mod_cast (by omega : m ≤ n)
    nlinarith
  · obtain ⟨m, hm⟩ := Nat.exists_eq_add_of_le hij
    have := h.upper_backward hε hb m i hm.symm hi
    rw [abs_of_nonneg (by linarith [hb.mono h hij hi])]
    refine this.trans ?_
    have : (0 : ℝ) ≤ n := Nat.cast_nonneg n
    nlinarith

end

/-! ## The plan -/

/-- What a block has to do with its leg. -/
structure LegOf (l : Leg) (b : Block ℝ) : Prop where
  gain : 0 ≤ l.gain
  beg : 0 ≤ b.nIn
  fin : 0 ≤ b.nOut
  up : b.nOut ^ 2 ≤ b.nIn ^ 2 + l.gain
  down : b.nIn ^ 2 ≤ b.nOut ^ 2 + l.gain
  feed : b.nIn ≤ l.feed
  feed' : b.nOut ≤ l.feed
  last : b.nOut ≤ l.last
  exit : b.ExitR → l.last ≤ b.nOut ∨ b.nOut ^ 2 = b.nIn ^ 2 + l.gain
  entry : b.EntryR → l.feed ≤ b.nIn ∨ b.nIn ^ 2 = b.nOut ^ 2 + l.gain
  still : 0 < l.gain ∨ l.feed = 0 ∧ l.last = 0

theorem DwellB.speeds {b : Block ℝ} {A : PState ℝ} {p : ℝ} (h : DwellB b A p) : b.nIn = 0 ∧ b.nOut = 0 := by
  obtain ⟨t, ht⟩ := h.hseg
  have h0 : (Vec4.zero : Vec4 ℝ).norm3 = 0 := norm3_eq_zero.2 ⟨rfl, rfl, rfl⟩
  simp only [Block.nIn, Block.nOut, ht, List.head?_cons, List.getLast?_singleton, Option.map_some, Option.getD_some, h0,
    and_self]

theorem legOf_still {b : Block ℝ} (h1 : b.nIn = 0) (h2 : b.nOut = 0) : LegOf ⟨0, 0, 0⟩ b := by
  constructor <;> simp [h1, h2]

theorem MoveB.travel {b : Block ℝ} {A : PState ℝ} {u : Vec4 ℝ} {s0 s1 : ℝ} (hm : MoveB b A u s0 s1)
    (hz : (b.stateB.position.sub A.position).norm3 ≠ 0) :
    u.norm3 = 1 ∧ b.nIn = s0 ∧ b.nOut = s1 ∧
      (moveDistance A b.stateB).1 = (b.stateB.position.sub A.position).norm3 := by
  obtain ⟨g1, g2, g3, g4, _⟩ := hm.toHdr.unit
  obtain ⟨q, q', e1, _, _, _, e5, _, _, _, e9, e10⟩ := hm.ends
  have hun : u.norm3 = 1 := by
    have := g1.norms.1
    cases hx : (moveDistance A b.stateB).2
    · rw [hx] at this
      simpa using this
    · exact absurd (g4.1 hx) hz
  rw [hun, one_mul] at e9 e10
  exact ⟨hun, e9, e10, by rw [moveDistance_length, moveLength, if_neg hz]⟩

theorem MoveB.filament {b : Block ℝ} {A : PState ℝ} {u : Vec4 ℝ} {s0 s1 : ℝ} (hm : MoveB b A u s0 s1)
    (hz : (b.stateB.position.sub A.position).norm3 = 0) : b.nIn = 0 ∧ b.nOut = 0 := by
  obtain ⟨g1, g2, g3, g4, _⟩ := hm.toHdr.unit
  obtain ⟨q, q', e1, _, _, _, e5, _, _, _, e9, e10⟩ := hm.ends
  have hun : u.norm3 = 0 := by
    have := g1.norms.1
    rw [g4.2 hz] at this
    simpa using this
  rw [hun, MulZeroClass.zero_mul] at e9 e10
  exact ⟨e9, e10⟩

theorem Acts.legOf {fw : Firmware} {b : Block ℝ} {x : Option (PState ℝ) × PState ℝ × List (PState ℝ)} (h : Acts fw b x)
    (hg : Good b) : LegOf (leg (junctionVel fw) x) b := by
  obtain ⟨pa, B, rest⟩ := x
  obtain ⟨rfl, rfl, h3⟩ := h
  simp only at h3
  rcases hg with ⟨A, u, s0, s1, hm⟩ | ⟨A, p, hd⟩
  · by_cases hz : (b.stateB.position.sub A.position).norm3 = 0
    · obtain ⟨e1, e2⟩ := hm.filament hz
      have : leg (junctionVel fw) (b.stateA, b.stateB, rest) = ⟨0, 0, 0⟩ := by
        rw [hm.hA]
        unfold leg
        simp only
        rw [if_neg (by rintro ⟨_, h⟩; exact h hz)]
      rw [this]
      exact legOf_still e1 e2
    · obtain ⟨n1, n2, n3, n4⟩ := hm.travel hz
      have hl : leg (junctionVel fw) (b.stateA, b.stateB, rest) =
          ⟨2 * b.stateB.pAcc * (b.stateB.position.sub A.position).norm3, b.stateB.speed,
            junctionVel fw (some A) b.stateB rest⟩ := by
        rw [hm.hA]
        unfold leg
        simp only
        rw [if_pos ⟨hm.hpause, hz⟩]
      rw [hl]
      obtain ⟨u', j1, j2⟩ := h3 hm.hpause
      rw [hm.hA] at j2
      have jump : ∀ {A' u'' t0 t1}, MoveB b A' u'' t0 t1 → A' = A ∧ u'' = u ∧ t0 = s0 ∧ t1 = s1 := by
        intro A' u'' t0 t1 hm'
        have hA := hm'.hA
        rw [hm.hA] at hA
        cases hA
        have hu := hm'.hdir
        rw [hm.hdir] at hu
        cases hu
        obtain ⟨_, k2, k3, _⟩ := hm'.travel hz
        exact ⟨rfl, rfl, k2.symm.trans n2, k3.symm.trans n3⟩
      rw [hm.hdir] at j1
      cases j1
      obtain ⟨j, i1, i2⟩ := hm.hjd
      obtain ⟨g1, g2, _⟩ := hm.toHdr.unit
      obtain ⟨f1, f2, f3, f4, f5, _⟩ := hm.facts
      have hj : junctionVel fw (some A) b.stateB rest = j := by
        have := j2.symm.trans i1
        injection this with this
        exact mul_inj g1 this
      rw [n4] at f5 g2
      obtain ⟨f6, f7⟩ := abs_le.1 f5
      refine ⟨by have := hm.ha; positivity, by rw [n2]; exact f1, by rw [n3]; exact f3, ?_, ?_, by rw [n2]; exact f2,
        by rw [n3]; exact f4, by rw [n3, hj]; exact i2, ?_, ?_, Or.inl (by have := hm.ha; positivity)⟩
      · rw [n2, n3]
        linarith
      · rw [n2, n3]
        linarith
      · rintro (⟨_, p, hd⟩ | ⟨A', u'', t0, t1, hm', hx⟩)
        · exact absurd hm.hpause (by rw [hd.hpause]; simp)
        · obtain ⟨rfl, rfl, rfl, rfl⟩ := jump hm'
          rcases hx with hx | hx
          · left
            rw [j2] at hx
            injection hx with hx
            rw [n3, mul_inj g1 hx]
          · right
            rw [n2, n3, hx, n4]
      · rintro (⟨_, p, hd⟩ | ⟨A', u'', t0, t1, hm', hx⟩)
        · exact absurd hm.hpause (by rw [hd.hpause]; simp)
        · obtain ⟨rfl, rfl, rfl, rfl⟩ := jump hm'
          rcases hx with hx | hx | hx
          · rw [n1] at hx
            norm_num at hx
          · left
            rw [n2, hx]
          · right
            rw [n2, n3, hx, n4]
  · obtain ⟨e1, e2⟩ := hd.speeds
    have : leg (junctionVel fw) (b.stateA, b.stateB, rest) = ⟨0, 0, 0⟩ := by
      rw [hd.hA]
      unfold leg
      simp only
      rw [if_neg (by rintro ⟨h, _⟩; rw [hd.hpause] at h; cases h)]
    rw [this]
    exact legOf_still e1 e2

/-- The legs of a program. -/
noncomputable def legs (fw : Firmware) (states : List (PState ℝ)) : List Leg :=
  (actions none states).map (leg (junctionVel fw))

theorem reach_succ {l : List Leg} {k : ℕ} (hk : k < l.length) : reach l (k + 1) = reach l k + l[k].gain := by
  unfold reach
  rw [List.take_succ_eq_append_getElem hk, List.map_append, List.sum_append]
  simp

theorem bounds_legs (l : List Leg) : Bounds l.length (fun k => (l[k]?.map Leg.gain).getD 0)
    (fun k => (l[k]?.map Leg.feed).getD 0) (fun k => (l[k]?.map Leg.last).getD 0) (ownSpeed l) (reach l) where
  zero := rfl
  mid k hk := by
    have h1 : k < l.length := by omega
    simp only [ownSpeed, List.getElem?_eq_getElem h1, List.getElem?_eq_getElem hk, Option.map_some, Option.getD_some]
  final k hk := by
    have h1 : k < l.length := by omega
    simp only [ownSpeed, List.getElem?_eq_getElem h1, List.getElem?_eq_none hk.ge, Option.map_some, Option.getD_some]
  sum k hk := by
    simp only [List.getElem?_eq_getElem hk, Option.map_some, Option.getD_some]
    exact reach_succ hk

theorem plan_legs {fw : Firmware} {states : List (PState ℝ)} {bs : List (Block ℝ)} (hreg : Regular states)
    (h : plan fw states = .ok bs) : List.Forall₂ LegOf (legs fw states) bs := by
  have hF := (plan_opt hreg h).1
  have hg := (plan_ok hreg h).1
  unfold legs
  clear h
  generalize actions none states = xs at hF
  induction hF with
  | nil => exact .nil
  | cons h1 _ ih => exact .cons (h1.legOf (hg _ (by simp))) (ih fun b hb => hg b (by simp [hb]))

/-- The speeds of linked blocks are a trace. -/
theorem trace_of_legs {l : List Leg} {bs : List (Block ℝ)} (hF : List.Forall₂ LegOf l bs) (hc : bs.IsChain LinkT)
    (hO : bs.IsChain LinkO) (hE : ∀ b ∈ bs.getLast?, b.ExitR) (hf : ∀ b ∈ bs.head?, b.nIn = 0) :
    l.length = bs.length ∧
    Trace bs.length (fun k => (l[k]?.map Leg.gain).getD 0)
      (fun k => (l[k]?.map Leg.feed).getD 0) (fun k => (l[k]?.map Leg.last).getD 0)
      (fun k => (bs[k]?.map Block.nIn).getD 0) (fun k => (bs[k]?.map Block.nOut).getD 0) 1e-12 := by
  obtain ⟨hlen, hR⟩ := List.forall₂_iff_get.1 hF
  refine ⟨hlen, ?_⟩
  have R : ∀ k (hk : k < bs.length), LegOf (l[k]'(by omega)) bs[k] := fun k hk => hR k (by omega) hk
  have el : ∀ k (hk : k < bs.length), l[k]? = some (l[k]'(by omega)) :=
    fun k hk => List.getElem?_eq_getElem (by omega)
  have eb : ∀ k (hk : k < bs.length), bs[k]? = some bs[k] := fun k hk => List.getElem?_eq_getElem hk
  have C := List.isChain_iff_getElem.1 hc
  have CO := List.isChain_iff_getElem.1 hO
  constructor
  · intro k
    by_cases hk : k < bs.length
    · simp only [el k hk, Option.map_some, Option.getD_some]
      exact (R k hk).gain
    · rw [List.getElem?_eq_none (by omega)]
      simp
  · intro k hk
    simp only [eb k hk, Option.map_some, Option.getD_some]
    exact (R k hk).beg
  · intro k hk
    simp only [eb k hk, Option.map_some, Option.getD_some]
    exact (R k hk).fin
  · intro k hk
    simp only [eb k hk, el k hk, Option.map_some, Option.getD_some]
    exact (R k hk).up
  · intro k hk
    simp only [eb k hk, el k hk, Option.map_some, Option.getD_some]
    exact (R k hk).down
  · intro k hk
    simp only [eb k hk, el k hk, Option.map_some, Option.getD_some]
    exact (R k hk).feed
  · intro k hk
    simp only [eb k hk, el k hk, Option.map_some, Option.getD_some]
    exact (R k hk).feed'
  · intro k hk
    simp only [eb k hk, el k hk, Option.map_some, Option.getD_some]
    exact (R k hk).last
  · intro k hk
    simp only [eb k (by omega), eb (k + 1) hk, Option.map_some, Option.getD_some]
    exact (C k hk).2.1
  · intro k hk
    simp only [eb k (by omega), eb (k + 1) hk, Option.map_some, Option.getD_some]
    exact (C k hk).2.2.1
  · intro hk
    simp only [eb 0 hk, Option.map_some, Option.getD_some]
    exact hf _ (by rw [List.head?_eq_getElem?, eb 0 hk]; rfl)
  · intro k hk
    simp only [eb k (by omega), eb (k + 1) hk, el (k + 1) hk, Option.map_some, Option.getD_some]
    exact (CO k hk).1.imp id (R (k + 1) hk).entry
  · intro k hk
    simp only [eb k (by omega), eb (k + 1) hk, el k (by omega), el (k + 1) hk, Option.map_some, Option.getD_some]
    exact (CO k hk).2.imp (R k (by omega)).exit (R (k + 1) hk).entry
  · intro k hk
    simp only [eb k (by omega), el k (by omega), Option.map_some, Option.getD_some]
    refine (R k (by omega)).exit (hE _ ?_)
    rw [List.getLast?_eq_getElem?, show bs.length - 1 = k by omega, eb k (by omega)]
    rfl
  · intro k hk
    simp only [el k hk, Option.map_some, Option.getD_some]
    exact (R k hk).still

theorem plan_trace {fw : Firmware} {states : List (PState ℝ)} {bs : List (Block ℝ)} (hreg : Regular states)
    (h : plan fw states = .ok bs) :
    (legs fw states).length = bs.length ∧
    Trace bs.length (fun k => ((legs fw states)[k]?.map Leg.gain).getD 0)
      (fun k => ((legs fw states)[k]?.map Leg.feed).getD 0) (fun k => ((legs fw states)[k]?.map Leg.last).getD 0)
      (fun k => (bs[k]?.map Block.nIn).getD 0) (fun k => (bs[k]?.map Block.nOut).getD 0) 1e-12 := by
  obtain ⟨_, hO, hE⟩ := plan_opt hreg h
  obtain ⟨_, hc, hf, _⟩ := plan_ok hreg h
  exact trace_of_legs (plan_legs hreg h) hc hO hE fun b hb => (hf b hb).2.1

/-- The speeds at the end of the blocks are those of the closed formula. -/
theorem corner_of_trace {l : List Leg} {bs : List (Block ℝ)} {ε : ℝ} (hε : 0 ≤ ε) (hlen : l.length = bs.length)
    (ht : Trace bs.length (fun k => (l[k]?.map Leg.gain).getD 0)
      (fun k => (l[k]?.map Leg.feed).getD 0) (fun k => (l[k]?.map Leg.last).getD 0)
      (fun k => (bs[k]?.map Block.nIn).getD 0) (fun k => (bs[k]?.map Block.nOut).getD 0) ε) {i : ℕ} (hi : i ≤ bs.length) :
    cornerSpeed l i ≤ vAt (fun k => (bs[k]?.map Block.nOut).getD 0) i ∧
      vAt (fun k => (bs[k]?.map Block.nOut).getD 0) i ≤ cornerSpeed l i + (bs.length + 1) * ε := by
  have hb := bounds_legs l
  rw [hlen] at hb
  have hbdd : BddBelow (Set.range fun j : Fin (l.length + 1) => √(ownSpeed l j ^ 2 + |reach l i - reach l j|)) :=
    ⟨0, by rintro _ ⟨j, rfl⟩; exact Real.sqrt_nonneg _⟩
  constructor
  · have h0 := ht.vAt_nonneg hi
    obtain ⟨j, j1, j2⟩ : ∃ j, j ≤ bs.length ∧ ownSpeed l j ^ 2 + |reach l i - reach l j| ≤
        vAt (fun k => (bs[k]?.map Block.nOut).getD 0) i ^ 2 := by
      cases i with
      | zero => exact ⟨0, by omega, by simp [ownSpeed, vAt]⟩
      | succ k => exact ht.lower hb hi
    refine (ciInf_le hbdd ⟨j, by omega⟩).trans ?_
    exact (Real.sqrt_le_left h0).2 j2
  · rw [← sub_le_iff_le_add]
    refine le_ciInf fun j => ?_
    rw [sub_le_iff_le_add]
    exact ht.upper hε hb hi (by have := j.2; omega)

end PyGCD
