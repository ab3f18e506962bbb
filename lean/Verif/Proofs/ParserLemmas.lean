import Verif.Spec.Text
import Mathlib.Data.List.Basic

set_option linter.unusedSectionVars false

/-!
# Lemmas about the parser
-/

namespace PyGCD
open Spec

/-! ## Substring search -/

theorem findSub_spec {pat : List Char} (hp : pat ≠ []) (s : List Char) (i : Nat) :
    findSub pat s = some i ↔ FirstAt pat s i := by
  induction s generalizing i with
  | nil =>
    have hpe : pat.isEmpty = false := by cases pat <;> simp_all
    simp only [findSub, hpe, Bool.false_eq_true, if_false, FirstAt, OccursAt, List.drop_nil,
      List.prefix_nil]
    constructor
    · intro h; cases h
    · intro h; exact absurd h.1 hp
  | cons c s ih =>
    simp only [findSub, List.isPrefixOf_iff_prefix]
    by_cases h0 : pat <+: c :: s
    · rw [if_pos h0]
      constructor
      · intro h
        cases h
        exact ⟨by simpa [OccursAt] using h0, fun j hj => absurd hj (by omega)⟩
      · rintro ⟨h1, h2⟩
        cases i with
        | zero => rfl
        | succ i => exact absurd (by simpa [OccursAt] using h0) (h2 0 (by omega))
    · rw [if_neg h0]
      cases i with
      | zero =>
        constructor
        · intro h
          cases hf : findSub pat s <;> simp [hf] at h
        · rintro ⟨h1, _⟩
          exact absurd (by simpa [OccursAt] using h1) h0
      | succ i =>
        have : (Option.map (· + 1) (findSub pat s) = some (i + 1)) ↔ findSub pat s = some i := by
          cases findSub pat s <;> simp
        rw [this, ih]
        constructor
        · rintro ⟨h1, h2⟩
          refine ⟨by simpa [OccursAt] using h1, ?_⟩
          intro j hj
          cases j with
          | zero => simpa [OccursAt] using h0
          | succ j => simpa [OccursAt] using h2 j (by omega)
        · rintro ⟨h1, h2⟩
          refine ⟨by simpa [OccursAt] using h1, ?_⟩
          intro j hj
          simpa [OccursAt] using h2 (j + 1) (by omega)

theorem FirstAt.unique {pat s : List Char} {i j : Nat} (h1 : FirstAt pat s i)
    (h2 : FirstAt pat s j) : i = j := by
  rcases Nat.lt_trichotomy i j with h | h | h
  · exact absurd h1.1 (h2.2 i h)
  · exact h
  · exact absurd h2.1 (h1.2 j h)

theorem OccursAt.exists_first {pat s : List Char} {i : Nat} (h : OccursAt pat s i) :
    ∃ j, j ≤ i ∧ FirstAt pat s j := by
  induction i using Nat.strongRecOn with
  | ind i ih =>
    by_cases h' : ∃ j < i, OccursAt pat s j
    · obtain ⟨j, hj, ho⟩ := h'
      obtain ⟨k, hk, hf⟩ := ih j hj ho
      exact ⟨k, by omega, hf⟩
    · exact ⟨i, (Nat.le_refl _), h, fun j hj ho => h' ⟨j, hj, ho⟩⟩

theorem OccursAt.le_length {pat s : List Char} {i : Nat} (h : OccursAt pat s i) (hp : pat ≠ []) :
    i + pat.length ≤ s.length := by
  have h1 := h.length_le
  have h2 : 0 < pat.length := List.length_pos_iff.2 hp
  rw [List.length_drop] at h1
  omega

/-! ## Removal of shorter matches -/

section Remove
variable {κ : Type} [DecidableEq κ]

/-- `m` is a longer match at the same place as `a`. -/
def Mate (a m : Match κ) : Prop := a.start = m.start ∧ a.stop < m.stop

instance (a m : Match κ) : Decidable (Mate a m) := by unfold Mate; infer_instance

/-- No longer match at the same place. -/
def good (L : List (Match κ)) (a : Match κ) : Bool := decide (∀ m ∈ L, ¬ Mate a m)

theorem removeInner_none (a : Match κ) (fuel j : Nat) (ms : List (Match κ))
    (h : ∀ i m, j ≤ i → ms[i]? = some m → ¬ Mate a m) : removeInner a fuel j ms = .ok ms := by
  induction fuel generalizing j with
  | zero => rfl
  | succ fuel ih =>
    rw [removeInner]
    cases hm : ms[j]? with
    | none => rfl
    | some m =>
      simp only
      rw [if_neg (show ¬ (a.start = m.start ∧ a.stop < m.stop) from h j m (Nat.le_refl _) hm)]
      exact ih (j + 1) fun i m hi hm => h i m (by omega) hm

theorem removeInner_one (a : Match κ) (fuel j p : Nat) (ms : List (Match κ)) (m : Match κ)
    (hnd : ms.Nodup) (ha : a ∈ ms) (hp : ms[p]? = some m) (hm : Mate a m)
    (hu : ∀ m' ∈ ms, Mate a m' → m' = m) (hj : j ≤ p) (hf : p < j + fuel) :
    removeInner a fuel j ms = .ok (ms.erase a) := by
  induction fuel generalizing j with
  | zero => omega
  | succ fuel ih =>
    rw [removeInner]
    have hpl : p < ms.length := (List.getElem?_eq_some_iff.1 hp).1
    have hjl : j < ms.length := by omega
    rw [List.getElem?_eq_getElem hjl]
    simp only
    by_cases hjp : j = p
    · subst hjp
      rw [List.getElem?_eq_getElem hjl] at hp
      simp only [Option.some.injEq] at hp
      rw [hp, if_pos (show a.start = m.start ∧ a.stop < m.stop from hm), if_pos ha]
      apply removeInner_none
      intro i m' hi hm' hmate
      have hm'mem : m' ∈ ms.erase a := List.mem_of_getElem? hm'
      have hmm : m' = m := hu m' (List.mem_of_mem_erase hm'mem) hmate
      subst hmm
      -- the mate sits at index `j` or `j - 1` of the shortened list
      have hne : a ≠ m' := by
        rintro rfl
        exact absurd hm.2 (by omega)
      obtain ⟨l1, l2, hl1, hl2, hl3⟩ := List.exists_erase_eq ha
      rw [hl3] at hm'
      have hp' : (l1 ++ a :: l2)[j]? = some m' := by
        rw [← hl2, List.getElem?_eq_getElem hjl, hp]
      have hnd' : (l1 ++ l2).Nodup := by
        have := hnd.erase a
        rwa [hl3] at this
      by_cases hjl1 : j < l1.length
      · have e1 : (l1 ++ l2)[j]? = some m' := by
          rw [List.getElem?_append_left hjl1]
          rwa [List.getElem?_append_left hjl1] at hp'
        have := (List.getElem?_inj (List.getElem?_eq_some_iff.1 e1).1 hnd').1 (e1.trans hm'.symm)
        omega
      · have hj1 : l1.length < j := by
          rcases Nat.lt_or_ge l1.length j with h | h
          · exact h
          · have : j = l1.length := by omega
            subst this
            simp at hp'
            exact absurd hp' hne
        have e1 : (l1 ++ l2)[j - 1]? = some m' := by
          have h2 := hp'
          rw [List.getElem?_append_right (by omega)] at h2 ⊢
          have : j - l1.length = (j - 1 - l1.length) + 1 := by omega
          rw [this, List.getElem?_cons_succ] at h2
          exact h2
        have := (List.getElem?_inj (List.getElem?_eq_some_iff.1 e1).1 hnd').1 (e1.trans hm'.symm)
        omega
    · have hnm : ¬ (a.start = ms[j].start ∧ a.stop < ms[j].stop) := by
        intro hmate
        have := hu ms[j] (List.getElem_mem _) hmate
        have e : ms[j]? = ms[p]? := by rw [hp, List.getElem?_eq_getElem hjl, this]
        exact hjp ((List.getElem?_inj hjl hnd).1 e)
      rw [if_neg hnm]
      exact ih (j + 1) (by omega) (by omega)

/-- The removal loop is a filter, provided a bad match has exactly one longer mate, which is itself
good, and no two neighbours are bad. -/
theorem removeOuter_filter (L : List (Match κ)) (hnd : L.Nodup)
    (huniq : ∀ a m m', a ∈ L → m ∈ L → m' ∈ L → Mate a m → Mate a m' → m = m')
    (hgood : ∀ a m, a ∈ L → m ∈ L → Mate a m → good L m = true)
    (hadj : ∀ pre a b post, L = pre ++ a :: b :: post → good L a = false → good L b = true) :
    removeOuter L.length 0 L = .ok (L.filter (good L)) := by
  suffices H : ∀ (n : Nat) (done rest : List (Match κ)) (fuel : Nat), rest.length ≤ n →
      L = done ++ rest → rest.length ≤ fuel →
      removeOuter fuel (done.filter (good L)).length (done.filter (good L) ++ rest) =
        .ok (L.filter (good L)) by
    exact H L.length [] L L.length (Nat.le_refl _) rfl (Nat.le_refl _)
  intro n
  induction n with
  | zero =>
    intro done rest fuel hn hL hfuel
    have : rest = [] := List.eq_nil_of_length_eq_zero (by omega)
    subst this
    simp only [List.append_nil] at hL ⊢
    rw [← hL]
    cases fuel with
    | zero => rfl
    | succ fuel => rw [removeOuter]; simp
  | succ n ih =>
    intro done rest fuel hn hL hfuel
    cases rest with
    | nil =>
      simp only [List.append_nil] at hL ⊢
      rw [← hL]
      cases fuel with
      | zero => rfl
      | succ fuel => rw [removeOuter]; simp
    | cons a rest =>
      cases fuel with
      | zero => simp at hfuel
      | succ fuel =>
        have hidx : (done.filter (good L) ++ a :: rest)[(done.filter (good L)).length]? =
            some a := by simp
        have haL : a ∈ L := by rw [hL]; simp
        have hsub : ∀ m ∈ done.filter (good L) ++ a :: rest, m ∈ L := by
          intro m hm
          rw [hL]
          rcases List.mem_append.1 hm with h | h
          · exact List.mem_append_left _ (List.mem_filter.1 h).1
          · exact List.mem_append_right _ h
        have hcurnd : (done.filter (good L) ++ a :: rest).Nodup := by
          rw [hL] at hnd
          exact List.Nodup.sublist (List.Sublist.append List.filter_sublist (List.Sublist.refl _)) hnd
        rw [removeOuter, hidx]
        simp only
        by_cases hg : good L a = true
        · rw [removeInner_none]
          · simp only
            have := ih (done ++ [a]) rest fuel (by simpa using hn) (by simp [hL])
              (by simpa using hfuel)
            simp only [List.filter_append, List.filter_cons, hg, if_true, List.filter_nil,
              List.length_append, List.length_cons, List.length_nil, List.append_assoc,
              List.cons_append, List.nil_append] at this
            exact this
          · intro i m _ hm
            exact (of_decide_eq_true hg) m (hsub m (List.mem_of_getElem? hm))
        · have hb : good L a = false := by simpa using hg
          have hex : ∃ m ∈ L, Mate a m := by
            have := of_decide_eq_false hb
            push Not at this
            exact this
          obtain ⟨m, hmL, hmate⟩ := hex
          have hmg := hgood a m haL hmL hmate
          have hmcur : m ∈ done.filter (good L) ++ a :: rest := by
            rw [hL] at hmL
            rcases List.mem_append.1 hmL with h | h
            · exact List.mem_append_left _ (List.mem_filter.2 ⟨h, hmg⟩)
            · exact List.mem_append_right _ h
          obtain ⟨p, hpm⟩ := List.mem_iff_getElem?.1 hmcur
          have hpl := (List.getElem?_eq_some_iff.1 hpm).1
          rw [removeInner_one a _ 0 p _ m hcurnd (by simp) hpm hmate
            (fun m' hm' hmate' => huniq a m' m haL (hsub m' hm') hmL hmate' hmate) (by omega)
            (by omega)]
          simp only
          have her : (done.filter (good L) ++ a :: rest).erase a =
              done.filter (good L) ++ rest := by
            rw [List.erase_append_right]
            · simp
            · intro h
              have := (List.mem_filter.1 h).2
              rw [hb] at this
              cases this
          rw [her]
          cases rest with
          | nil =>
            have e : L.filter (good L) = done.filter (good L) := by
              have : L.filter (good L) = (done ++ [a]).filter (good L) := by rw [← hL]
              rw [this, List.filter_append, List.filter_cons_of_neg (by simp [hb]),
                List.filter_nil, List.append_nil]
            rw [e, List.append_nil]
            cases fuel with
            | zero => rfl
            | succ fuel => rw [removeOuter]; simp
          | cons b rest =>
            have hgb := hadj done a b rest hL hb
            have := ih (done ++ [a, b]) rest fuel (by simp at hn ⊢; omega) (by simp [hL])
              (by simp at hfuel; omega)
            simp only [List.filter_append, List.filter_cons, hb, hgb, if_true, List.filter_nil,
              List.length_append, List.length_cons, List.length_nil, List.append_assoc,
              List.cons_append, List.nil_append, Bool.false_eq_true, if_false] at this
            exact this

/-- Without longer mates the loop changes nothing. -/
theorem removeOuter_id (L : List (Match κ)) (h : ∀ a ∈ L, ∀ m ∈ L, ¬ Mate a m) (fuel i : Nat) :
    removeOuter fuel i L = .ok L := by
  induction fuel generalizing i with
  | zero => rfl
  | succ fuel ih =>
    rw [removeOuter]
    cases hm : L[i]? with
    | none => rfl
    | some a =>
      simp only
      rw [removeInner_none a _ _ _
        (fun j m _ hj => h a (List.mem_of_getElem? hm) m (List.mem_of_getElem? hj))]
      exact ih (i + 1)

end Remove

/-! ## The matches of a line -/

section Collect
variable {κ : Type}

theorem mem_collect {chars : κ → List Char} (hc : ∀ k, chars k ≠ []) {keys : List κ}
    {s : List Char} {m : Match κ} :
    m ∈ collectMatches chars keys s ↔
      m.key ∈ keys ∧ FirstAt (chars m.key) s m.start ∧ m.stop = m.start + (chars m.key).length := by
  simp only [collectMatches, List.mem_filterMap, Option.map_eq_some_iff]
  constructor
  · rintro ⟨k, hk, i, hi, rfl⟩
    exact ⟨hk, (findSub_spec (hc k) s i).1 hi, rfl⟩
  · rintro ⟨hk, hf, hs⟩
    refine ⟨m.key, hk, m.start, (findSub_spec (hc _) s _).2 hf, ?_⟩
    cases m
    simp_all

end Collect

theorem chars_ne_nil (k : Cmd) : k.chars ≠ [] := by cases k <;> simp [Cmd.chars]

theorem known_complete (k : Cmd) : k ∈ Cmd.known := by cases k <;> simp [Cmd.known]

theorem prefix_pairs {k k' : Cmd} (h : k.chars <+: k'.chars) (hl : k.chars.length < k'.chars.length) :
    (k = .G1 ∧ (k' = .G10 ∨ k' = .G11)) ∨
    (k = .G2 ∧ (k' = .G28 ∨ k' = .G29 ∨ k' = .G20 ∨ k' = .G21)) := by
  revert h hl
  cases k <;> cases k' <;> decide

theorem chars_inj {k k' : Cmd} (h : k.chars = k'.chars) : k = k' := by
  revert h
  cases k <;> cases k' <;> decide

/-- Two names occurring at the same place: one is a prefix of the other. -/
theorem OccursAt.prefix {p q s : List Char} {i : Nat} (h1 : OccursAt p s i) (h2 : OccursAt q s i)
    (hl : p.length ≤ q.length) : p <+: q :=
  List.prefix_of_prefix_length_le h1 h2 hl

/-- All matches of a line. -/
def lineMatches (s : List Char) : List (Match Cmd) := collectMatches Cmd.chars Cmd.known s

theorem mem_lineMatches {s : List Char} {m : Match Cmd} :
    m ∈ lineMatches s ↔
      FirstAt m.key.chars s m.start ∧ m.stop = m.start + m.key.chars.length := by
  rw [lineMatches, mem_collect chars_ne_nil]
  exact ⟨fun h => h.2, fun h => ⟨known_complete _, h⟩⟩

/-- The position of a command in the table. -/
def idx (k : Cmd) : Nat := Cmd.known.idxOf k

theorem lineMatches_sorted (s : List Char) :
    (lineMatches s).Pairwise fun a b => idx a.key < idx b.key := by
  unfold lineMatches collectMatches
  refine List.Pairwise.filterMap (R := fun a b => idx a < idx b) _ ?_ (by decide)
  intro a a' h b hb b' hb'
  simp only [Option.map_eq_some_iff] at hb hb'
  obtain ⟨i, _, rfl⟩ := hb
  obtain ⟨j, _, rfl⟩ := hb'
  exact h

theorem mate_pairs {s : List Char} {a m : Match Cmd} (ha : a ∈ lineMatches s)
    (hm : m ∈ lineMatches s) (h : Mate a m) :
    (a.key = .G1 ∧ (m.key = .G10 ∨ m.key = .G11)) ∨
    (a.key = .G2 ∧ (m.key = .G28 ∨ m.key = .G29 ∨ m.key = .G20 ∨ m.key = .G21)) := by
  rw [mem_lineMatches] at ha hm
  obtain ⟨h1, h2⟩ := h
  have hl : a.key.chars.length < m.key.chars.length := by omega
  refine prefix_pairs ?_ hl
  refine OccursAt.prefix ha.1.1 ?_ (by omega)
  rw [h1]
  exact hm.1.1

/-- The credited matches of a line, in table order. -/
def creds (s : List Char) : List (Match Cmd) := (lineMatches s).filter (good (lineMatches s))

theorem remove_eq_creds (s : List Char) :
    removeOuter (lineMatches s).length 0 (lineMatches s) = .ok (creds s) := by
  have hs := lineMatches_sorted s
  refine removeOuter_filter _ ?_ ?_ ?_ ?_
  · exact hs.imp fun {a b} h e => by rw [e] at h; omega
  · intro a m m' ha hm hm' h h'
    have e1 := mate_pairs ha hm h
    have e2 := mate_pairs ha hm' h'
    have hlen : m.key.chars.length = m'.key.chars.length := by
      rcases e1 with ⟨e, e1 | e1⟩ | ⟨e, e1 | e1 | e1 | e1⟩ <;>
      rcases e2 with ⟨e', e2 | e2⟩ | ⟨e', e2 | e2 | e2 | e2⟩ <;>
      simp [e1, e2, Cmd.chars]
    rw [mem_lineMatches] at hm hm'
    have hst : m.start = m'.start := by rw [← h.1, ← h'.1]
    have hk : m.key = m'.key := by
      apply chars_inj
      have hp : m.key.chars <+: m'.key.chars :=
        OccursAt.prefix hm.1.1 (by rw [hst]; exact hm'.1.1) (by omega)
      exact hp.eq_of_length hlen
    cases m
    cases m'
    simp_all
  · intro a m ha hm h
    refine decide_eq_true ?_
    intro m' hm' h'
    have e1 := mate_pairs ha hm h
    have e2 := mate_pairs hm hm' h'
    rcases e1 with ⟨_, e | e⟩ | ⟨_, e | e | e | e⟩ <;>
    rcases e2 with ⟨e', _⟩ | ⟨e', _⟩ <;> (rw [e] at e'; cases e')
  · intro pre a b post hL hb
    by_contra hgb
    have hbb : good (lineMatches s) b = false := by simpa using hgb
    have haL : a ∈ lineMatches s := by rw [hL]; simp
    have hbL : b ∈ lineMatches s := by rw [hL]; simp
    have ex : ∀ c, good (lineMatches s) c = false → ∃ m ∈ lineMatches s, Mate c m := by
      intro c hc
      have := of_decide_eq_false hc
      push Not at this
      exact this
    obtain ⟨m, hm, hma⟩ := ex a hb
    obtain ⟨m', hm', hmb⟩ := ex b hbb
    rw [hL] at hs
    rw [List.pairwise_append] at hs
    obtain ⟨_, hs2, hs3⟩ := hs
    rw [List.pairwise_cons] at hs2
    obtain ⟨hs4, hs5⟩ := hs2
    rw [List.pairwise_cons] at hs5
    have hab := hs4 b (by simp)
    have e1 := mate_pairs haL hm hma
    have e2 := mate_pairs hbL hm' hmb
    have hpos : ∀ c ∈ lineMatches s, c ∈ pre ∨ c = a ∨ c = b ∨ c ∈ post := by
      intro c hc
      rw [hL] at hc
      simpa using hc
    have hw := hpos m' hm'
    have i1 : idx .G1 = 7 := by decide
    have i2 : idx .G2 = 0 := by decide
    rcases e2 with ⟨e, e2⟩ | ⟨e, _⟩
    · rcases e1 with ⟨e', _⟩ | ⟨e', _⟩
      · rw [e, e'] at hab; omega
      · have i3 : idx m'.key = 2 ∨ idx m'.key = 3 := by
          rcases e2 with e2 | e2 <;> rw [e2] <;> decide
        rcases hw with hw | rfl | rfl | hw
        · have := hs3 m' hw a (by simp)
          rw [e'] at this
          omega
        · rw [e'] at i3; omega
        · rw [e] at i3; omega
        · have := hs5.1 m' hw
          rw [e] at this
          omega
    · rw [e, i2] at hab; omega

theorem mem_creds {s : List Char} {m : Match Cmd} :
    m ∈ creds s ↔ Credited s m.key m.start ∧ m.stop = m.start + m.key.chars.length := by
  rw [creds, List.mem_filter, good, decide_eq_true_iff, mem_lineMatches, credited_iff]
  constructor
  · rintro ⟨⟨h1, h2⟩, h3⟩
    refine ⟨⟨h1, ?_⟩, h2⟩
    intro k' hk'
    by_contra hlt
    have hlt : m.key.chars.length < k'.chars.length := by omega
    have hf : FirstAt k'.chars s m.start := by
      refine ⟨hk', fun j hj ho => h1.2 j hj ?_⟩
      exact (OccursAt.prefix h1.1 hk' (by omega)).trans ho
    refine h3 ⟨k', m.start, m.start + k'.chars.length⟩ (mem_lineMatches.2 ⟨hf, rfl⟩) ⟨rfl, ?_⟩
    simp only
    omega
  · rintro ⟨⟨h1, h2⟩, h3⟩
    refine ⟨⟨h1, h3⟩, ?_⟩
    rintro m' hm' ⟨e1, e2⟩
    rw [mem_lineMatches] at hm'
    have := h2 m'.key (by rw [e1]; exact hm'.1.1)
    omega

/-- The credited match of one command. -/
def credOf (s : List Char) (k : Cmd) : Option (Match Cmd) :=
  (((findSub k.chars s).map fun i => (⟨k, i, i + k.chars.length⟩ : Match Cmd))).filter
    (good (lineMatches s))

theorem creds_eq (s : List Char) : creds s = Cmd.known.filterMap (credOf s) := by
  unfold creds
  conv_lhs => rw [lineMatches, collectMatches]
  rw [List.filter_filterMap]
  rfl

theorem credOf_some {s : List Char} {k : Cmd} {m : Match Cmd} :
    credOf s k = some m ↔
      m.key = k ∧ Credited s k m.start ∧ m.stop = m.start + k.chars.length := by
  constructor
  · intro h
    have hk : m.key = k := by
      simp only [credOf, Option.filter_eq_some_iff, Option.map_eq_some_iff] at h
      obtain ⟨⟨i, _, rfl⟩, _⟩ := h
      rfl
    have : m ∈ creds s := by
      rw [creds_eq, List.mem_filterMap]
      exact ⟨k, known_complete k, h⟩
    rw [mem_creds, hk] at this
    exact ⟨hk, this⟩
  · rintro ⟨hk, hc, hs⟩
    have : m ∈ creds s := mem_creds.2 ⟨by rw [hk]; exact hc, by rw [hk]; exact hs⟩
    rw [creds_eq, List.mem_filterMap] at this
    obtain ⟨k', _, h⟩ := this
    have : m.key = k' := by
      have h' := h
      simp only [credOf, Option.filter_eq_some_iff, Option.map_eq_some_iff] at h'
      obtain ⟨⟨i, _, rfl⟩, _⟩ := h'
      rfl
    rw [← hk, this]
    exact h

theorem creds_nodup_keys (s : List Char) : ((creds s).map Match.key).Nodup := by
  have h : (creds s).Pairwise fun a b => idx a.key < idx b.key :=
    (lineMatches_sorted s).filter _
  rw [List.Nodup, List.pairwise_map]
  exact h.imp fun {a b} h e => by rw [e] at h; omega

/-! ## `mapM` in `Except` -/

section MapM
variable {α β ε : Type}

theorem mapM_cons_except (f : α → Except ε β) (a : α) (l : List α) :
    (a :: l).mapM f = (f a).bind fun b => (l.mapM f).bind fun r => .ok (b :: r) := by
  rw [List.mapM_cons]
  rfl

theorem mapM_ok_iff {f : α → Except ε β} {l : List α} {r : List β} :
    l.mapM f = .ok r ↔ List.Forall₂ (fun a b => f a = .ok b) l r := by
  induction l generalizing r with
  | nil =>
    constructor
    · intro h; cases h; exact .nil
    · intro h; cases h; rfl
  | cons a l ih =>
    rw [mapM_cons_except]
    constructor
    · intro h
      cases ha : f a with
      | error e => rw [ha] at h; cases h
      | ok b =>
        cases hl : l.mapM f with
        | error e => rw [ha, hl] at h; cases h
        | ok r' =>
          rw [ha, hl] at h
          cases h
          exact .cons ha (ih.1 hl)
    · intro h
      cases h with
      | cons ha hl => rw [ha, ih.2 hl]; rfl

theorem mapM_error_mem {f : α → Except ε β} {l : List α} {e : ε} (h : l.mapM f = .error e) :
    ∃ a ∈ l, f a = .error e := by
  induction l with
  | nil => cases h
  | cons a l ih =>
    rw [mapM_cons_except] at h
    cases ha : f a with
    | error e' => rw [ha] at h; cases h; exact ⟨a, by simp, ha⟩
    | ok b =>
      cases hl : l.mapM f with
      | error e' =>
        rw [ha, hl] at h
        cases h
        obtain ⟨x, hx, hxe⟩ := ih hl
        exact ⟨x, by simp [hx], hxe⟩
      | ok r' => rw [ha, hl] at h; cases h

theorem mapM_ok_mem {f : α → Except ε β} {l : List α} {r : List β} (h : l.mapM f = .ok r) {a : α}
    (ha : a ∈ l) : ∃ b ∈ r, f a = .ok b := by
  induction l generalizing r with
  | nil => cases ha
  | cons x l ih =>
    rw [mapM_ok_iff] at h
    cases h with
    | cons h1 h2 =>
      rcases List.mem_cons.1 ha with rfl | ha
      · exact ⟨_, by simp, h1⟩
      · obtain ⟨b, hb, e⟩ := ih (mapM_ok_iff.2 h2) ha
        exact ⟨b, by simp [hb], e⟩

theorem mapM_ok_mem' {f : α → Except ε β} {l : List α} {r : List β} (h : l.mapM f = .ok r) {b : β}
    (hb : b ∈ r) : ∃ a ∈ l, f a = .ok b := by
  induction l generalizing r with
  | nil => cases h; cases hb
  | cons x l ih =>
    rw [mapM_ok_iff] at h
    cases h with
    | cons h1 h2 =>
      rcases List.mem_cons.1 hb with rfl | hb
      · exact ⟨_, by simp, h1⟩
      · obtain ⟨a, ha, e⟩ := ih (mapM_ok_iff.2 h2) hb
        exact ⟨a, by simp [ha], e⟩

theorem mapM_of_all {f : α → Except ε β} {g : α → β} {l : List α} (h : ∀ a ∈ l, f a = .ok (g a)) :
    l.mapM f = .ok (l.map g) := by
  induction l with
  | nil => rfl
  | cons a l ih =>
    rw [mapM_cons_except, h a (by simp), ih fun a ha => h a (by simp [ha])]
    rfl

theorem mapM_congr_except {f g : α → Except ε β} {l : List α} (h : ∀ a ∈ l, f a = g a) :
    l.mapM f = l.mapM g := by
  induction l with
  | nil => rfl
  | cons a l ih =>
    rw [mapM_cons_except, mapM_cons_except, h a (by simp), ih fun a ha => h a (by simp [ha])]

/-- Filtering the results by their origin is filtering first. -/
theorem mapM_filter {g : α → Except ε β} {l : List α} {r : List (α × β)} (p : α → Bool)
    (h : l.mapM (fun a => (g a).map (Prod.mk a)) = .ok r) :
    (l.filter p).mapM (fun a => (g a).map (Prod.mk a)) = .ok (r.filter fun x => p x.1) := by
  induction l generalizing r with
  | nil => cases h; rfl
  | cons a l ih =>
    rw [mapM_cons_except] at h
    cases ha : g a with
    | error e => rw [ha] at h; cases h
    | ok b =>
      cases hl : l.mapM (fun a => (g a).map (Prod.mk a)) with
      | error e => rw [ha, hl] at h; cases h
      | ok r' =>
        rw [ha, hl] at h
        simp only [Except.map, Except.bind, Except.ok.injEq] at h
        subst h
        have := ih hl
        by_cases hp : p a = true
        · rw [List.filter_cons_of_pos hp, mapM_cons_except, this, ha,
            List.filter_cons_of_pos (p := fun x : α × β => p x.1) hp]
          rfl
        · rw [List.filter_cons_of_neg hp, this,
            List.filter_cons_of_neg (p := fun x : α × β => p x.1) hp]

end MapM
end PyGCD
