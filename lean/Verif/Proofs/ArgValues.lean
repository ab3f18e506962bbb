import Verif.Proofs.Args

/-!
# Where the values of arguments come from
-/

set_option linter.unusedSimpArgs false

namespace PyGCD
open Spec

variable {dig : Char → Bool} {t : OptTable}

theorem splitEq_suffix : ∀ {w v : Word}, (splitEq w).2 = some v → v <:+ w := by
  intro w
  induction w with
  | nil => intro v h; cases h
  | cons c w ih =>
    intro v h
    unfold splitEq at h
    split_ifs at h
    · cases h
      exact List.suffix_cons _ _
    · exact (ih h).trans (List.suffix_cons _ _)

theorem parse_suffix {w v : Word} {x : OptWord} (h : parseOptional dig t w = .ok (some x)) (hv : x.value = some v) :
    v <:+ w := by
  unfold parseOptional at h
  split at h
  · split at h
    · cases h
      cases hv
    · rename_i cs _ _
      by_cases hcs : cs = []
      · rw [if_pos hcs] at h
        cases h
      rw [if_neg hcs] at h
      split at h
      · rename_i hs _
        cases h
        cases hv
        exact splitEq_suffix hs
      · split at h
        · cases h
        · rename_i y hy
          cases h
          have hm : x ∈ optionTuples t ('-' :: cs) := by rw [hy]; exact List.mem_cons_self
          unfold optionTuples at hm
          split at hm
          · rw [List.mem_filterMap] at hm
            obtain ⟨z, -, hz⟩ := hm
            split_ifs at hz
            cases hz
            exact splitEq_suffix hv
          · rename_i h'
            rw [List.mem_filterMap] at hm
            obtain ⟨z, -, hz⟩ := hm
            split_ifs at hz <;> cases hz <;> cases hv
            cases h'
            exact (List.suffix_cons _ _).trans (List.suffix_cons _ _)
          · cases hm
        · split_ifs at h <;> cases h
          cases hv
  · cases h

theorem takeFollowing_values {rest : List (Word × WordKind)} {o o' : CliOpt} {tk : Taken} {vs : List Word} {v : Word}
    (h : takeFollowing rest o = .ok tk) (hm : (o', vs) ∈ tk.acts) (hv : v ∈ vs) : ∃ x ∈ rest, v = x.1 := by
  unfold takeFollowing at h
  split at h
  · cases h
  rename_i vs' hvs
  cases h
  rw [List.mem_singleton] at hm
  cases hm
  unfold followingArgs at hvs
  split at hvs <;> cases hvs
  · cases hv
  · exact ⟨_, List.mem_cons_self, by simpa using hv⟩
  · cases hv
  · exact ⟨_, List.mem_cons_self, by simpa using hv⟩

theorem takeGlued_values {rest : List (Word × WordKind)} : ∀ (n : Nat) {v : Word} {o o' : CliOpt} {s j : Bool} {tk : Taken}
    {vs : List Word} {u : Word}, v.length ≤ n → takeGlued t rest o s j v = .ok tk → (o', vs) ∈ tk.acts → u ∈ vs →
    (∃ x ∈ rest, u = x.1) ∨ u <:+ v := by
  intro n
  induction n with
  | zero =>
    intro v o o' s j tk vs u hn h hm hu
    rw [List.length_eq_zero_iff.1 (Nat.le_zero.1 hn)] at h
    unfold takeGlued at h
    split_ifs at h
    cases h
    simp at hm
    rw [hm.2] at hu
    simp at hu
    rw [hu]
    exact Or.inr List.nil_suffix
  | succ n ih =>
    intro v o o' s j tk vs u hn h hm hu
    unfold takeGlued at h
    by_cases hz : o.nargs = .zero
    · rw [if_pos hz] at h
      cases v with
      | nil => cases h
      | cons c e =>
        dsimp only at h
        split_ifs at h
        split at h
        · cases h
          simp at hm
          rw [hm.2] at hu
          cases hu
        · rename_i o'' _
          unfold Taken.withFlag at h
          split at h
          · cases h
          · rename_i r hr
            cases h
            rcases List.mem_cons.1 hm with hm | hm
            · cases hm
              cases hu
            · rw [List.length_cons] at hn
              cases e with
              | nil => exact Or.inl (takeFollowing_values hr hm hu)
              | cons c' e' =>
                rw [List.length_cons] at hn
                dsimp only at hr
                split_ifs at hr
                · rcases ih (by omega) hr hm hu with h | h
                  · exact Or.inl h
                  · exact Or.inr (h.trans ((List.suffix_cons _ _).trans (List.suffix_cons _ _)))
                · rcases ih (by simp; omega) hr hm hu with h | h
                  · exact Or.inl h
                  · exact Or.inr (h.trans (List.suffix_cons _ _))
    · rw [if_neg hz] at h
      cases h
      simp at hm
      rw [hm.2] at hu
      simp at hu
      rw [hu]
      exact Or.inr List.suffix_rfl

/-- The value of an option among the arguments. -/
def valueOf (a : PlotWords) : Field → Option Word
  | .gcode => a.gcode
  | .presets => a.presets
  | .printerName => a.printerName
  | .outDir => a.outDir
  | .layerCue => a.layerCue

theorem store_values {p : ParserName} : ∀ {acts : List (CliOpt × List Word)} {a a' : PlotWords},
    storeOptions p a acts = .ok a' → ∀ {f : Field} {v : Word}, valueOf a' f = some v →
    valueOf a f = some v ∨ ∃ o vs, (o, vs) ∈ acts ∧ v ∈ vs := by
  intro acts
  induction acts with
  | nil =>
    intro a a' h f v hv
    cases h
    exact Or.inl hv
  | cons x acts ih =>
    obtain ⟨o, vs⟩ := x
    intro a a' h f v hv
    unfold storeOptions at h
    split at h
    · cases h
    rename_i a₁ h1
    rcases ih h hv with h2 | ⟨o', vs', hm, hv'⟩
    · have : valueOf a f = some v ∨ v ∈ vs := by
        unfold storeOption at h1
        split at h1 <;> cases h1 <;> cases f <;>
          first
          | exact Or.inl h2
          | exact Or.inr (List.mem_of_head? h2)
      rcases this with h | h
      · exact Or.inl h
      · exact Or.inr ⟨o, vs, List.mem_cons_self, h⟩
    · exact Or.inr ⟨o', vs', List.mem_cons_of_mem _ hm, hv'⟩

theorem readWords_values {σ : Type} {p : ParserName}
    {pos : σ → Word → WordKind → List (Word × WordKind) → Except ArgStop (Option (σ × Nat))} :
    ∀ (ks : List (Word × WordKind)) {n : Nat} {s s' : σ} {a a' : PlotWords} {ex ex' : List Word},
      (∀ x ∈ ks, ∀ y v, x.2 = .opt y → y.value = some v → v <:+ x.1) →
      readWords p t pos n s a ex ks = .ok (s', a', ex') → ∀ {f : Field} {v : Word}, valueOf a' f = some v →
      valueOf a f = some v ∨ ∃ x ∈ ks, v <:+ x.1 := by
  intro ks
  induction ks with
  | nil =>
    intro n s s' a a' ex ex' _ h f v hv
    rw [readWords] at h
    cases h
    exact Or.inl hv
  | cons x ks ih =>
    intro n s s' a a' ex ex' hks h f v hv
    obtain ⟨w, k⟩ := x
    rw [List.forall_mem_cons] at hks
    have next : ∀ {n : Nat} {s₁ : σ} {ex₁ : List Word}, readWords p t pos n s₁ a ex₁ ks = .ok (s', a', ex') →
        valueOf a f = some v ∨ ∃ x ∈ (w, k) :: ks, v <:+ x.1 := by
      intro n s₁ ex₁ h
      rcases ih hks.2 h hv with h | ⟨x, hx, hs⟩
      · exact Or.inl h
      · exact Or.inr ⟨x, List.mem_cons_of_mem _ hx, hs⟩
    cases n with
    | succ n =>
      rw [readWords] at h
      exact next h
    | zero =>
      rcases k with _ | _ | x
      · rw [readWords] at h
        · split at h
          · cases h
          · exact next h
          · exact next h
        · simp
      · rw [readWords] at h
        · split at h
          · cases h
          · exact next h
          · exact next h
        · simp
      · rw [readWords] at h
        split at h
        · exact next h
        · split at h
          · cases h
          · rename_i tk htk
            split at h
            · cases h
            · rename_i a₁ ha₁
              rcases ih hks.2 h hv with h | ⟨y, hy, hs⟩
              · rcases store_values ha₁ h with h | ⟨o', vs, hm, hvs⟩
                · exact Or.inl h
                · right
                  unfold takeOption at htk
                  split at htk
                  · obtain ⟨y, hy, rfl⟩ := takeFollowing_values htk hm hvs
                    exact ⟨y, List.mem_cons_of_mem _ hy, List.suffix_rfl⟩
                  · rename_i u hu
                    rcases takeGlued_values _ (Nat.le_refl _) htk hm hvs with ⟨y, hy, rfl⟩ | h
                    · exact ⟨y, List.mem_cons_of_mem _ hy, List.suffix_rfl⟩
                    · exact ⟨_, List.mem_cons_self, h.trans (hks.1 x u rfl hu)⟩
              · exact Or.inr ⟨y, List.mem_cons_of_mem _ hy, hs⟩

theorem classify_suffix : ∀ {ws : List Word} {ks : List (Word × WordKind)}, classify dig t ws = .ok ks →
    ∀ x ∈ ks, ∀ y v, x.2 = .opt y → y.value = some v → v <:+ x.1 := by
  intro ws
  induction ws with
  | nil => intro ks h; cases h; simp
  | cons w ws ih =>
    intro ks h
    unfold classify at h
    split_ifs at h
    · cases h
      intro x hx y v h1
      rcases List.mem_cons.1 hx with rfl | hx
      · cases h1
      · obtain ⟨v, -, rfl⟩ := List.mem_map.1 hx
        cases h1
    · split at h
      · cases h
      rename_i k hk
      split at h
      · cases h
      rename_i r hr
      cases h
      intro x hx y v h1 h2
      rcases List.mem_cons.1 hx with rfl | hx
      · cases k with
        | none => cases h1
        | some z =>
          cases h1
          exact parse_suffix hk h2
      · exact ih hr x hx y v h1 h2

theorem plot_values {ws ex : List Word} {a : PlotWords} (h : readPlot dig ws = .ok (a, ex)) {f : Field} {v : Word}
    (hv : valueOf a f = some v) : ∃ w ∈ ws, v <:+ w := by
  unfold readPlot at h
  split at h
  · cases h
  rename_i ks hks
  split at h
  · cases h
  rename_i a' ex' hr
  cases h
  rcases readWords_values ks (classify_suffix hks) hr hv with h | ⟨x, hx, hs⟩
  · cases f <;> cases h
  · refine ⟨x.1, ?_, hs⟩
    rw [← classify_fst hks]
    exact List.mem_map_of_mem hx

end PyGCD
