import Mathlib.Data.List.Induction
import Verif.Spec.Args

/-!
# Lemmas about reading the command line
-/

set_option linter.unusedSimpArgs false

namespace PyGCD
open Spec

variable {dig : Char → Bool} {t : OptTable}

/-! ## Words -/

theorem classify_fst : ∀ {ws : List Word} {ks : List (Word × WordKind)}, classify dig t ws = .ok ks →
    ks.map Prod.fst = ws := by
  intro ws
  induction ws with
  | nil => intro ks h; cases h; rfl
  | cons w ws ih =>
    intro ks h
    unfold classify at h
    split at h
    · cases h
      simp [Function.comp_def]
    split at h
    · cases h
    split at h
    · cases h
    rename_i r hr
    cases h
    simp [ih hr]

/-- The kind of a word that was read as an option or not. -/
def kindOf : Option OptWord → WordKind
  | none => .arg
  | some x => .opt x

theorem classify_cons {w : Word} {ws : List Word} {k : Option OptWord} {r : List (Word × WordKind)} (hw : w ≠ w!"--")
    (hk : parseOptional dig t w = .ok k) (hr : classify dig t ws = .ok r) :
    classify dig t (w :: ws) = .ok ((w, kindOf k) :: r) := by
  unfold classify
  rw [if_neg hw, hk, hr]
  cases k <;> rfl

theorem parse_noDash {w : Word} (h : NoDash w) : parseOptional dig t w = .ok none := by
  unfold parseOptional
  split
  · exact absurd rfl h
  · rfl

theorem noDash_ne {w : Word} (h : NoDash w) : w ≠ w!"--" := by
  rintro rfl
  exact h rfl

theorem readWords_skip {σ : Type} {p : ParserName}
    {pos : σ → Word → WordKind → List (Word × WordKind) → Except ArgStop (Option (σ × Nat))} {s : σ} {a : PlotWords}
    {ex : List Word} : ∀ (r : List (Word × WordKind)), readWords p t pos r.length s a ex r = .ok (s, a, ex) := by
  intro r
  induction r with
  | nil => rfl
  | cons x r ih => exact ih

/-! ## The command -/

theorem main_plot {ws : List Word} {ks : List (Word × WordKind)} (h : classify dig globalTable ws = .ok ks) :
    readMain dig (w!"plot" :: ws) = match readPlot dig ws with
      | .error e => .error e
      | .ok (a, ex) => if ex = [] then .ok (.plot a) else .error .usage := by
  unfold readMain
  rw [classify_cons (by decide) (parse_noDash (w := w!"plot") (by simp [NoDash])) h]
  dsimp only [kindOf]
  rw [readWords]
  · unfold commandPos
    dsimp only
    rw [classify_fst h]
    unfold readCommand
    rw [if_neg (by decide), if_pos rfl]
    rcases hp : readPlot dig ws with e | ⟨a, ex⟩
    · rfl
    · dsimp only
      rw [readWords_skip]
      simp
  · simp

/-! ## Options with values -/

/-- The option behind a field. -/
def Spec.Field.opt : Field → CliOpt
  | .gcode => .gcode
  | .presets => .presets
  | .printerName => .printerName
  | .outDir => .outDir
  | .layerCue => .layerCue

theorem parse_name (g : Given) :
    parseOptional dig plotTable g.name = .ok (some ⟨some g.field.opt, !g.long, false, none⟩) := by
  obtain ⟨f, l, j, v⟩ := g
  cases f <;> cases l <;> rfl

theorem parse_joined (g : Given) : parseOptional dig plotTable (g.name ++ '=' :: g.value) =
    .ok (some ⟨some g.field.opt, !g.long, true, some g.value⟩) := by
  obtain ⟨f, l, j, v⟩ := g
  cases f <;> cases l <;>
    simp [parseOptional, Given.name, Field.short, Field.long, plotTable, List.lookup, splitEq, isShort, Field.opt]

theorem parse_unknown {w : Word} (h1 : t.lookup w = none) (h2 : t.lookup (splitEq w).1 = none)
    (h3 : optionTuples t w = []) : ∃ k, parseOptional dig t w = .ok k ∧ ∀ x, k = some x → x.opt = none := by
  unfold parseOptional
  split
  · rename_i cs
    rw [h1, h2, h3]
    generalize (splitEq ('-' :: cs)).2 = z
    dsimp only
    by_cases hc : cs = []
    · rw [if_pos hc]
      exact ⟨none, rfl, by simp⟩
    rw [if_neg hc]
    cases z <;> dsimp only <;> split_ifs <;>
      first
      | exact ⟨none, rfl, by simp⟩
      | exact ⟨_, rfl, by rintro x ⟨⟩; rfl⟩
  · exact ⟨none, rfl, by simp⟩

theorem parse_global (g : Given) : ∃ k, parseOptional dig globalTable g.name = .ok k := by
  obtain ⟨k, h, -⟩ := parse_unknown (dig := dig) (t := globalTable) (w := g.name)
    (by obtain ⟨f, l, j, v⟩ := g; cases f <;> cases l <;> rfl)
    (by obtain ⟨f, l, j, v⟩ := g; cases f <;> cases l <;> rfl)
    (by obtain ⟨f, l, j, v⟩ := g; cases f <;> cases l <;> rfl)
  exact ⟨k, h⟩

theorem parse_global_joined (g : Given) : ∃ k, parseOptional dig globalTable (g.name ++ '=' :: g.value) = .ok k := by
  obtain ⟨k, h, -⟩ := parse_unknown (dig := dig) (t := globalTable) (w := g.name ++ '=' :: g.value)
    (by obtain ⟨f, l, j, v⟩ := g; cases f <;> cases l <;> rfl)
    (by obtain ⟨f, l, j, v⟩ := g; cases f <;> cases l <;> rfl)
    (by obtain ⟨f, l, j, v⟩ := g; cases f <;> cases l <;> rfl)
  exact ⟨k, h⟩

theorem name_ne (g : Given) : g.name ≠ w!"--" ∧ g.name ++ '=' :: g.value ≠ w!"--" := by
  obtain ⟨f, l, j, v⟩ := g
  cases f <;> cases l <;> simp [Given.name, Field.short, Field.long]

/-- The kinds of the words of an option. -/
def Spec.Given.kinds (g : Given) : List (Word × WordKind) :=
  if g.joined then [(g.name ++ '=' :: g.value, .opt ⟨some g.field.opt, !g.long, true, some g.value⟩)]
  else [(g.name, .opt ⟨some g.field.opt, !g.long, false, none⟩), (g.value, .arg)]

theorem classify_given {g : Given} (hg : g.Fine) {ws : List Word} {r : List (Word × WordKind)}
    (h : classify dig plotTable ws = .ok r) : classify dig plotTable (g.words ++ ws) = .ok (g.kinds ++ r) := by
  unfold Given.words Given.kinds
  by_cases hj : g.joined = true
  · rw [if_pos hj, if_pos hj]
    exact classify_cons (name_ne g).2 (parse_joined g) h
  · rw [if_neg hj, if_neg hj]
    have hv := hg (by simpa using hj)
    exact classify_cons (name_ne g).1 (parse_name g) (classify_cons (noDash_ne hv) (parse_noDash hv) h)

theorem classify_line {gs : List Given} (hg : ∀ g ∈ gs, g.Fine) {ws : List Word} {r : List (Word × WordKind)}
    (h : classify dig plotTable ws = .ok r) :
    classify dig plotTable (line gs ++ ws) = .ok (gs.flatMap Given.kinds ++ r) := by
  induction gs with
  | nil => exact h
  | cons g gs ih =>
    rw [List.forall_mem_cons] at hg
    unfold line at *
    rw [List.flatMap_cons, List.flatMap_cons, List.append_assoc, List.append_assoc]
    exact classify_given hg.1 (ih hg.2)

theorem global_line {gs : List Given} (hg : ∀ g ∈ gs, g.Fine) {ws : List Word}
    (h : ∃ r, classify dig globalTable ws = .ok r) : ∃ r, classify dig globalTable (line gs ++ ws) = .ok r := by
  induction gs with
  | nil => exact h
  | cons g gs ih =>
    rw [List.forall_mem_cons] at hg
    obtain ⟨r, hr⟩ := ih hg.2
    unfold line at *
    rw [List.flatMap_cons, List.append_assoc]
    unfold Given.words
    by_cases hj : g.joined = true
    · rw [if_pos hj]
      obtain ⟨k, hk⟩ := parse_global_joined (dig := dig) g
      exact ⟨_, classify_cons (name_ne g).2 hk hr⟩
    · rw [if_neg hj]
      have hv := hg.1 (by simpa using hj)
      obtain ⟨k, hk⟩ := parse_global (dig := dig) g
      exact ⟨_, classify_cons (name_ne g).1 hk (classify_cons (noDash_ne hv) (parse_noDash hv) hr)⟩

/-! ## Reading the options of `plot` -/

/-- The second part of reading for `plot`. -/
def plotWords (a : PlotWords) (ex : List Word) (ks : List (Word × WordKind)) :=
  readWords ParserName.plot plotTable (fun (_ : Unit) _ _ _ => .ok none) 0 () a ex ks

/-- The arguments after giving an option. -/
def setField (a : PlotWords) (f : Field) (v : Option Word) : PlotWords :=
  match f with
  | .gcode => { a with gcode := v }
  | .presets => { a with presets := v }
  | .printerName => { a with printerName := v }
  | .outDir => { a with outDir := v }
  | .layerCue => { a with layerCue := v }

theorem glued_value {t : OptTable} {r : List (Word × WordKind)} {o : CliOpt} {s j : Bool} {v : Word} (h : o.nargs ≠ .zero) :
    takeGlued t r o s j v = .ok ⟨[(o, [v])], [], 0⟩ := by
  unfold takeGlued
  rw [if_neg h]

theorem read_given (g : Given) (a : PlotWords) (ex : List Word) (r : List (Word × WordKind)) :
    plotWords a ex (g.kinds ++ r) = plotWords (setField a g.field (some g.value)) ex r := by
  have hgl : ∀ (o : CliOpt) (s j v), (o = .gcode ∨ o = .presets ∨ o = .printerName ∨ o = .outDir ∨ o = .layerCue) →
      takeGlued plotTable r o s j v = .ok ⟨[(o, [v])], [], 0⟩ := by
    intro o s j v h
    refine glued_value ?_
    rcases h with rfl | rfl | rfl | rfl | rfl <;> decide
  obtain ⟨f, l, j, v⟩ := g
  cases f <;> cases l <;> cases j <;>
    simp [plotWords, Given.kinds, readWords, takeOption, hgl, takeFollowing, followingArgs, CliOpt.nargs, Field.opt,
      storeOptions, storeOption, setField]

theorem read_line (gs : List Given) (a : PlotWords) (ex : List Word) (r : List (Word × WordKind)) :
    plotWords a ex (gs.flatMap Given.kinds ++ r) =
      plotWords (gs.foldl (fun a g => setField a g.field (some g.value)) a) ex r := by
  induction gs generalizing a with
  | nil => rfl
  | cons g gs ih => rw [List.flatMap_cons, List.append_assoc, read_given, ih]; rfl

theorem fold_args (gs : List Given) :
    gs.foldl (fun a g => setField a g.field (some g.value)) {} = argsOf gs := by
  induction gs using List.reverseRecOn with
  | nil => rfl
  | append_singleton gs g ih =>
    rw [List.foldl_append, ih, List.foldl_cons, List.foldl_nil]
    unfold argsOf lastValue
    obtain ⟨f, l, j, v⟩ := g
    cases f <;> simp [setField, List.find?_cons]

theorem readPlot_eq {ws : List Word} {ks : List (Word × WordKind)} (h : classify dig plotTable ws = .ok ks) :
    readPlot dig ws = match plotWords {} [] ks with
      | .error e => .error e
      | .ok (_, a, ex) => .ok (a, ex) := by
  unfold readPlot plotWords
  rw [h]
  rfl

theorem plot_line {gs : List Given} (hg : ∀ g ∈ gs, g.Fine) {ws : List Word} {r : List (Word × WordKind)}
    (h : classify dig plotTable ws = .ok r) (hG : ∃ r, classify dig globalTable ws = .ok r) :
    readMain dig (w!"plot" :: line gs ++ ws) = match plotWords (argsOf gs) [] r with
      | .error e => .error e
      | .ok (_, a, ex) => if ex = [] then .ok (.plot a) else .error .usage := by
  obtain ⟨k, hk⟩ := global_line hg hG
  rw [List.cons_append, main_plot hk, readPlot_eq (classify_line hg h), read_line, fold_args]
  rcases plotWords (argsOf gs) [] r with e | ⟨_, a, ex⟩ <;> rfl

/-! ## Words that belong to nothing -/

theorem readWords_extras {σ : Type} {p : ParserName}
    {pos : σ → Word → WordKind → List (Word × WordKind) → Except ArgStop (Option (σ × Nat))} :
    ∀ (ks : List (Word × WordKind)) {n : Nat} {s s' : σ} {a a' : PlotWords} {ex ex' : List Word},
      readWords p t pos n s a ex ks = .ok (s', a', ex') → ex <+: ex' := by
  intro ks
  induction ks with
  | nil =>
    intro n s s' a a' ex ex' h
    rw [readWords] at h
    cases h
    exact List.prefix_rfl
  | cons x ks ih =>
    intro n s s' a a' ex ex' h
    obtain ⟨w, k⟩ := x
    cases n with
    | succ n =>
      rw [readWords] at h
      exact ih h
    | zero =>
      have app : ∀ {y : List Word}, ex ++ y <+: ex' → ex <+: ex' := fun h => (List.prefix_append _ _).trans h
      rcases k with _ | _ | x
      · rw [readWords] at h
        · split at h
          · cases h
          · exact app (ih h)
          · exact ih h
        · simp
      · rw [readWords] at h
        · split at h
          · cases h
          · exact app (ih h)
          · exact ih h
        · simp
      · rw [readWords] at h
        split at h
        · exact app (ih h)
        · split at h
          · cases h
          · split at h
            · cases h
            · exact app (ih h)

theorem takeFollowing_spec {rest : List (Word × WordKind)} {o : CliOpt} {tk : Taken} (h : takeFollowing rest o = .ok tk) :
    (∃ vs, tk.acts = [(o, vs)]) ∧ (tk.used = 0 ∨ tk.used = 1 ∧ ∃ v r, rest = (v, .arg) :: r) := by
  unfold takeFollowing at h
  split at h
  · cases h
  rename_i vs hvs
  cases h
  refine ⟨⟨_, rfl⟩, ?_⟩
  unfold followingArgs at hvs
  split at hvs <;> cases hvs
  · exact Or.inl rfl
  · exact Or.inr ⟨rfl, _, _, rfl⟩
  · exact Or.inl rfl
  · exact Or.inr ⟨rfl, _, _, rfl⟩

theorem takeGlued_spec {rest : List (Word × WordKind)} : ∀ (n : Nat) {v : Word} {o : CliOpt} {s j : Bool} {tk : Taken},
    v.length ≤ n → takeGlued t rest o s j v = .ok tk →
    (∃ vs l, tk.acts = (o, vs) :: l) ∧ (tk.used = 0 ∨ tk.used = 1 ∧ ∃ v r, rest = (v, .arg) :: r) := by
  intro n
  induction n with
  | zero =>
    intro v o s j tk hn h
    rw [List.length_eq_zero_iff.1 (Nat.le_zero.1 hn)] at h
    unfold takeGlued at h
    split_ifs at h
    cases h
    exact ⟨⟨_, _, rfl⟩, Or.inl rfl⟩
  | succ n ih =>
    intro v o s j tk hn h
    unfold takeGlued at h
    by_cases hz : o.nargs = .zero
    · rw [if_pos hz] at h
      cases v with
      | nil => cases h
      | cons c e =>
        dsimp only at h
        split_ifs at h
        split at h
        · cases h
          exact ⟨⟨_, _, rfl⟩, Or.inl rfl⟩
        · rename_i o' _
          unfold Taken.withFlag at h
          split at h
          · cases h
          · rename_i r hr
            cases h
            refine ⟨⟨_, _, rfl⟩, ?_⟩
            rw [List.length_cons] at hn
            cases e with
            | nil => exact (takeFollowing_spec hr).2
            | cons c' e' =>
              rw [List.length_cons] at hn
              dsimp only at hr
              split_ifs at hr
              · exact (ih (by omega) hr).2
              · exact (ih (by simp; omega) hr).2
    · rw [if_neg hz] at h
      cases h
      exact ⟨⟨_, _, rfl⟩, Or.inl rfl⟩

theorem takeOption_spec {rest : List (Word × WordKind)} {o : CliOpt} {x : OptWord} {tk : Taken}
    (h : takeOption t rest o x = .ok tk) :
    (∃ vs l, tk.acts = (o, vs) :: l) ∧ (tk.used = 0 ∨ tk.used = 1 ∧ ∃ v r, rest = (v, .arg) :: r) := by
  unfold takeOption at h
  split at h
  · obtain ⟨⟨vs, h1⟩, h2⟩ := takeFollowing_spec h
    exact ⟨⟨vs, [], h1⟩, h2⟩
  · exact takeGlued_spec _ (Nat.le_refl _) h

/-- A word that is a value or an option of the parser. -/
def Known (k : WordKind) : Prop := k = .arg ∨ ∃ x o, k = .opt x ∧ x.opt = some o

theorem readWords_known {σ : Type} {p : ParserName} {s : σ} :
    ∀ (ks : List (Word × WordKind)) {n : Nat} {s' : σ} {a a' : PlotWords},
      (∀ i, i < n → ∀ x, ks[i]? = some x → x.2 = .arg) →
      readWords p t (fun (_ : σ) _ _ _ => .ok none) n s a [] ks = .ok (s', a', []) → ∀ x ∈ ks, Known x.2 := by
  intro ks
  induction ks with
  | nil => simp
  | cons x ks ih =>
    intro n s' a a' hn h
    obtain ⟨w, k⟩ := x
    rw [List.forall_mem_cons]
    cases n with
    | succ n =>
      refine ⟨Or.inl (hn 0 (by omega) _ rfl), ?_⟩
      rw [readWords] at h
      exact ih (fun i hi x hx => hn (i + 1) (by omega) x (by simpa using hx)) h
    | zero =>
      have bad : ∀ {n : Nat} {a : PlotWords} {y : List Word}, y ≠ [] →
          readWords p t (fun (_ : σ) _ _ _ => .ok none) n s a ([] ++ y) ks ≠ .ok (s', a', []) := by
        intro n a y hy h
        have := readWords_extras ks h
        simp at this
        exact hy this
      rcases k with _ | _ | x
      · rw [readWords] at h
        · exact absurd h (bad (by simp))
        · simp
      · rw [readWords] at h
        · exact absurd h (bad (by simp))
        · simp
      · rw [readWords] at h
        split at h
        · exact absurd h (bad (by simp))
        · rename_i o ho
          refine ⟨Or.inr ⟨x, o, rfl, ho⟩, ?_⟩
          split at h
          · cases h
          · rename_i tk htk
            split at h
            · cases h
            · by_cases hex : tk.extras = []
              · rw [hex, List.append_nil] at h
                refine ih (fun i hi x hx => ?_) h
                rcases (takeOption_spec htk).2 with h0 | ⟨h1, v, r, rfl⟩
                · omega
                · obtain rfl : i = 0 := by omega
                  cases hx
                  rfl
              · exact absurd h (bad hex)

theorem classify_bad : ∀ {ws : List Word} {ks : List (Word × WordKind)}, classify dig t ws = .ok ks → ∀ {w : Word},
    w ∈ ws → ∀ {x : OptWord}, parseOptional dig t w = .ok (some x) → x.opt = none → ∃ y ∈ ks, ¬ Known y.2 := by
  intro ws
  induction ws with
  | nil => simp
  | cons v ws ih =>
    intro ks h w hw x hx hx0
    unfold classify at h
    split_ifs at h
    · cases h
      exact ⟨_, List.mem_cons_self, by simp [Known]⟩
    · split at h
      · cases h
      rename_i k hk
      split at h
      · cases h
      rename_i r hr
      cases h
      rcases List.mem_cons.1 hw with rfl | hw
      · rw [hx] at hk
        cases hk
        exact ⟨_, List.mem_cons_self, by simp [Known, hx0]⟩
      · obtain ⟨y, hy, hb⟩ := ih hr hw hx hx0
        exact ⟨y, List.mem_cons_of_mem _ hy, hb⟩

/-- A word that belongs to nothing is never ignored. -/
theorem plot_refuses {ws : List Word} {w : Word} (hw : w ∈ ws) {x : OptWord}
    (hx : parseOptional dig plotTable w = .ok (some x)) (hx0 : x.opt = none) (c : MainCall) :
    readMain dig (w!"plot" :: ws) ≠ .ok c := by
  intro h
  rcases hG : classify dig globalTable ws with e | ks
  · unfold readMain classify at h
    rw [if_neg (by decide), parse_noDash (by simp [NoDash]), hG] at h
    cases h
  · rw [main_plot hG] at h
    split at h
    · cases h
    · rename_i a ex hp
      split_ifs at h with hex
      subst hex
      unfold readPlot at hp
      split at hp
      · cases hp
      · rename_i ks hks
        split at hp
        · cases hp
        · rename_i a' ex' hr
          cases hp
          obtain ⟨y, hy, hb⟩ := classify_bad hks hw hx hx0
          exact hb (readWords_known ks (by simp) hr y hy)

theorem splitEq_append : ∀ {p : Word} (tail : Word), '=' ∉ p → tail.head?.all (· = '=') →
    (splitEq (p ++ tail)).1 = p := by
  intro p
  induction p with
  | nil =>
    intro tail _ h
    cases tail with
    | nil => rfl
    | cons c tail =>
      simp at h
      simp [splitEq, h]
  | cons c p ih =>
    intro tail hp ht
    simp only [List.mem_cons, not_or] at hp
    rw [List.cons_append, splitEq, if_neg (fun h => hp.1 h.symm)]
    simp only
    rw [ih tail hp.2 ht]

theorem not_negative {c : Char} {cs : Word} (hd : dig c = false) (hc : c ≠ '.') :
    looksNegative dig ('-' :: c :: cs) = false := by
  have key : ∀ r : Word, r = [] ∨ r.head? = some c → (((!r.isEmpty && r.all dig) ||
      match r.dropWhile dig with
      | '.' :: d => !d.isEmpty && d.all dig
      | _ => false) = false) := by
    rintro (_ | ⟨d, r⟩) hr
    · rfl
    · rcases hr with hr | hr
      · cases hr
      · cases hr
        rw [List.dropWhile_cons_of_neg (by simp [hd])]
        simp [hd]
        split
        · rename_i h
          cases h
          exact absurd rfl hc
        · rfl
  unfold looksNegative
  split
  · rename_i r hr
    refine key r ?_
    unfold dropBreak at hr
    split_ifs at hr with hb
    · cases cs with
      | nil =>
        simp at hr
        exact Or.inl hr
      | cons d cs =>
        simp at hr
        rw [← hr]
        exact Or.inr rfl
    · cases hr
      exact Or.inr rfl
  · rfl

theorem mistyped_parse {w : Word} (hd : dig '-' = false) (h : Mistyped dig w) :
    ∃ x, parseOptional dig plotTable w = .ok (some x) ∧ x.opt = none := by
  have fin : ∀ {c : Char} {cs : Word}, dig c = false → c ≠ '.' → ' ' ∉ '-' :: c :: cs →
      plotTable.lookup ('-' :: c :: cs) = none → plotTable.lookup (splitEq ('-' :: c :: cs)).1 = none →
      optionTuples plotTable ('-' :: c :: cs) = [] →
      ∃ x, parseOptional dig plotTable ('-' :: c :: cs) = .ok (some x) ∧ x.opt = none := by
    intro c cs h1 h2 h3 h4 h5 h6
    unfold parseOptional
    rw [h4, h5, h6, not_negative h1 h2]
    generalize (splitEq ('-' :: c :: cs)).2 = z
    refine ⟨⟨none, isShort ('-' :: c :: cs), false, none⟩, ?_, rfl⟩
    dsimp only
    cases z <;> simp [h3]
  rcases h with ⟨p, tail, hp, heq, ht, hs, hn⟩ | ⟨c, p, tail, hc, hdc, heq, ht, hs, hn⟩
  · have e : w!"--" ++ p ++ tail = '-' :: '-' :: (p ++ tail) := rfl
    have hsplit : (splitEq ('-' :: '-' :: (p ++ tail))).1 = '-' :: '-' :: p := by
      have := splitEq_append (p := '-' :: '-' :: p) tail (by simpa using heq) ht
      simpa using this
    have hq : ∀ n ∈ longNames, ¬ '-' :: '-' :: p <+: n := hn
    have hw : ∀ n ∈ longNames, '-' :: '-' :: (p ++ tail) ≠ n := by
      rintro n hn rfl
      exact hq _ hn ⟨tail, by simp⟩
    have hq' : ∀ n ∈ longNames, '-' :: '-' :: p ≠ n := by
      rintro n hn rfl
      exact hq _ hn List.prefix_rfl
    have hq'' : ∀ n ∈ longNames, ('-' :: '-' :: p).isPrefixOf n = false := by
      intro n hn'
      rw [Bool.eq_false_iff]
      exact fun h => hq n hn' (List.isPrefixOf_iff_prefix.1 h)
    have look : ∀ v : Word, (∀ n ∈ longNames, '-' :: '-' :: v ≠ n) → plotTable.lookup ('-' :: '-' :: v) = none := by
      intro v hv
      rw [List.lookup_eq_none_iff]
      intro x hx
      simp only [plotTable, List.mem_cons, List.not_mem_nil, or_false] at hx
      simp only [longNames, List.forall_mem_cons] at hv
      obtain ⟨v1, v2, v3, v4, v5, v6, -⟩ := hv
      rcases hx with rfl | rfl | rfl | rfl | rfl | rfl | rfl | rfl | rfl | rfl | rfl | rfl <;>
        first | (simp; done) | simpa using v1 | simpa using v2 | simpa using v3 | simpa using v4 | simpa using v5 | simpa using v6
    rw [e]
    refine fin hd (by decide) ?_ (look _ hw) ?_ ?_
    · simpa using hs
    · rw [hsplit]
      exact look _ hq'
    · unfold optionTuples
      split <;> rename_i h
      case h_2 h' => cases h; exact (h' rfl rfl).elim
      case h_3 => rfl
      rw [hsplit, List.filterMap_eq_nil_iff]
      intro x hx
      rw [if_neg]
      simp only [plotTable, List.mem_cons, List.not_mem_nil, or_false] at hx
      simp only [longNames, List.forall_mem_cons] at hq''
      obtain ⟨v1, v2, v3, v4, v5, v6, -⟩ := hq''
      rcases hx with rfl | rfl | rfl | rfl | rfl | rfl | rfl | rfl | rfl | rfl | rfl | rfl <;>
        first | (rw [v1]; simp) | (rw [v2]; simp) | (rw [v3]; simp) | (rw [v4]; simp) | (rw [v5]; simp) | (rw [v6]; simp) | simp
  · have e : '-' :: c :: p ++ tail = '-' :: c :: (p ++ tail) := rfl
    simp only [List.mem_cons, List.not_mem_nil, or_false, not_or] at hc
    obtain ⟨c1, c2, c3, c4, c5, c6, c7⟩ := hc
    have hsplit : (splitEq ('-' :: c :: (p ++ tail))).1 = '-' :: c :: p := by
      have := splitEq_append (p := '-' :: c :: p) tail (by simp [heq, Ne.symm c7]) ht
      simpa using this
    have look : ∀ v : Word, c :: v ≠ w!"lc" → plotTable.lookup ('-' :: c :: v) = none := by
      intro v hv
      rw [List.lookup_eq_none_iff]
      intro x hx
      simp only [plotTable, List.mem_cons, List.not_mem_nil, or_false] at hx
      rcases hx with rfl | rfl | rfl | rfl | rfl | rfl | rfl | rfl | rfl | rfl | rfl | rfl <;>
        first | (simp [c1, c2, c3, c4, c5]; done) | simpa using hv
    rw [e]
    refine fin hdc c6 ?_ (look _ ?_) ?_ ?_
    · simpa using hs
    · rintro h
      exact hn ⟨tail, by rw [← h]; rfl⟩
    · rw [hsplit]
      exact look _ fun h => hn (h ▸ List.prefix_rfl)
    · unfold optionTuples
      split
      · rename_i h
        cases h
        exact absurd rfl c1
      · rename_i _ a d v h h'
        cases h'
        rw [List.filterMap_eq_nil_iff]
        intro x hx
        have hlc : ¬ ('-' :: c :: (p ++ tail)).isPrefixOf w!"-lc" = true := by
          rw [List.isPrefixOf_iff_prefix]
          intro h
          rw [List.cons_prefix_cons] at h
          exact hn (List.IsPrefix.trans ⟨tail, rfl⟩ h.2)
        simp only [plotTable, List.mem_cons, List.not_mem_nil, or_false] at hx
        rcases hx with rfl | rfl | rfl | rfl | rfl | rfl | rfl | rfl | rfl | rfl | rfl | rfl <;>
          (rw [if_neg (by simp [Ne.symm c1, Ne.symm c2, Ne.symm c3, Ne.symm c4, Ne.symm c5])]
           rw [if_neg]
           first | exact hlc | simp [c1, c2, c3, c4, c5])
      · rfl

/-! ## Lines that are accepted -/

theorem optionTuples_mem {w : Word} {x : OptWord} (h : x ∈ optionTuples t w) : ∃ n o, x.opt = some o ∧ (n, o) ∈ t := by
  unfold optionTuples at h
  split at h
  · rw [List.mem_filterMap] at h
    obtain ⟨⟨n, o⟩, hy, h⟩ := h
    split_ifs at h
    cases h
    exact ⟨n, o, rfl, hy⟩
  · rw [List.mem_filterMap] at h
    obtain ⟨⟨n, o⟩, hy, h⟩ := h
    split_ifs at h <;> cases h <;> exact ⟨n, o, rfl, hy⟩
  · cases h

theorem mem_of_lookup : ∀ {t : OptTable} {w : Word} {o : CliOpt}, t.lookup w = some o → ∃ n, (n, o) ∈ t := by
  intro t w o
  induction t with
  | nil => intro h; cases h
  | cons x t ih =>
    intro h
    obtain ⟨n, o'⟩ := x
    rw [List.lookup_cons] at h
    split at h
    · cases h
      exact ⟨n, List.mem_cons_self⟩
    · obtain ⟨m, hm⟩ := ih h
      exact ⟨m, List.mem_cons_of_mem _ hm⟩

theorem classify_dashes : ∀ {ws : List Word} {ks : List (Word × WordKind)}, classify dig t ws = .ok ks →
    ∀ {w : Word}, (w, .dashes) ∈ ks → w = w!"--" := by
  intro ws
  induction ws with
  | nil => intro ks h w hw; cases h; cases hw
  | cons v ws ih =>
    intro ks h w hw
    unfold classify at h
    split_ifs at h with hv
    · cases h
      simp [hv] at hw
      exact hw
    · split at h
      · cases h
      rename_i k hk
      split at h
      · cases h
      rename_i r hr
      cases h
      rcases List.mem_cons.1 hw with h | hw
      · cases k <;> cases h
      · exact ih hr hw

theorem parse_mem {w : Word} {x : OptWord} {o : CliOpt} (h : parseOptional dig t w = .ok (some x)) (ho : x.opt = some o) :
    ∃ n, (n, o) ∈ t := by
  unfold parseOptional at h
  split at h
  · split at h
    · rename_i o' hl
      cases h
      cases ho
      exact mem_of_lookup hl
    · rename_i cs _ _
      by_cases hcs : cs = []
      · rw [if_pos hcs] at h
        cases h
      rw [if_neg hcs] at h
      split at h
      · rename_i hl
        cases h
        cases ho
        exact mem_of_lookup hl
      · split at h
        · cases h
        · rename_i y hy
          cases h
          obtain ⟨n, o', h1, h2⟩ := optionTuples_mem (t := t) (x := x) (by rw [hy]; exact List.mem_cons_self)
          rw [ho] at h1
          cases h1
          exact ⟨n, h2⟩
        · split_ifs at h <;> cases h
          cases ho
  · cases h

/-- The options among these words only show something and end the program. -/
def Flags (ks : List (Word × WordKind)) : Prop :=
  ∀ x ∈ ks, ∀ y o, x.2 = .opt y → y.opt = some o → o = .help ∨ o = .version

theorem classify_flags (ht : ∀ n o, (n, o) ∈ t → o = .help ∨ o = .version) : ∀ {ws : List Word}
    {ks : List (Word × WordKind)}, classify dig t ws = .ok ks → Flags ks := by
  intro ws
  induction ws with
  | nil => intro ks h; cases h; simp [Flags]
  | cons w ws ih =>
    intro ks h
    unfold classify at h
    split_ifs at h
    · cases h
      intro x hx y o h1
      rcases List.mem_cons.1 hx with rfl | hx
      · cases h1
      · obtain ⟨v, -, rfl⟩ := List.mem_map.1 hx
        cases h1
    · split at h
      · cases h
      rename_i k hk
      split at h
      · cases h
      rename_i r hr
      cases h
      intro x hx y o h1 h2
      rcases List.mem_cons.1 hx with rfl | hx
      · cases k with
        | none => cases h1
        | some z =>
          cases h1
          obtain ⟨n, hn⟩ := parse_mem hk h2
          exact ht n o hn
      · exact ih hr x hx y o h1 h2

theorem flag_stops {p : ParserName} {r : List (Word × WordKind)} {o : CliOpt} {x : OptWord} {tk : Taken} {a : PlotWords}
    (h : takeOption t r o x = .ok tk) (ho : o = .help ∨ o = .version) : ∃ e, storeOptions p a tk.acts = .error e := by
  obtain ⟨vs, l, hl⟩ := (takeOption_spec h).1
  rw [hl]
  unfold storeOptions storeOption
  rcases ho with rfl | rfl <;> exact ⟨_, rfl⟩

/-- If reading succeeds and no word is left over, the first word is not an option but belongs to the positional
argument. -/
theorem readWords_first {σ : Type} {p : ParserName}
    {pos : σ → Word → WordKind → List (Word × WordKind) → Except ArgStop (Option (σ × Nat))} {w : Word} {k : WordKind}
    {r : List (Word × WordKind)} {s s' : σ} {a a' : PlotWords} (hf : Flags ((w, k) :: r))
    (h : readWords p t pos 0 s a [] ((w, k) :: r) = .ok (s', a', [])) :
    (k = .arg ∨ k = .dashes) ∧ ∃ s₁ n, pos s w k r = .ok (some (s₁, n)) ∧
      readWords p t pos n s₁ a [] r = .ok (s', a', []) := by
  have bad : ∀ {n : Nat} {s : σ} {a : PlotWords} {y : List Word}, y ≠ [] →
      readWords p t pos n s a ([] ++ y) r ≠ .ok (s', a', []) := by
    intro n s a y hy h
    have := readWords_extras r h
    simp at this
    exact hy this
  rcases k with _ | _ | x
  · rw [readWords] at h
    · split at h
      · cases h
      · exact absurd h (bad (by simp))
      · rename_i s₁ n hp
        exact ⟨Or.inl rfl, s₁, n, hp, h⟩
    · simp
  · rw [readWords] at h
    · split at h
      · cases h
      · exact absurd h (bad (by simp))
      · rename_i s₁ n hp
        exact ⟨Or.inr rfl, s₁, n, hp, h⟩
    · simp
  · rw [readWords] at h
    split at h
    · exact absurd h (bad (by simp))
    · rename_i o ho
      split at h
      · cases h
      · rename_i tk htk
        obtain ⟨e, he⟩ := flag_stops (p := p) (a := a) htk (hf _ List.mem_cons_self x o rfl ho)
        rw [he] at h
        cases h

theorem global_flags : ∀ n o, (n, o) ∈ globalTable → o = .help ∨ o = .version := by
  intro n o h
  simp only [globalTable, List.mem_cons, List.not_mem_nil, or_false, Prod.mk.injEq] at h
  rcases h with h | h | h | h <;> simp [h.2]

theorem example_flags : ∀ n o, (n, o) ∈ exampleTable → o = .help ∨ o = .version := by
  intro n o h
  simp only [exampleTable, List.mem_cons, List.not_mem_nil, or_false, Prod.mk.injEq] at h
  rcases h with h | h <;> simp [h.2]

theorem main_inv {ws : List Word} {c : MainCall} (h : readMain dig ws = .ok c) :
    ws = [] ∧ c = .none ∨ ∃ w r, ws = w :: r ∧ readCommand dig w r = .ok (c, []) := by
  unfold readMain at h
  split at h
  · cases h
  rename_i ks hks
  have hfst := classify_fst hks
  have hf := classify_flags global_flags hks
  cases ks with
  | nil =>
    rw [readWords] at h
    cases h
    exact Or.inl ⟨hfst.symm, rfl⟩
  | cons x r =>
    obtain ⟨w, k⟩ := x
    refine Or.inr ⟨w, r.map Prod.fst, hfst.symm, ?_⟩
    split at h
    · cases h
    rename_i s a ex hr
    have hex : ex = [] := by
      split at h
      · split_ifs at h with h1
        exact h1
      · split_ifs at h with h1
        exact (List.append_eq_nil_iff.1 h1).1
    subst hex
    obtain ⟨hk, s₁, n, hp, hr'⟩ := readWords_first hf hr
    unfold commandPos at hp
    dsimp only at hp
    split at hp
    · cases hp
    · split at hp
      · cases hp
      · rename_i d hd
        cases hp
        rw [readWords_skip] at hr'
        cases hr'
        dsimp only at h
        split_ifs at h with h1
        cases h
        rw [hd]
        rw [List.nil_append] at h1
        obtain ⟨d1, d2⟩ := d
        exact congrArg (fun z => Except.ok (d1, z)) h1
    · cases hp

theorem example_rest {ks : List (Word × WordKind)} (hf : Flags ks) {v : Word} {s : Option Word} {a a' : PlotWords}
    (h : readWords ParserName.runExample exampleTable examplePos 0 (some v) a [] ks = .ok (s, a', [])) :
    ks = [] ∧ s = some v := by
  cases ks with
  | nil =>
    rw [readWords] at h
    cases h
    exact ⟨rfl, rfl⟩
  | cons x r =>
    obtain ⟨w, k⟩ := x
    obtain ⟨-, s₁, n, hp, -⟩ := readWords_first hf h
    cases hp

theorem example_inv {ws : List Word} {n : Word} (h : readExample dig ws = .ok (n, [])) :
    (n = w!"brace" ∨ n = w!"benchy") ∧ (ws = [n] ∨ ws = [w!"--", n] ∨ ws = [n, w!"--"]) := by
  unfold readExample at h
  split at h
  · cases h
  rename_i ks hks
  have hfst := classify_fst hks
  have hf := classify_flags example_flags hks
  cases ks with
  | nil =>
    rw [readWords] at h
    cases h
  | cons x r =>
    obtain ⟨w, k⟩ := x
    split at h
    · cases h
    · cases h
    rename_i n' a' ex hr
    cases h
    obtain ⟨hk, s₁, m, hp, hr'⟩ := readWords_first hf hr
    have hf' : Flags r := fun x hx => hf x (List.mem_cons_of_mem _ hx)
    unfold examplePos at hp
    dsimp only at hp
    split at hp
    · rename_i v r' 
      split_ifs at hp with hv
      cases hp
      rw [readWords] at hr'
      obtain ⟨rfl, hs⟩ := example_rest (fun x hx => hf' x (List.mem_cons_of_mem _ hx)) hr'
      cases hs
      have := classify_dashes hks List.mem_cons_self
      subst this
      exact ⟨hv, Or.inr (Or.inl hfst.symm)⟩
    · rename_i v r'
      split_ifs at hp with hv
      cases hp
      rw [readWords] at hr'
      obtain ⟨rfl, hs⟩ := example_rest (fun x hx => hf' x (List.mem_cons_of_mem _ hx)) hr'
      cases hs
      refine ⟨hv, Or.inr (Or.inr ?_)⟩
      have hv' := classify_dashes hks (List.mem_cons_of_mem _ List.mem_cons_self)
      rw [hv'] at hfst
      exact hfst.symm
    · split_ifs at hp with hv
      cases hp
      obtain ⟨rfl, hs⟩ := example_rest hf' hr'
      cases hs
      exact ⟨hv, Or.inl hfst.symm⟩
    · cases hp

end PyGCD
