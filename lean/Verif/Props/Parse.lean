import Verif.Proofs.ParserLemmas
import Verif.Proofs.TravelerSteps

set_option linter.unusedSectionVars false

/-!
# Properties of the parser: C02 – C06
-/

namespace PyGCD
open Spec

variable {K : Type}

/-! ## The parser in terms of credited commands -/

/-- The outcome for one credited match. -/
def oneArg (pf : List Char → Option K) (s : List Char) (m : Match Cmd) : Except PyErr (ArgVal K) :=
  nestedArg pf m.key (rawArg pf (fun k => decide (k = Cmd.comment)) (creds s) s m)

/-- Is the match kept (in front of the comment, or the comment itself)? -/
def kept (s : List Char) (m : Match Cmd) : Bool :=
  decide (m.stop ≤ commentBegin (fun k => decide (k = Cmd.comment)) (creds s) s) ||
    decide (m.key = Cmd.comment)

theorem argExtract_eq (pf : List Char → Option K) (s : List Char) :
    argExtract pf s = ((creds s).mapM (fun m => (oneArg pf s m).map (Prod.mk m))).map
      fun r => (r.filter fun p => kept s p.1).map fun p => (p.1.key, p.2) := by
  have h := remove_eq_creds s
  unfold lineMatches at h
  simp only [argExtract, argExtractWith, bind, Except.bind, pure, Except.pure, h]
  unfold oneArg kept
  cases (creds s).mapM (fun m => (nestedArg pf m.key
    (rawArg pf (fun k => decide (k = Cmd.comment)) (creds s) s m)).map (Prod.mk m)) <;> rfl

theorem argExtract_ok {pf : List Char → Option K} {s : List Char} {d : LineDict K} :
    argExtract pf s = .ok d ↔ ∃ r, (creds s).mapM (fun m => (oneArg pf s m).map (Prod.mk m)) = .ok r ∧
      d = (r.filter fun p => kept s p.1).map fun p => (p.1.key, p.2) := by
  rw [argExtract_eq]
  cases (creds s).mapM (fun m => (oneArg pf s m).map (Prod.mk m)) with
  | error e => simp [Except.map]
  | ok r =>
    simp only [Except.map, Except.ok.injEq]
    constructor
    · intro h; exact ⟨r, rfl, h.symm⟩
    · rintro ⟨r', h1, h2⟩; rw [h1, h2]

theorem argExtract_error {pf : List Char → Option K} {s : List Char} {e : PyErr} :
    argExtract pf s = .error e ↔
      (creds s).mapM (fun m => (oneArg pf s m).map (Prod.mk m)) = .error e := by
  rw [argExtract_eq]
  cases (creds s).mapM (fun m => (oneArg pf s m).map (Prod.mk m)) <;> simp [Except.map]

theorem credited_comment {s : List Char} {i : Nat} :
    Credited s .comment i ↔ s[i]? = some ';' ∧ ∀ j < i, s[j]? ≠ some ';' := by
  have occ : ∀ j, OccursAt Cmd.comment.chars s j ↔ s[j]? = some ';' := by
    intro j
    simp only [OccursAt, Cmd.chars]
    rw [← List.head?_drop]
    cases s.drop j with
    | nil => simp
    | cons c t => simp [List.cons_prefix_cons, eq_comm]
  rw [credited_iff]
  constructor
  · rintro ⟨⟨h1, h2⟩, _⟩
    exact ⟨(occ i).1 h1, fun j hj h => h2 j hj ((occ j).2 h)⟩
  · rintro ⟨h1, h2⟩
    refine ⟨⟨(occ i).2 h1, fun j hj h => h2 j hj ((occ j).1 h)⟩, ?_⟩
    intro k' hk'
    have hc := (occ i).2 h1
    rcases Nat.lt_or_ge Cmd.comment.chars.length k'.chars.length with h | h
    · have := prefix_pairs (OccursAt.prefix hc hk' (by omega)) h
      simp at this
    · exact h

/-- Where the comment begins. -/
theorem commentBegin_spec (s : List Char) :
    let c := commentBegin (fun k => decide (k = Cmd.comment)) (creds s) s
    c ≤ s.length ∧ (∀ j < c, s[j]? ≠ some ';') ∧ (c < s.length → s[c]? = some ';') := by
  simp only
  by_cases h : ∃ i, Credited s .comment i
  · obtain ⟨i, hi⟩ := h
    have hc := credited_comment.1 hi
    have hmem : ∀ m ∈ (creds s).filter (fun m => decide (m.key = Cmd.comment)), m.start = i := by
      intro m hm
      simp only [List.mem_filter, mem_creds, decide_eq_true_eq] at hm
      rw [hm.2] at hm
      exact FirstAt.unique hm.1.1.1 hi.1
    have hex : (⟨.comment, i, i + 1⟩ : Match Cmd) ∈
        (creds s).filter (fun m => decide (m.key = Cmd.comment)) := by
      simp only [List.mem_filter, mem_creds, decide_eq_true_eq, and_true]
      exact ⟨hi, rfl⟩
    have hcb : commentBegin (fun k => decide (k = Cmd.comment)) (creds s) s = i := by
      unfold commentBegin
      have : (((creds s).filter fun m => decide (m.key = Cmd.comment)).map Match.start).min? =
          some i := by
        rw [List.min?_eq_some_iff]
        constructor
        · exact List.mem_map.2 ⟨_, hex, rfl⟩
        · intro b hb
          obtain ⟨m, hm, rfl⟩ := List.mem_map.1 hb
          exact Nat.le_of_eq (hmem m hm).symm
      rw [this]
      rfl
    rw [hcb]
    exact ⟨Nat.le_of_lt (List.getElem?_eq_some_iff.1 hc.1).1, hc.2, fun _ => hc.1⟩
  · have hnil : (creds s).filter (fun m => decide (m.key = Cmd.comment)) = [] := by
      rw [List.filter_eq_nil_iff]
      intro m hm hk
      rw [mem_creds] at hm
      simp only [decide_eq_true_eq] at hk
      rw [hk] at hm
      exact h ⟨_, hm.1⟩
    have hcb : commentBegin (fun k => decide (k = Cmd.comment)) (creds s) s = s.length := by
      unfold commentBegin
      rw [hnil]
      rfl
    rw [hcb]
    refine ⟨Nat.le_refl _, ?_, fun h => absurd h (by omega)⟩
    have hno : ∀ j : Nat, s[j]? ≠ some ';' := by
      intro j
      induction j using Nat.strongRecOn with
      | ind j ih =>
        intro hj
        exact h ⟨j, credited_comment.2 ⟨hj, fun i hi => ih i hi⟩⟩
    exact fun j _ => hno j

theorem kept_iff {s : List Char} {m : Match Cmd} (hm : m ∈ creds s) : kept s m = true ↔
    m.key = .comment ∨ ∀ c, s[c]? = some ';' → m.start + m.key.chars.length ≤ c := by
  obtain ⟨h1, h2, h3⟩ := commentBegin_spec s
  rw [mem_creds] at hm
  simp only [kept, Bool.or_eq_true, decide_eq_true_eq]
  rw [or_comm, hm.2]
  refine or_congr_right ?_
  constructor
  · intro h c hc
    by_contra hlt
    exact h2 c (by omega) hc
  · intro h
    rcases Nat.lt_or_ge (commentBegin (fun k => decide (k = Cmd.comment)) (creds s) s) s.length with
      hlt | hge
    · exact h _ (h3 hlt)
    · have := OccursAt.le_length (credited_iff.1 hm.1).1.1 (chars_ne_nil _)
      omega

/-! ## C04 -/

/-- C04. A parsed line is credited with command `k` exactly when the first occurrence of `k` in the line is
not the beginning of a longer command name and (unless `k` is the comment itself) lies in front of every
`;`. No command is reported twice. -/
theorem c04_commands_credited {pf : List Char → Option K} {s : List Char} {d : LineDict K}
    (h : argExtract pf s = .ok d) :
    (∀ k, has d k ↔ ∃ i, Credited s k i ∧
      (k = .comment ∨ ∀ c, s[c]? = some ';' → i + (name k).length ≤ c)) ∧
    (d.map Prod.fst).Nodup := by
  simp only [name_eq]
  obtain ⟨r, hr, rfl⟩ := argExtract_ok.1 h
  have hkeys : r.map (fun p => p.1) = creds s := by
    have : ∀ (l : List (Match Cmd)) (r : List (Match Cmd × ArgVal K)),
        l.mapM (fun m => (oneArg pf s m).map (Prod.mk m)) = .ok r → r.map Prod.fst = l := by
      intro l r h
      rw [mapM_ok_iff] at h
      induction h with
      | nil => rfl
      | cons h1 h2 ih =>
        rw [List.map_cons, ih]
        congr 1
        rename_i a b _ _
        cases ho : oneArg pf s a with
        | error e => rw [ho] at h1; cases h1
        | ok v => rw [ho] at h1; cases h1; rfl
    exact this _ _ hr
  constructor
  · intro k
    constructor
    · rintro ⟨v, hv⟩
      simp only [List.mem_map, List.mem_filter] at hv
      obtain ⟨p, ⟨hp, hk⟩, he⟩ := hv
      have hpm : p.1 ∈ creds s := by rw [← hkeys]; exact List.mem_map.2 ⟨p, hp, rfl⟩
      have hkey : p.1.key = k := congrArg Prod.fst he
      rw [kept_iff hpm, hkey] at hk
      rw [mem_creds, hkey] at hpm
      exact ⟨p.1.start, hpm.1, hk⟩
    · rintro ⟨i, hi, hc⟩
      have hm : (⟨k, i, i + k.chars.length⟩ : Match Cmd) ∈ creds s := mem_creds.2 ⟨hi, rfl⟩
      have hm' := hm
      rw [← hkeys] at hm'
      obtain ⟨p, hp, he⟩ := List.mem_map.1 hm'
      refine ⟨p.2, List.mem_map.2 ⟨p, List.mem_filter.2 ⟨hp, ?_⟩, by rw [he]⟩⟩
      rw [he, kept_iff hm]
      exact hc
  · have h1 := creds_nodup_keys s
    rw [← hkeys, List.map_map] at h1
    rw [List.map_map]
    exact List.Nodup.sublist (List.Sublist.map _ List.filter_sublist) h1

/-! ## C05 -/

theorem argExtractLetters_ok (pf : List Char → Option K) (letters s : List Char) :
    argExtractLetters pf letters s = .ok ((collectMatches (fun c => [c]) letters s).map fun m =>
      (m.key, rawArg pf (fun _ => false) (collectMatches (fun c => [c]) letters s) s m)) := by
  have hne : ∀ c : Char, [c] ≠ [] := fun c => by simp
  have hid : ∀ n, removeOuter n 0 (collectMatches (fun c => [c]) letters s) =
      .ok (collectMatches (fun c => [c]) letters s) := by
    intro n
    apply removeOuter_id
    rintro a ha m hm ⟨h1, h2⟩
    rw [mem_collect hne] at ha hm
    have h3 := ha.2.2
    have h4 := hm.2.2
    simp only [List.length_cons, List.length_nil] at h3 h4
    omega
  simp only [argExtractLetters, argExtractWith, bind, Except.bind, hid, pure, Except.pure]
  simp only [Except.map]
  rw [mapM_of_all (g := fun m => (m, rawArg pf (fun _ => false)
    (collectMatches (fun c => [c]) letters s) s m)) (fun m _ => rfl)]
  simp only [Except.ok.injEq]
  have hcb : commentBegin (fun _ => false) (collectMatches (fun c => [c]) letters s) s =
      s.length := by
    simp [commentBegin]
  rw [hcb, List.filter_eq_self.2, List.map_map]
  · rfl
  · intro p hp
    obtain ⟨m, hm, rfl⟩ := List.mem_map.1 hp
    rw [mem_collect hne] at hm
    have := OccursAt.le_length hm.2.1.1 (hne _)
    simp only [Bool.or_false, decide_eq_true_eq, hm.2.2]
    exact this

/-- The end of an argument is where the specification says. -/
theorem nextLarger_endsAt {s : List Char} {p : Nat} (hp : p ≤ s.length) :
    EndsAt s p (nextLarger ((creds s).map Match.start) p s.length) := by
  unfold nextLarger
  cases hm : (((creds s).map Match.start).filter fun x => decide (p ≤ x)).min? with
  | none =>
    rw [List.min?_eq_none_iff, List.filter_eq_nil_iff] at hm
    simp only [Option.getD_none]
    refine ⟨hp, Nat.le_refl _, Or.inr rfl, ?_⟩
    intro k j hk hpj
    exfalso
    refine hm j (List.mem_map.2 ⟨⟨k, j, j + k.chars.length⟩, mem_creds.2 ⟨hk, rfl⟩, rfl⟩) ?_
    simpa using hpj
  | some q =>
    rw [List.min?_eq_some_iff] at hm
    obtain ⟨h1, h2⟩ := hm
    simp only [Option.getD_some]
    rw [List.mem_filter] at h1
    obtain ⟨h1, h3⟩ := h1
    obtain ⟨m, hm, rfl⟩ := List.mem_map.1 h1
    rw [mem_creds] at hm
    have hle := OccursAt.le_length (credited_iff.1 hm.1).1.1 (chars_ne_nil _)
    refine ⟨by simpa using h3, by omega, Or.inl ⟨m.key, hm.1⟩, ?_⟩
    intro k j hk hpj
    refine h2 j (List.mem_filter.2 ⟨List.mem_map.2 ⟨⟨k, j, j + k.chars.length⟩,
      mem_creds.2 ⟨hk, rfl⟩, rfl⟩, ?_⟩)
    simpa using hpj

theorem EndsAt.unique {s : List Char} {p q q' : Nat} (h : EndsAt s p q) (h' : EndsAt s p q') :
    q = q' := by
  obtain ⟨a1, a2, a3, a4⟩ := h
  obtain ⟨b1, b2, b3, b4⟩ := h'
  refine Nat.le_antisymm ?_ ?_
  · rcases b3 with ⟨k, hk⟩ | rfl
    · exact a4 k q' hk b1
    · exact a2
  · rcases a3 with ⟨k, hk⟩ | rfl
    · exact b4 k q hk a1
    · exact b2

theorem sliceArg_eq (s : List Char) (p q : Nat) : sliceArg s p q = cleanText s p q := by
  rw [sliceArg, cleanText, List.drop_take]

/-- The raw argument of a credited command. -/
theorem rawArg_spec (pf : List Char → Option K) {s : List Char} {m : Match Cmd} (hm : m ∈ creds s)
    {q : Nat} (hq : EndsAt s m.stop q) (hk : m.key ≠ .comment) :
    rawArg pf (fun k => decide (k = Cmd.comment)) (creds s) s m =
      match pf (cleanText s m.stop q) with
      | some v => .num v
      | none => .str (cleanText s m.stop q) := by
  have hlen : m.stop ≤ s.length := by
    rw [mem_creds] at hm
    have := OccursAt.le_length (credited_iff.1 hm.1).1.1 (chars_ne_nil _)
    omega
  simp only [rawArg, hk, decide_false, Bool.false_eq_true, if_false]
  rw [EndsAt.unique (nextLarger_endsAt hlen) hq, sliceArg_eq]
  cases pf (cleanText s m.stop q) <;> rfl

theorem oneArg_error (pf : List Char → Option K) {s : List Char} {m : Match Cmd} (hm : m ∈ creds s)
    {e : PyErr} : oneArg pf s m = .error e ↔ e = .typeError ∧ TakesLetters m.key ∧
      ∃ q, EndsAt s m.stop q ∧ pf (cleanText s m.stop q) ≠ none := by
  have hlen : m.stop ≤ s.length := by
    rw [mem_creds] at hm
    have := OccursAt.le_length (credited_iff.1 hm.1).1.1 (chars_ne_nil _)
    omega
  obtain ⟨q, hq⟩ : ∃ q, EndsAt s m.stop q := ⟨_, nextLarger_endsAt hlen⟩
  have hex : (∃ q, EndsAt s m.stop q ∧ pf (cleanText s m.stop q) ≠ none) ↔
      pf (cleanText s m.stop q) ≠ none :=
    ⟨fun ⟨q', h1, h2⟩ => by rwa [EndsAt.unique hq h1], fun h => ⟨q, hq, h⟩⟩
  rw [hex]
  rw [takesLetters_iff]
  unfold oneArg nestedArg
  by_cases hk : m.key = .comment
  · rw [hk]
    simp [Cmd.table]
  · rw [rawArg_spec pf hm hq hk]
    cases ht : m.key.table with
    | none => simp
    | some letters =>
      cases hpf : pf (cleanText s m.stop q) with
      | none =>
        simp only [argExtractLetters_ok, Except.map]
        simp
      | some v => simp [eq_comm]

/-- C05. The parser rejects a line exactly when some credited command that takes argument letters is
followed, up to the next credited command or comment or the end of the line, by text that (without blanks)
is just a number; the exception is then a `TypeError`. -/
theorem c05_rejected_lines {pf : List Char → Option K} {s : List Char} {e : PyErr} :
    argExtract pf s = .error e ↔ e = .typeError ∧ ∃ k i q, Credited s k i ∧ TakesLetters k ∧
      EndsAt s (i + (name k).length) q ∧ pf (cleanText s (i + (name k).length) q) ≠ none := by
  simp only [name_eq]
  have hmap : ∀ m, ((oneArg pf s m).map (Prod.mk m) = .error e ↔ oneArg pf s m = .error e) := by
    intro m
    cases oneArg pf s m <;> simp [Except.map]
  rw [argExtract_error]
  constructor
  · intro h
    obtain ⟨m, hm, he⟩ := mapM_error_mem h
    rw [hmap, oneArg_error pf hm] at he
    obtain ⟨h1, h2, q, h3, h4⟩ := he
    rw [mem_creds] at hm
    refine ⟨h1, m.key, m.start, q, hm.1, h2, ?_, ?_⟩ <;> rw [← hm.2] <;> assumption
  · rintro ⟨rfl, k, i, q, h1, h2, h3, h4⟩
    have hm : (⟨k, i, i + k.chars.length⟩ : Match Cmd) ∈ creds s := mem_creds.2 ⟨h1, rfl⟩
    have hbad : oneArg pf s ⟨k, i, i + k.chars.length⟩ = .error .typeError :=
      (oneArg_error pf hm).2 ⟨rfl, h2, q, h3, h4⟩
    cases hr : (creds s).mapM (fun m => (oneArg pf s m).map (Prod.mk m)) with
    | ok r =>
      obtain ⟨b, _, hb⟩ := mapM_ok_mem hr hm
      rw [hbad] at hb
      cases hb
    | error e =>
      obtain ⟨m', hm', he'⟩ := mapM_error_mem hr
      have : oneArg pf s m' = .error e := by
        cases ho : oneArg pf s m' with
        | error e' => rw [ho] at he'; cases he'; rfl
        | ok v => rw [ho] at he'; cases he'
      rw [((oneArg_error pf hm').1 this).1]

/-! ## C02 -/

theorem occurs_append {pat code rest : List Char} {i : Nat} (h : i + pat.length ≤ code.length) :
    OccursAt pat (code ++ rest) i ↔ OccursAt pat code i := by
  unfold OccursAt
  rw [List.drop_append_of_le_length (by omega)]
  constructor
  · intro hp
    exact List.prefix_of_prefix_length_le hp (List.prefix_append _ _)
      (by rw [List.length_drop]; omega)
  · intro hp
    exact hp.trans (List.prefix_append _ _)

theorem occurs_straddle {pat code text : List Char} {c : Char} {i : Nat}
    (h : OccursAt pat (code ++ c :: text) i) (hc : c ∉ pat) (hi : i ≤ code.length) :
    i + pat.length ≤ code.length := by
  by_contra hlt
  obtain ⟨t, ht⟩ := h
  have h1 : ((code ++ c :: text).drop i)[code.length - i]? = some c := by
    rw [List.getElem?_drop, show i + (code.length - i) = code.length by omega]
    simp
  rw [← ht, List.getElem?_append_left (by omega)] at h1
  exact hc (List.mem_of_getElem? h1)

theorem semicolon_not_mem {k : Cmd} (hk : k ≠ .comment) : ';' ∉ k.chars := by
  cases k <;> first | exact absurd rfl hk | decide

theorem no_semicolon_occurs {code : List Char} (hc : ';' ∉ code) (i : Nat) :
    ¬ OccursAt Cmd.comment.chars code i := by
  intro h
  have : ';' ∈ code.drop i := h.subset (by simp [Cmd.chars])
  exact hc (List.mem_of_mem_drop this)

theorem credited_code {code text : List Char} {k : Cmd} (_hk : k ≠ .comment) {i : Nat}
    (hc : ';' ∉ code) :
    Credited code k i ↔ Credited (code ++ ';' :: text) k i ∧ i + k.chars.length ≤ code.length := by
  have hlen : ∀ k' : Cmd, k' ≠ .comment → i + k.chars.length ≤ code.length →
      (OccursAt k'.chars (code ++ ';' :: text) i ↔ OccursAt k'.chars code i) := by
    intro k' hk' hle
    constructor
    · intro h
      exact (occurs_append (occurs_straddle h (semicolon_not_mem hk') (by omega))).1 h
    · intro h
      exact (occurs_append (OccursAt.le_length h (chars_ne_nil _))).2 h
  rw [credited_iff, credited_iff]
  constructor
  · rintro ⟨⟨h1, h2⟩, h3⟩
    have hle := OccursAt.le_length h1 (chars_ne_nil _)
    refine ⟨⟨⟨(occurs_append hle).2 h1, ?_⟩, ?_⟩, hle⟩
    · intro j hj h
      exact h2 j hj ((occurs_append (by omega)).1 h)
    · intro k' h
      by_cases hk' : k' = .comment
      · subst hk'
        have := List.length_pos_iff.2 (chars_ne_nil k)
        show 1 ≤ k.chars.length
        omega
      · exact h3 k' ((hlen k' hk' hle).1 h)
  · rintro ⟨⟨⟨h1, h2⟩, h3⟩, hle⟩
    refine ⟨⟨(occurs_append hle).1 h1, ?_⟩, ?_⟩
    · intro j hj h
      exact h2 j hj ((occurs_append (by omega)).2 h)
    · intro k' h
      by_cases hk' : k' = .comment
      · subst hk'
        exact absurd h (no_semicolon_occurs hc i)
      · exact h3 k' ((hlen k' hk' hle).2 h)

theorem credited_line_comment {code text : List Char} (hc : ';' ∉ code) :
    Credited (code ++ ';' :: text) .comment code.length := by
  rw [credited_comment]
  refine ⟨by simp, ?_⟩
  intro j hj h
  rw [List.getElem?_append_left hj] at h
  exact hc (List.mem_of_getElem? h)

/-- The credited commands of a line with a comment that are kept: those of the code, then the comment. -/
theorem creds_kept {code text : List Char} (hc : ';' ∉ code) :
    (creds (code ++ ';' :: text)).filter (kept (code ++ ';' :: text)) =
      creds code ++ [⟨.comment, code.length, code.length + 1⟩] := by
  have hco := credited_line_comment (text := text) hc
  have hkept : ∀ m ∈ creds (code ++ ';' :: text), kept (code ++ ';' :: text) m =
      (decide (m.key = .comment) || decide (m.stop ≤ code.length)) := by
    intro m hm
    rw [Bool.eq_iff_iff, kept_iff hm, Bool.or_eq_true, decide_eq_true_iff, decide_eq_true_iff]
    rw [mem_creds] at hm
    refine or_congr_right ?_
    rw [hm.2]
    constructor
    · intro h
      exact h _ (credited_comment.1 hco).1
    · intro h c hcc
      by_contra hlt
      rw [List.getElem?_append_left (by omega)] at hcc
      exact hc (List.mem_of_getElem? hcc)
  rw [List.filter_congr hkept, creds_eq, creds_eq, List.filter_filterMap]
  have hsplit : Cmd.known = Cmd.known.dropLast ++ [.comment] := by decide
  rw [hsplit, List.filterMap_append, List.filterMap_append]
  have hlast : credOf code .comment = none := by
    cases h : credOf code .comment with
    | none => rfl
    | some m =>
      rw [credOf_some] at h
      exact absurd h.2.1.1.1 (no_semicolon_occurs hc _)
  have hlast' : credOf (code ++ ';' :: text) .comment =
      some ⟨.comment, code.length, code.length + 1⟩ := credOf_some.2 ⟨rfl, hco, rfl⟩
  congr 1
  · have e : ([Cmd.comment].filterMap (credOf code)) = [] := by simp [hlast]
    rw [e, List.append_nil]
    symm
    refine List.filterMap_congr ?_
    intro k hk
    have hkc : k ≠ .comment := by
      rintro rfl
      revert hk
      decide
    refine Option.ext ?_
    intro m
    rw [credOf_some, Option.filter_eq_some_iff, credOf_some, credited_code (text := text) hkc hc]
    simp only [Bool.or_eq_true, decide_eq_true_eq]
    constructor
    · rintro ⟨h1, ⟨h2, h3⟩, h4⟩
      exact ⟨⟨h1, h2, h4⟩, Or.inr (by omega)⟩
    · rintro ⟨⟨h1, h2, h4⟩, h5⟩
      refine ⟨h1, ⟨h2, ?_⟩, h4⟩
      rcases h5 with h5 | h5
      · rw [h1] at h5; exact absurd h5 hkc
      · omega
  · rw [List.filterMap_cons, hlast']
    rfl

theorem endsAt_line {code text : List Char} (hc : ';' ∉ code) {p q : Nat}
    (h : EndsAt code p q) : EndsAt (code ++ ';' :: text) p q := by
  obtain ⟨h1, h2, h3, h4⟩ := h
  refine ⟨h1, by simp; omega, ?_, ?_⟩
  · left
    rcases h3 with ⟨k, hk⟩ | rfl
    · have hkc : k ≠ .comment := by
        rintro rfl
        exact absurd hk.1.1 (no_semicolon_occurs hc _)
      exact ⟨k, ((credited_code (text := text) hkc hc).1 hk).1⟩
    · exact ⟨.comment, credited_line_comment hc⟩
  · intro k j hk hpj
    by_cases hkc : k = .comment
    · subst hkc
      have := FirstAt.unique hk.1 (credited_line_comment (text := text) hc).1
      omega
    · by_cases hj : j ≤ code.length
      · have hle := occurs_straddle (credited_iff.1 hk).1.1 (semicolon_not_mem hkc) hj
        exact h4 k j ((credited_code (text := text) hkc hc).2 ⟨hk, hle⟩) hpj
      · omega

theorem cleanText_line {code rest : List Char} {p q : Nat} (hq : q ≤ code.length) :
    cleanText (code ++ rest) p q = cleanText code p q := by
  unfold cleanText
  rw [List.take_append_of_le_length hq]

theorem oneArg_line (pf : List Char → Option K) {code text : List Char} (hc : ';' ∉ code)
    {m : Match Cmd} (hm : m ∈ creds code) :
    oneArg pf (code ++ ';' :: text) m = oneArg pf code m := by
  have hm' := mem_creds.1 hm
  have hkc : m.key ≠ .comment := by
    intro h
    rw [h] at hm'
    exact absurd hm'.1.1.1 (no_semicolon_occurs hc _)
  have hml : m ∈ creds (code ++ ';' :: text) :=
    mem_creds.2 ⟨((credited_code (text := text) hkc hc).1 hm'.1).1, hm'.2⟩
  have hlen : m.stop ≤ code.length := by
    have := OccursAt.le_length (credited_iff.1 hm'.1).1.1 (chars_ne_nil _)
    omega
  have hq := nextLarger_endsAt hlen
  unfold oneArg
  rw [rawArg_spec pf hm hq hkc, rawArg_spec pf hml (endsAt_line hc hq) hkc,
    cleanText_line hq.2.1]

/-- C02. Text behind the first `;` never changes the commands of a line: if a line with a comment parses,
then the code in front of it parses too, to the same commands and arguments; the line has in addition one
comment entry with everything behind the `;`. -/
theorem c02_comment_harmless {pf : List Char → Option K} {code text : List Char} {d : LineDict K}
    (hc : ';' ∉ code) (h : argExtract pf (code ++ ';' :: text) = .ok d) :
    ∃ d₀, argExtract pf code = .ok d₀ ∧ d = d₀ ++ [(.comment, .val (.str text))] := by
  obtain ⟨r, hr, rfl⟩ := argExtract_ok.1 h
  have h1 := mapM_filter (kept (code ++ ';' :: text)) hr
  rw [creds_kept hc, List.mapM_append] at h1
  have hcode : (creds code).mapM (fun m => (oneArg pf (code ++ ';' :: text) m).map (Prod.mk m)) =
      (creds code).mapM (fun m => (oneArg pf code m).map (Prod.mk m)) :=
    mapM_congr_except fun m hm => by rw [oneArg_line pf hc hm]
  rw [hcode] at h1
  cases hr0 : (creds code).mapM (fun m => (oneArg pf code m).map (Prod.mk m)) with
  | error e => rw [hr0] at h1; cases h1
  | ok r0 =>
    rw [hr0] at h1
    have hcom : oneArg pf (code ++ ';' :: text) ⟨.comment, code.length, code.length + 1⟩ =
        .ok (.val (.str text)) := by
      simp [oneArg, nestedArg, Cmd.table, rawArg]
    simp only [bind, Except.bind, pure, Except.pure, List.mapM_cons, List.mapM_nil, hcom,
      Except.map, Except.ok.injEq] at h1
    refine ⟨_, argExtract_ok.2 ⟨r0, hr0, rfl⟩, ?_⟩
    rw [← h1, List.map_append]
    congr 1
    have hall : ∀ p ∈ r0, kept code p.1 = true := by
      intro p hp
      obtain ⟨m, hm, he⟩ := mapM_ok_mem' hr0 hp
      have hpm : p.1 = m := by
        cases ho : oneArg pf code m with
        | error e => rw [ho] at he; cases he
        | ok v => rw [ho] at he; cases he; rfl
      rw [hpm, kept_iff hm]
      right
      intro c hcc
      exact absurd (List.mem_of_getElem? hcc) hc
    rw [List.filter_eq_self.2 hall]

/-! ## C03 -/

/-- Facts about the letters in the tables. -/
theorem table_letters {k : Cmd} {letters : List Char} (h : k.table = some letters) :
    letters.Nodup ∧ ∀ l ∈ letters, Char.isUpper l = true ∧ l ≠ 'G' ∧ l ≠ 'M' ∧ l ≠ ';' ∧
      l ∉ numChars ∧ l ≠ ' ' ∧ l ≠ '\n' := by
  cases k <;> simp only [Cmd.table, Option.some.injEq, reduceCtorEq] at h <;> subst h <;> decide

/-- A character with which a command name or a comment can begin. -/
def keyHead (c : Char) : Prop := c = 'G' ∨ c = 'M' ∨ c = ';'

instance (c : Char) : Decidable (keyHead c) := by unfold keyHead; infer_instance

theorem key_head (k : Cmd) : ∃ c t, k.chars = c :: t ∧ keyHead c ∧ ∀ x ∈ t, ¬ keyHead x := by
  cases k <;> exact ⟨_, _, rfl, by decide⟩

theorem occurs_only_first {k k' : Cmd} {rest : List Char} (hr : ∀ x ∈ rest, ¬ keyHead x)
    (hd : ∀ x ∈ rest.head?, Char.isDigit x = false) {i : Nat}
    (h : OccursAt k'.chars (k.chars ++ rest) i) : i = 0 ∧ k'.chars <+: k.chars := by
  obtain ⟨c, t, hc, hh, ht⟩ := key_head k
  obtain ⟨c', t', hc', hh', ht'⟩ := key_head k'
  cases i with
  | succ i =>
    exfalso
    have h1 : ((k.chars ++ rest).drop (i + 1)).head? = some c' := by
      obtain ⟨u, hu⟩ := h
      rw [← hu, hc']
      rfl
    rw [hc, List.cons_append, List.drop_succ_cons, List.head?_drop] at h1
    have := List.mem_of_getElem? h1
    rcases List.mem_append.1 this with h2 | h2
    · exact ht _ h2 hh'
    · exact hr _ h2 hh'
  | zero =>
    refine ⟨rfl, ?_⟩
    have h' : k'.chars <+: k.chars ++ rest := by simpa [OccursAt] using h
    rcases Nat.lt_or_ge k.chars.length k'.chars.length with hl | hl
    · exfalso
      have hp : k.chars <+: k'.chars :=
        List.prefix_of_prefix_length_le (List.prefix_append _ _) h' (by omega)
      have key : ∀ x, k'.chars = k.chars ++ [x] → Char.isDigit x = true → False := by
        intro x hx hxd
        rw [hx, List.prefix_append_right_inj] at h'
        cases rest with
        | nil => simp at h'
        | cons y rest =>
          simp only [List.cons_prefix_cons, List.nil_prefix, and_true] at h'
          subst h'
          have := hd x (by simp)
          rw [hxd] at this
          cases this
      rcases prefix_pairs hp hl with ⟨rfl, rfl | rfl⟩ | ⟨rfl, rfl | rfl | rfl | rfl⟩
      · exact key '0' rfl rfl
      · exact key '1' rfl rfl
      · exact key '8' rfl rfl
      · exact key '9' rfl rfl
      · exact key '0' rfl rfl
      · exact key '1' rfl rfl
    · exact List.prefix_of_prefix_length_le h' (List.prefix_append _ _) (by omega)

theorem creds_single {k : Cmd} {rest : List Char} (hr : ∀ x ∈ rest, ¬ keyHead x)
    (hd : ∀ x ∈ rest.head?, Char.isDigit x = false) :
    creds (k.chars ++ rest) = [⟨k, 0, k.chars.length⟩] := by
  have hk : OccursAt k.chars (k.chars ++ rest) 0 := by simp [OccursAt]
  have hcr : ∀ k' i, Credited (k.chars ++ rest) k' i ↔ k' = k ∧ i = 0 := by
    intro k' i
    rw [credited_iff]
    constructor
    · rintro ⟨⟨h1, h2⟩, h3⟩
      obtain ⟨rfl, hp⟩ := occurs_only_first hr hd h1
      exact ⟨chars_inj (hp.eq_of_length (Nat.le_antisymm hp.length_le (h3 k hk))), rfl⟩
    · rintro ⟨rfl, rfl⟩
      refine ⟨⟨hk, fun j hj => absurd hj (by omega)⟩, ?_⟩
      intro k'' h
      exact (occurs_only_first hr hd h).2.length_le
  have hf : credOf (k.chars ++ rest) =
      fun k' => if k' = k then some ⟨k, 0, k.chars.length⟩ else none := by
    funext k'
    refine Option.ext ?_
    intro m
    rw [credOf_some, hcr]
    by_cases hkk : k' = k
    · subst hkk
      rw [if_pos rfl]
      constructor
      · rintro ⟨h1, ⟨_, h2⟩, h3⟩
        cases m
        simp_all
      · intro h
        cases h
        simp
    · simp [hkk]
  rw [creds_eq, hf]
  cases k <;> rfl

theorem nextLarger_eq {lst : List Nat} {p q d : Nat} (hq : p ≤ q)
    (h1 : q ∈ lst ∨ (q = d ∧ ∀ x ∈ lst, x < p)) (h2 : ∀ x ∈ lst, p ≤ x → q ≤ x) :
    nextLarger lst p d = q := by
  unfold nextLarger
  rcases h1 with h1 | ⟨rfl, h1⟩
  · have : (lst.filter fun x => decide (p ≤ x)).min? = some q := by
      rw [List.min?_eq_some_iff]
      refine ⟨List.mem_filter.2 ⟨h1, by simpa using hq⟩, ?_⟩
      intro b hb
      rw [List.mem_filter] at hb
      exact h2 b hb.1 (by simpa using hb.2)
    rw [this]
    rfl
  · have : lst.filter (fun x => decide (p ≤ x)) = [] := by
      rw [List.filter_eq_nil_iff]
      intro x hx
      have := h1 x hx
      simp only [decide_eq_true_eq]
      omega
    rw [this]
    rfl

/-- The text of words without blanks. -/
def wordsText (ws : List Word) : List Char := ws.flatMap fun w => w.letter :: w.number

theorem occurs_letter {l : Char} {s : List Char} {i : Nat} :
    OccursAt [l] s i ↔ s[i]? = some l := by
  unfold OccursAt
  rw [← List.head?_drop]
  cases s.drop i with
  | nil => simp
  | cons c t => simp [List.cons_prefix_cons, eq_comm]

/-- The argument dictionary of well-formed words. -/
theorem letters_words (pf : List Char → Option K) {k : Cmd} {ws : List Word} {letters : List Char}
    (ht : k.table = some letters) (hw : (ws.map Word.letter).Nodup)
    (hall : ∀ w ∈ ws, w.letter ∈ letters ∧ w.number ≠ [] ∧ ∀ c ∈ w.number, c ∈ numChars) :
    ∃ a, argExtractLetters pf letters (wordsText ws) = .ok a ∧ (a.map Prod.fst).Nodup ∧
      ∀ l v, (l, v) ∈ a ↔ ∃ w ∈ ws, w.letter = l ∧ v = valueOf pf w.number := by
  have hne : ∀ c : Char, [c] ≠ [] := fun c => by simp
  obtain ⟨hnd, hlet⟩ := table_letters ht
  refine ⟨_, argExtractLetters_ok pf letters (wordsText ws), ?_, ?_⟩
  · rw [List.map_map]
    have : (collectMatches (fun c => [c]) letters (wordsText ws)).Pairwise
        fun a b => a.key ≠ b.key := by
      unfold collectMatches
      refine List.Pairwise.filterMap (R := fun a b => a ≠ b) _ ?_ hnd
      intro a a' h b hb b' hb'
      simp only [Option.map_eq_some_iff] at hb hb'
      obtain ⟨i, _, rfl⟩ := hb
      obtain ⟨j, _, rfl⟩ := hb'
      exact h
    rw [List.Nodup, List.pairwise_map]
    exact this
  · -- position and argument of a word
    have pos : ∀ pre w post, ws = pre ++ w :: post →
        FirstAt [w.letter] (wordsText ws) (wordsText pre).length ∧
        rawArg pf (fun _ => false) (collectMatches (fun c => [c]) letters (wordsText ws))
          (wordsText ws) ⟨w.letter, (wordsText pre).length, (wordsText pre).length + 1⟩ =
          valueOf pf w.number := by
      intro pre w post hws
      have htxt : wordsText ws = wordsText pre ++ w.letter :: (w.number ++ wordsText post) := by
        rw [hws]
        simp [wordsText]
      have hwm : w ∈ ws := by rw [hws]; simp
      obtain ⟨hwl, hwn, hwc⟩ := hall w hwm
      have hlw := hlet _ hwl
      have hnum : ∀ c, c ∈ letters → c ∉ w.number := fun c hc h => (hlet c hc).2.2.2.2.1 (hwc c h)
      have hpre : w.letter ∉ wordsText pre := by
        intro h
        simp only [wordsText, List.mem_flatMap, List.mem_cons] at h
        obtain ⟨w', hw', h | h⟩ := h
        · rw [hws, List.map_append, List.map_cons] at hw
          have := (List.nodup_append.1 hw).2.2 w'.letter (List.mem_map.2 ⟨w', hw', rfl⟩) w.letter
            (by simp)
          exact this h.symm
        · have := (hall w' (by rw [hws]; simp [hw'])).2.2 _ h
          exact hlw.2.2.2.2.1 this
      have hfirst : FirstAt [w.letter] (wordsText ws) (wordsText pre).length := by
        refine ⟨occurs_letter.2 (by rw [htxt]; simp), ?_⟩
        intro j hj h
        rw [occurs_letter, htxt, List.getElem?_append_left hj] at h
        exact hpre (List.mem_of_getElem? h)
      refine ⟨hfirst, ?_⟩
      have hnext : nextLarger ((collectMatches (fun c => [c]) letters (wordsText ws)).map Match.start)
          ((wordsText pre).length + 1) (wordsText ws).length =
          (wordsText pre).length + 1 + w.number.length := by
        have hge : ∀ x ∈ (collectMatches (fun c => [c]) letters (wordsText ws)).map Match.start,
            (wordsText pre).length + 1 ≤ x →
            (wordsText pre).length + 1 + w.number.length ≤ x ∧ x < (wordsText ws).length := by
          intro x hx hpx
          obtain ⟨m, hm, rfl⟩ := List.mem_map.1 hx
          rw [mem_collect hne] at hm
          have ho := occurs_letter.1 hm.2.1.1
          refine ⟨?_, (List.getElem?_eq_some_iff.1 ho).1⟩
          by_contra hlt
          rw [htxt, List.getElem?_append_right (by omega)] at ho
          obtain ⟨j, hj⟩ : ∃ j, m.start - (wordsText pre).length = j + 1 :=
            ⟨m.start - (wordsText pre).length - 1, by omega⟩
          rw [hj, List.getElem?_cons_succ, List.getElem?_append_left (by omega)] at ho
          exact hnum _ hm.1 (List.mem_of_getElem? ho)
        refine nextLarger_eq (by omega) ?_ (fun x hx hpx => (hge x hx hpx).1)
        cases post with
        | nil =>
          right
          have hlen : (wordsText ws).length =
              (wordsText pre).length + 1 + w.number.length := by
            rw [htxt]
            simp [wordsText]
            omega
          refine ⟨hlen.symm, ?_⟩
          intro x hx
          by_contra hlt
          have := hge x hx (by omega)
          omega
        | cons w2 post =>
          left
          have hw2 : w2 ∈ ws := by rw [hws]; simp
          have hlen2 : (wordsText (pre ++ [w])).length =
              (wordsText pre).length + 1 + w.number.length := by
            simp [wordsText]
            omega
          have hpos2 : (wordsText ws)[(wordsText pre).length + 1 + w.number.length]? =
              some w2.letter := by
            rw [← hlen2]
            have : wordsText ws = wordsText (pre ++ [w]) ++ w2.letter ::
                (w2.number ++ wordsText post) := by
              rw [hws]
              simp [wordsText]
            rw [this]
            simp
          refine List.mem_map.2 ⟨⟨w2.letter, (wordsText pre).length + 1 + w.number.length,
            (wordsText pre).length + 1 + w.number.length + 1⟩, ?_, rfl⟩
          rw [mem_collect hne]
          refine ⟨(hall w2 hw2).1, ⟨occurs_letter.2 hpos2, ?_⟩, rfl⟩
          intro j hj h
          rw [occurs_letter] at h
          have h2 : w2.letter ∉ wordsText (pre ++ [w]) := by
            intro h
            simp only [wordsText, List.mem_flatMap, List.mem_cons] at h
            obtain ⟨w', hw', h | h⟩ := h
            · have hws2 : ws = (pre ++ [w]) ++ w2 :: post := by rw [hws]; simp
              rw [hws2, List.map_append, List.map_cons] at hw
              have := (List.nodup_append.1 hw).2.2 w'.letter (List.mem_map.2 ⟨w', hw', rfl⟩)
                w2.letter (by simp)
              exact this h.symm
            · have hw'm : w' ∈ ws := by
                rw [hws]
                simp only [List.mem_append, List.mem_singleton] at hw'
                rcases hw' with h | h <;> simp [h]
              have := (hall w' hw'm).2.2 _ h
              exact (hlet _ (hall w2 hw2).1).2.2.2.2.1 this
          have hj' : j < (wordsText (pre ++ [w])).length := by
            simp only at hj
            omega
          have : wordsText ws = wordsText (pre ++ [w]) ++ (w2.letter ::
              (w2.number ++ wordsText post)) := by
            rw [hws]
            simp [wordsText]
          rw [this, List.getElem?_append_left hj'] at h
          exact h2 (List.mem_of_getElem? h)
      simp only [rawArg, Bool.false_eq_true, if_false, hnext]
      have hslice : sliceArg (wordsText ws) ((wordsText pre).length + 1)
          ((wordsText pre).length + 1 + w.number.length) = w.number := by
        unfold sliceArg
        have e : (wordsText ws).drop ((wordsText pre).length + 1) =
            w.number ++ wordsText post := by
          rw [htxt, List.drop_append]
          simp
        rw [e, show (wordsText pre).length + 1 + w.number.length - ((wordsText pre).length + 1) =
          w.number.length by omega, List.take_left, List.filter_eq_self]
        intro c hc
        have := hwc c hc
        revert this
        simp only [numChars, List.mem_cons, List.not_mem_nil, or_false]
        rintro (h | h | h | h | h | h | h | h | h | h | h | h | h | h | h) <;> subst h <;> rfl
      rw [hslice]
      unfold valueOf
      cases pf w.number <;> rfl
    intro l v
    simp only [List.mem_map]
    constructor
    · rintro ⟨m, hm, he⟩
      rw [mem_collect hne] at hm
      have hl : m.key = l := congrArg Prod.fst he
      have hmem : m.key ∈ wordsText ws := List.mem_of_getElem? (occurs_letter.1 hm.2.1.1)
      simp only [wordsText, List.mem_flatMap, List.mem_cons] at hmem
      obtain ⟨w, hwm, h | h⟩ := hmem
      · obtain ⟨pre, post, hws⟩ := List.append_of_mem hwm
        obtain ⟨h1, h2⟩ := pos pre w post hws
        have hst : m.start = (wordsText pre).length := by
          rw [← h] at h1
          exact FirstAt.unique hm.2.1 h1
        have hmeq : m = ⟨w.letter, (wordsText pre).length, (wordsText pre).length + 1⟩ := by
          have h3 := hm.2.2
          simp only [List.length_cons, List.length_nil] at h3
          cases m
          simp_all
        refine ⟨w, hwm, by rw [← hl, h], ?_⟩
        rw [← h2, ← hmeq]
        exact (congrArg Prod.snd he).symm
      · exact absurd ((hall w hwm).2.2 _ h) (hlet _ hm.1).2.2.2.2.1
    · rintro ⟨w, hwm, rfl, rfl⟩
      obtain ⟨pre, post, hws⟩ := List.append_of_mem hwm
      obtain ⟨h1, h2⟩ := pos pre w post hws
      exact ⟨_, (mem_collect hne).2 ⟨(hall w hwm).1, h1, rfl⟩, by rw [h2]⟩

/-- C03. A command name followed by well-formed words (any number of blanks in front of each, each letter at
most once, in any order) and any blanks or newline at the end parses to exactly that command, with exactly
those letters, each bound to the value of its own number text. -/
theorem c03_wellformed {pf : List Char → Option K} (hpf : FloatLike pf) {k : Cmd} {ws : List Word}
    (hws : WordsFor k ws) {tail : List Char} (htail : ∀ c ∈ tail, c = ' ' ∨ c = '\n') :
    ∃ a, argExtract pf (name k ++ (ws.flatMap Word.text ++ tail)) = .ok [(k, .args a)] ∧
      (a.map Prod.fst).Nodup ∧
      ∀ l v, (l, v) ∈ a ↔ ∃ w ∈ ws, w.letter = l ∧ v = valueOf pf w.number := by
  obtain ⟨hk, hnd, hall⟩ := hws
  obtain ⟨letters, ht⟩ := Option.ne_none_iff_exists'.1 (takesLetters_iff.1 hk)
  replace hall : ∀ w ∈ ws, w.letter ∈ letters ∧ w.number ≠ [] ∧ ∀ c ∈ w.number, c ∈ numChars := by
    intro w hw
    obtain ⟨h1, h2⟩ := hall w hw
    obtain ⟨ls, h3, h4⟩ := (takes_iff _ _).1 h1
    rw [ht, Option.some.injEq] at h3
    rw [h3]
    exact ⟨h4, h2⟩
  rw [name_eq]
  obtain ⟨_, hlet⟩ := table_letters ht
  have hnumc : ∀ c ∈ numChars, ¬ keyHead c ∧ c ≠ ' ' ∧ c ≠ '\n' := by decide
  have hrest : ∀ x ∈ ws.flatMap Word.text ++ tail, ¬ keyHead x := by
    intro x hx
    rcases List.mem_append.1 hx with hx | hx
    · obtain ⟨w, hw, hx⟩ := List.mem_flatMap.1 hx
      simp only [Word.text, List.mem_append, List.mem_replicate, List.mem_cons] at hx
      rcases hx with ⟨_, rfl⟩ | rfl | hx
      · decide
      · have := hlet _ (hall w hw).1
        rintro (h | h | h)
        · exact this.2.1 h
        · exact this.2.2.1 h
        · exact this.2.2.2.1 h
      · exact (hnumc x ((hall w hw).2.2 x hx)).1
    · rcases htail x hx with rfl | rfl <;> decide
  have hdig : ∀ x ∈ (ws.flatMap Word.text ++ tail).head?, Char.isDigit x = false := by
    intro x hx
    cases ws with
    | nil =>
      simp only [List.flatMap_nil, List.nil_append] at hx
      rcases htail x (List.mem_of_mem_head? hx) with rfl | rfl <;> rfl
    | cons w ws =>
      simp only [List.flatMap_cons, Word.text, List.append_assoc] at hx
      cases hb : w.blanks with
      | zero =>
        rw [hb] at hx
        simp at hx
        subst hx
        have : ∀ k : Cmd, ∀ ls, k.table = some ls → ∀ l ∈ ls, Char.isDigit l = false := by
          intro k ls h
          cases k <;> simp only [Cmd.table, Option.some.injEq, reduceCtorEq] at h <;> subst h <;>
            decide
        exact this k letters ht _ (hall w (by simp)).1
      | succ n =>
        rw [hb, List.replicate_succ] at hx
        simp at hx
        subst hx
        rfl
  have hcreds := creds_single (k := k) hrest hdig
  have hkc : k ≠ .comment := by
    rintro rfl
    simp [Cmd.table] at ht
  have hm : (⟨k, 0, k.chars.length⟩ : Match Cmd) ∈
      creds (k.chars ++ (ws.flatMap Word.text ++ tail)) := by rw [hcreds]; simp
  have hends : EndsAt (k.chars ++ (ws.flatMap Word.text ++ tail)) k.chars.length
      (k.chars ++ (ws.flatMap Word.text ++ tail)).length := by
    refine ⟨by simp, Nat.le_refl _, Or.inr rfl, ?_⟩
    intro k' j hk' hj
    exfalso
    have : (⟨k', j, j + k'.chars.length⟩ : Match Cmd) ∈
        creds (k.chars ++ (ws.flatMap Word.text ++ tail)) := mem_creds.2 ⟨hk', rfl⟩
    rw [hcreds] at this
    simp only [List.mem_singleton, Match.mk.injEq] at this
    have hp := List.length_pos_iff.2 (chars_ne_nil k)
    omega
  have hclean : cleanText (k.chars ++ (ws.flatMap Word.text ++ tail)) k.chars.length
      (k.chars ++ (ws.flatMap Word.text ++ tail)).length = wordsText ws := by
    unfold cleanText
    rw [List.take_length, List.drop_left, List.filter_append]
    have h1 : tail.filter (fun c => c != ' ' && c != '\n') = [] := by
      rw [List.filter_eq_nil_iff]
      intro c hc
      rcases htail c hc with rfl | rfl <;> decide
    rw [h1, List.append_nil]
    have h2 : ∀ w ∈ ws, (w.text).filter (fun c => c != ' ' && c != '\n') = w.letter :: w.number := by
      intro w hw
      have hl := hlet _ (hall w hw).1
      have e1 : (List.replicate w.blanks ' ').filter (fun c => c != ' ' && c != '\n') = [] := by
        rw [List.filter_eq_nil_iff]
        intro c hc
        rw [(List.mem_replicate.1 hc).2]
        decide
      have e2 : w.number.filter (fun c => c != ' ' && c != '\n') = w.number := by
        rw [List.filter_eq_self]
        intro c hc
        have := hnumc c ((hall w hw).2.2 c hc)
        simp [this.2.1, this.2.2]
      rw [Word.text, List.filter_append, e1, List.nil_append, List.filter_cons_of_pos, e2]
      simp [hl.2.2.2.2.2.1, hl.2.2.2.2.2.2]
    clear hcreds hm hends hrest hdig hnd hall h1
    induction ws with
    | nil => rfl
    | cons w ws ih =>
      rw [List.flatMap_cons, List.filter_append, h2 w (by simp),
        ih (fun w' hw' => h2 w' (by simp [hw']))]
      rfl
  have hnone : pf (wordsText ws) = none := by
    cases ws with
    | nil => exact hpf.empty
    | cons w ws =>
      obtain ⟨h1, h2, h3⟩ := hall w (by simp)
      cases hn : w.number with
      | nil => exact absurd hn h2
      | cons c t =>
        have : wordsText (w :: ws) = w.letter :: c :: (t ++ wordsText ws) := by
          simp [wordsText, hn]
        rw [this]
        exact hpf.letter _ _ _ (hlet _ h1).1 (h3 c (by rw [hn]; simp))
  obtain ⟨a, ha, ha1, ha2⟩ := letters_words pf ht hnd hall
  refine ⟨a, ?_, ha1, ha2⟩
  have hone : oneArg pf (k.chars ++ (ws.flatMap Word.text ++ tail)) ⟨k, 0, k.chars.length⟩ =
      .ok (.args a) := by
    unfold oneArg
    rw [rawArg_spec pf hm hends hkc]
    simp only [hclean, hnone]
    simp only [nestedArg, ht, ha, Except.map]
  rw [argExtract_ok]
  refine ⟨[(⟨k, 0, k.chars.length⟩, .args a)], ?_, ?_⟩
  · rw [hcreds, mapM_cons_except, hone]
    rfl
  · have hk : kept (k.chars ++ (ws.flatMap Word.text ++ tail)) ⟨k, 0, k.chars.length⟩ = true := by
      rw [kept_iff hm]
      right
      intro c hc
      by_contra hlt
      have hne : c < k.chars.length := by simp only at hlt; omega
      rw [List.getElem?_append_left hne] at hc
      exact semicolon_not_mem hkc (List.mem_of_getElem? hc)
    simp [hk]

/-- C03 for the commands without arguments (`G90`, `M83`, …): they parse to exactly that command with an
empty argument. -/
theorem c03_plain {pf : List Char → Option K} (hpf : pf [] = none) {k : Cmd} (hk : k ≠ .comment)
    (hno : ¬ TakesLetters k) {tail : List Char} (htail : ∀ c ∈ tail, c = ' ' ∨ c = '\n') :
    argExtract pf (name k ++ tail) = .ok [(k, .val (.str []))] := by
  have ht : k.table = none := by
    rw [takesLetters_iff, not_not] at hno
    exact hno
  rw [name_eq]
  have hrest : ∀ x ∈ tail, ¬ keyHead x := by
    intro x hx
    rcases htail x hx with rfl | rfl <;> decide
  have hdig : ∀ x ∈ tail.head?, Char.isDigit x = false := by
    intro x hx
    rcases htail x (List.mem_of_mem_head? hx) with rfl | rfl <;> rfl
  have hcreds := creds_single (k := k) hrest hdig
  have hm : (⟨k, 0, k.chars.length⟩ : Match Cmd) ∈ creds (k.chars ++ tail) := by rw [hcreds]; simp
  have hends : EndsAt (k.chars ++ tail) k.chars.length (k.chars ++ tail).length := by
    refine ⟨by simp, Nat.le_refl _, Or.inr rfl, ?_⟩
    intro k' j hk' hj
    exfalso
    have : (⟨k', j, j + k'.chars.length⟩ : Match Cmd) ∈ creds (k.chars ++ tail) :=
      mem_creds.2 ⟨hk', rfl⟩
    rw [hcreds] at this
    simp only [List.mem_singleton, Match.mk.injEq] at this
    have hp := List.length_pos_iff.2 (chars_ne_nil k)
    omega
  have hclean : cleanText (k.chars ++ tail) k.chars.length (k.chars ++ tail).length = [] := by
    unfold cleanText
    rw [List.take_length, List.drop_left, List.filter_eq_nil_iff]
    intro c hc
    rcases htail c hc with rfl | rfl <;> decide
  have hone : oneArg pf (k.chars ++ tail) ⟨k, 0, k.chars.length⟩ = .ok (.val (.str [])) := by
    unfold oneArg
    rw [rawArg_spec pf hm hends hk]
    simp only [hclean, hpf]
    simp only [nestedArg, ht]
  rw [argExtract_ok]
  refine ⟨[(⟨k, 0, k.chars.length⟩, .val (.str []))], ?_, ?_⟩
  · rw [hcreds, mapM_cons_except, hone]
    rfl
  · have hkp : kept (k.chars ++ tail) ⟨k, 0, k.chars.length⟩ = true := by
      rw [kept_iff hm]
      right
      intro c hc
      by_contra hlt
      have hne : c < k.chars.length := by simp only at hlt; omega
      rw [List.getElem?_append_left hne] at hc
      exact semicolon_not_mem hk (List.mem_of_getElem? hc)
    simp [hkp]

/-! ## C06 -/

theorem nodup_eraseDups {α : Type} [DecidableEq α] (l : List α) : l.eraseDups.Nodup := by
  induction h : l.length using Nat.strongRecOn generalizing l with
  | ind n ih =>
    cases l with
    | nil => simp
    | cons a l =>
      rw [List.eraseDups_cons, List.nodup_cons]
      refine ⟨?_, ih _ ?_ _ rfl⟩
      · simp [List.mem_eraseDups]
      · rw [← h]
        exact Nat.lt_succ_of_le (List.length_filter_le _ _)

/-- C06. The report of unsupported commands: `(k, n)` is in it exactly when `k` is a known but unsupported
command and `n > 0` is the number of lines that contain it; no command is listed twice. -/
theorem c06_unsupported_counts {ls : List (LineDict K)}
    (hls : ∀ d ∈ ls, (d.map Prod.fst).Nodup) :
    (∀ k n, (k, n) ∈ checkUnsupported ls ↔
      Unsupported k ∧ 0 < n ∧ n = ls.countP fun d => decide (has d k)) ∧
    ((checkUnsupported ls).map Prod.fst).Nodup := by
  simp only [unsupported_iff]
  have hcount : ∀ k, k ∈ Cmd.unsupported →
      (unsupportedFound ls).count k = ls.countP fun d => decide (has d k) := by
    intro k hk
    unfold unsupportedFound
    induction ls with
    | nil => rfl
    | cons d ls ih =>
      rw [List.flatMap_cons, List.count_append, ih fun d' hd' => hls d' (by simp [hd']),
        List.countP_cons, Nat.add_comm]
      congr 1
      rw [List.count_filter (by simpa using hk)]
      by_cases hh : has d k
      · have hmem : k ∈ d.map Prod.fst := by
          obtain ⟨v, hv⟩ := hh
          exact List.mem_map.2 ⟨_, hv, rfl⟩
        rw [(hls d (by simp)).count, if_pos hmem]
        simp [hh]
      · have hmem : k ∉ d.map Prod.fst := by
          intro h
          obtain ⟨p, hp, rfl⟩ := List.mem_map.1 h
          exact hh ⟨p.2, hp⟩
        rw [List.count_eq_zero_of_not_mem hmem]
        simp [hh]
  have hfound : ∀ k ∈ unsupportedFound ls, k ∈ Cmd.unsupported := by
    intro k hk
    simp only [unsupportedFound, List.mem_flatMap, List.mem_filter, decide_eq_true_eq] at hk
    obtain ⟨d, _, _, h⟩ := hk
    exact h
  constructor
  · intro k n
    simp only [checkUnsupported, List.mem_map, List.mem_eraseDups, Prod.mk.injEq]
    constructor
    · rintro ⟨k', hk', rfl, rfl⟩
      have hu := hfound _ hk'
      exact ⟨hu, List.count_pos_iff.2 hk', hcount _ hu⟩
    · rintro ⟨hu, hn, rfl⟩
      rw [← hcount k hu] at hn ⊢
      exact ⟨k, List.count_pos_iff.1 hn, rfl, rfl⟩
  · rw [checkUnsupported, List.map_map]
    have : (Prod.fst ∘ fun k => (k, (unsupportedFound ls).count k)) = (id : Cmd → Cmd) := rfl
    rw [this, List.map_id]
    exact nodup_eraseDups _

/-- C06 for the lines of a file. -/
theorem c06_unsupported_counts_file {pf : List Char → Option K} {lines : List (List Char)}
    {ls : List (LineDict K)} (h : readLines pf lines = .ok ls) :
    (∀ k n, (k, n) ∈ checkUnsupported ls ↔
      Unsupported k ∧ 0 < n ∧ n = ls.countP fun d => decide (has d k)) ∧
    ((checkUnsupported ls).map Prod.fst).Nodup := by
  refine c06_unsupported_counts ?_
  intro d hd
  obtain ⟨s, _, hs⟩ := mapM_ok_mem' h hd
  exact (c04_commands_credited hs).2

/-! ## Concrete cases -/

section Examples

/-- A toy number syntax: digits only, read as a natural number. -/
def digitsN (s : List Char) : Option Nat :=
  if s ≠ [] ∧ s.all Char.isDigit then some (s.foldl (fun n c => 10 * n + (c.toNat - 48)) 0) else none

theorem digitsN_floatLike : FloatLike digitsN where
  empty := rfl
  letter l c t h _ := by
    have : Char.isDigit l = false := by
      simp only [Char.isUpper, Char.isDigit, decide_eq_true_eq,
        Bool.and_eq_false_iff, decide_eq_false_iff_not] at h ⊢
      right
      have h1 := h.1
      intro h2
      have : (65 : UInt32) ≤ 57 := UInt32.le_trans h1 h2
      revert this
      decide
    simp [digitsN, this]

/-- C02 on `G1 X5;LAYER G28`: `G28` inside the comment does not count. -/
example : argExtract digitsN ['G', '1', ' ', 'X', '5', ';', 'G', '2', '8'] =
    .ok ([(.G1, .args [('X', .num 5)])] ++ [(.comment, .val (.str ['G', '2', '8']))]) := by decide

/-- C02 cannot be strengthened to "the comment is irrelevant": a comment can make a valid line raise. -/
example : argExtract digitsN ['G', '9', '0'] = .ok [(.G90, .val (.str []))] ∧
    argExtract digitsN ['G', '9', '0', ';', 'G', '1', ' ', '5'] = .error .typeError := by decide

/-- C03 on `G1 Y7  X25\n`. -/
example : ∃ a, argExtract digitsN
    ['G', '1', ' ', 'Y', '7', ' ', ' ', 'X', '2', '5', '\n'] = .ok [(.G1, .args a)] ∧
      ('X', .num 25) ∈ a ∧ ('Y', .num 7) ∈ a := by
  obtain ⟨a, h1, _, h2⟩ := c03_wellformed digitsN_floatLike (k := .G1)
    (ws := [⟨1, 'Y', ['7']⟩, ⟨2, 'X', ['2', '5']⟩]) (tail := ['\n'])
    ⟨⟨'X', by simp [Takes]⟩, by decide, by simp [Takes, numChars]⟩ (by decide)
  exact ⟨a, h1, (h2 _ _).2 ⟨⟨2, 'X', ['2', '5']⟩, by simp, rfl, rfl⟩,
    (h2 _ _).2 ⟨⟨1, 'Y', ['7']⟩, by simp, rfl, rfl⟩⟩

/-- C04 on `G28`: credited as `G28`, not as `G2`. -/
example : argExtract digitsN ['G', '2', '8'] = .ok [(.G28, .args [])] := by decide

/-- C05: `G1 5` raises, `G1 X5` does not. -/
example : argExtract digitsN ['G', '1', ' ', '5'] = .error .typeError ∧
    argExtract digitsN ['G', '1', ' ', 'X', '5'] = .ok [(.G1, .args [('X', .num 5)])] := by decide

/-- C06 on three lines, two of which contain `G28`. -/
example : checkUnsupported (K := Nat) [[(.G28, .args [])], [(.G1, .args [])],
    [(.G28, .args []), (.G10, .args [])]] = [(.G28, 2), (.G10, 1)] := by decide

end Examples

end PyGCD
