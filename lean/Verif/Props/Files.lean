import Verif.Spec.Files
import Verif.Props.Parse
import Verif.Props.States
import Verif.Props.States2
import Verif.Props.Resolved
import Verif.Props.Itinerary

/-!
# Properties C67 and C69: plain G-code files are read and simulated as written
-/

set_option linter.unusedSectionVars false
set_option linter.unusedSimpArgs false

namespace PyGCD
open Spec

/-! ## The lines of a file are determined by its content -/

theorem newlines_eq {c t : List Char} (h : Newlines c t) : universalNewlines c = t := by
  induction h with
  | nil => rfl
  | crlf h ih => rw [universalNewlines, ih]
  | @cr a b hn h ih =>
    cases a with
    | nil => rw [← ih]; rfl
    | cons x a =>
      have hx : x ≠ '\n' := by
        rintro rfl
        exact hn rfl
      rw [← ih]
      exact universalNewlines.eq_3 _ (by
        intro cs e
        cases e
        exact hx rfl)
  | @other c a b hc h ih =>
    rw [universalNewlines, ih]
    · intro cs e1
      exact absurd e1 hc
    · exact hc

theorem splitLinesAux_append {cur l rest : List Char} (h : '\n' ∉ l) :
    splitLinesAux cur (l ++ rest) = splitLinesAux (l.reverse ++ cur) rest := by
  induction l generalizing cur with
  | nil => rfl
  | cons c l ih =>
    have hc : c ≠ '\n' := by
      rintro rfl
      exact h (by simp)
    rw [List.cons_append, splitLinesAux, ih (by intro hm; exact h (by simp [hm]))]
    · simp
    · exact hc

theorem lines_eq {t : List Char} {rows : List (List Char)} (h : Lines t rows) : splitLinesAux [] t = rows := by
  induction h with
  | none => rfl
  | @«open» l hne h =>
    have := splitLinesAux_append (cur := []) (rest := []) h
    rw [List.append_nil] at this
    rw [this, splitLinesAux]
    simp [hne]
  | @line l t ls h hr ih =>
    rw [splitLinesAux_append h, splitLinesAux, ih]
    simp

theorem fileLines_eq {c t : List Char} {rows : List (List Char)} (h : Newlines c t) (h' : Lines t rows) :
    fileLines c = rows := by
  rw [fileLines, newlines_eq h, lines_eq h']

/-! ## A plain line is parsed as written -/

variable {pf : List Char → Option ℝ} {l : Line}

/-- The dictionary of a plain line. -/
structure Reads (pf : List Char → Option ℝ) (l : Line) (d : LineDict ℝ) : Prop where
  has : ∀ k, k ≠ .comment → (Spec.has d k ↔ l.cmd = some k)
  arg : ∀ k, k ≠ .comment → ∀ c, Spec.arg d k c = if l.cmd = some k then (l.value pf c).map .num else none

theorem plain_takes {k : Cmd} {c : Char} (h : c ∈ plainLetters k) : Takes k c := by
  cases k <;> simp [plainLetters, Takes] at h ⊢ <;> grind

theorem entry_of_mem {α β : Type} [DecidableEq α] {a : List (α × β)} {k : α} {v : β}
    (hn : (a.map Prod.fst).Nodup) (h : (k, v) ∈ a) : Spec.entry a k = some v := by
  induction a with
  | nil => cases h
  | cons p a ih =>
    rw [List.map_cons, List.nodup_cons] at hn
    unfold Spec.entry
    rw [List.find?_cons]
    rcases List.mem_cons.1 h with rfl | h
    · simp
    · have : p.1 ≠ k := by
        rintro rfl
        exact hn.1 (List.mem_map.2 ⟨_, h, rfl⟩)
      rw [decide_eq_false this]
      exact ih hn.2 h

theorem entry_none {α β : Type} [DecidableEq α] {a : List (α × β)} {k : α} (h : ∀ v, (k, v) ∉ a) :
    Spec.entry a k = none := by
  cases he : Spec.entry a k with
  | none => rfl
  | some v =>
    have : (Spec.entry a k).isSome := by rw [he]; rfl
    obtain ⟨w, hw⟩ := (entry_isSome a k).1 this
    exact absurd hw (h w)

theorem arg_single {k : Cmd} {a : List (Char × Val ℝ)} {k' : Cmd} {c : Char} :
    Spec.arg [(k, .args a)] k' c = if k = k' then Spec.entry a c else none := by
  unfold Spec.arg
  by_cases h : k = k'
  · simp [Spec.entry, h]
  · simp [Spec.entry, h]

theorem value_of_mem (hp : l.Plain pf) {w : Word} (hw : w ∈ l.words) : l.value pf w.letter = pf w.number := by
  have key : ∀ ws : List Word, (ws.map Word.letter).Nodup → w ∈ ws →
      (ws.find? fun x => x.letter == w.letter) = some w := by
    intro ws
    induction ws with
    | nil => intro _ h; cases h
    | cons x ws ih =>
      intro hn h
      rw [List.map_cons, List.nodup_cons] at hn
      rw [List.find?_cons]
      rcases List.mem_cons.1 h with rfl | h
      · simp
      · have : (x.letter == w.letter) = false := by
          rw [beq_eq_false_iff_ne]
          intro e
          exact hn.1 (e ▸ List.mem_map_of_mem h)
        rw [this]
        exact ih hn.2 h
  rw [Line.value, key _ hp.once hw]
  rfl

theorem value_none {c : Char} (h : ∀ w ∈ l.words, w.letter ≠ c) : l.value pf c = none := by
  have : (l.words.find? fun x => x.letter == c) = none := by
    rw [List.find?_eq_none]
    intro w hw
    simpa using h w hw
  rw [Line.value, this]
  rfl

/-- A name of a command that occurs in a text between blanks occurs in the text. -/
theorem occurs_frame {k : Cmd} {a t b : List Char} (ha : ∀ c ∈ a, c = ' ' ∨ c = '\n') (hb : ∀ c ∈ b, c = ' ' ∨ c = '\n')
    {i : Nat} (h : OccursAt (name k) (a ++ (t ++ b)) i) : ∃ j, OccursAt (name k) t j := by
  unfold OccursAt at h ⊢
  have hclean : ∀ c ∈ name k, ¬ (c = ' ' ∨ c = '\n') := by cases k <;> decide
  have hne : name k ≠ [] := by cases k <;> decide
  have hlen : a.length ≤ i := by
    by_contra hlt
    push Not at hlt
    obtain ⟨c, w, hcw⟩ := List.exists_cons_of_ne_nil hne
    have h0 : (name k)[0]? = some c := by rw [hcw]; rfl
    have : (a ++ (t ++ b))[i]? = some c := by
      obtain ⟨z, hz⟩ := h
      have := congrArg (fun l => l[0]?) hz
      simp only [hcw, List.cons_append, List.getElem?_cons_zero, List.getElem?_drop, Nat.add_zero] at this
      exact this.symm
    rw [List.getElem?_append_left hlt] at this
    exact hclean c (by rw [hcw]; simp) (ha c (List.mem_of_getElem? this))
  refine ⟨i - a.length, ?_⟩
  have hd : OccursAt (name k) (t ++ b) (i - a.length) := by
    unfold OccursAt
    rwa [List.drop_append, List.drop_eq_nil_of_le hlen, List.nil_append] at h
  cases b with
  | nil => rwa [List.append_nil] at hd
  | cons c b =>
    by_cases hj : i - a.length ≤ t.length
    · have hle := occurs_straddle hd (fun hm => hclean c hm (hb c (by simp))) hj
      exact (occurs_append hle).1 hd
    · exfalso
      unfold OccursAt at hd
      rw [List.drop_append, List.drop_eq_nil_of_le (by omega), List.nil_append] at hd
      obtain ⟨x, w, hxw⟩ := List.exists_cons_of_ne_nil hne
      have : x ∈ (c :: b).drop (i - a.length - t.length) := hd.subset (by rw [hxw]; simp)
      exact hclean x (by rw [hxw]; simp) (hb x (List.mem_of_mem_drop this))

theorem other_nil (hp : l.Plain pf) {k : Cmd} (hk : l.cmd = some k) : l.other = [] := by
  by_contra h
  rw [(hp.other h).1] at hk
  cases hk

/-- The code of a plain line, with blanks and line break behind it. -/
theorem parse_code (hpf : FloatLike pf) (hp : l.Plain pf) {tail : List Char} (ht : ∀ c ∈ tail, c = ' ' ∨ c = '\n') :
    ∃ d, argExtract pf (l.code ++ tail) = .ok d ∧ Reads pf l d ∧ commentText d = none ∧ ¬ Spec.has d .comment := by
  have htail : ∀ c ∈ List.replicate l.blanks ' ' ++ tail, c = ' ' ∨ c = '\n' := by
    intro c hc
    rcases List.mem_append.1 hc with h | h
    · exact Or.inl (List.eq_of_mem_replicate h)
    · exact ht c h
  cases hk : l.cmd with
  | none =>
    have hw := hp.nothing hk
    have hcode : l.code ++ tail = List.replicate l.blanks ' ' ++ (l.other ++ tail) := by
      simp [Line.code, hk, hw]
    rw [hcode]
    have hcr : creds (List.replicate l.blanks ' ' ++ (l.other ++ tail)) = [] := by
      rw [List.eq_nil_iff_forall_not_mem]
      intro m hm
      have h1 := (credited_iff.1 (mem_creds.1 hm).1).1.1
      rw [← name_eq] at h1
      by_cases ho : l.other = []
      · obtain ⟨c, t, hc, hh, _⟩ := key_head m.key
        rw [name_eq, hc, ho, List.nil_append] at h1
        have h2 : c ∈ (List.replicate l.blanks ' ' ++ tail).drop m.start := h1.subset (by simp)
        rcases htail c (List.mem_of_mem_drop h2) with rfl | rfl
        · revert hh; decide
        · revert hh; decide
      · obtain ⟨i, hi⟩ := occurs_frame (by simp +contextual) ht h1
        exact (hp.other ho).2 _ i hi
    refine ⟨[], argExtract_ok.2 ⟨[], by rw [hcr]; rfl, rfl⟩, ⟨?_, ?_⟩, rfl, by simp [Spec.has]⟩
    · intro k _
      simp [Spec.has, hk]
    · intro k _ c
      rw [hk]
      rfl
  | some k =>
    have hcode : l.code ++ tail = name k ++ (l.words.flatMap Word.text ++ (List.replicate l.blanks ' ' ++ tail)) := by
      simp [Line.code, hk, other_nil hp hk]
    have hkc := hp.cmd k hk
    have hkne : k ≠ .comment := by
      rintro rfl
      simp at hkc
    rw [hcode]
    by_cases hl : TakesLetters k
    · obtain ⟨a, h1, h2, h3⟩ := c03_wellformed hpf (k := k) (ws := l.words)
        ⟨hl, hp.once, fun w hw => ⟨plain_takes (hp.letters k hk w hw), (hp.numbers w hw).1, (hp.numbers w hw).2.1⟩⟩
        htail
      refine ⟨_, h1, ⟨?_, ?_⟩, by simp [commentText, Spec.entry, hkne],
        by simp [Spec.has, hkne.symm]⟩
      · intro k' _
        rw [hk]
        simp [Spec.has, eq_comm]
      · intro k' _ c
        rw [arg_single, hk]
        by_cases hkk : k = k'
        · rw [if_pos hkk, if_pos (by rw [hkk])]
          by_cases hc : ∃ w ∈ l.words, w.letter = c
          · obtain ⟨w, hw, rfl⟩ := hc
            rw [value_of_mem hp hw, entry_of_mem h2 ((h3 _ _).2 ⟨w, hw, rfl, rfl⟩)]
            obtain ⟨v, hv⟩ := Option.ne_none_iff_exists'.1 (hp.numbers w hw).2.2
            rw [valueOf, hv]
            rfl
          · push Not at hc
            rw [value_none hc, entry_none]
            · rfl
            · intro v hv
              obtain ⟨w, hw, hwl, _⟩ := (h3 _ _).1 hv
              exact hc w hw hwl
        · rw [if_neg hkk, if_neg (by simpa using hkk)]
    · have hw : l.words = [] := by
        rw [List.eq_nil_iff_forall_not_mem]
        intro w hw
        exact hl ⟨_, plain_takes (hp.letters k hk w hw)⟩
      rw [hw, List.flatMap_nil, List.nil_append]
      refine ⟨_, c03_plain hpf.empty hkne hl htail, ⟨?_, ?_⟩, by simp [commentText, Spec.entry, hkne],
        by simp [Spec.has, hkne.symm]⟩
      · intro k' _
        rw [hk]
        simp [Spec.has, eq_comm]
      · intro k' _ c
        have : l.value pf c = none := value_none (by rw [hw]; simp)
        rw [this]
        unfold Spec.arg
        by_cases hkk : k = k'
        · simp [Spec.entry, hkk]
        · simp [Spec.entry, hkk]

theorem code_no_semicolon (hp : l.Plain pf) : ';' ∉ l.code := by
  intro h
  unfold Line.code at h
  rcases List.mem_append.1 h with h | h
  · cases hk : l.cmd with
    | none => rw [hk] at h; cases h
    | some k =>
      rw [hk] at h
      have hkc := hp.cmd k hk
      have hkne : k ≠ .comment := by
        rintro rfl
        simp at hkc
      refine semicolon_not_mem hkne ?_
      rw [← name_eq]
      exact h
  · rcases List.mem_append.1 h with h | h
    · obtain ⟨w, hw, h⟩ := List.mem_flatMap.1 h
      simp only [Word.text, List.mem_append, List.mem_replicate, List.mem_cons] at h
      rcases h with ⟨_, h⟩ | h | h
      · revert h; decide
      · cases hk : l.cmd with
        | none =>
          rw [hp.nothing hk] at hw
          cases hw
        | some k =>
          have := hp.letters k hk w hw
          rw [← h] at this
          revert this
          cases k <;> decide
      · have := (hp.numbers w hw).2.1 _ h
        revert this
        decide
    · rcases List.mem_append.1 h with h | h
      · have := List.eq_of_mem_replicate h
        revert this
        decide
      · have ho : l.other ≠ [] := List.ne_nil_of_mem h
        obtain ⟨a, b, hab⟩ := List.append_of_mem h
        refine (hp.other ho).2 .comment a.length ?_
        unfold OccursAt
        rw [hab, List.drop_left]
        exact ⟨b, rfl⟩

/-- A comment without command names does no harm. -/
theorem parse_comment {code text : List Char} {d₀ : LineDict ℝ} (hc : ';' ∉ code)
    (hno : ∀ k, k ≠ .comment → ∀ i, ¬ OccursAt (name k) text i) (h : argExtract pf code = .ok d₀) :
    argExtract pf (code ++ ';' :: text) = .ok (d₀ ++ [(.comment, .val (.str text))]) := by
  cases hr : argExtract pf (code ++ ';' :: text) with
  | ok d =>
    obtain ⟨d₁, h1, h2⟩ := c02_comment_harmless hc hr
    rw [h, Except.ok.injEq] at h1
    rw [h2, h1]
  | error e =>
    exfalso
    obtain ⟨m, hm, he⟩ := mapM_error_mem (argExtract_error.1 hr)
    have he' : oneArg pf (code ++ ';' :: text) m = .error e := by
      cases ho : oneArg pf (code ++ ';' :: text) m with
      | ok v => rw [ho] at he; cases he
      | error x => rw [ho] at he; cases he; rfl
    obtain ⟨hcr, hstop⟩ := mem_creds.1 hm
    have hkc : m.key ≠ .comment := by
      intro hk
      have := ((oneArg_error pf hm).1 he').2.1
      rw [hk] at this
      obtain ⟨c, hcc⟩ := this
      exact hcc
    have hocc := (credited_iff.1 hcr).1.1
    by_cases hi : m.start ≤ code.length
    · have hle := occurs_straddle hocc (semicolon_not_mem hkc) hi
      have hm' : m ∈ creds code := mem_creds.2 ⟨(credited_code hkc hc).2 ⟨hcr, hle⟩, hstop⟩
      rw [oneArg_line pf hc hm'] at he'
      obtain ⟨r, hr', _⟩ := argExtract_ok.1 h
      have key : ∀ (ms : List (Match Cmd)) r, m ∈ ms →
          ms.mapM (fun m => (oneArg pf code m).map (Prod.mk m)) = .ok r → False := by
        intro ms
        induction ms with
        | nil => intro r h; cases h
        | cons a ms ih =>
          intro r hmem hms
          rw [List.mapM_cons] at hms
          simp only [bind, Except.bind] at hms
          split at hms
          · cases hms
          rename_i v hv
          split at hms
          · cases hms
          rename_i tl htl
          rcases List.mem_cons.1 hmem with rfl | hmem
          · rw [he'] at hv
            cases hv
          · exact ih _ hmem htl
      exact key _ _ hm' hr'
    · refine hno m.key hkc (m.start - (code.length + 1)) ?_
      rw [name_eq]
      unfold OccursAt at hocc ⊢
      have : m.start = code.length + 1 + (m.start - (code.length + 1)) := by omega
      rw [this, show code ++ ';' :: text = (code ++ [';']) ++ text by simp,
        ← List.drop_drop, show code.length + 1 = (code ++ [';']).length by simp, List.drop_left] at hocc
      simpa using hocc

theorem occurs_newline {k : Cmd} {text : List Char} {i : Nat} (h : OccursAt (name k) (text ++ ['\n']) i) :
    OccursAt (name k) text i := by
  have hn : '\n' ∉ name k := by cases k <;> decide
  by_cases hi : i ≤ text.length
  · exact (occurs_append (occurs_straddle h hn hi)).1 h
  · exfalso
    unfold OccursAt at h
    rw [List.drop_eq_nil_of_le (by simp; omega), List.prefix_nil] at h
    revert h
    cases k <;> decide

theorem Reads.comment {d : LineDict ℝ} (h : Reads pf l d) (t : List Char) :
    Reads pf l (d ++ [(.comment, .val (.str t))]) where
  has k hk := by
    rw [← h.has k hk]
    simp [Spec.has, hk]
  arg k hk c := by
    rw [← h.arg k hk c]
    have : Spec.entry (d ++ [(Cmd.comment, ArgVal.val (.str t))]) k = Spec.entry d k := by
      unfold Spec.entry
      rw [List.find?_append]
      simp [Ne.symm hk]
    unfold Spec.arg
    rw [this]

theorem newline_blank : Blank '\n' := by simp [Blank]

/-- A line break at the end is stripped. -/
theorem strips_newline (t c : List Char) : StripsTo (t ++ ['\n']) c ↔ StripsTo t c := by
  have key : ∀ c, StripsTo t c → StripsTo (t ++ ['\n']) c := by
    rintro c ⟨a, b, h1, h2, h3, h4, h5⟩
    refine ⟨a, b ++ ['\n'], by rw [h1]; simp, h2, ?_, h4, h5⟩
    intro x hx
    rcases List.mem_append.1 hx with hx | hx
    · exact h3 x hx
    · rw [List.mem_singleton.1 hx]
      exact newline_blank
  refine ⟨fun h => ?_, key c⟩
  have h1 := key _ ((pyStrip_iff t _).1 rfl)
  rw [← pyStrip_iff] at h h1
  rw [← pyStrip_iff, ← h, h1]

theorem comment_text {d : LineDict ℝ} (hn : ¬ Spec.has d .comment) (t : List Char) :
    commentText (d ++ [(.comment, .val (.str t))]) = some t := by
  have : Spec.entry (d ++ [(Cmd.comment, ArgVal.val (.str t))]) .comment = some (.val (.str t)) := by
    unfold Spec.entry
    rw [List.find?_append]
    have : d.find? (fun p => decide (p.1 = Cmd.comment)) = none := by
      rw [List.find?_eq_none]
      rintro ⟨k, v⟩ hp hk
      refine hn ⟨v, ?_⟩
      rw [decide_eq_true_eq] at hk
      exact hk ▸ hp
    rw [this]
    simp
  rw [commentText, this]

/-- A plain line is parsed as written. -/
theorem parse_row (hpf : FloatLike pf) (hp : l.Plain pf) {row : List Char}
    (hrow : row = l.text ∨ row = l.text ++ ['\n']) :
    ∃ d, argExtract pf row = .ok d ∧ Reads pf l d ∧ ∀ c, IsCue c.toList d ↔ l.Marks c := by
  cases hc : l.comment with
  | none =>
    have ht : l.text = l.code := by simp [Line.text, hc]
    rcases hrow with rfl | rfl
    · obtain ⟨d, h1, h2, h3⟩ := parse_code hpf hp (tail := []) (by simp)
      rw [List.append_nil] at h1
      exact ⟨d, by rw [ht]; exact h1, h2, by simp [IsCue, Line.Marks, h3, hc]⟩
    · obtain ⟨d, h1, h2, h3⟩ := parse_code hpf hp (tail := ['\n']) (by simp)
      exact ⟨d, by rw [ht]; exact h1, h2, by simp [IsCue, Line.Marks, h3, hc]⟩
  | some t =>
    have ht : l.text = l.code ++ ';' :: t := by simp [Line.text, hc]
    obtain ⟨d, h1, h2, _, h4⟩ := parse_code hpf hp (tail := []) (by simp)
    rw [List.append_nil] at h1
    rcases hrow with rfl | rfl
    · refine ⟨_, by rw [ht]; exact parse_comment (code_no_semicolon hp) (hp.comment t hc) h1, h2.comment _, ?_⟩
      intro c
      simp [IsCue, Line.Marks, comment_text h4, hc]
    · refine ⟨_, ?_, h2.comment (t ++ ['\n']), ?_⟩
      · rw [ht, List.append_assoc]
        exact parse_comment (code_no_semicolon hp) (fun k hk i h => hp.comment t hc k hk i (occurs_newline h)) h1
      · intro c
        simp [IsCue, Line.Marks, comment_text h4, hc, strips_newline]

/-! ## The state machine follows the printer -/

/-- The virtual machine and the printer agree. -/
structure Agree (vm : VM ℝ) (q : Printer) : Prop where
  axis : ∀ a, vm.pos a = .num (q.place a - q.zero a) ∧ vm.off a = .num (q.zero a)
  absXYZ : vm.absPos = q.absXYZ
  absE : vm.absExt = q.absE
  feed : vm.pVel = q.feed
  acc : vm.pAcc = .num q.acc
  jerk : vm.jerk = .num q.jerk

theorem Agree.position {vm : VM ℝ} {q : Printer} (h : Agree vm q) : vmPosition vm = .ok q.point := by
  have hc : ∀ a, coord vm a = .ok (q.place a) := by
    intro a
    rw [coord, (h.axis a).1, (h.axis a).2]
    simp
  simp only [vmPosition, hc, bind, Except.bind, Printer.point]

theorem moveAxis_num {abs : Bool} {w : Option ℝ} {x : ℝ} :
    moveAxis abs (w.map .num) (.num x) = .ok (.num (match w with
      | none => x
      | some v => if abs then v else x + v)) := by
  cases w with
  | none => rfl
  | some v => cases abs <;> rfl

theorem stepMove_none {d : LineDict ℝ} {c : Cmd} {vm : VM ℝ} (h : ∀ l, word d c l = none) :
    stepMove d c vm = .ok vm := by
  simp only [stepMove, h, moveAxis, bind, Except.bind]
  congr 1
  obtain ⟨pos, _⟩ := vm
  simp only [VM.mk.injEq, and_true]
  funext a
  cases a <;> rfl

theorem stepSetPos_none {d : LineDict ℝ} {vm : VM ℝ} (h : ∀ l, word d .G92 l = none) :
    stepSetPos d vm = .ok vm := by
  simp only [stepSetPos, h, setPosAxis, bind, Except.bind]
  congr 1
  obtain ⟨pos, off, _⟩ := vm
  simp only [VM.mk.injEq, and_true]
  constructor <;> funext a <;> cases a <;> rfl

theorem stepMove_num {d : LineDict ℝ} {c : Cmd} {vm : VM ℝ} {q : Printer} (hv : Agree vm q) {f : Char → Option ℝ}
    (h : ∀ l, word d c l = (f l).map .num) :
    ∃ vm', stepMove d c vm = .ok vm' ∧ Agree vm' { q with
      place := fun a =>
        match f (Spec.letter a) with
        | none => q.place a
        | some v => if q.abs a then q.zero a + v else q.place a + v
      feed := match f 'F' with
        | none => q.feed
        | some v => v / 60 } := by
  obtain ⟨P, hP⟩ : ∃ P : Axis → ℝ, (fun a =>
        match f (Spec.letter a) with
        | none => q.place a
        | some v => if q.abs a then q.zero a + v else q.place a + v) = P := ⟨_, rfl⟩
  obtain ⟨F, hF'⟩ : ∃ F : ℝ, (match f 'F' with
        | none => q.feed
        | some v => v / 60) = F := ⟨_, rfl⟩
  have hax : ∀ a, moveAxis (q.abs a) ((f (Spec.letter a)).map .num) (vm.pos a) = .ok (.num (P a - q.zero a)) := by
    intro a
    rw [(hv.axis a).1, moveAxis_num, ← hP]
    congr 2
    simp only
    cases f (Spec.letter a) with
    | none => rfl
    | some v =>
      cases q.abs a
      · simp only [Bool.false_eq_true, if_false]
        ring
      · simp
  have hX := hax .X
  have hY := hax .Y
  have hZ := hax .Z
  have hE := hax .E
  simp only [Spec.letter, Printer.abs] at hX hY hZ hE
  rw [← hv.absXYZ] at hX hY hZ
  rw [← hv.absE] at hE
  rw [hP, hF']
  have hax' : ∀ (vm' : VM ℝ) (p : Axis → Val ℝ), (p .X = .num (P .X - q.zero .X) ∧ p .Y = .num (P .Y - q.zero .Y) ∧
      p .Z = .num (P .Z - q.zero .Z) ∧ p .E = .num (P .E - q.zero .E)) →
      ∀ a, p a = .num (P a - q.zero a) ∧ vm.off a = .num (q.zero a) := by
    intro vm' p h a
    refine ⟨?_, (hv.axis a).2⟩
    cases a
    · exact h.1
    · exact h.2.1
    · exact h.2.2.1
    · exact h.2.2.2
  cases hf : f 'F' with
  | none =>
    rw [hf] at hF'
    simp only [stepMove, h, hX, hY, hZ, hE, hf, Option.map_none, bind, Except.bind]
    exact ⟨_, rfl, hax' vm _ ⟨rfl, rfl, rfl, rfl⟩, hv.absXYZ, hv.absE, by rw [← hF']; exact hv.feed, hv.acc, hv.jerk⟩
  | some v =>
    rw [hf] at hF'
    simp only [stepMove, h, hX, hY, hZ, hE, hf, Option.map_some, Val.divNum, bind, Except.bind]
    exact ⟨_, rfl, hax' vm _ ⟨rfl, rfl, rfl, rfl⟩, hv.absXYZ, hv.absE, hF', hv.acc, hv.jerk⟩

theorem stepSetPos_num {d : LineDict ℝ} {vm : VM ℝ} {q : Printer} (hv : Agree vm q) {f : Char → Option ℝ}
    (h : ∀ l, word d .G92 l = (f l).map .num) (h0 : ∀ l, ∀ v ∈ f l, v = 0) :
    ∃ vm', stepSetPos d vm = .ok vm' ∧ Agree vm' { q with
      zero := fun a =>
        match f (Spec.letter a) with
        | none => q.zero a
        | some v => q.place a - v } := by
  obtain ⟨Z, hZ'⟩ : ∃ Z : Axis → ℝ, (fun a =>
        match f (Spec.letter a) with
        | none => q.zero a
        | some v => q.place a - v) = Z := ⟨_, rfl⟩
  have hax : ∀ a, setPosAxis ((f (Spec.letter a)).map .num) (vm.pos a) (vm.off a) =
      .ok (.num (q.place a - Z a), .num (Z a)) := by
    intro a
    rw [(hv.axis a).1, (hv.axis a).2, ← hZ']
    simp only
    cases hf : f (Spec.letter a) with
    | none => rfl
    | some v =>
      cases h0 _ v hf
      simp [setPosAxis, Val.add, bind, Except.bind]
  have hX := hax .X
  have hY := hax .Y
  have hZ := hax .Z
  have hE := hax .E
  simp only [Spec.letter] at hX hY hZ hE
  rw [hZ']
  simp only [stepSetPos, h, hX, hY, hZ, hE, bind, Except.bind]
  refine ⟨_, rfl, ?_, hv.absXYZ, hv.absE, hv.feed, hv.acc, hv.jerk⟩
  intro a
  cases a <;> exact ⟨rfl, rfl⟩

theorem value_zero (hp : l.Plain pf) (hk : l.cmd = some .G92) : ∀ c, ∀ v ∈ l.value pf c, v = 0 := by
  intro c v hv
  unfold Line.value at hv
  obtain ⟨w, hw, hv⟩ := Option.bind_eq_some_iff.1 hv
  rw [hp.zero hk w (List.mem_of_find?_eq_some hw)] at hv
  cases hv
  rfl

/-- A plain line changes the virtual machine as it changes the printer. -/
theorem vmStep_agree {d : LineDict ℝ} {vm : VM ℝ} {q : Printer} (hp : l.Plain pf) (hd : Reads pf l d)
    (hv : Agree vm q) : ∃ vm', vmStep vm d = .ok vm' ∧ Agree vm' (q.exec pf l) := by
  have hw : ∀ k, k ≠ .comment → ∀ c, word d k c = if l.cmd = some k then (l.value pf c).map .num else none := by
    intro k hk c
    rw [word_eq_arg]
    exact hd.arg k hk c
  have hh : ∀ k, k ≠ .comment → (hasCmd d k = true ↔ l.cmd = some k) := by
    intro k hk
    rw [hasCmd_iff]
    exact hd.has k hk
  -- modes
  obtain ⟨m1, m2, _, m4, m5, m6, m7, m8, _⟩ := stepModes_spec vm d
  have x1 : Spec.xyzModeOf d = if l.cmd = some .G91 then some false else if l.cmd = some .G90 then some true else none := by
    simp only [Spec.xyzModeOf, hd.has .G91 (by decide), hd.has .G90 (by decide)]
  have x2 : Spec.eModeOf d = if l.cmd = some .M83 then some false else if l.cmd = some .M82 then some true else none := by
    simp only [Spec.eModeOf, hd.has .M83 (by decide), hd.has .M82 (by decide)]
  rw [x1] at m1
  rw [x2] at m2
  -- settings
  have hset : ∀ (v : VM ℝ) (q' : Printer), Agree v q' →
      Agree (stepSettings d v) { q' with
        acc := (if l.cmd = some .M204 then l.value pf 'P' else none).getD q'.acc
        jerk := (if l.cmd = some .M205 then l.value pf 'X' else none).getD q'.jerk } := by
    intro v q' h
    refine ⟨h.axis, h.absXYZ, h.absE, h.feed, ?_, ?_⟩
    · simp only [stepSettings, hw .M204 (by decide)]
      by_cases hc : l.cmd = some .M204
      · simp only [hc, if_true]
        cases l.value pf 'P' with
        | none => exact h.acc
        | some v => rfl
      · simp only [hc, if_false]
        exact h.acc
    · simp only [stepSettings, hw .M205 (by decide)]
      by_cases hc : l.cmd = some .M205
      · simp only [hc, if_true]
        cases l.value pf 'X' with
        | none => exact h.jerk
        | some v => rfl
      · simp only [hc, if_false]
        exact h.jerk
  -- the machine after the mode commands
  have hmode : Agree (stepModes vm d) { q with
      absXYZ := (if l.cmd = some .G91 then some false else if l.cmd = some .G90 then some true else none).getD q.absXYZ
      absE := (if l.cmd = some .M83 then some false else if l.cmd = some .M82 then some true else none).getD q.absE } := by
    refine ⟨by rw [m4, m5]; exact hv.axis, ?_, ?_, by rw [m6]; exact hv.feed, by rw [m7]; exact hv.acc,
      by rw [m8]; exact hv.jerk⟩
    · rw [m1, hv.absXYZ]
    · rw [m2, hv.absE]
  have n0 : ∀ k, k ≠ .comment → l.cmd ≠ some k → ∀ c, word d k c = none := by
    intro k hk hne c
    rw [hw k hk, if_neg hne]
  have n1 : ∀ k, k ≠ .comment → l.cmd = some k → ∀ c, word d k c = (l.value pf c).map .num := by
    intro k hk he c
    rw [hw k hk, if_pos he]
  have quiet : l.cmd ≠ some .G0 → l.cmd ≠ some .G1 → l.cmd ≠ some .G92 →
      ∃ vm', vmStep vm d = .ok vm' ∧ stepSettings d (stepModes vm d) = vm' := by
    intro a0 a1 a2
    refine ⟨stepSettings d (stepModes vm d), ?_, rfl⟩
    simp only [vmStep, bind, Except.bind, stepMove_none (n0 .G0 (by decide) a0),
      stepMove_none (n0 .G1 (by decide) a1), stepSetPos_none (n0 .G92 (by decide) a2)]
  cases hk : l.cmd with
  | none =>
    obtain ⟨vm', h1, h2⟩ := quiet (by simp [hk]) (by simp [hk]) (by simp [hk])
    have := hset _ _ hmode
    exact ⟨vm', h1, by simpa [Printer.exec, hk, h2] using this⟩
  | some k =>
    have hkc := hp.cmd k hk
    simp only [List.mem_cons, List.not_mem_nil, or_false] at hkc
    rcases hkc with rfl | rfl | rfl | rfl | rfl | rfl | rfl | rfl | rfl | rfl | rfl | rfl
    · -- G0
      obtain ⟨vm', h1, h2⟩ := stepMove_num hmode (n1 .G0 (by decide) hk)
      refine ⟨stepSettings d vm', ?_, ?_⟩
      · simp only [vmStep, bind, Except.bind, h1, stepMove_none (n0 .G1 (by decide) (by simp [hk])),
          stepSetPos_none (n0 .G92 (by decide) (by simp [hk]))]
      · have := hset _ _ h2
        unfold Printer.exec
        rw [hk]
        simp only [hk, reduceCtorEq, Option.some.injEq, if_false, Option.getD_none, Printer.abs] at this ⊢
        exact this
    · -- G1
      obtain ⟨vm', h1, h2⟩ := stepMove_num hmode (n1 .G1 (by decide) hk)
      refine ⟨stepSettings d vm', ?_, ?_⟩
      · simp only [vmStep, bind, Except.bind, stepMove_none (n0 .G0 (by decide) (by simp [hk])), h1,
          stepSetPos_none (n0 .G92 (by decide) (by simp [hk]))]
      · have := hset _ _ h2
        unfold Printer.exec
        rw [hk]
        simp only [hk, reduceCtorEq, Option.some.injEq, if_false, Option.getD_none, Printer.abs] at this ⊢
        exact this
    · obtain ⟨vm', h1, h2⟩ := quiet (by simp [hk]) (by simp [hk]) (by simp [hk])
      have := hset _ _ hmode
      exact ⟨vm', h1, by simpa [Printer.exec, hk, h2] using this⟩
    · obtain ⟨vm', h1, h2⟩ := quiet (by simp [hk]) (by simp [hk]) (by simp [hk])
      have := hset _ _ hmode
      exact ⟨vm', h1, by simpa [Printer.exec, hk, h2] using this⟩
    · obtain ⟨vm', h1, h2⟩ := quiet (by simp [hk]) (by simp [hk]) (by simp [hk])
      have := hset _ _ hmode
      exact ⟨vm', h1, by simpa [Printer.exec, hk, h2] using this⟩
    · obtain ⟨vm', h1, h2⟩ := quiet (by simp [hk]) (by simp [hk]) (by simp [hk])
      have := hset _ _ hmode
      exact ⟨vm', h1, by simpa [Printer.exec, hk, h2] using this⟩
    · -- G92
      obtain ⟨vm', h1, h2⟩ := stepSetPos_num hmode (n1 .G92 (by decide) hk) (value_zero hp hk)
      refine ⟨stepSettings d vm', ?_, ?_⟩
      · simp only [vmStep, bind, Except.bind, stepMove_none (n0 .G0 (by decide) (by simp [hk])),
          stepMove_none (n0 .G1 (by decide) (by simp [hk])), h1]
      · have := hset _ _ h2
        unfold Printer.exec
        rw [hk]
        simp only [hk, reduceCtorEq, Option.some.injEq, if_false, Option.getD_none, Printer.abs] at this ⊢
        exact this
    · obtain ⟨vm', h1, h2⟩ := quiet (by simp [hk]) (by simp [hk]) (by simp [hk])
      have := hset _ _ hmode
      exact ⟨vm', h1, by simpa [Printer.exec, hk, h2] using this⟩
    · obtain ⟨vm', h1, h2⟩ := quiet (by simp [hk]) (by simp [hk]) (by simp [hk])
      have := hset _ _ hmode
      exact ⟨vm', h1, by simpa [Printer.exec, hk, h2] using this⟩
    · obtain ⟨vm', h1, h2⟩ := quiet (by simp [hk]) (by simp [hk]) (by simp [hk])
      have := hset _ _ hmode
      exact ⟨vm', h1, by simpa [Printer.exec, hk, h2] using this⟩
    · obtain ⟨vm', h1, h2⟩ := quiet (by simp [hk]) (by simp [hk]) (by simp [hk])
      have := hset _ _ hmode
      exact ⟨vm', h1, by simpa [Printer.exec, hk, h2] using this⟩
    · obtain ⟨vm', h1, h2⟩ := quiet (by simp [hk]) (by simp [hk]) (by simp [hk])
      have := hset _ _ hmode
      exact ⟨vm', h1, by simpa [Printer.exec, hk, h2] using this⟩

theorem pauseOf_agree {d : LineDict ℝ} (hd : Reads pf l d) : pauseOf d = .ok ((l.wait pf).map .num) := by
  have hS := hd.arg .G4 (by decide) 'S'
  have hP := hd.arg .G4 (by decide) 'P'
  rw [← word_eq_arg] at hS hP
  unfold pauseOf
  rw [hS, hP, Line.wait]
  by_cases hc : l.cmd = some .G4
  · simp only [hc, if_true]
    cases l.value pf 'S' <;> cases l.value pf 'P' <;> rfl
  · simp only [hc, if_false]
    rfl

/-- A traveler state shows the printer. -/
structure GShows (s : GState ℝ) (x : Printer × Option ℝ) : Prop where
  position : s.position = x.1.point
  speed : s.settings.speed = x.1.feed
  acc : s.settings.pAcc = .num x.1.acc
  jerk : s.settings.jerk = .num x.1.jerk
  pause : s.pause = x.2.map .num

theorem travel_agree {cue : Option (List Char)} {ls : List Line} {ds : List (LineDict ℝ)}
    (hF : List.Forall₂ (Reads pf) ls ds) (hp : ∀ l ∈ ls, l.Plain pf) : ∀ {n c : Nat} {vm : VM ℝ} {q : Printer},
    Agree vm q → ∃ ss, travelLoop cue n c vm ds = .ok ss ∧ List.Forall₂ GShows ss (q.run pf ls) := by
  induction hF with
  | nil =>
    intro n c vm q _
    exact ⟨[], rfl, .nil⟩
  | @cons l d ls ds hd _ ih =>
    intro n c vm q hv
    obtain ⟨vm', h1, h2⟩ := vmStep_agree (hp l (by simp)) hd hv
    obtain ⟨ss, h3, h4⟩ := ih (fun l hl => hp l (by simp [hl])) (n := n + 1) (c := layerStep cue c d) h2
    rw [travelLoop_cons_of h1 (pauseOf_agree hd) h2.position, h3]
    exact ⟨_, rfl, .cons ⟨rfl, h2.feed, h2.acc, h2.jerk, rfl⟩ h4⟩

theorem readLines_plain (hpf : FloatLike pf) {ls : List Line} {rows : List (List Char)}
    (hF : List.Forall₂ (fun l row => row = l.text ∨ row = l.text ++ ['\n']) ls rows) (hp : ∀ l ∈ ls, l.Plain pf) :
    ∃ ds, readLines pf rows = .ok ds ∧ List.Forall₂ (Reads pf) ls ds ∧
      List.Forall₂ (fun l d => ∀ c, IsCue c.toList d ↔ l.Marks c) ls ds := by
  induction hF with
  | nil => exact ⟨[], rfl, .nil, .nil⟩
  | @cons l row ls rows h1 _ ih =>
    obtain ⟨d, g1, g2, g2'⟩ := parse_row hpf (hp l (by simp)) h1
    obtain ⟨ds, g3, g4, g4'⟩ := ih fun l hl => hp l (by simp [hl])
    refine ⟨d :: ds, ?_, .cons g2 g4, .cons g2' g4'⟩
    unfold readLines at g3 ⊢
    rw [List.mapM_cons, g1]
    simp only [bind, Except.bind, g3, pure, Except.pure]

/-! ## C67 -/

theorem resolve_printer {d : Dict (SVal ℝ)} {q : Printer} (h : PrinterOf d q) :
    ∃ m, resolveMachine d = .ok m ∧ Agree (initVM m) q := by
  obtain ⟨vx, hvx⟩ := h.limits "vX" (by simp)
  obtain ⟨vy, hvy⟩ := h.limits "vY" (by simp)
  obtain ⟨vz, hvz⟩ := h.limits "vZ" (by simp)
  obtain ⟨ve, hve⟩ := h.limits "vE" (by simp)
  have key : ∀ c, Agree (initVM { pos := fun | .X => q.place .X | .Y => q.place .Y | .Z => q.place .Z | .E => q.place .E
                                  pVel := q.feed, pAcc := q.acc, jerk := q.jerk
                                  vAx := fun | .X => vx | .Y => vy | .Z => vz | .E => ve
                                  absPos := true, absExt := true, units := .SImm, layerCue := c }) q := by
    intro c
    refine ⟨?_, h.abs.1.symm, h.abs.2.symm, rfl, rfl, rfl⟩
    intro a
    rw [h.zero a, sub_zero]
    cases a <;> exact ⟨rfl, rfl⟩
  simp only [resolveMachine, numEntry, h.x, h.y, h.z, h.e, h.feed, h.acc, h.jerk, hvx, hvy, hvz, hve, bind,
    Except.bind]
  exact ⟨_, rfl, key _⟩

theorem toPState_shows {s : GState ℝ} {x : Printer × Option ℝ} (h : GShows s x) :
    ∃ p, s.toPState = .ok p ∧ Shows p x := by
  unfold GState.toPState
  rw [h.acc, h.jerk, h.pause]
  cases hx : x.2 with
  | none => exact ⟨_, rfl, h.position, h.speed, rfl, rfl, hx.symm⟩
  | some v => exact ⟨_, rfl, h.position, h.speed, rfl, rfl, hx.symm⟩

theorem mapM_shows {gs : List (GState ℝ)} {xs : List (Printer × Option ℝ)} (h : List.Forall₂ GShows gs xs) :
    ∃ ps, gs.mapM GState.toPState = .ok ps ∧ List.Forall₂ Shows ps xs := by
  induction h with
  | nil => exact ⟨[], rfl, .nil⟩
  | cons h1 _ ih =>
    obtain ⟨p, g1, g2⟩ := toPState_shows h1
    obtain ⟨ps, g3, g4⟩ := ih
    refine ⟨p :: ps, ?_, .cons g2 g4⟩
    rw [List.mapM_cons, g1]
    simp only [bind, Except.bind, g3, pure, Except.pure]

/-- **C67.** A plain file is read as written: the states of the simulation show, line by line, what a printer
does that executes the lines from the place and settings of the setup. -/
theorem c67_read_as_written (hpf : FloatLike pf) {d : Dict (SVal ℝ)} {q : Printer} (hq : PrinterOf d q)
    {ls : List Line} (hp : ∀ l ∈ ls, l.Plain pf) {content : List Char} (hc : FileOf ls content) :
    ∃ ps, fileStates pf d content = .ok ps ∧ List.Forall₂ Shows ps ((q, none) :: q.run pf ls) := by
  obtain ⟨text, rows, h1, h2, h3⟩ := hc
  obtain ⟨ds, h4, h5, _⟩ := readLines_plain hpf h3 hp
  obtain ⟨m, h6, h7⟩ := resolve_printer hq
  obtain ⟨ss, h8, h9⟩ := travel_agree (cue := m.layerCue) h5 hp (n := 1) (c := 0) h7
  have hgen : ∃ s, generateStates pf m content = .ok (s :: ss) ∧ GShows s (q, none) := by
    simp only [generateStates, fileLines_eq h1 h2, h4, bind, Except.bind, dictListTraveler, h7.position, h8]
    exact ⟨_, rfl, rfl, h7.feed, h7.acc, h7.jerk, rfl⟩
  obtain ⟨s, h10, h11⟩ := hgen
  obtain ⟨ps, h12, h13⟩ := mapM_shows (.cons h11 h9)
  refine ⟨ps, ?_, h13⟩
  simp only [fileStates, h6, h10, bind, Except.bind]
  exact h12

theorem countP_marks {c : String} {ls : List Line} {ds : List (LineDict ℝ)} (p : LineDict ℝ → Bool) (r : Line → Bool)
    (h : List.Forall₂ (fun l d => ∀ c, IsCue c.toList d ↔ l.Marks c) ls ds)
    (hp : ∀ d, p d = true ↔ IsCue c.toList d) (hr : ∀ l, r l = true ↔ l.Marks c) (i : Nat) :
    (ds.take i).countP p = (ls.take i).countP r := by
  induction h generalizing i with
  | nil => simp
  | @cons l d ls ds h1 _ ih =>
    cases i with
    | zero => rfl
    | succ i =>
      rw [List.take_succ_cons, List.take_succ_cons, List.countP_cons, List.countP_cons, ih i]
      have : p d = true ↔ r l = true := by rw [hp, hr, h1]
      simp only [this]

theorem no_cue_newline (c : List Char) (x : LineDict ℝ) : ¬ IsCue ('\n' :: c) x := by
  rintro ⟨t, _, _, _, _, _, _, h, _⟩
  exact h '\n' rfl (by simp [Blank])

open Classical in
/-- **C67.** The layers, too, are those that the lines say: with a layer cue, the layer of a state is the number of
lines so far whose comment is the cue; the first state, and every state without a cue, has none. With a cue that is not a
text all states but the first are in layer 0. -/
theorem c67_layers (hpf : FloatLike pf) {d : Dict (SVal ℝ)} (hd : SetupAccepted d)
    {ls : List Line} (hp : ∀ l ∈ ls, l.Plain pf) {content : List Char} (hc : FileOf ls content)
    {ps : List (PState ℝ)} (h : fileStates pf d content = .ok ps) {i : Nat} {s : PState ℝ} (hs : ps[i]? = some s) :
    (i = 0 → s.layer = none) ∧ (d.lookup "layer_cue" = none → s.layer = none) ∧
      (∀ v, d.lookup "layer_cue" = some v → (∀ c, v ≠ .text c) → i ≠ 0 → s.layer = some 0) ∧
      ∀ c, d.lookup "layer_cue" = some (.text c) → i ≠ 0 →
        s.layer = some ((ls.take i).countP fun l => decide (l.Marks c)) := by
  obtain ⟨text, rows, h1, h2, h3⟩ := hc
  obtain ⟨ds, h4, h5, h5'⟩ := readLines_plain hpf h3 hp
  obtain ⟨m, gs, hm, hg, hF⟩ := c57_machine_resolved ((c46_validation d).1.2 hd) h
  have hg' : dictListTraveler m ds = .ok gs := by
    simpa only [generateStates, fileLines_eq h1 h2, h4, bind, Except.bind] using hg
  obtain ⟨g, hgi, hgs⟩ : ∃ g, gs[i]? = some g ∧ SameNumbers g s := by
    obtain ⟨hi, rfl⟩ := List.getElem?_eq_some_iff.1 hs
    have hi' : i < gs.length := by rw [hF.length_eq]; exact hi
    exact ⟨_, List.getElem?_eq_getElem hi', List.Forall₂.get hF hi' hi⟩
  have hl := c12_layer_counts hg' hgi
  rw [hgs.layer, hl]
  refine ⟨fun h0 => by rw [if_pos h0], ?_, ?_, ?_⟩
  · intro hn
    rw [hm.noCue.1 hn]
    split <;> rfl
  · intro v hv hn h0
    obtain ⟨c, hc⟩ := hm.otherCue v hv hn
    rw [if_neg h0, hc, Option.map_some]
    congr 1
    rw [List.countP_eq_zero]
    intro x _
    rw [decide_eq_true_eq]
    exact no_cue_newline c x
  · intro c hcue h0
    rw [if_neg h0, hm.cue c hcue, Option.map_some]
    congr 1
    exact countP_marks _ _ h5' (fun d => by rw [decide_eq_true_eq]) (fun l => by rw [decide_eq_true_eq]) i

/-! ## C69: plain files are simulated as written -/

/-- Where a run stands before one of its lines. -/
theorem run_split {q : Printer} {ls : List Line} {pre post : List (Printer × Option ℝ)} {x : Printer × Option ℝ}
    (h : q.run pf ls = pre ++ x :: post) :
    ∃ lp l lq r, ls = lp ++ l :: lq ∧ pre = q.run pf lp ∧ (((q, none) :: pre).getLast?).map Prod.fst = some r ∧
      x = (r.exec pf l, l.wait pf) := by
  induction ls generalizing q pre with
  | nil => simp [Printer.run] at h
  | cons l ls ih =>
    rw [Printer.run] at h
    cases pre with
    | nil =>
      rw [List.nil_append, List.cons.injEq] at h
      exact ⟨[], l, ls, q, rfl, rfl, rfl, h.1.symm⟩
    | cons y pre =>
      rw [List.cons_append, List.cons.injEq] at h
      obtain ⟨lp, l', lq, r, h1, h2, h3, h4⟩ := ih h.2
      refine ⟨l :: lp, l', lq, r, by rw [h1]; rfl, ?_, ?_, h4⟩
      · rw [Printer.run, ← h2, h.1]
      · cases pre with
        | nil =>
          rw [List.getLast?_singleton, Option.map_some, Option.some.injEq] at h3
          rw [← h3, ← h.1]
          rfl
        | cons z pre =>
          rw [List.getLast?_cons_cons] at h3
          rw [List.getLast?_cons_cons, List.getLast?_cons_cons]
          exact h3

/-- A line that waits does not move. -/
theorem exec_wait {q : Printer} {l : Line} (h : l.wait pf ≠ none) : q.exec pf l = q := by
  unfold Line.wait at h
  by_cases hc : l.cmd = some .G4
  · unfold Printer.exec
    rw [hc]
  · rw [if_neg hc] at h
    exact absurd rfl h

/-- The settings of a workable run stay usable. -/
theorem run_settings {q : Printer} {ls : List Line} (h0 : 0 < q.feed ∧ 0 < q.acc ∧ 0 ≤ q.jerk)
    (h1 : ∀ l ∈ ls, l.cmd = some .G0 ∨ l.cmd = some .G1 → ∀ v ∈ l.value pf 'F', 0 < v)
    (h2 : ∀ l ∈ ls, l.cmd = some .M204 → ∀ v ∈ l.value pf 'P', 0 < v)
    (h3 : ∀ l ∈ ls, l.cmd = some .M205 → ∀ v ∈ l.value pf 'X', 0 ≤ v) :
    ∀ x ∈ q.run pf ls, 0 < x.1.feed ∧ 0 < x.1.acc ∧ 0 ≤ x.1.jerk := by
  induction ls generalizing q with
  | nil => simp [Printer.run]
  | cons l ls ih =>
    have hq : 0 < (q.exec pf l).feed ∧ 0 < (q.exec pf l).acc ∧ 0 ≤ (q.exec pf l).jerk := by
      have g1 := h1 l (by simp)
      have g2 := h2 l (by simp)
      have g3 := h3 l (by simp)
      unfold Printer.exec
      split
      · refine ⟨?_, h0.2⟩
        rename_i hc
        cases hv : l.value pf 'F' with
        | none => exact h0.1
        | some v => exact div_pos (g1 (Or.inl hc) v hv) (by norm_num)
      · refine ⟨?_, h0.2⟩
        rename_i hc
        cases hv : l.value pf 'F' with
        | none => exact h0.1
        | some v => exact div_pos (g1 (Or.inr hc) v hv) (by norm_num)
      · exact h0
      · exact h0
      · exact h0
      · exact h0
      · exact h0
      · rename_i hc
        refine ⟨h0.1, ?_, h0.2.2⟩
        cases hv : l.value pf 'P' with
        | none => simpa [hv] using h0.2.1
        | some v => simpa [hv] using g2 hc v hv
      · rename_i hc
        refine ⟨h0.1, h0.2.1, ?_⟩
        cases hv : l.value pf 'X' with
        | none => simpa [hv] using h0.2.2
        | some v => simpa [hv] using g3 hc v hv
      · exact h0
    intro x hx
    rw [Printer.run, List.mem_cons] at hx
    rcases hx with rfl | hx
    · exact hq
    · exact ih hq (fun l hl => h1 l (List.mem_cons_of_mem _ hl)) (fun l hl => h2 l (List.mem_cons_of_mem _ hl))
        (fun l hl => h3 l (List.mem_cons_of_mem _ hl)) x hx

theorem shows_split {α β : Type} {R : α → β → Prop} {as pre post : List α} {a : α} {bs : List β}
    (h : List.Forall₂ R as bs) (he : as = pre ++ a :: post) :
    ∃ pre' b post', bs = pre' ++ b :: post' ∧ R a b ∧ List.Forall₂ R pre pre' := by
  subst he
  induction pre generalizing bs with
  | nil =>
    cases h with
    | cons h1 h2 => exact ⟨[], _, _, rfl, h1, .nil⟩
  | cons x pre ih =>
    cases h with
    | cons h1 h2 =>
      obtain ⟨pre', b, post', g1, g2, g3⟩ := ih h2
      exact ⟨_ :: pre', b, post', by rw [g1]; rfl, g2, .cons h1 g3⟩

theorem shows_last {α β : Type} {R : α → β → Prop} {as : List α} {bs : List β} (h : List.Forall₂ R as bs)
    {b : β} (hb : bs.getLast? = some b) : ∃ a, as.getLast? = some a ∧ R a b := by
  induction h with
  | nil => cases hb
  | @cons x y xs ys h1 h2 ih =>
    cases h2 with
    | nil =>
      cases hb
      exact ⟨_, rfl, h1⟩
    | cons h3 h4 =>
      rw [List.getLast?_cons_cons] at hb ⊢
      exact ih hb

theorem shows_mem {α β : Type} {R : α → β → Prop} {as : List α} {bs : List β} (h : List.Forall₂ R as bs)
    {b : β} (hb : b ∈ bs) : ∃ a ∈ as, R a b := by
  induction h with
  | nil => cases hb
  | cons h1 h2 ih =>
    rcases List.mem_cons.1 hb with rfl | hb
    · exact ⟨_, by simp, h1⟩
    · obtain ⟨a, ha, hr⟩ := ih hb
      exact ⟨a, List.mem_cons_of_mem _ ha, hr⟩

/-- The states of a workable run can be planned. -/
theorem workable_regular {q : Printer} {ls : List Line} (hw : Workable pf q ls) {ps : List (PState ℝ)}
    (h : List.Forall₂ Shows ps ((q, none) :: q.run pf ls)) : Regular ps ∧ active none ps ≠ [] := by
  have hset := run_settings (pf := pf) hw.settings hw.feed hw.acc hw.jerk
  have hall : ∀ s ∈ ps, ∃ x ∈ (q, none) :: q.run pf ls, Shows s x := by
    intro s hs
    exact shows_mem h.flip hs
  have hset' : ∀ x ∈ (q, none) :: q.run pf ls, 0 < x.1.feed ∧ 0 < x.1.acc ∧ 0 ≤ x.1.jerk := by
    intro x hx
    rcases List.mem_cons.1 hx with rfl | hx
    · exact hw.settings
    · exact hset x hx
  have hpre : ∀ pre s post, ps = pre ++ s :: post → s.pause ≠ none →
      ∃ y yp lp l lq r, pre = y :: yp ∧ Shows y (q, none) ∧ List.Forall₂ Shows yp (q.run pf lp) ∧
        ls = lp ++ l :: lq ∧ (((q, none) :: q.run pf lp).getLast?).map Prod.fst = some r ∧
        l.wait pf ≠ none ∧ s.pause = l.wait pf ∧ s.position = (r.exec pf l).point := by
    intro pre s post he hp
    obtain ⟨pre', b, post', g1, g2, g3⟩ := shows_split h he
    cases pre' with
    | nil =>
      rw [List.nil_append, List.cons.injEq] at g1
      rw [g2.pause, ← g1.1] at hp
      exact absurd rfl hp
    | cons z pre' =>
      rw [List.cons_append, List.cons.injEq] at g1
      obtain ⟨lp, l, lq, r, e1, e2, e3, e4⟩ := run_split g1.2
      cases g3 with
      | cons k1 k2 =>
        rw [← g1.1] at k1
        subst e4
        refine ⟨_, _, lp, l, lq, r, rfl, k1, by rw [← e2]; exact k2, e1, by rw [← e2]; exact e3, ?_,
          g2.pause, g2.position⟩
        rw [g2.pause] at hp
        exact hp
  refine ⟨⟨?_, ?_, ?_, ?_, ?_, ?_⟩, ?_⟩
  · intro s hs
    obtain ⟨x, hx, hsx⟩ := hall s hs
    rw [hsx.speed]
    exact (hset' x hx).1
  · intro s hs
    obtain ⟨x, hx, hsx⟩ := hall s hs
    rw [hsx.acc]
    exact (hset' x hx).2.1
  · intro s hs
    obtain ⟨x, hx, hsx⟩ := hall s hs
    rw [hsx.jerk]
    exact (hset' x hx).2.2
  · intro s hs p hp
    obtain ⟨pre, post, he⟩ := List.append_of_mem hs
    obtain ⟨_, _, lp, l, lq, _, _, _, _, e1, _, _, e3, _⟩ := hpre pre s post he (by rw [hp]; simp)
    rw [e3] at hp
    exact hw.wait l (by rw [e1]; simp) p hp
  · intro pre s post he hp
    obtain ⟨y, yp, lp, l, lq, r, e0, k1, k2, e1, e2, e3, e4, e5⟩ := hpre pre s post he hp
    cases hl : ((q, none) :: q.run pf lp).getLast? with
    | none => rw [hl] at e2; cases e2
    | some x =>
      rw [hl, Option.map_some, Option.some.injEq] at e2
      obtain ⟨A, hA, hAx⟩ := shows_last (List.Forall₂.cons k1 k2) hl
      refine ⟨A, by rw [e0]; exact hA, ?_⟩
      rw [e5, exec_wait e3, hAx.position, e2]
  · intro pre s post he hp
    obtain ⟨y, yp, lp, l, lq, r, e0, k1, k2, e1, e2, e3, e4, e5⟩ := hpre pre s post he hp
    obtain ⟨x, hx, hxq⟩ := hw.warm lp l lq e1 e3
    obtain ⟨z, hz, hzx⟩ := shows_mem k2 hx
    refine ⟨z, by rw [e0]; simp [hz], y, by rw [e0]; simp, ?_⟩
    rw [hzx.position, k1.position]
    exact hxq
  · obtain ⟨x, hx, hxq⟩ := hw.moves
    cases h with
    | @cons s0 _ ss _ k1 k2 =>
      obtain ⟨z, hz, hzx⟩ := shows_mem k2 hx
      have hne : z.position ≠ s0.position := by
        rw [hzx.position, k1.position]
        exact hxq
      intro hnil
      have key : ∀ (ss : List (PState ℝ)) (pa : PState ℝ), active (some pa) ss = [] →
          ∀ z ∈ ss, z.position = pa.position := by
        intro ss
        induction ss with
        | nil => simp
        | cons s ss ih =>
          intro pa ha z hz
          by_cases hs : s.pause ≠ none ∨ ∃ A, some pa = some A ∧ s.position ≠ A.position
          · rw [active_cons_take _ hs] at ha
            cases ha
          · push Not at hs
            rw [active_cons_skip _ (fun A' hA' => hs.2 A' hA') hs.1] at ha
            rcases List.mem_cons.1 hz with rfl | hz
            · exact hs.2 _ rfl
            · rw [ih s ha z hz]
              exact hs.2 _ rfl
      rw [active_cons_skip _ (by rintro A ⟨⟩) k1.pause] at hnil
      exact hne (key ss s0 hnil z hz)

/-- **C69.** A plain file is simulated as written: it gives a simulation, and the machine visits the places of a
printer that executes the lines, in order and straight, from time `0` to the end of the print, waiting where and
as long as the lines say. Whatever was asked before and in whichever unit, `get_values` gives these
positions. -/
theorem c69_simulated_as_written (hpf : FloatLike pf) {d : Dict (SVal ℝ)} (hd : SetupAccepted d) {q : Printer}
    (hq : PrinterOf d q) {ls : List Line} (hp : ∀ l ∈ ls, l.Plain pf) (hw : Workable pf q ls)
    {content : List Char} (hc : FileOf ls content) :
    ∃ bs T τ pos, simulateFile pf d content = .ok bs ∧ EndTime (Spec.path bs) T ∧
      Itinerary (((q, none) :: q.run pf ls).map fun x => (x.1.point, x.2)) τ T pos ∧
      ∀ own u f, InUnit (Option.getD u own) f → ∀ start history t,
        (0 ≤ t → t < T → ∃ v p,
          (getValues (unpack bs) own u t (queryHistory (unpack bs) own history start)).1 = .ok (v, p)) ∧
        ∀ v p, (getValues (unpack bs) own u t (queryHistory (unpack bs) own history start)).1 = .ok (v, p) →
          p = (pos t).mul f := by
  obtain ⟨ps, h1, h2⟩ := c67_read_as_written hpf hq hp hc
  have hmap : ps.map place = ((q, none) :: q.run pf ls).map fun x => (x.1.point, x.2) := by
    clear h1
    generalize (q, none) :: q.run pf ls = xs at h2
    induction h2 with
    | nil => rfl
    | cons k _ ih => rw [List.map_cons, List.map_cons, ih, place, k.position, k.pause]
  obtain ⟨hreg, hact⟩ := workable_regular hw h2
  obtain ⟨bs, h3, h4, hne⟩ := simulate_ok (firmwareOf d) hreg hact
  obtain ⟨s, s', _, _, h5, _⟩ := unpack_ends hreg h4 hne
  have hT := endTime_path h5
  obtain ⟨τ, pos, h6, h7⟩ := c68_itinerary hreg h4 hT
  refine ⟨bs, _, τ, pos, ?_, hT, ?_, h7⟩
  · simp only [simulateFile, (c46_validation d).1.2 hd, h1, h3, bind, Except.bind]
  · rw [← hmap]
    exact h6

/-! ### A whole file -/

/-- A number syntax that knows two numbers. -/
noncomputable def Demo.num (cs : List Char) : Option ℝ :=
  if cs = ['1', '0'] then some 10 else if cs = ['0'] then some 0 else none

/-- The lines of a file with moves, a retreat to zero of the extruder, a dwell, an unknown command and a comment. -/
def Demo.plain : List Line :=
  [⟨some .G1, [⟨1, 'X', ['1', '0']⟩, ⟨1, 'F', ['1', '0']⟩], 1, some [' ', 'g', 'o'], []⟩,
    ⟨some .M83, [], 0, none, []⟩,
    ⟨some .G92, [⟨1, 'E', ['0']⟩], 0, none, []⟩,
    ⟨none, [], 0, some ['!'], "M18".toList⟩,
    ⟨some .G4, [⟨1, 'P', ['1', '0']⟩], 0, none, []⟩,
    ⟨some .G1, [⟨1, 'E', ['1', '0']⟩], 0, none, []⟩]

/-- The text of the file, with mixed line breaks. -/
def Demo.plainText : List Char := "G1 X10 F10 ; go\r\nM83\rG92 E0\nM18;!\nG4 P10\nG1 E10".toList

/-- A setup dictionary. -/
noncomputable def Demo.plainSetup : Dict (SVal ℝ) :=
  [("p_vel", .num 35), ("p_acc", .num 200), ("jerk", .num 10), ("vX", .num 180), ("vY", .num 180),
    ("vZ", .num 30), ("vE", .num 33), ("X", .num 1), ("Y", .num 2), ("Z", .num 3), ("E", .num 4),
    ("printer_name", .text "p"), ("firmware", .text "klipper")]

/-- The printer that it describes. -/
noncomputable def Demo.printer : Printer :=
  ⟨fun | .X => 1 | .Y => 2 | .Z => 3 | .E => 4, fun _ => 0, true, true, 35, 200, 10⟩

theorem Demo.num_floatLike : FloatLike Demo.num where
  empty := by simp [Demo.num]
  letter := by
    intro l c t hl _
    have h1 : l ≠ '1' := by rintro rfl; simp at hl
    simp [Demo.num, h1]

theorem Demo.plain_lines : ∀ l ∈ Demo.plain, l.Plain Demo.num := by
  have hc : ∀ t : List Char, 'G' ∉ t → 'M' ∉ t → ∀ k, k ≠ .comment → ∀ i, ¬ OccursAt (name k) t i := by
    intro t hG hM k hk i h
    have hm : ∀ c ∈ name k, c ∈ t := fun c hc => List.mem_of_mem_drop (h.subset hc)
    have : 'G' ∈ name k ∨ 'M' ∈ name k := by
      cases k <;> simp [name] at hk ⊢
    rcases this with h | h
    · exact hG (hm _ h)
    · exact hM (hm _ h)
  have ho : ∀ k i, ¬ OccursAt (name k) ['M', '1', '8'] i := by
    intro k i
    by_cases hi : i < 3
    · have : i = 0 ∨ i = 1 ∨ i = 2 := by omega
      rcases this with rfl | rfl | rfl <;> cases k <;> simp [OccursAt, name]
    · unfold OccursAt
      rw [List.drop_eq_nil_of_le (by simpa using hi)]
      cases k <;> simp [name]
  intro l hl
  simp only [Demo.plain, List.mem_cons, List.not_mem_nil, or_false] at hl
  rcases hl with rfl | rfl | rfl | rfl | rfl | rfl <;>
    exact ⟨by simp, by simp, by simp [ho], by simp [plainLetters], by simp, by simp [Demo.num, numChars], by simp [Demo.num],
      by
        intro t ht
        simp only [Option.some.injEq, reduceCtorEq] at ht
        try subst ht
        try exact hc _ (by simp) (by simp)⟩

theorem Demo.plain_file : FileOf Demo.plain Demo.plainText := by
  refine ⟨"G1 X10 F10 ; go\nM83\nG92 E0\nM18;!\nG4 P10\nG1 E10".toList, ["G1 X10 F10 ; go\n".toList, "M83\n".toList,
    "G92 E0\n".toList, "M18;!\n".toList, "G4 P10\n".toList, "G1 E10".toList], ?_, ?_, ?_⟩
  · repeat' first | exact .nil | refine .crlf ?_ | refine .other (by decide) ?_ | refine .cr (by decide) ?_
  · exact .line (l := "G1 X10 F10 ; go".toList) (by decide) (.line (l := "M83".toList) (by decide)
      (.line (l := "G92 E0".toList) (by decide) (.line (l := "M18;!".toList) (by decide)
        (.line (l := "G4 P10".toList) (by decide) (.open (l := "G1 E10".toList) (by decide) (by decide))))))
  · exact .cons (Or.inr rfl) (.cons (Or.inr rfl) (.cons (Or.inr rfl) (.cons (Or.inr rfl) (.cons (Or.inr rfl)
      (.cons (Or.inl rfl) .nil)))))

theorem Demo.printer_of : PrinterOf Demo.plainSetup Demo.printer :=
  ⟨rfl, rfl, rfl, rfl, fun _ => rfl, ⟨rfl, rfl⟩, rfl, rfl, rfl, by
    intro k hk
    simp only [List.mem_cons, List.not_mem_nil, or_false] at hk
    rcases hk with rfl | rfl | rfl | rfl <;> exact ⟨_, rfl⟩⟩

/-- The hypotheses of `c67_read_as_written` hold for the file. -/
example : ∃ ps, fileStates Demo.num Demo.plainSetup Demo.plainText = .ok ps ∧
    List.Forall₂ Shows ps ((Demo.printer, none) :: Demo.printer.run Demo.num Demo.plain) :=
  c67_read_as_written Demo.num_floatLike Demo.printer_of Demo.plain_lines Demo.plain_file

theorem Demo.first_move : (Demo.printer.exec Demo.num
    ⟨some .G1, [⟨1, 'X', ['1', '0']⟩, ⟨1, 'F', ['1', '0']⟩], 1, some [' ', 'g', 'o'], []⟩).point ≠
    Demo.printer.point := by
  intro h
  have := congrArg Vec4.x h
  simp [Printer.exec, Printer.point, Line.value, Demo.num, Demo.printer, letter, Printer.abs] at this

theorem Demo.workable : Workable Demo.num Demo.printer Demo.plain where
  settings := by simp [Demo.printer]
  feed := by simp [Demo.plain, Line.value, Demo.num]
  acc := by simp [Demo.plain]
  jerk := by simp [Demo.plain]
  wait := by
    simp [Demo.plain, Line.wait, Line.value, Demo.num]
    norm_num
  warm := by
    intro pre l post he hl
    cases pre with
    | nil =>
      rw [List.nil_append, Demo.plain, List.cons.injEq] at he
      rw [← he.1] at hl
      simp [Line.wait] at hl
    | cons y pre =>
      rw [List.cons_append, Demo.plain, List.cons.injEq] at he
      refine ⟨_, List.mem_cons_self, ?_⟩
      rw [← he.1]
      exact Demo.first_move
  moves := ⟨_, List.mem_cons_self, Demo.first_move⟩

/-- The hypotheses of `c69_simulated_as_written` hold for the file. -/
example : ∃ bs T τ pos, simulateFile Demo.num Demo.plainSetup Demo.plainText = .ok bs ∧
    EndTime (Spec.path bs) T ∧
    Itinerary (((Demo.printer, none) :: Demo.printer.run Demo.num Demo.plain).map fun x => (x.1.point, x.2))
      τ T pos ∧ τ 5 = τ 4 + 0.01 := by
  have hacc : SetupAccepted Demo.plainSetup := by
    refine ⟨by decide, ?_⟩
    intro k hk
    rw [← mem_keys_iff] at hk
    exact Or.inl hk
  obtain ⟨bs, T, τ, pos, h1, h2, h3, _⟩ := c69_simulated_as_written Demo.num_floatLike hacc Demo.printer_of
    Demo.plain_lines Demo.workable Demo.plain_file
  refine ⟨bs, T, τ, pos, h1, h2, h3, h3.wait 4 _ 0.01 rfl ?_⟩
  simp [Line.wait, Line.value, Demo.num]
  norm_num

end PyGCD
