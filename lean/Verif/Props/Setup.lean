import Verif.Spec.Setups
import Verif.Props.Output

/-!
# Properties C34 (initial position) and C45 to C47: the setup object and the constructor of the simulation
-/

set_option linter.unusedSectionVars false
set_option linter.unusedSimpArgs false

namespace PyGCD
open Vec4 Spec

/-! ## Dictionaries -/

section
variable {V : Type}

theorem lookup_cons_eq (k k' : String) (v : V) (d : Dict V) :
    List.lookup k ((k', v) :: d) = if k = k' then some v else List.lookup k d := by
  by_cases h : k = k'
  · subst h
    simp [List.lookup]
  · have : (k == k') = false := by simpa using h
    simp [List.lookup, this, h]

theorem lookup_dictSet (d : Dict V) (k k' : String) (v : V) :
    (dictSet d k v).lookup k' = if k' = k then some v else d.lookup k' := by
  induction d with
  | nil => simp [dictSet, lookup_cons_eq]
  | cons p d ih =>
    obtain ⟨a, w⟩ := p
    unfold dictSet
    by_cases h : a = k
    · subst h
      rw [if_pos rfl, lookup_cons_eq, lookup_cons_eq]
      split <;> rfl
    · rw [if_neg h, lookup_cons_eq, lookup_cons_eq, ih]
      by_cases h1 : k' = a
      · rw [if_pos h1, if_pos h1, if_neg (by rw [h1]; exact h)]
      · rw [if_neg h1, if_neg h1]

theorem keys_dictSet (d : Dict V) (k : String) (v : V) :
    (dictSet d k v).map Prod.fst = if k ∈ d.map Prod.fst then d.map Prod.fst else d.map Prod.fst ++ [k] := by
  induction d with
  | nil => simp [dictSet]
  | cons p d ih =>
    obtain ⟨a, w⟩ := p
    unfold dictSet
    by_cases h : a = k
    · subst h
      simp
    · rw [if_neg h, List.map_cons, ih, List.map_cons]
      have : (k ∈ a :: d.map Prod.fst) ↔ k ∈ d.map Prod.fst := by
        simp [Ne.symm h]
      simp only [this]
      split <;> simp

theorem lookup_none_of_not_mem {d : Dict V} {k : String} (h : k ∉ d.map Prod.fst) : d.lookup k = none := by
  induction d with
  | nil => rfl
  | cons p d ih =>
    obtain ⟨a, w⟩ := p
    rw [List.map_cons, List.mem_cons, not_or] at h
    rw [lookup_cons_eq, if_neg h.1, ih h.2]

theorem mem_keys_iff {d : Dict V} {k : String} : k ∈ d.map Prod.fst ↔ (d.lookup k).isSome := by
  induction d with
  | nil => simp
  | cons p d ih =>
    obtain ⟨a, w⟩ := p
    rw [List.map_cons, List.mem_cons, lookup_cons_eq, ih]
    by_cases h : k = a
    · simp [h]
    · simp [h]

theorem lookup_dictUpdate (u : Dict V) : ∀ (d : Dict V), (u.map Prod.fst).Nodup → ∀ k,
    (dictUpdate d u).lookup k = (u.lookup k).or (d.lookup k) := by
  unfold dictUpdate
  induction u with
  | nil => intro d _ k; simp
  | cons p u ih =>
    obtain ⟨a, w⟩ := p
    intro d hu k
    rw [List.map_cons, List.nodup_cons] at hu
    rw [List.foldl_cons, ih _ hu.2, lookup_dictSet, lookup_cons_eq]
    by_cases h : k = a
    · subst h
      rw [lookup_none_of_not_mem hu.1]
      simp
    · simp [h]

theorem nodup_dictSet (d : Dict V) (k : String) (v : V) (h : (d.map Prod.fst).Nodup) :
    ((dictSet d k v).map Prod.fst).Nodup := by
  rw [keys_dictSet]
  split
  · exact h
  · rename_i hk
    rw [List.nodup_append]
    refine ⟨h, by simp, ?_⟩
    intro a ha b hb hab
    rw [List.mem_singleton] at hb
    exact hk (by rw [← hb, ← hab]; exact ha)

theorem nodup_dictUpdate (u : Dict V) : ∀ (d : Dict V), (d.map Prod.fst).Nodup →
    ((dictUpdate d u).map Prod.fst).Nodup := by
  unfold dictUpdate
  induction u with
  | nil => exact fun d h => h
  | cons p u ih => exact fun d h => ih _ (nodup_dictSet d _ _ h)

theorem lookup_map {W : Type} (g : V → W) (d : Dict V) (k : String) :
    List.lookup k (d.map fun q => (q.1, g q.2)) = (d.lookup k).map g := by
  induction d with
  | nil => rfl
  | cons p d ih =>
    obtain ⟨a, w⟩ := p
    rw [List.map_cons, lookup_cons_eq, lookup_cons_eq, ih]
    split <;> rfl

end

/-! ## C45 -/

/-- One call on the object; a failing call raises and leaves it unchanged. -/
noncomputable def Setup.call (s : Setup ℝ) : SetupOp → Setup ℝ
  | .select n => match s.selectPrinter n with | .ok s' => s' | .error _ => s
  | .setProps props => match s.setProperty props with | .ok s' => s' | .error _ => s
  | .setPos a u => match s.setInitialPosition a u with | .ok s' => s' | .error _ => s
  | .read => match s.getDict with | .ok r => r.2 | .error _ => s

/-- Keys that `get_dict` overwrites. -/
def Overwritten (cue : Option String) (k : String) : Prop :=
  k = "printer_name" ∨ (k = "layer_cue" ∧ cue.isSome) ∨ k ∈ ["X", "Y", "Z", "E"]

/-- The object agrees with the book. -/
structure Agrees (presets : Dict (Dict (SVal ℝ))) (cue : Option String) (s : Setup ℝ) (bk : Book) : Prop where
  sel : s.printer = bk.selected
  hcue : s.layerCue = cue
  known : ∀ p, bk.selected = some p → (presets.lookup p).isSome
  nodup : (s.initialPosition.map Prod.fst).Nodup
  pos : ∀ k, s.initialPosition.lookup k = if k ∈ ["X", "Y", "Z", "E"] then some (bk.pos k) else none
  same : ∀ p, (s.presets.lookup p).isSome = (presets.lookup p).isSome
  entry : ∀ p d, s.presets.lookup p = some d → ∀ k, ¬ Overwritten cue k →
    d.lookup k = (bk.props p k).or ((presets.lookup p).bind fun d => d.lookup k)

theorem getDict_spec {presets : Dict (Dict (SVal ℝ))} {cue : Option String} {s : Setup ℝ} {bk : Book}
    (h : Agrees presets cue s bk) :
    (bk.selected = none → s.getDict = .error .keyError) ∧
    ∀ p, bk.selected = some p → ∃ d s', s.getDict = .ok (d, s') ∧ Agrees presets cue s' bk ∧
      s'.presets.lookup p = some d ∧ ∀ k, d.lookup k = bk.wanted presets cue p k := by
  constructor
  · intro hn
    unfold Setup.getDict
    rw [h.sel, hn]
  · intro p hp
    obtain ⟨d0, hd0⟩ := Option.isSome_iff_exists.1 ((h.same p).trans (h.known p hp))
    let d1 := dictUpdate d0 (s.initialPosition.map fun q => (q.1, SVal.num q.2))
    let d2 := match cue with
      | some c => dictSet d1 "layer_cue" (.text c)
      | none => d1
    let d3 := dictSet d2 "printer_name" (.text p)
    have hkeys : (s.initialPosition.map fun q => (q.1, SVal.num q.2)).map Prod.fst =
        s.initialPosition.map Prod.fst := by rw [List.map_map]; rfl
    have h1 : ∀ k, d1.lookup k = if k ∈ ["X", "Y", "Z", "E"] then some (.num (bk.pos k)) else d0.lookup k := by
      intro k
      show (dictUpdate d0 _).lookup k = _
      rw [lookup_dictUpdate _ _ (by rw [hkeys]; exact h.nodup), lookup_map, h.pos]
      split <;> simp
    have h2 : ∀ k, d2.lookup k = if k = "layer_cue" ∧ cue.isSome then cue.map .text else d1.lookup k := by
      intro k
      show (match cue with | some c => dictSet d1 "layer_cue" (.text c) | none => d1).lookup k = _
      cases cue with
      | none => simp
      | some c =>
        simp only [lookup_dictSet, Option.isSome_some, and_true, Option.map_some]
    have h3 : ∀ k, d3.lookup k = if k = "printer_name" then some (.text p) else d2.lookup k :=
      fun k => lookup_dictSet _ _ _ _
    have hres : s.getDict = .ok (d3, { s with presets := dictSet s.presets p d3 }) := by
      unfold Setup.getDict
      rw [h.sel, hp]
      simp only [hd0, h.hcue]
      rfl
    refine ⟨d3, _, hres, ?_, by rw [lookup_dictSet, if_pos rfl], ?_⟩
    · refine ⟨h.sel, h.hcue, h.known, h.nodup, h.pos, ?_, ?_⟩
      · intro q
        simp only [lookup_dictSet]
        split
        · rename_i hq
          rw [hq, h.known p hp]
          rfl
        · exact h.same q
      · intro q d hd k hk
        simp only [lookup_dictSet] at hd
        split at hd
        · rename_i hq
          subst hq
          rw [Option.some.injEq] at hd
          subst hd
          unfold Overwritten at hk
          push Not at hk
          rw [h3, if_neg hk.1, h2, if_neg (by rintro ⟨a, b⟩; exact hk.2.1 a b), h1, if_neg hk.2.2]
          exact h.entry q d0 hd0 k (by unfold Overwritten; push Not; exact hk)
        · exact h.entry q d hd k hk
    · intro k
      unfold Book.wanted
      rw [h3]
      split
      · rfl
      · rename_i n1
        rw [h2]
        split
        · rfl
        · rename_i n2
          rw [h1]
          split
          · rfl
          · rename_i n3
            exact h.entry p d0 hd0 k (by
              unfold Overwritten
              rintro (a | a | a)
              · exact n1 a
              · exact n2 a
              · exact n3 a)

theorem setupScaling_eq (u : String) : (setupScaling u : Except PyErr ℝ) =
    match mmPer u with | some f => .ok f | none => .error .keyError := by
  unfold setupScaling mmPer
  split
  · rfl
  · split
    · rfl
    · split <;> rfl

theorem agrees_call {presets : Dict (Dict (SVal ℝ))} {cue : Option String} {s : Setup ℝ} {bk : Book}
    (h : Agrees presets cue s bk) (op : SetupOp) (hop : op.WellFormed) :
    Agrees presets cue (s.call op) (bk.note presets op) := by
  cases op with
  | select n =>
    unfold Setup.call Setup.selectPrinter Book.note
    simp only
    rw [h.same n]
    by_cases hn : (presets.lookup n).isSome
    · rw [if_pos hn, if_pos hn]
      exact ⟨rfl, h.hcue, fun p hp => by simp only [Option.some.injEq] at hp; rw [← hp]; exact hn, h.nodup, h.pos,
        h.same, h.entry⟩
    · rw [if_neg hn, if_neg hn]
      exact h
  | setProps props =>
    unfold Setup.call Setup.setProperty Book.note
    simp only [h.sel]
    cases hp : bk.selected with
    | none => exact h
    | some p =>
      obtain ⟨d0, hd0⟩ := Option.isSome_iff_exists.1 ((h.same p).trans (h.known p hp))
      simp only [hd0]
      refine ⟨by simp only [h.sel, hp], h.hcue, ?_, h.nodup, h.pos, ?_, ?_⟩
      · intro q hq
        exact h.known q (by rw [hp]; exact hq)
      · intro q
        simp only [lookup_dictSet]
        split
        · rename_i hq
          rw [hq, h.known p hp]
          rfl
        · exact h.same q
      · intro q d hd k hk
        simp only [lookup_dictSet] at hd
        split at hd
        · rename_i hq
          subst hq
          rw [Option.some.injEq] at hd
          subst hd
          rw [lookup_dictUpdate _ _ hop, h.entry q d0 hd0 k hk]
          simp only [if_true, Option.or_assoc]
        · rename_i hq
          simp only [if_neg hq]
          exact h.entry q d hd k hk
  | setPos a u =>
    unfold Setup.call Setup.setInitialPosition Book.note
    simp only [setupScaling_eq]
    cases hf : mmPer (u.getD "SImm") with
    | none =>
      simp only [bind, Except.bind]
      cases a <;> exact h
    | some f =>
      simp only [bind, Except.bind]
      cases a with
      | other => exact h
      | tuple l =>
        match l with
        | [x, y, z, e] =>
          refine ⟨h.sel, h.hcue, h.known, by simp, ?_, h.same, h.entry⟩
          intro k
          simp only [lookup_cons_eq, List.lookup_nil]
          by_cases h1 : k = "X"
          · subst h1; simp
          by_cases h2 : k = "Y"
          · subst h2; simp
          by_cases h3 : k = "Z"
          · subst h3; simp
          by_cases h4 : k = "E"
          · subst h4; simp
          simp [h1, h2, h3, h4]
        | [] => exact h
        | [_] => exact h
        | [_, _] => exact h
        | [_, _, _] => exact h
        | _ :: _ :: _ :: _ :: _ :: _ => exact h
      | dict d =>
        obtain ⟨hnd, hk⟩ : (d.map Prod.fst).Nodup ∧ ∀ k ∈ d.map Prod.fst, k ∈ ["X", "Y", "Z", "E"] := hop
        have hkeys : (d.map fun q => (q.1, f * q.2)).map Prod.fst = d.map Prod.fst := by rw [List.map_map]; rfl
        simp only [List.all_eq_true]
        by_cases hall : ∀ k ∈ ["X", "Y", "Z", "E"], (d.lookup k).isSome = true
        · rw [if_pos hall, if_pos hall]
          refine ⟨h.sel, h.hcue, h.known, nodup_dictUpdate _ _ h.nodup, ?_, h.same, h.entry⟩
          intro k
          simp only
          rw [lookup_dictUpdate _ _ (by rw [hkeys]; exact hnd), lookup_map, h.pos]
          by_cases hk4 : k ∈ ["X", "Y", "Z", "E"]
          · rw [if_pos hk4, if_pos hk4]
            obtain ⟨v, hv⟩ := Option.isSome_iff_exists.1 (hall k hk4)
            simp [hv]
          · rw [if_neg hk4, if_neg hk4, lookup_none_of_not_mem (fun hm => hk4 (hk k hm))]
            rfl
        · rw [if_neg hall, if_neg hall]
          exact h
  | read =>
    unfold Setup.call Book.note
    simp only
    cases hp : bk.selected with
    | none =>
      rw [(getDict_spec h).1 hp]
      exact h
    | some p =>
      obtain ⟨d, s', h1, h2, _⟩ := (getDict_spec h).2 p hp
      rw [h1]
      exact h2

/-- The book at the creation of the object. -/
def Spec.Book.start (printer : Option String) : Book := ⟨printer, fun _ _ => none, fun _ => 0⟩

theorem agrees_init {presets : Dict (Dict (SVal ℝ))} {cue pr : Option String}
    (hpr : ∀ p, pr = some p → (presets.lookup p).isSome) :
    Agrees presets cue ⟨presets, [("X", 0), ("Y", 0), ("Z", 0), ("E", 0)], pr, cue⟩ (Book.start pr) := by
  refine ⟨rfl, rfl, hpr, by simp, ?_, fun _ => rfl, ?_⟩
  · intro k
    simp only [lookup_cons_eq, List.lookup_nil, Book.start]
    by_cases h1 : k = "X"
    · subst h1; simp
    by_cases h2 : k = "Y"
    · subst h2; simp
    by_cases h3 : k = "Z"
    · subst h3; simp
    by_cases h4 : k = "E"
    · subst h4; simp
    simp [h1, h2, h3, h4]
  · intro p d hd k _
    simp only at hd
    simp [Book.start, hd]

theorem agrees_create {presets : Dict (Dict (SVal ℝ))} {printer cue : Option String} {s : Setup ℝ}
    (h : Setup.create presets printer cue = .ok s) : Agrees presets cue s (Book.start printer) := by
  unfold Setup.create at h
  cases printer with
  | none =>
    simp only [Except.ok.injEq] at h
    subst h
    exact agrees_init (by simp)
  | some p =>
    unfold Setup.selectPrinter at h
    simp only [bind, Except.bind] at h
    by_cases hp : (presets.lookup p).isSome
    · rw [if_pos hp] at h
      simp only at h
      have ha : Agrees presets cue _ _ := agrees_init (pr := some p) (by simpa using hp)
      obtain ⟨d, s', h1, h2, _⟩ := (getDict_spec ha).2 p rfl
      rw [h1] at h
      simp only at h
      split at h
      · rw [Except.ok.injEq] at h
        subst h
        exact h2
      · cases h
    · rw [if_neg hp] at h
      cases h

theorem agrees_run {presets : Dict (Dict (SVal ℝ))} {cue : Option String} (ops : List SetupOp) :
    ∀ {s : Setup ℝ} {bk : Book}, Agrees presets cue s bk → (∀ op ∈ ops, op.WellFormed) →
    Agrees presets cue (ops.foldl Setup.call s) (ops.foldl (Book.note presets) bk) := by
  induction ops with
  | nil => exact fun h _ => h
  | cons op ops ih =>
    intro s bk h hw
    exact ih (agrees_call h op (hw op (by simp))) fun o ho => hw o (by simp [ho])

/-- **C45.** After any sequence of calls (failing ones included) `get_dict` returns the dictionary that the
book of the calls wants for the selected printer; without a selected printer it raises `KeyError`. -/
theorem c45_precedence {presets : Dict (Dict (SVal ℝ))} {printer cue : Option String} {s : Setup ℝ}
    (h : Setup.create presets printer cue = .ok s) (ops : List SetupOp) (hw : ∀ op ∈ ops, op.WellFormed) :
    let bk := ops.foldl (Book.note presets) (Book.start printer)
    (bk.selected = none → (ops.foldl Setup.call s).getDict = .error .keyError) ∧
    ∀ p, bk.selected = some p → ∃ d s', (ops.foldl Setup.call s).getDict = .ok (d, s') ∧
      (∀ k, d.lookup k = bk.wanted presets cue p k) := by
  intro bk
  have ha := agrees_run ops (agrees_create h) hw
  refine ⟨(getDict_spec ha).1, fun p hp => ?_⟩
  obtain ⟨d, s', h1, _, _, h2⟩ := (getDict_spec ha).2 p hp
  exact ⟨d, s', h1, h2⟩

/-- **C45, repeated reads.** Reading changes nothing that can be read: any number of reads, between other
calls, can be left out. -/
theorem c45_reads {presets : Dict (Dict (SVal ℝ))} {printer cue : Option String} {s : Setup ℝ}
    (h : Setup.create presets printer cue = .ok s) (ops ops' : List SetupOp)
    (hw : ∀ op ∈ ops, op.WellFormed) (hw' : ∀ op ∈ ops', op.WellFormed)
    (hsame : (ops.filter fun op => !op.isRead) = ops'.filter fun op => !op.isRead)
    {d : Dict (SVal ℝ)} {s' : Setup ℝ} (hd : (ops.foldl Setup.call s).getDict = .ok (d, s')) :
    ∃ d' s'', (ops'.foldl Setup.call s).getDict = .ok (d', s'') ∧ ∀ k, d'.lookup k = d.lookup k := by
  have hskip : ∀ (l : List SetupOp) (bk : Book), l.foldl (Book.note presets) bk =
      (l.filter fun op => !op.isRead).foldl (Book.note presets) bk := by
    intro l
    induction l with
    | nil => intro bk; rfl
    | cons op l ih =>
      intro bk
      cases op <;> simp [SetupOp.isRead, ih, Book.note]
  obtain ⟨a1, a2⟩ := c45_precedence h ops hw
  obtain ⟨b1, b2⟩ := c45_precedence h ops' hw'
  rw [hskip ops', ← hsame, ← hskip ops] at b1 b2
  cases hp : (ops.foldl (Book.note presets) (Book.start printer)).selected with
  | none =>
    rw [a1 hp] at hd
    cases hd
  | some p =>
    obtain ⟨d1, s1, a3, a4⟩ := a2 p hp
    obtain ⟨d2, s2, b3, b4⟩ := b2 p hp
    rw [a3, Except.ok.injEq, Prod.mk.injEq] at hd
    refine ⟨d2, s2, b3, fun k => ?_⟩
    rw [b4, ← hd.1, a4]

/-- Two printers, properties set on one of them between reads, an initial position in inch, and a wrong
printer name on the way. -/
example : ∃ s s' d, Setup.create [("p", [("firmware", .text "klipper"), ("X", .num 7), ("p_vel", .num 35)]),
      ("q", [("firmware", .text "MKA")])] (some "p") none = .ok s ∧
    ([.setProps [("p_vel", .num 40)], .read, .select "q", .select "r", .setPos (.tuple [1, 2, 3, 4]) (some "inch"),
      .select "p"].foldl Setup.call s).getDict = .ok (d, s') ∧
    d.lookup "p_vel" = some (.num 40) ∧ d.lookup "X" = some (.num 25.4) ∧
    d.lookup "printer_name" = some (.text "p") ∧ d.lookup "layer_cue" = none := by
  obtain ⟨s, hs⟩ : ∃ s, Setup.create [("p", [("firmware", .text "klipper"), ("X", .num 7), ("p_vel", .num 35)]),
      ("q", [("firmware", .text "MKA")])] (some "p") none = .ok (s : Setup ℝ) := ⟨_, rfl⟩
  obtain ⟨d, s', h1, h2⟩ := (c45_precedence hs [.setProps [("p_vel", .num 40)], .read, .select "q", .select "r",
    .setPos (.tuple [1, 2, 3, 4]) (some "inch"), .select "p"] (by simp [SetupOp.WellFormed])).2 "p" (by
      simp [Book.note, Book.start, List.lookup, mmPer])
  refine ⟨s, s', d, hs, h1, ?_⟩
  rw [h2, h2, h2, h2]
  simp [Book.wanted, Book.note, Book.start, List.lookup, mmPer]

/-! ## C46 -/

/-- **C46.** A setup dictionary is accepted iff it has all required keys, and only those and the optional
ones; otherwise `ValueError`. -/
theorem c46_validation {V : Type} (d : Dict V) :
    (checkInitialSetup d = .ok () ↔
      (∀ k ∈ ["p_vel", "p_acc", "jerk", "vX", "vY", "vZ", "vE", "X", "Y", "Z", "E", "printer_name", "firmware"],
        (d.lookup k).isSome) ∧
      ∀ k, (d.lookup k).isSome → k ∈ ["p_vel", "p_acc", "jerk", "vX", "vY", "vZ", "vE", "X", "Y", "Z", "E",
        "printer_name", "firmware"] ∨ k ∈ ["layer_cue", "nozzle_diam", "filament_diam"]) ∧
    (checkInitialSetup d ≠ .ok () → checkInitialSetup d = .error .valueError) := by
  have hk : ∀ k, (d.map Prod.fst).contains k = true ↔ (d.lookup k).isSome := by
    intro k
    rw [List.contains_iff_mem, mem_keys_iff]
  unfold checkInitialSetup
  constructor
  · split
    · rename_i h
      simp only [reduceCtorEq, false_iff, not_and]
      intro _ h2
      rw [List.any_eq_true] at h
      obtain ⟨k, h3, h4⟩ := h
      rw [Bool.not_eq_true', ← Bool.not_eq_true, List.contains_iff_mem, List.mem_append] at h4
      exact h4 (h2 k (mem_keys_iff.1 h3))
    · rename_i h
      split
      · rename_i h'
        simp only [reduceCtorEq, false_iff, not_and]
        intro h1
        rw [List.any_eq_true] at h'
        obtain ⟨k, h3, h4⟩ := h'
        rw [Bool.not_eq_true', ← Bool.not_eq_true, hk] at h4
        exact absurd (h1 k h3) h4
      · rename_i h'
        simp only [true_iff]
        rw [Bool.not_eq_true, List.any_eq_false] at h h'
        constructor
        · intro k hkm
          have := h' k hkm
          rw [Bool.not_eq_true, Bool.not_eq_false'] at this
          exact (hk k).1 this
        · intro k hkm
          have := h k (mem_keys_iff.2 hkm)
          rw [Bool.not_eq_true, Bool.not_eq_false', List.contains_iff_mem, List.mem_append] at this
          exact this
  · split
    · intro _; rfl
    · split
      · intro _; rfl
      · intro h; exact absurd rfl h

/-- A complete dictionary with an optional key is accepted; with a misspelled key it is not. -/
example :
    let d : Dict Unit := ["p_vel", "p_acc", "jerk", "vX", "vY", "vZ", "vE", "X", "Y", "Z", "E", "printer_name",
      "firmware", "nozzle_diam"].map fun k => (k, ())
    checkInitialSetup d = .ok () ∧ checkInitialSetup (("nozle_diam", ()) :: d) = .error .valueError := by
  intro d
  refine ⟨(c46_validation d).1.2 ⟨by decide +kernel, ?_⟩, (c46_validation _).2 ?_⟩
  · intro k hk
    have : k ∈ d.map Prod.fst := mem_keys_iff.2 hk
    simp only [d, List.map_map, List.map_cons, List.map_nil, Function.comp_apply, List.mem_cons, List.not_mem_nil,
      or_false] at this ⊢
    tauto
  · intro h
    have := ((c46_validation _).1.1 h).2 "nozle_diam" (by rfl)
    revert this
    decide +kernel

/-! ## C47 -/

/-- **C47.** With a setup object on which a printer is selected, or the presets shipped for a named machine,
the constructor rejects exactly: unknown output units, neither name nor setup, and a name that is not the
selected printer of the setup -- all with `ValueError`. (A named machine without a setup must be in the shipped
presets.) Otherwise it works with the setup's dictionary. -/
theorem c47_guards {presets : Dict (Dict (SVal ℝ))} {printer cue : Option String} {s : Setup ℝ}
    (h : Setup.create presets printer cue = .ok s) (ops : List SetupOp) (hw : ∀ op ∈ ops, op.WellFormed)
    (unit : String) (name : Option String) (shipped : Dict (Dict (SVal ℝ))) :
    let bk := ops.foldl (Book.note presets) (Book.start printer)
    let s' := ops.foldl Setup.call s
    (mmPer unit = none → ∀ given, simulationGuards unit name given shipped = .error .valueError) ∧
    (mmPer unit ≠ none →
      (∀ p, bk.selected = some p → (name = none ∨ name = some p) → ∃ r,
        simulationGuards unit name (some s') shipped = .ok r ∧ ∀ k, r.1.lookup k = bk.wanted presets cue p k) ∧
      (∀ p n, bk.selected = some p → name = some n → n ≠ p →
        simulationGuards unit name (some s') shipped = .error .valueError) ∧
      (bk.selected = none → simulationGuards unit name (some s') shipped = .error .keyError) ∧
      (name = none → simulationGuards unit name none shipped = .error .valueError) ∧
      (∀ n, name = some n → shipped.lookup n = none →
        simulationGuards unit name none shipped = .error .valueError) ∧
      (∀ n pre, name = some n → shipped.lookup n = some pre → (pre.lookup "firmware").isSome → ∃ r,
        simulationGuards unit name none shipped = .ok r ∧
        ∀ k, r.1.lookup k = (Book.start (some n)).wanted shipped none n k) ∧
      (∀ n pre, name = some n → shipped.lookup n = some pre → pre.lookup "firmware" = none →
        simulationGuards unit name none shipped = .error .keyError)) := by
  intro bk s'
  have ha : Agrees presets cue s' bk := agrees_run ops (agrees_create h) hw
  have hu : ¬ (unit = "SI" ∨ unit = "SImm" ∨ unit = "inch") ↔ mmPer unit = none := by
    unfold mmPer
    by_cases h1 : unit = "SI"
    · simp [h1]
    by_cases h2 : unit = "SImm"
    · simp [h2]
    by_cases h3 : unit = "inch"
    · simp [h3]
    simp [h1, h2, h3]
  constructor
  · intro hn given
    unfold simulationGuards
    rw [if_pos (hu.2 hn)]
  intro hn
  have hn' : ¬ ¬ (unit = "SI" ∨ unit = "SImm" ∨ unit = "inch") := fun hc => hn (hu.1 hc)
  have hname : ∀ p, (bk.wanted presets cue p "printer_name") = some (.text p) := by
    intro p
    simp [Book.wanted]
  unfold simulationGuards
  refine ⟨?_, ?_, ?_, ?_, ?_, ?_, ?_⟩
  · intro p hp hnm
    rw [if_neg hn']
    obtain ⟨d, s1, h1, h2, _, h3⟩ := (getDict_spec ha).2 p hp
    rcases hnm with rfl | rfl
    · exact ⟨(d, s1), h1, h3⟩
    · obtain ⟨d', s2, h4, _, _, h5⟩ := (getDict_spec h2).2 p hp
      refine ⟨(d', s2), ?_, h5⟩
      simp only [h1, bind, Except.bind, h3, hname, if_true, h4]
  · rintro p n hp rfl hne
    rw [if_neg hn']
    obtain ⟨d, s1, h1, h2, _, h3⟩ := (getDict_spec ha).2 p hp
    simp only [h1, bind, Except.bind, h3, hname, SVal.text.injEq, if_neg (Ne.symm hne)]
  · intro hp
    rw [if_neg hn']
    have h1 := (getDict_spec ha).1 hp
    cases name with
    | none => exact h1
    | some n =>
      simp only [bind, Except.bind]
      rw [h1]
  · rintro rfl
    rw [if_neg hn']
  · rintro n rfl hl
    rw [if_neg hn']
    simp [Setup.create, Setup.selectPrinter, hl, bind, Except.bind]
  · rintro n pre rfl hl hf
    rw [if_neg hn']
    obtain ⟨s0, hs0⟩ : ∃ s0, Setup.create shipped (some n) none = .ok s0 := by
      have h0 : Agrees shipped none ⟨shipped, [("X", 0), ("Y", 0), ("Z", 0), ("E", 0)], some n, none⟩
          (Book.start (some n)) := agrees_init (fun p hp => by
            rw [Option.some.injEq] at hp
            rw [← hp, hl]
            rfl)
      obtain ⟨d, s1, h1, _, _, h3⟩ := (getDict_spec h0).2 n rfl
      refine ⟨s1, ?_⟩
      unfold Setup.create Setup.selectPrinter
      have hfd : (d.lookup "firmware").isSome := by
        rw [h3]
        simpa [Book.wanted, Book.start, hl] using hf
      simp only [hl, Option.isSome_some, if_true, bind, Except.bind, h1, hfd]
    obtain ⟨d, s1, h1, _, _, h3⟩ := (getDict_spec (agrees_create hs0)).2 n rfl
    refine ⟨(d, s1), ?_, h3⟩
    simp only [hs0, bind, Except.bind, h1]

  · rintro n pre rfl hl hf
    rw [if_neg hn']
    have h0 : Agrees shipped none ⟨shipped, [("X", 0), ("Y", 0), ("Z", 0), ("E", 0)], some n, none⟩
        (Book.start (some n)) := agrees_init (fun p hp => by
          rw [Option.some.injEq] at hp
          rw [← hp, hl]
          rfl)
    obtain ⟨d, s1, h1, _, _, h3⟩ := (getDict_spec h0).2 n rfl
    have hfd : d.lookup "firmware" = none := by
      rw [h3]
      simpa [Book.wanted, Book.start, hl] using hf
    simp only [Setup.create, Setup.selectPrinter, hl, Option.isSome_some, if_true, bind, Except.bind, h1, hfd,
      Option.isSome_none, Bool.false_eq_true, if_false]

/-- The printer of the setup object was changed after its creation: the old name is rejected, the new one and
no name are fine. -/
example : ∃ s s' : Setup ℝ, Setup.create [("p", [("firmware", .text "klipper")]), ("q", [("firmware", .text "MKA")])]
      (some "p") none = .ok s ∧ s.selectPrinter "q" = .ok s' ∧
    simulationGuards "inch" (some "p") (some s') [] = .error .valueError ∧
    (∃ r, simulationGuards "inch" (some "q") (some s') [] = .ok r) ∧
    (∃ r, simulationGuards "inch" none (some s') [] = .ok r) ∧
    simulationGuards "mm" (some "q") (some s') [] = .error .valueError := by
  obtain ⟨s, hs⟩ : ∃ s : Setup ℝ, Setup.create [("p", [("firmware", .text "klipper")]),
      ("q", [("firmware", .text "MKA")])] (some "p") none = .ok s := ⟨_, rfl⟩
  have hsel : (Book.note [("p", [("firmware", .text "klipper")]), ("q", [("firmware", .text "MKA")])]
      (Book.start (some "p")) (.select "q")).selected = some "q" := by
    simp [Book.note, List.lookup]
  have hg := fun n => c47_guards hs [.select "q"] (by simp [SetupOp.WellFormed]) "inch" n []
  have hb := (c47_guards hs [.select "q"] (by simp [SetupOp.WellFormed]) "mm" (some "q") []).1
    (by simp [mmPer])
  have hc : s.selectPrinter "q" = .ok (s.call (.select "q")) := by
    simp only [Setup.create, bind, Except.bind] at hs
    cases hs
    rfl
  refine ⟨s, s.call (.select "q"), hs, hc, ?_, ?_, ?_, hb _⟩
  · exact ((hg (some "p")).2 (by simp [mmPer])).2.1 "q" "p" hsel rfl (by decide)
  · obtain ⟨r, hr, _⟩ := ((hg (some "q")).2 (by simp [mmPer])).1 "q" hsel (.inr rfl)
    exact ⟨r, hr⟩
  · obtain ⟨r, hr, _⟩ := ((hg none).2 (by simp [mmPer])).1 "q" hsel (.inl rfl)
    exact ⟨r, hr⟩

/-! ## C34: the initial position -/

/-- The argument of `set_initial_position` describes the position `q`. -/
def Spec.Describes (a : PosArg ℝ) (q : Vec4 ℝ) : Prop :=
  a = .tuple [q.x, q.y, q.z, q.e] ∨ ∃ d : Dict ℝ, a = .dict d ∧ (SetupOp.setPos a none).WellFormed ∧
    d.lookup "X" = some q.x ∧ d.lookup "Y" = some q.y ∧ d.lookup "Z" = some q.z ∧ d.lookup "E" = some q.e

/-- Output and input scaling of a unit are inverse to each other. -/
theorem scaling_inverse {u : String} {f : ℝ} (h : mmPer u = some f) :
    InUnit u (1 / f) ∧ f ≠ 0 := by
  unfold mmPer at h
  unfold InUnit
  split at h
  · rename_i hu
    cases h
    exact ⟨Or.inl ⟨hu, rfl⟩, by norm_num⟩
  · split at h
    · rename_i hu
      cases h
      exact ⟨Or.inr (Or.inl ⟨hu, by norm_num⟩), by norm_num⟩
    · split at h
      · rename_i hu
        cases h
        exact ⟨Or.inr (Or.inr ⟨hu, rfl⟩), by norm_num⟩
      · cases h

/-- The first state of a file is at the position of the setup dictionary. -/
theorem fileStates_head {pf : List Char → Option ℝ} {d : Dict (SVal ℝ)} {content : List Char}
    {ps : List (PState ℝ)} (h : fileStates pf d content = .ok ps) {q : Vec4 ℝ}
    (hx : d.lookup "X" = some (.num q.x)) (hy : d.lookup "Y" = some (.num q.y))
    (hz : d.lookup "Z" = some (.num q.z)) (he : d.lookup "E" = some (.num q.e)) :
    ∃ s, ps.head? = some s ∧ s.position = q := by
  unfold fileStates at h
  cases hm : resolveMachine d with
  | error x => rw [hm] at h; cases h
  | ok m =>
    rw [hm] at h
    simp only [bind, Except.bind] at h
    have hpos : m.pos .X = q.x ∧ m.pos .Y = q.y ∧ m.pos .Z = q.z ∧ m.pos .E = q.e := by
      unfold resolveMachine at hm
      simp only [numEntry, hx, hy, hz, he, bind, Except.bind] at hm
      repeat' split at hm
      all_goals (cases hm <;> exact ⟨rfl, rfl, rfl, rfl⟩)
    unfold generateStates at h
    cases hr : readLines pf (fileLines content) with
    | error x => rw [hr] at h; cases h
    | ok ds =>
      rw [hr] at h
      simp only [bind, Except.bind] at h
      unfold dictListTraveler at h
      have hv : vmPosition (initVM m) = .ok q := by
        simp only [vmPosition, coord, initVM, bind, Except.bind, hpos.1, hpos.2.1, hpos.2.2.1, hpos.2.2.2,
          add_zero]
      simp only [hv, bind, Except.bind] at h
      cases ht : travelLoop m.layerCue 1 0 (initVM m) ds with
      | error x => rw [ht] at h; cases h
      | ok rest =>
        rw [ht] at h
        simp only [List.mapM_cons, bind, Except.bind] at h
        split at h
        · cases h
        · rename_i s0 hs0
          split at h
          · cases h
          · rename_i tl htl
            simp only [pure, Except.pure, Except.ok.injEq] at h
            subst h
            refine ⟨s0, rfl, ?_⟩
            simp only [GState.toPState, vmSettings, initVM, Val.toNum, bind, Except.bind,
              Except.ok.injEq] at hs0
            rw [← hs0]

/-- **C34, initial position.** Whatever was done before with the setup object: an initial position given in
unit `u` is reported by the simulation at time 0 in unit `u` unchanged. -/
theorem c34_initial_position {presets : Dict (Dict (SVal ℝ))} {printer cue : Option String} {s s1 s2 : Setup ℝ}
    (h : Setup.create presets printer cue = .ok s) (ops : List SetupOp) (hw : ∀ op ∈ ops, op.WellFormed)
    {a : PosArg ℝ} {q : Vec4 ℝ} (hq : Describes a q) {u : String}
    (h1 : (ops.foldl Setup.call s).setInitialPosition a (some u) = .ok s1) {d : Dict (SVal ℝ)}
    (h2 : s1.getDict = .ok (d, s2)) {pf : List Char → Option ℝ} {content : List Char} {ps : List (PState ℝ)}
    (h3 : fileStates pf d content = .ok ps) (hreg : Regular ps) {bs : List (Block ℝ)}
    (h4 : simulateFile pf d content = .ok bs) (start : Option Nat) (history : List (ℝ × Option String)) :
    ∃ v, (getValues (unpack bs) u none 0 (queryHistory (unpack bs) u history start)).1 = .ok (v, q) := by
  have hw' : ∀ op ∈ ops ++ [SetupOp.setPos a (some u)], op.WellFormed := by
    intro op hop
    rcases List.mem_append.1 hop with hop | hop
    · exact hw op hop
    · rw [List.mem_singleton] at hop
      subst hop
      rcases hq with rfl | ⟨d', rfl, hwf, _⟩
      · trivial
      · exact hwf
  have hrun : (ops ++ [SetupOp.setPos a (some u)]).foldl Setup.call s = s1 := by
    rw [List.foldl_append]
    simp only [List.foldl_cons, List.foldl_nil, Setup.call, h1]
  obtain ⟨a1, a2⟩ := c45_precedence h _ hw'
  rw [hrun] at a1 a2
  have hbk : ∀ bk0 : Book, mmPer u ≠ none := by
    intro bk0 hn
    unfold Setup.setInitialPosition at h1
    rw [setupScaling_eq] at h1
    simp only [Option.getD_some, hn, bind, Except.bind] at h1
    cases h1
  obtain ⟨f, hf⟩ := Option.ne_none_iff_exists'.1 (hbk (Book.start printer))
  set bk := (ops ++ [SetupOp.setPos a (some u)]).foldl (Book.note presets) (Book.start printer) with hbkdef
  have hpos : bk.pos "X" = f * q.x ∧ bk.pos "Y" = f * q.y ∧ bk.pos "Z" = f * q.z ∧ bk.pos "E" = f * q.e := by
    rw [hbkdef, List.foldl_append]
    simp only [List.foldl_cons, List.foldl_nil, Book.note, Option.getD_some, hf]
    rcases hq with rfl | ⟨d', rfl, hwf, e1, e2, e3, e4⟩
    · simp
    · have hall : ∀ k ∈ ["X", "Y", "Z", "E"], (d'.lookup k).isSome = true := by
        intro k hk
        simp only [List.mem_cons, List.not_mem_nil, or_false] at hk
        rcases hk with rfl | rfl | rfl | rfl <;> simp only [e1, e2, e3, e4, Option.isSome_some]
      simp only [if_pos hall]
      simp [e1, e2, e3, e4]
  cases hsel : bk.selected with
  | none => rw [a1 hsel] at h2; cases h2
  | some p =>
    obtain ⟨d', s', b1, b2⟩ := a2 p hsel
    rw [h2, Except.ok.injEq, Prod.mk.injEq] at b1
    obtain ⟨rfl, _⟩ := b1
    have hk : ∀ k ∈ ["X", "Y", "Z", "E"], d.lookup k = some (.num (bk.pos k)) := by
      intro k hk
      rw [b2, Book.wanted, if_neg (by rintro rfl; simp at hk), if_neg (by rintro ⟨rfl, _⟩; simp at hk), if_pos hk]
    obtain ⟨s0, c1, c2⟩ := fileStates_head h3 (q := q.mul f)
      (by rw [hk _ (by simp), hpos.1, mul_comm]; rfl) (by rw [hk _ (by simp), hpos.2.1, mul_comm]; rfl)
      (by rw [hk _ (by simp), hpos.2.2.1, mul_comm]; rfl) (by rw [hk _ (by simp), hpos.2.2.2, mul_comm]; rfl)
    unfold simulateFile at h4
    rw [h3] at h4
    cases hc : checkInitialSetup d with
    | error x => rw [hc] at h4; cases h4
    | ok _ =>
      rw [hc] at h4
      simp only [bind, Except.bind] at h4
      unfold simulate at h4
      cases hp : plan (firmwareOf d) ps with
      | error x => rw [hp] at h4; cases h4
      | ok bs' =>
        rw [hp] at h4
        simp only [bind, Except.bind] at h4
        cases he : endTime bs' with
        | error x => rw [he] at h4; cases h4
        | ok T =>
          rw [he] at h4
          simp only [Except.ok.injEq] at h4
          subst h4
          have hne : bs' ≠ [] := by
            rintro rfl
            cases he
          obtain ⟨i1, i2⟩ := scaling_inverse hf
          obtain ⟨v, hv⟩ := answer_at_zero hreg hp hne c1 (own := u) (u := none) i1 start history
          refine ⟨v, ?_⟩
          rw [hv, c2]
          congr 2
          ext <;> simp [Vec4.mul] <;> field_simp

/-! ### A whole run, from presets and text to answers -/

/-- A number syntax that knows one number. -/
noncomputable def Demo.pf (cs : List Char) : Option ℝ := if cs = ['1', '0'] then some 10 else none

/-- Presets with one printer. -/
noncomputable def Demo.presets : Dict (Dict (SVal ℝ)) :=
  [("p", [("p_vel", .num 35), ("p_acc", .num 200), ("jerk", .num 10), ("vX", .num 180), ("vY", .num 180),
    ("vZ", .num 30), ("vE", .num 33), ("firmware", .text "klipper")])]

/-- The states of the file `G1 X10` with an initial position one inch from the origin. -/
noncomputable def Demo.fileProg : List (PState ℝ) :=
  [⟨⟨25.4 * 1 + 0, 25.4 * 0 + 0, 25.4 * 0 + 0, 25.4 * 0 + 0⟩, 35, 200, 10, none, none⟩,
    ⟨⟨10 + 0, 25.4 * 0 + 0, 25.4 * 0 + 0, 25.4 * 0 + 0⟩, 35, 200, 10, none, none⟩]

theorem Demo.fileRegular : Regular Demo.fileProg := by
  refine regular_of_no_pause fun s hs => ?_
  simp only [Demo.fileProg, List.mem_cons, List.not_mem_nil, or_false] at hs
  rcases hs with rfl | rfl <;> norm_num

/-- A regular program in which something moves can be simulated. -/
theorem simulate_ok (fw : Firmware) {states : List (PState ℝ)} (hreg : Regular states)
    (hact : active none states ≠ []) : ∃ bs, simulate fw states = .ok bs ∧ plan fw states = .ok bs ∧ bs ≠ [] := by
  obtain ⟨_, bs, _, _, h, _⟩ := c26_correction_total fw hreg
  have hne : bs ≠ [] := by
    rintro rfl
    exact hact (c28_blocks hreg h).symm
  obtain ⟨s, s', _, _, h3, _⟩ := unpack_ends hreg h hne
  refine ⟨bs, ?_, h, hne⟩
  simp [simulate, h, h3, bind, Except.bind]

theorem Demo.fileActive : active none Demo.fileProg ≠ [] := by
  intro h
  have : (some (⟨⟨25.4 * 1 + 0, 25.4 * 0 + 0, 25.4 * 0 + 0, 25.4 * 0 + 0⟩, 35, 200, 10, none, none⟩ : PState ℝ),
      (⟨⟨10 + 0, 25.4 * 0 + 0, 25.4 * 0 + 0, 25.4 * 0 + 0⟩, 35, 200, 10, none, none⟩ : PState ℝ)) ∈
      active none Demo.fileProg := by
    unfold active
    rw [List.mem_filter]
    refine ⟨by simp [withPrev, Demo.fileProg], ?_⟩
    rw [decide_eq_true_iff]
    refine Or.inr ⟨_, rfl, ?_⟩
    intro he
    have := congrArg Vec4.x he
    norm_num at this
  rw [h] at this
  cases this

/-- The hypotheses of `c34_initial_position` hold for a setup object, one inch, and a file with one move. -/
example : ∃ s s1 s2 d bs v, Setup.create Demo.presets (some "p") none = .ok s ∧
    s.setInitialPosition (.tuple [1, 0, 0, 0]) (some "inch") = .ok s1 ∧ s1.getDict = .ok (d, s2) ∧
    simulateFile Demo.pf d ['G', '1', ' ', 'X', '1', '0'] = .ok bs ∧
    (getValues (unpack bs) "inch" none 0 none).1 = .ok (v, (⟨1, 0, 0, 0⟩ : Vec4 ℝ)) := by
  obtain ⟨s, hs⟩ : ∃ s, Setup.create Demo.presets (some "p") none = .ok s := ⟨_, rfl⟩
  obtain ⟨s1, h1⟩ : ∃ s1, s.setInitialPosition (.tuple [1, 0, 0, 0]) (some "inch") = .ok s1 := by
    cases hs
    exact ⟨_, rfl⟩
  obtain ⟨d, s2, h2, h3, h4, h5⟩ : ∃ d s2, s1.getDict = .ok (d, s2) ∧ checkInitialSetup d = .ok () ∧
      fileStates Demo.pf d ['G', '1', ' ', 'X', '1', '0'] = .ok Demo.fileProg ∧ firmwareOf d = .klipper := by
    cases hs
    cases h1
    exact ⟨_, _, rfl, rfl, rfl, rfl⟩
  obtain ⟨bs, hb, _⟩ := simulate_ok .klipper Demo.fileRegular Demo.fileActive
  have h6 : simulateFile Demo.pf d ['G', '1', ' ', 'X', '1', '0'] = .ok bs := by
    simp only [simulateFile, h3, h4, h5, hb, bind, Except.bind]
  obtain ⟨v, hv⟩ := c34_initial_position hs [] (by simp) (Or.inl rfl) (q := ⟨1, 0, 0, 0⟩) h1 h2 h4
    Demo.fileRegular h6 none []
  exact ⟨s, s1, s2, d, bs, v, hs, h1, h2, h6, hv⟩

end PyGCD
