import Verif.Spec.Rounded
import Verif.Props.Files
import Verif.Proofs.RelError

/-!
# Reading a file with rounding

First: the parser does nothing with numbers, so that converting the numbers while reading is the same as converting
them afterwards. Then: the state machine on doubles, beside the printer of `Spec/Files.lean`.
-/

set_option linter.unusedSectionVars false
set_option linter.unusedSimpArgs false

namespace PyGCD
open Spec

/-! ## The parser -/

section Conv
variable {K L : Type}

/-- The value with its number converted. -/
def Val.conv (f : K → L) : Val K → Val L
  | .num v => .num (f v)
  | .str s => .str s

/-- The argument with its numbers converted. -/
def ArgVal.conv (f : K → L) : ArgVal K → ArgVal L
  | .val v => .val (v.conv f)
  | .args d => .args (d.map fun p => (p.1, p.2.conv f))

/-- The line with its numbers converted. -/
def convLine (f : K → L) (d : LineDict K) : LineDict L := d.map fun p => (p.1, p.2.conv f)

theorem mapM_conv {α β γ ε : Type} {F : α → Except ε β} {G : α → Except ε γ} {h : β → γ}
    (hFG : ∀ a, G a = (F a).map h) (as : List α) : as.mapM G = (as.mapM F).map (List.map h) := by
  induction as with
  | nil => rfl
  | cons a as ih =>
    rw [List.mapM_cons, List.mapM_cons, hFG, ih]
    cases F a with
    | error e => rfl
    | ok b =>
      simp only [Except.map, bind, Except.bind, pure, Except.pure]
      cases as.mapM F <;> rfl

theorem rawArg_conv {κ : Type} [DecidableEq κ] (f : K → L) (pf : List Char → Option K) (comment? : κ → Bool)
    (ms : List (Match κ)) (s : List Char) (m : Match κ) :
    rawArg (fun cs => (pf cs).map f) comment? ms s m = (rawArg pf comment? ms s m).conv f := by
  unfold rawArg
  by_cases h : comment? m.key = true
  · rw [if_pos h, if_pos h]
    rfl
  · rw [if_neg h, if_neg h]
    simp only
    cases pf (sliceArg s m.stop (nextLarger (ms.map Match.start) m.stop s.length)) <;> rfl

theorem argExtractWith_conv {κ V W : Type} [DecidableEq κ] (f : K → L) (g : V → W) (pf : List Char → Option K)
    (chars : κ → List Char) (comment? : κ → Bool) {nested : κ → Val K → Except PyErr V}
    {nested' : κ → Val L → Except PyErr W} (hn : ∀ k v, nested' k (v.conv f) = (nested k v).map g) (keys : List κ)
    (s : List Char) :
    argExtractWith (fun cs => (pf cs).map f) chars comment? nested' keys s =
      (argExtractWith pf chars comment? nested keys s).map (List.map fun p => (p.1, g p.2)) := by
  unfold argExtractWith
  cases hm : removeOuter (collectMatches chars keys s).length 0 (collectMatches chars keys s) with
  | error e => rfl
  | ok ms =>
    simp only [bind, Except.bind]
    rw [mapM_conv (F := fun m => (nested m.key (rawArg pf comment? ms s m)).map (Prod.mk m))
      (h := fun p => (p.1, g p.2))]
    · cases ms.mapM fun m => (nested m.key (rawArg pf comment? ms s m)).map (Prod.mk m) with
      | error e => rfl
      | ok ps =>
        simp only [Except.map, pure, Except.pure]
        congr 1
        induction ps with
        | nil => rfl
        | cons p ps ih =>
          simp only [List.map_cons, List.filter_cons]
          split
          · simp only [List.map_cons, ih]
          · exact ih
    · intro m
      rw [rawArg_conv, hn]
      cases nested m.key (rawArg pf comment? ms s m) <;> rfl

theorem argExtract_conv (f : K → L) (pf : List Char → Option K) (line : List Char) :
    argExtract (fun cs => (pf cs).map f) line = (argExtract pf line).map (convLine f) := by
  refine argExtractWith_conv f (ArgVal.conv f) pf _ _ ?_ _ _
  intro k v
  unfold nestedArg
  cases k.table with
  | none => rfl
  | some letters =>
    cases v with
    | num v => rfl
    | str a =>
      simp only [Val.conv, argExtractLetters]
      rw [argExtractWith_conv f (Val.conv f) pf (nested := fun _ v => .ok v) _ _ (fun _ _ => rfl)]
      cases argExtractWith pf (fun c => [c]) (fun _ => false) (fun _ v => Except.ok v) letters a <;> rfl

theorem readLines_conv (f : K → L) (pf : List Char → Option K) (rows : List (List Char)) :
    readLines (fun cs => (pf cs).map f) rows = (readLines pf rows).map (List.map (convLine f)) :=
  mapM_conv (argExtract_conv f pf) rows

theorem lookup_conv {α β γ : Type} [BEq α] (g : β → γ) (d : List (α × β)) (k : α) :
    (d.map fun p => (p.1, g p.2)).lookup k = (d.lookup k).map g := by
  induction d with
  | nil => rfl
  | cons p d ih =>
    obtain ⟨a, b⟩ := p
    simp only [List.map_cons, List.lookup_cons]
    cases k == a <;> simp [ih]

theorem word_conv (f : K → L) (d : LineDict K) (k : Cmd) (c : Char) :
    word (convLine f d) k c = (word d k c).map (Val.conv f) := by
  unfold word cmdArgs convLine
  rw [lookup_conv]
  cases d.lookup k with
  | none => rfl
  | some a =>
    cases a with
    | val v => rfl
    | args l =>
      simp only [Option.map_some, ArgVal.conv, Option.bind_some, lookup_conv]

theorem hasCmd_conv (f : K → L) (d : LineDict K) (k : Cmd) : hasCmd (convLine f d) k = hasCmd d k := by
  unfold hasCmd convLine
  rw [lookup_conv]
  cases d.lookup k <;> rfl

end Conv

variable {rd : List Char → Option ℚ} {l : Line}

/-- The number behind a letter, as it is written. -/
def Line.written (rd : List Char → Option ℚ) (l : Line) (c : Char) : Option ℚ :=
  (l.words.find? fun w => w.letter == c).bind fun w => rd w.number

theorem value_written (c : Char) : l.value (fun cs => (rd cs).map toReal) c = (Line.written rd l c).map toReal := by
  unfold Line.value Line.written
  cases l.words.find? fun w => w.letter == c <;> rfl

/-- The dictionary of a plain line with doubles. -/
structure ReadsDbl (rd : List Char → Option ℚ) (l : Line) (d : LineDict Dbl) : Prop where
  has : ∀ k, k ≠ .comment → (Spec.has d k ↔ l.cmd = some k)
  word : ∀ k, k ≠ .comment → ∀ c, word d k c = if l.cmd = some k then (Line.written rd l c).map (.num ∘ toDbl) else none

theorem Reads.rounded {d : LineDict ℚ} (h : Reads (fun cs => (rd cs).map toReal) l (convLine toReal d)) :
    ReadsDbl rd l (convLine toDbl d) where
  has k hk := by
    rw [← hasCmd_iff, hasCmd_conv, ← hasCmd_conv toReal, hasCmd_iff]
    exact h.has k hk
  word k hk c := by
    have h1 := h.arg k hk c
    rw [← word_eq_arg, word_conv, value_written] at h1
    rw [word_conv]
    by_cases hc : l.cmd = some k
    · rw [if_pos hc] at h1 ⊢
      cases hw : word d k c with
      | none =>
        rw [hw] at h1
        cases hv : Line.written rd l c with
        | none => rfl
        | some v => rw [hv] at h1; cases h1
      | some w =>
        rw [hw] at h1
        cases hv : Line.written rd l c with
        | none => rw [hv] at h1; cases h1
        | some v =>
          rw [hv] at h1
          cases w with
          | str s => cases h1
          | num w =>
            simp only [Option.map_some, Val.conv, Option.some.injEq, Val.num.injEq, toReal, Rat.cast_inj] at h1
            subst h1
            rfl
    · rw [if_neg hc] at h1 ⊢
      cases hw : word d k c with
      | none => rfl
      | some w => rw [hw] at h1; cases h1

theorem readLines_rounded (hpf : FloatLike fun cs => (rd cs).map toReal) {ls : List Line} {rows : List (List Char)}
    (hF : List.Forall₂ (fun l row => row = l.text ∨ row = l.text ++ ['\n']) ls rows)
    (hp : ∀ l ∈ ls, l.Plain fun cs => (rd cs).map toReal) :
    ∃ ds, readLines (fun cs => (rd cs).map toDbl) rows = .ok ds ∧ List.Forall₂ (ReadsDbl rd) ls ds := by
  obtain ⟨ds, h1, h2, _⟩ := readLines_plain hpf hF hp
  rw [readLines_conv] at h1 ⊢
  cases hq : readLines rd rows with
  | error e => rw [hq] at h1; cases h1
  | ok es =>
    rw [hq] at h1
    simp only [Except.map, Except.ok.injEq] at h1
    subst h1
    refine ⟨_, rfl, ?_⟩
    rw [List.forall₂_map_right_iff] at h2 ⊢
    exact h2.imp fun _ _ => Reads.rounded

/-! ## One axis -/

theorem rnd_within {x : ℚ} {B : ℝ} (h : |(x : ℝ)| ≤ B) : |((rnd x : ℚ) : ℝ) - x| ≤ B / 2 ^ 53 := by
  have h1 := (Rat.cast_le (K := ℝ)).2 (rnd_error x)
  push_cast at h1
  refine h1.trans ?_
  gcongr

theorem add_within {a b : Dbl} {B : ℝ} (h : |a.r + b.r| ≤ B) : |(a + b).r - (a.r + b.r)| ≤ B / 2 ^ 53 := by
  have h1 : |((a.val + b.val : ℚ) : ℝ)| ≤ B := by
    push_cast
    exact h
  have := rnd_within h1
  push_cast at this
  exact this

theorem toDbl_within {q : ℚ} {B : ℝ} (h : |(q : ℝ)| ≤ B) : |(toDbl q).r - q| ≤ B / 2 ^ 53 := rnd_within h

/-- The entries of an axis in the state machine on doubles, beside the place and the zero of the printer, after fewer
than `k` lines. -/
structure AxisNear (k : ℕ) (abs : Bool) (p o : Dbl) (place zero : ℝ) : Prop where
  rp : p.Rounded
  ro : o.Rounded
  sum : |p.r + o.r - place| ≤ k * 8e-12
  off : |o.r - zero| ≤ k * 8e-12
  bound : |zero| ≤ 10000
  literal : abs = true → ∃ q : ℚ, p = toDbl q ∧ place - zero = q

variable {k : ℕ} {abs : Bool} {p o : Dbl} {place zero : ℝ}

theorem count_small (hk : k ≤ 1000001) : (k : ℝ) * 8e-12 ≤ 1 / 100 := by
  have : (k : ℝ) ≤ 1000001 := by exact_mod_cast hk
  linarith

theorem AxisNear.later (h : AxisNear k abs p o place zero) : AxisNear (k + 1) abs p o place zero := by
  refine ⟨h.rp, h.ro, h.sum.trans ?_, h.off.trans ?_, h.bound, h.literal⟩ <;>
  · push_cast
    linarith

theorem AxisNear.relative (h : AxisNear k abs p o place zero) : AxisNear k false p o place zero :=
  ⟨h.rp, h.ro, h.sum, h.off, h.bound, by simp⟩

theorem AxisNear.coord (h : AxisNear k abs p o place zero) (hb : |place| ≤ 10000) (hk : k ≤ 1000001) :
    |(p + o).r - (p.r + o.r)| ≤ 1.2e-12 := by
  have hc := count_small hk
  have h1 := h.sum
  have h2 : |p.r + o.r| ≤ 10001 := by
    rw [abs_le] at *
    constructor <;> linarith [h1.1, h1.2, hb.1, hb.2]
  refine (add_within h2).trans ?_
  norm_num

theorem AxisNear.coord_near (h : AxisNear k abs p o place zero) (hb : |place| ≤ 10000) (hk : k ≤ 1000001)
    (hk0 : 1 ≤ k) : |(p + o).r - place| ≤ k * 1e-11 := by
  have h1 := h.sum
  have h2 := h.coord hb hk
  have h3 : (1 : ℝ) ≤ k := by exact_mod_cast hk0
  rw [abs_le] at *
  constructor <;> linarith [h1.1, h1.2, h2.1, h2.2]

/-- An axis word of a move. -/
theorem AxisNear.word {q : ℚ} {place' : ℝ} (h : AxisNear k abs p o place zero) (hb : |place| ≤ 10000)
    (hb' : |place'| ≤ 10000) (hk : k + 1 ≤ 1000001) (hp : place' = if abs then zero + q else place + q) :
    AxisNear (k + 1) abs (if abs then toDbl q else p + toDbl q) o place' zero ∧
      SameMove (p + o).r ((if abs then toDbl q else p + toDbl q) + o).r place place' := by
  have hc := count_small (k := k) (by omega)
  have hq : |(q : ℝ)| ≤ 20000 := by
    cases abs
    · simp only [Bool.false_eq_true, if_false] at hp
      rw [show (q : ℝ) = place' - place by rw [hp]; ring]
      rw [abs_le] at *
      constructor <;> linarith [hb.1, hb.2, hb'.1, hb'.2]
    · simp only [if_true] at hp
      rw [show (q : ℝ) = place' - zero by rw [hp]; ring]
      have := h.bound
      rw [abs_le] at *
      constructor <;> linarith [hb'.1, hb'.2, this.1, this.2]
  have e1 : |(toDbl q).r - q| ≤ 2.3e-12 := (toDbl_within hq).trans (by norm_num)
  have key : ∀ p' : Dbl, p'.Rounded → (abs = true → ∃ q : ℚ, p' = toDbl q ∧ place' - zero = q) →
      |(p'.r - p.r) - (place' - place)| ≤ 4.6e-12 → |p'.r + o.r - place'| ≤ k * 8e-12 + 4.6e-12 →
      (place' = place → p' = p) →
      AxisNear (k + 1) abs p' o place' zero ∧ SameMove (p + o).r (p' + o).r place place' := by
    intro p' r1 r2 r3 r4 r5
    have hA : AxisNear (k + 1) abs p' o place' zero := by
      refine ⟨r1, h.ro, r4.trans ?_, h.off.trans ?_, h.bound, r2⟩ <;>
      · push_cast
        linarith
    refine ⟨hA, ?_, fun he => by rw [r5 he]⟩
    have c1 := h.coord hb (by omega)
    have c2 := hA.coord hb' hk
    rw [abs_le] at *
    constructor <;> linarith [c1.1, c1.2, c2.1, c2.2, r3.1, r3.2]
  cases abs with
  | true =>
    simp only [if_true] at hp ⊢
    obtain ⟨q₀, rfl, g2⟩ := h.literal rfl
    have hq₀ : |(q₀ : ℝ)| ≤ 20000 := by
      rw [← g2]
      have := h.bound
      rw [abs_le] at *
      constructor <;> linarith [hb.1, hb.2, this.1, this.2]
    have e2 : |(toDbl q₀).r - q₀| ≤ 2.3e-12 := (toDbl_within hq₀).trans (by norm_num)
    have e3 := h.off
    apply key
    · exact Dbl.rounded_rnd q
    · exact fun _ => ⟨q, rfl, by rw [hp]; ring⟩
    · rw [hp]
      rw [abs_le] at *
      constructor <;> linarith [e1.1, e1.2, e2.1, e2.2]
    · rw [hp]
      rw [abs_le] at *
      constructor <;> linarith [e1.1, e1.2, e3.1, e3.2]
    · intro he
      have : (q : ℝ) = q₀ := by linarith
      rw [Rat.cast_inj] at this
      rw [this]
  | false =>
    simp only [Bool.false_eq_true, if_false] at hp ⊢
    have h1 := h.sum
    have h2 := h.off
    have h3 := h.bound
    have e2 : |(p + toDbl q).r - (p.r + (toDbl q).r)| ≤ 2.3e-12 := by
      refine (add_within (B := 20003) ?_).trans (by norm_num)
      rw [abs_le] at *
      constructor <;> linarith [h1.1, h1.2, h2.1, h2.2, h3.1, h3.2, hb'.1, hb'.2, e1.1, e1.2]
    apply key
    · exact Dbl.rounded_rnd _
    · exact fun h => by cases h
    · rw [hp]
      rw [abs_le] at *
      constructor <;> linarith [e1.1, e1.2, e2.1, e2.2]
    · rw [hp]
      rw [abs_le] at *
      constructor <;> linarith [e1.1, e1.2, e2.1, e2.2, h1.1, h1.2]
    · intro he
      have hq0 : (q : ℝ) = 0 := by linarith
      rw [Rat.cast_eq_zero] at hq0
      subst hq0
      have : toDbl 0 = 0 := rfl
      rw [this, h.rp.add_zero]

/-- An axis word of `G92`, which is zero. -/
theorem AxisNear.reset (h : AxisNear k abs p o place zero) (hb : |place| ≤ 10000) (hk : k ≤ 1000001) :
    AxisNear (k + 1) abs (toDbl 0) (p + toDbl 0 + o) place place ∧ toDbl 0 + (p + toDbl 0 + o) = p + o := by
  have h0 : toDbl 0 = 0 := rfl
  have e1 : p + toDbl 0 + o = p + o := by rw [h0, h.rp.add_zero]
  have e2 : toDbl 0 + (p + o) = p + o := by
    show (⟨rnd (rnd 0 + rnd (p.val + o.val))⟩ : Dbl) = ⟨rnd (p.val + o.val)⟩
    rw [rnd_zero, zero_add, rnd_rnd]
  rw [e1]
  refine ⟨⟨Dbl.rounded_rnd 0, Dbl.rounded_rnd _, ?_, ?_, hb, ?_⟩, e2⟩
  · rw [h0, Dbl.r_zero, zero_add]
    have c1 := h.coord hb hk
    have c2 := h.sum
    push_cast
    rw [abs_le] at *
    constructor <;> linarith [c1.1, c1.2, c2.1, c2.2]
  · have c1 := h.coord hb hk
    have c2 := h.sum
    push_cast
    rw [abs_le] at *
    constructor <;> linarith [c1.1, c1.2, c2.1, c2.2]
  · exact fun _ => ⟨0, rfl, by simp⟩

theorem AxisNear.initial {q : ℚ} (h : |(q : ℝ)| ≤ 10000) (abs : Bool) : AxisNear 1 abs (toDbl q) 0 q 0 := by
  have e1 : |(toDbl q).r - q| ≤ 1.2e-12 := (toDbl_within h).trans (by norm_num)
  refine ⟨Dbl.rounded_rnd q, Dbl.rounded_zero, ?_, ?_, by norm_num, fun _ => ⟨q, rfl, by simp⟩⟩
  · rw [Dbl.r_zero, add_zero]
    exact e1.trans (by norm_num)
  · rw [Dbl.r_zero]
    norm_num

/-! ## The state machine -/

theorem Rel.nearly {n : ℕ} {x y : ℝ} (h : Rel n x y) (hn : n ≤ 4) : Nearly x y := by
  refine (h.abs_sub (by omega)).trans ?_
  have h1 := eps_lt
  have h2 := eps_pos
  have h3 : (n : ℝ) ≤ 4 := by exact_mod_cast hn
  have h4 : 2 * (n : ℝ) * eps ≤ 1e-15 := by nlinarith
  gcongr

theorem toDbl_nearly (q : ℚ) : Nearly (toDbl q).r (toReal q) := (rel_rnd q).nearly (by norm_num)

theorem toDbl_div_nearly {n : ℕ} (hn : Rep (n : ℚ)) (q : ℚ) :
    Nearly (toDbl q / (⟨rnd n⟩ : Dbl)).r (toReal q / n) := by
  have h1 := Dbl.r_div (toDbl q) ⟨rnd n⟩
  have h2 : (⟨rnd n⟩ : Dbl).r = n := by
    show ((rnd (n : ℚ) : ℚ) : ℝ) = n
    rw [rnd_rep hn]
    norm_num
  rw [h2] at h1
  have h3 : Rel 1 (toDbl q).r (toReal q) := rel_rnd q
  exact (h1.trans (h3.div (Rel.refl 0 (n : ℝ)))).nearly (by norm_num)

theorem feed_nearly (q : ℚ) : Nearly (toDbl q / 60).r (toReal q / 60) :=
  toDbl_div_nearly (n := 60) ⟨60, 0, by norm_num, by norm_num⟩ q

theorem wait_nearly (q : ℚ) : Nearly (toDbl q / 1000).r (toReal q / 1000) :=
  toDbl_div_nearly (n := 1000) ⟨1000, 0, by norm_num, by norm_num⟩ q

/-- The state machine on doubles, with the entries `P` and `O`, beside the printer. -/
structure VMNear (k : ℕ) (vm : VM Dbl) (q : Printer) (P O : Axis → Dbl) : Prop where
  pos : ∀ a, vm.pos a = .num (P a) ∧ vm.off a = .num (O a)
  axis : ∀ a, AxisNear k (q.abs a) (P a) (O a) (q.place a) (q.zero a)
  absXYZ : vm.absPos = q.absXYZ
  absE : vm.absExt = q.absE
  feed : Nearly vm.pVel.r q.feed
  acc : ∃ x, vm.pAcc = .num x ∧ Nearly x.r q.acc
  jerk : ∃ x, vm.jerk = .num x ∧ Nearly x.r q.jerk

variable {vm : VM Dbl} {q : Printer} {P O : Axis → Dbl} {d : LineDict Dbl}

theorem VMNear.later (h : VMNear k vm q P O) : VMNear (k + 1) vm q P O :=
  ⟨h.pos, fun a => (h.axis a).later, h.absXYZ, h.absE, h.feed, h.acc, h.jerk⟩

theorem VMNear.position (h : VMNear k vm q P O) :
    vmPosition vm = .ok ⟨P .X + O .X, P .Y + O .Y, P .Z + O .Z, P .E + O .E⟩ := by
  have hc : ∀ a, coord vm a = .ok (P a + O a) := by
    intro a
    rw [coord, (h.pos a).1, (h.pos a).2]
  simp only [vmPosition, hc, bind, Except.bind]

/-- All places of the printer are in reach. -/
def Near10 (q : Printer) : Prop := ∀ a, |q.place a| ≤ 10000

theorem inReach_iff : InReach q.point ↔ Near10 q := by
  constructor
  · rintro ⟨h1, h2, h3, h4⟩ a
    cases a <;> assumption
  · intro h
    exact ⟨h .X, h .Y, h .Z, h .E⟩

theorem stepMove_none_dbl {c : Cmd} (h : ∀ l, word d c l = none) : stepMove d c vm = .ok vm := by
  simp only [stepMove, h, moveAxis, bind, Except.bind]
  congr 1
  obtain ⟨pos, _⟩ := vm
  simp only [VM.mk.injEq, and_true]
  funext a
  cases a <;> rfl

theorem stepSetPos_none_dbl (h : ∀ l, word d .G92 l = none) : stepSetPos d vm = .ok vm := by
  simp only [stepSetPos, h, setPosAxis, bind, Except.bind]
  congr 1
  obtain ⟨pos, off, _⟩ := vm
  simp only [VM.mk.injEq, and_true]
  constructor <;> funext a <;> cases a <;> rfl

/-- The entry of an axis behind a move. -/
def moved (abs : Bool) (w : Option ℚ) (p : Dbl) : Dbl :=
  match w with
  | none => p
  | some v => if abs then toDbl v else p + toDbl v

theorem moveAxis_dbl {w : Option ℚ} {x : Dbl} :
    moveAxis abs (w.map (.num ∘ toDbl)) (.num x) = .ok (.num (moved abs w x)) := by
  cases w with
  | none => rfl
  | some v => cases abs <;> rfl

/-- The place of an axis behind a move. -/
noncomputable def movedTo (abs : Bool) (w : Option ℚ) (place zero : ℝ) : ℝ :=
  match w.map toReal with
  | none => place
  | some v => if abs then zero + v else place + v

theorem AxisNear.moved {w : Option ℚ} (h : AxisNear k abs p o place zero) (hb : |place| ≤ 10000)
    (hb' : |movedTo abs w place zero| ≤ 10000) (hk : k + 1 ≤ 1000001) :
    AxisNear (k + 1) abs (moved abs w p) o (movedTo abs w place zero) zero ∧
      SameMove (p + o).r (moved abs w p + o).r place (movedTo abs w place zero) := by
  cases w with
  | none => exact ⟨h.later, by simp [movedTo, PyGCD.moved]; norm_num, fun _ => rfl⟩
  | some v => exact h.word hb hb' hk rfl

theorem stepMove_dbl (hv : VMNear k vm q P O) {c : Cmd} {f : Char → Option ℚ}
    (h : ∀ l, word d c l = (f l).map (.num ∘ toDbl)) (hk : k + 1 ≤ 1000001) (hq : Near10 q) {q' : Printer}
    (hq' : q' = { q with
      place := fun a =>
        match (f (Spec.letter a)).map toReal with
        | none => q.place a
        | some v => if q.abs a then q.zero a + v else q.place a + v
      feed := match (f 'F').map toReal with
        | none => q.feed
        | some v => v / 60 }) (hn : Near10 q') :
    ∃ vm' P' O', stepMove d c vm = .ok vm' ∧ VMNear (k + 1) vm' q' P' O' ∧
      ∀ a, SameMove (P a + O a).r (P' a + O' a).r (q.place a) (q'.place a) := by
  have hplace : ∀ a, q'.place a = movedTo (q.abs a) (f (Spec.letter a)) (q.place a) (q.zero a) := by
    intro a
    rw [hq']
    rfl
  have hzero : ∀ a, q'.zero a = q.zero a := fun a => by rw [hq']
  have habs : ∀ a, q'.abs a = q.abs a := fun a => by rw [hq']; cases a <;> rfl
  have hax : ∀ a, AxisNear (k + 1) (q.abs a) (moved (q.abs a) (f (Spec.letter a)) (P a)) (O a) (q'.place a) (q.zero a) ∧
      SameMove (P a + O a).r (moved (q.abs a) (f (Spec.letter a)) (P a) + O a).r (q.place a) (q'.place a) := by
    intro a
    have := hn a
    rw [hplace] at this ⊢
    exact (hv.axis a).moved (hq a) this hk
  have hm : ∀ a, moveAxis (q.abs a) ((f (Spec.letter a)).map (.num ∘ toDbl)) (vm.pos a) =
      .ok (.num (moved (q.abs a) (f (Spec.letter a)) (P a))) := by
    intro a
    rw [(hv.pos a).1, moveAxis_dbl]
  have hX : moveAxis vm.absPos ((f 'X').map (.num ∘ toDbl)) (vm.pos .X) =
      .ok (.num (moved (q.abs .X) (f (Spec.letter .X)) (P .X))) := by rw [hv.absXYZ]; exact hm .X
  have hY : moveAxis vm.absPos ((f 'Y').map (.num ∘ toDbl)) (vm.pos .Y) =
      .ok (.num (moved (q.abs .Y) (f (Spec.letter .Y)) (P .Y))) := by rw [hv.absXYZ]; exact hm .Y
  have hZ : moveAxis vm.absPos ((f 'Z').map (.num ∘ toDbl)) (vm.pos .Z) =
      .ok (.num (moved (q.abs .Z) (f (Spec.letter .Z)) (P .Z))) := by rw [hv.absXYZ]; exact hm .Z
  have hE : moveAxis vm.absExt ((f 'E').map (.num ∘ toDbl)) (vm.pos .E) =
      .ok (.num (moved (q.abs .E) (f (Spec.letter .E)) (P .E))) := by rw [hv.absE]; exact hm .E
  have mk : ∀ vm' : VM Dbl, (∀ a, vm'.pos a = .num (moved (q.abs a) (f (Spec.letter a)) (P a))) → vm'.off = vm.off →
      vm'.absPos = vm.absPos → vm'.absExt = vm.absExt → vm'.pAcc = vm.pAcc → vm'.jerk = vm.jerk →
      Nearly vm'.pVel.r q'.feed →
      VMNear (k + 1) vm' q' (fun a => moved (q.abs a) (f (Spec.letter a)) (P a)) O := by
    intro vm' m1 m2 m3 m4 m5 m6 m7
    refine ⟨fun a => ⟨m1 a, by rw [m2]; exact (hv.pos a).2⟩, fun a => ?_, ?_, ?_, m7, ?_, ?_⟩
    · rw [habs, hzero]
      exact (hax a).1
    · rw [m3, hv.absXYZ, hq']
    · rw [m4, hv.absE, hq']
    · rw [m5, hq']
      exact hv.acc
    · rw [m6, hq']
      exact hv.jerk
  cases hf : f 'F' with
  | none =>
    simp only [stepMove, h, hX, hY, hZ, hE, hf, Option.map_none, bind, Except.bind]
    refine ⟨_, _, _, rfl, mk _ ?_ rfl rfl rfl rfl rfl ?_, fun a => (hax a).2⟩
    · intro a
      cases a <;> rfl
    · rw [hq', hf]
      exact hv.feed
  | some v =>
    simp only [stepMove, h, hX, hY, hZ, hE, hf, Option.map_some, Val.divNum, bind, Except.bind, Function.comp]
    refine ⟨_, _, _, rfl, mk _ ?_ rfl rfl rfl rfl rfl ?_, fun a => (hax a).2⟩
    · intro a
      cases a <;> rfl
    · rw [hq', hf]
      exact feed_nearly v

theorem SameMove.none (c p : ℝ) : SameMove c c p p := ⟨by simp; norm_num, fun _ => rfl⟩

theorem stepSetPos_dbl (hv : VMNear k vm q P O) {f : Char → Option ℚ}
    (h : ∀ l, word d .G92 l = (f l).map (.num ∘ toDbl)) (h0 : ∀ l, ∀ v ∈ f l, v = 0) (hk : k ≤ 1000001)
    (hq : Near10 q) {q' : Printer} (hq' : q' = { q with
      zero := fun a =>
        match (f (Spec.letter a)).map toReal with
        | none => q.zero a
        | some v => q.place a - v }) :
    ∃ vm' P' O', stepSetPos d vm = .ok vm' ∧ VMNear (k + 1) vm' q' P' O' ∧
      ∀ a, SameMove (P a + O a).r (P' a + O' a).r (q.place a) (q'.place a) := by
  have hz : ∀ a, (f (Spec.letter a) = none ∧ q'.zero a = q.zero a) ∨
      (f (Spec.letter a) = some 0 ∧ q'.zero a = q.place a) := by
    intro a
    rw [hq']
    simp only
    cases hf : f (Spec.letter a) with
    | none => exact Or.inl ⟨rfl, rfl⟩
    | some v =>
      cases h0 _ v hf
      exact Or.inr ⟨rfl, by simp [toReal]⟩
  have hplace : ∀ a, q'.place a = q.place a := fun a => by rw [hq']
  have habs : ∀ a, q'.abs a = q.abs a := fun a => by rw [hq']; cases a <;> rfl
  obtain ⟨P', O', hPO⟩ : ∃ P' O' : Axis → Dbl, ∀ a,
      setPosAxis ((f (Spec.letter a)).map (.num ∘ toDbl)) (vm.pos a) (vm.off a) = .ok (.num (P' a), .num (O' a)) ∧
      AxisNear (k + 1) (q.abs a) (P' a) (O' a) (q.place a) (q'.zero a) ∧ P' a + O' a = P a + O a := by
    refine ⟨fun a => if f (Spec.letter a) = none then P a else toDbl 0,
      fun a => if f (Spec.letter a) = none then O a else P a + toDbl 0 + O a, fun a => ?_⟩
    rw [(hv.pos a).1, (hv.pos a).2]
    rcases hz a with ⟨e1, e2⟩ | ⟨e1, e2⟩
    · simp only [e1, e2, if_true]
      exact ⟨rfl, (hv.axis a).later, trivial⟩
    · simp only [e1, e2, reduceCtorEq, if_false]
      obtain ⟨r1, r2⟩ := (hv.axis a).reset (hq a) hk
      exact ⟨rfl, r1, r2⟩
  have hX := (hPO .X).1
  have hY := (hPO .Y).1
  have hZ := (hPO .Z).1
  have hE := (hPO .E).1
  simp only [Spec.letter] at hX hY hZ hE
  simp only [stepSetPos, h, hX, hY, hZ, hE, bind, Except.bind]
  refine ⟨_, P', O', rfl, ⟨?_, ?_, ?_, ?_, ?_, ?_, ?_⟩, ?_⟩
  · intro a
    cases a <;> exact ⟨rfl, rfl⟩
  · intro a
    rw [habs, hplace]
    exact (hPO a).2.1
  · rw [hq']
    exact hv.absXYZ
  · rw [hq']
    exact hv.absE
  · rw [hq']
    exact hv.feed
  · rw [hq']
    exact hv.acc
  · rw [hq']
    exact hv.jerk
  · intro a
    rw [(hPO a).2.2, hplace]
    exact SameMove.none _ _

variable (rd) in
/-- Numbers as reals. -/
noncomputable abbrev rdReal : List Char → Option ℝ := fun cs => (rd cs).map toReal

theorem written_zero (hp : l.Plain (rdReal rd)) (hk : l.cmd = some .G92) : ∀ c, ∀ v ∈ Line.written rd l c, v = 0 := by
  intro c v hv
  have := value_zero hp hk c (toReal v) (by rw [value_written, hv]; rfl)
  simpa [toReal] using this

/-- A plain line that does not return to absolute coordinates changes the machine on doubles nearly as it changes the
printer. -/
theorem vmStep_dbl (hp : l.Plain (rdReal rd)) (hd : ReadsDbl rd l d) (hv : VMNear k vm q P O)
    (hk : k + 1 ≤ 1000001) (hq : Near10 q) (hq' : Near10 (q.exec (rdReal rd) l))
    (hxyz : q.absXYZ = false → l.cmd ≠ some .G90) (he : q.absE = false → l.cmd ≠ some .M82) :
    ∃ vm' P' O', vmStep vm d = .ok vm' ∧ VMNear (k + 1) vm' (q.exec (rdReal rd) l) P' O' ∧
      ∀ a, SameMove (P a + O a).r (P' a + O' a).r (q.place a) ((q.exec (rdReal rd) l).place a) := by
  have hw := hd.word
  obtain ⟨m1, m2, _, m4, m5, m6, m7, m8, _⟩ := stepModes_spec vm d
  have x1 : Spec.xyzModeOf d = if l.cmd = some .G91 then some false else if l.cmd = some .G90 then some true else none := by
    simp only [Spec.xyzModeOf, hd.has .G91 (by decide), hd.has .G90 (by decide)]
  have x2 : Spec.eModeOf d = if l.cmd = some .M83 then some false else if l.cmd = some .M82 then some true else none := by
    simp only [Spec.eModeOf, hd.has .M83 (by decide), hd.has .M82 (by decide)]
  rw [x1] at m1
  rw [x2] at m2
  have hval : ∀ c, l.value (rdReal rd) c = (Line.written rd l c).map toReal := fun c => value_written c
  -- settings
  have hset : ∀ (n : ℕ) (v : VM Dbl) (r : Printer) (P O : Axis → Dbl), VMNear n v r P O →
      VMNear n (stepSettings d v) { r with
        acc := (if l.cmd = some .M204 then l.value (rdReal rd) 'P' else none).getD r.acc
        jerk := (if l.cmd = some .M205 then l.value (rdReal rd) 'X' else none).getD r.jerk } P O := by
    intro n v r P O h
    refine ⟨h.pos, h.axis, h.absXYZ, h.absE, h.feed, ?_, ?_⟩
    · simp only [stepSettings, hw .M204 (by decide), hval]
      by_cases hc : l.cmd = some .M204
      · simp only [hc, if_true]
        cases Line.written rd l 'P' with
        | none => exact h.acc
        | some v => exact ⟨_, rfl, toDbl_nearly v⟩
      · simp only [hc, if_false]
        exact h.acc
    · simp only [stepSettings, hw .M205 (by decide), hval]
      by_cases hc : l.cmd = some .M205
      · simp only [hc, if_true]
        cases Line.written rd l 'X' with
        | none => exact h.jerk
        | some v => exact ⟨_, rfl, toDbl_nearly v⟩
      · simp only [hc, if_false]
        exact h.jerk
  -- the machine after the mode commands
  have hmode : VMNear k (stepModes vm d) { q with
      absXYZ := (if l.cmd = some .G91 then some false else if l.cmd = some .G90 then some true else none).getD q.absXYZ
      absE := (if l.cmd = some .M83 then some false else if l.cmd = some .M82 then some true else none).getD q.absE }
      P O := by
    refine ⟨by rw [m4, m5]; exact hv.pos, ?_, ?_, ?_, by rw [m6]; exact hv.feed, by rw [m7]; exact hv.acc,
      by rw [m8]; exact hv.jerk⟩
    · intro a
      have hxy : ∀ b, q.absXYZ = b →
          ((if l.cmd = some .G91 then some false else if l.cmd = some .G90 then some true else none).getD b = b ∨
            (if l.cmd = some .G91 then some false else if l.cmd = some .G90 then some true else none).getD b = false) := by
        intro b hb
        by_cases h1 : l.cmd = some .G91
        · simp [h1]
        · by_cases h2 : l.cmd = some .G90
          · cases b with
            | false => exact absurd h2 (hxyz hb)
            | true => simp [h2]
          · simp [h1, h2]
      have hee : ∀ b, q.absE = b →
          ((if l.cmd = some .M83 then some false else if l.cmd = some .M82 then some true else none).getD b = b ∨
            (if l.cmd = some .M83 then some false else if l.cmd = some .M82 then some true else none).getD b = false) := by
        intro b hb
        by_cases h1 : l.cmd = some .M83
        · simp [h1]
        · by_cases h2 : l.cmd = some .M82
          · cases b with
            | false => exact absurd h2 (he hb)
            | true => simp [h2]
          · simp [h1, h2]
      have h1 := hxy _ rfl
      have h2 := hee _ rfl
      have h3 := hv.axis a
      cases a <;> simp only [Printer.abs] at h3 ⊢
      · rcases h1 with h1 | h1
        · rw [h1]; exact h3
        · rw [h1]; exact h3.relative
      · rcases h1 with h1 | h1
        · rw [h1]; exact h3
        · rw [h1]; exact h3.relative
      · rcases h1 with h1 | h1
        · rw [h1]; exact h3
        · rw [h1]; exact h3.relative
      · rcases h2 with h2 | h2
        · rw [h2]; exact h3
        · rw [h2]; exact h3.relative
    · rw [m1, hv.absXYZ]
    · rw [m2, hv.absE]
  have n0 : ∀ k, k ≠ .comment → l.cmd ≠ some k → ∀ c, word d k c = none := by
    intro k hk hne c
    rw [hw k hk, if_neg hne]
  have n1 : ∀ k, k ≠ .comment → l.cmd = some k → ∀ c, word d k c = (Line.written rd l c).map (.num ∘ toDbl) := by
    intro k hk he c
    rw [hw k hk, if_pos he]
  have quiet : l.cmd ≠ some .G0 → l.cmd ≠ some .G1 → l.cmd ≠ some .G92 →
      vmStep vm d = .ok (stepSettings d (stepModes vm d)) := by
    intro a0 a1 a2
    simp only [vmStep, bind, Except.bind, stepMove_none_dbl (n0 .G0 (by decide) a0),
      stepMove_none_dbl (n0 .G1 (by decide) a1), stepSetPos_none_dbl (n0 .G92 (by decide) a2)]
  have stay : l.cmd ≠ some .G0 → l.cmd ≠ some .G1 → l.cmd ≠ some .G92 → (q.exec (rdReal rd) l).place = q.place →
      VMNear k (stepSettings d (stepModes vm d)) (q.exec (rdReal rd) l) P O →
      ∃ vm' P' O', vmStep vm d = .ok vm' ∧ VMNear (k + 1) vm' (q.exec (rdReal rd) l) P' O' ∧
        ∀ a, SameMove (P a + O a).r (P' a + O' a).r (q.place a) ((q.exec (rdReal rd) l).place a) := by
    intro a0 a1 a2 hpl hV
    refine ⟨_, P, O, quiet a0 a1 a2, hV.later, fun a => ?_⟩
    rw [hpl]
    exact SameMove.none _ _
  have hS := hset k _ _ P O hmode
  cases hc : l.cmd with
  | none =>
    refine stay (by simp [hc]) (by simp [hc]) (by simp [hc]) (by simp [Printer.exec, hc]) ?_
    simpa [Printer.exec, hc] using hS
  | some c =>
    have hcc := hp.cmd c hc
    simp only [List.mem_cons, List.not_mem_nil, or_false] at hcc
    have move : ∀ c', (c' = .G0 ∨ c' = .G1) → l.cmd = some c' → ∃ vm' P' O', vmStep vm d = .ok vm' ∧
        VMNear (k + 1) vm' (q.exec (rdReal rd) l) P' O' ∧
        ∀ a, SameMove (P a + O a).r (P' a + O' a).r (q.place a) ((q.exec (rdReal rd) l).place a) := by
      intro c' h01 hc'
      have hne : c' ≠ .comment ∧ c' ≠ .G91 ∧ c' ≠ .G90 ∧ c' ≠ .M82 ∧ c' ≠ .M83 ∧ c' ≠ .M204 ∧ c' ≠ .M205 ∧ c' ≠ .G92 := by
        rcases h01 with rfl | rfl <;> simp
      have hexec : q.exec (rdReal rd) l = { q with
          place := fun a =>
            match (Line.written rd l (Spec.letter a)).map toReal with
            | none => q.place a
            | some v => if q.abs a then q.zero a + v else q.place a + v
          feed := match (Line.written rd l 'F').map toReal with
            | none => q.feed
            | some v => v / 60 } := by
        unfold Printer.exec
        rw [hc']
        rcases h01 with rfl | rfl <;> simp only [hval] <;> rfl
      simp only [hc', Option.some.injEq, hne.2.1, hne.2.2.1, hne.2.2.2.1, hne.2.2.2.2.1, if_false,
        Option.getD_none] at hmode
      obtain ⟨vm', P', O', g1, g2, g3⟩ := stepMove_dbl (q' := q.exec (rdReal rd) l) hmode (n1 c' hne.1 hc') hk hq
        hexec hq'
      have hS' := hset _ _ _ P' O' g2
      refine ⟨stepSettings d vm', P', O', ?_, ?_, g3⟩
      · rcases h01 with rfl | rfl
        · simp only [vmStep, bind, Except.bind, g1, stepMove_none_dbl (n0 .G1 (by decide) (by simp [hc'])),
            stepSetPos_none_dbl (n0 .G92 (by decide) (by simp [hc']))]
        · simp only [vmStep, bind, Except.bind, g1, stepMove_none_dbl (n0 .G0 (by decide) (by simp [hc'])),
            stepSetPos_none_dbl (n0 .G92 (by decide) (by simp [hc']))]
      · simpa only [hc', Option.some.injEq, hne.2.2.2.2.2.1, hne.2.2.2.2.2.2.1, if_false, Option.getD_none] using hS'
    rcases hcc with rfl | rfl | rfl | rfl | rfl | rfl | rfl | rfl | rfl | rfl | rfl | rfl
    · exact move .G0 (Or.inl rfl) hc
    · exact move .G1 (Or.inr rfl) hc
    · refine stay (by simp [hc]) (by simp [hc]) (by simp [hc]) (by simp [Printer.exec, hc]) ?_
      simpa [Printer.exec, hc] using hS
    · refine stay (by simp [hc]) (by simp [hc]) (by simp [hc]) (by simp [Printer.exec, hc]) ?_
      simpa [Printer.exec, hc] using hS
    · refine stay (by simp [hc]) (by simp [hc]) (by simp [hc]) (by simp [Printer.exec, hc]) ?_
      simpa [Printer.exec, hc] using hS
    · refine stay (by simp [hc]) (by simp [hc]) (by simp [hc]) (by simp [Printer.exec, hc]) ?_
      simpa [Printer.exec, hc] using hS
    · -- G92
      have hexec : q.exec (rdReal rd) l = { q with
          zero := fun a =>
            match (Line.written rd l (Spec.letter a)).map toReal with
            | none => q.zero a
            | some v => q.place a - v } := by
        unfold Printer.exec
        rw [hc]
        simp only [hval]
        rfl
      simp only [hc, Option.some.injEq, reduceCtorEq, if_false, Option.getD_none] at hmode
      obtain ⟨vm', P', O', g1, g2, g3⟩ := stepSetPos_dbl (q' := q.exec (rdReal rd) l) hmode (n1 .G92 (by decide) hc)
        (written_zero hp hc) (by omega) hq hexec
      have hS' := hset _ _ _ P' O' g2
      refine ⟨stepSettings d vm', P', O', ?_, ?_, g3⟩
      · simp only [vmStep, bind, Except.bind, stepMove_none_dbl (n0 .G0 (by decide) (by simp [hc])),
          stepMove_none_dbl (n0 .G1 (by decide) (by simp [hc])), g1]
      · simpa only [hc, Option.some.injEq, reduceCtorEq, if_false, Option.getD_none] using hS'
    · refine stay (by simp [hc]) (by simp [hc]) (by simp [hc]) (by simp [Printer.exec, hc]) ?_
      simpa [Printer.exec, hc] using hS
    · refine stay (by simp [hc]) (by simp [hc]) (by simp [hc]) (by simp [Printer.exec, hc]) ?_
      simpa [Printer.exec, hc] using hS
    · refine stay (by simp [hc]) (by simp [hc]) (by simp [hc]) (by simp [Printer.exec, hc]) ?_
      simpa [Printer.exec, hc] using hS
    · refine stay (by simp [hc]) (by simp [hc]) (by simp [hc]) (by simp [Printer.exec, hc]) ?_
      simpa [Printer.exec, hc] using hS
    · refine stay (by simp [hc]) (by simp [hc]) (by simp [hc]) (by simp [Printer.exec, hc]) ?_
      simpa [Printer.exec, hc] using hS

theorem pauseOf_dbl (hd : ReadsDbl rd l d) : ∃ w : Option Dbl, pauseOf d = .ok (w.map .num) ∧
    ((w = none ∧ l.wait (rdReal rd) = none) ∨
      ∃ x y, w = some x ∧ l.wait (rdReal rd) = some y ∧ Nearly x.r y) := by
  have hval : ∀ c, l.value (rdReal rd) c = (Line.written rd l c).map toReal := fun c => value_written c
  unfold pauseOf Line.wait
  rw [hd.word .G4 (by decide), hd.word .G4 (by decide), hval, hval]
  by_cases hc : l.cmd = some .G4
  · simp only [hc, if_true]
    cases Line.written rd l 'S' with
    | none =>
      cases Line.written rd l 'P' with
      | none => exact ⟨none, rfl, Or.inl ⟨rfl, rfl⟩⟩
      | some v => exact ⟨some (toDbl v / 1000), rfl, Or.inr ⟨_, _, rfl, rfl, wait_nearly v⟩⟩
    | some w =>
      refine ⟨some (toDbl w), ?_, Or.inr ⟨_, _, rfl, rfl, toDbl_nearly w⟩⟩
      cases Line.written rd l 'P' <;> rfl
  · simp only [hc, if_false]
    exact ⟨none, rfl, Or.inl ⟨rfl, trivial⟩⟩

/-! ## All lines -/

/-- The modes of the printer and the lines to come. -/
structure Onward (q : Printer) (ls : List Line) : Prop where
  xyz : q.absXYZ = false → ∀ m ∈ ls, m.cmd ≠ some .G90
  e : q.absE = false → ∀ m ∈ ls, m.cmd ≠ some .M82
  never : NeverBack ls

theorem Spec.NeverBack.tail {ls : List Line} (h : NeverBack (l :: ls)) : NeverBack ls := by
  intro pre m post he
  exact h (l :: pre) m post (by rw [he]; rfl)

theorem Onward.exec {pf : List Char → Option ℝ} {ls : List Line} (h : Onward q (l :: ls)) :
    Onward (q.exec pf l) ls := by
  obtain ⟨n1, n2⟩ := h.never [] l ls rfl
  refine ⟨?_, ?_, h.never.tail⟩
  · intro ha m hm
    by_cases hq : q.absXYZ = false
    · exact h.xyz hq m (by simp [hm])
    · by_cases hc : l.cmd = some .G91
      · exact n1 hc m hm
      · exfalso
        apply hq
        unfold Printer.exec at ha
        split at ha <;> simp_all
  · intro ha m hm
    by_cases hq : q.absE = false
    · exact h.e hq m (by simp [hm])
    · by_cases hc : l.cmd = some .M83
      · exact n2 hc m hm
      · exfalso
        apply hq
        unfold Printer.exec at ha
        split at ha <;> simp_all

/-- A state of doubles nearly shows what the printer is doing. -/
structure NearlyShows (k : ℕ) (s : PState Dbl) (x : Printer × Option ℝ) : Prop where
  position : ApartBy (k * 1e-11) s.position.real x.1.point
  speed : Nearly s.speed.r x.1.feed
  acc : Nearly s.pAcc.r x.1.acc
  jerk : Nearly s.jerk.r x.1.jerk
  pause : (s.pause = none ∧ x.2 = none) ∨ ∃ a b, s.pause = some a ∧ x.2 = some b ∧ Nearly a.r b

/-- The coordinates move from `c` to `c'` nearly as the printer moves. -/
structure NearlyMoves (c c' : Vec4 ℝ) (p p' : Vec4 ℝ) : Prop where
  x : SameMove c.x c'.x p.x p'.x
  y : SameMove c.y c'.y p.y p'.y
  z : SameMove c.z c'.z p.z p'.z
  e : SameMove c.e c'.e p.e p'.e

/-- The states of doubles follow the printer. -/
inductive Follows : ℕ → Vec4 ℝ → Vec4 ℝ → List (PState Dbl) → List (Printer × Option ℝ) → Prop
  | nil (k c p) : Follows k c p [] []
  | cons {k c p s x ss xs} : NearlyShows (k + 1) s x → NearlyMoves c s.position.real p x.1.point →
      Follows (k + 1) s.position.real x.1.point ss xs → Follows k c p (s :: ss) (x :: xs)

/-- The position of the machine. -/
def place4 (P O : Axis → Dbl) : Vec4 Dbl := ⟨P .X + O .X, P .Y + O .Y, P .Z + O .Z, P .E + O .E⟩

theorem VMNear.apart (h : VMNear k vm q P O) (hq : Near10 q) (hk : k ≤ 1000001) (hk0 : 1 ≤ k) :
    ApartBy (k * 1e-11) (place4 P O).real q.point :=
  ⟨(h.axis .X).coord_near (hq _) hk hk0, (h.axis .Y).coord_near (hq _) hk hk0,
    (h.axis .Z).coord_near (hq _) hk hk0, (h.axis .E).coord_near (hq _) hk hk0⟩

theorem travel_dbl {cue : Option (List Char)} {ls : List Line} {ds : List (LineDict Dbl)}
    (hF : List.Forall₂ (ReadsDbl rd) ls ds) (hp : ∀ l ∈ ls, l.Plain (rdReal rd)) :
    ∀ {n c k : Nat} {vm : VM Dbl} {q : Printer} {P O : Axis → Dbl}, VMNear k vm q P O → 1 ≤ k →
    k + ls.length ≤ 1000001 → Near10 q → (∀ x ∈ q.run (rdReal rd) ls, Near10 x.1) → Onward q ls →
    ∃ gs ss, travelLoop cue n c vm ds = .ok gs ∧ gs.mapM GState.toPState = .ok ss ∧
      Follows k (place4 P O).real q.point ss (q.run (rdReal rd) ls) := by
  induction hF with
  | nil =>
    intro n c k vm q P O _ _ _ _ _ _
    exact ⟨[], [], rfl, rfl, .nil _ _ _⟩
  | @cons l d ls ds hd _ ih =>
    intro n c k vm q P O hv hk0 hk hq hrun hon
    rw [List.length_cons] at hk
    have hq' := hrun _ (by rw [Printer.run]; exact List.mem_cons_self)
    obtain ⟨vm', P', O', h1, h2, h3⟩ := vmStep_dbl (hp l (by simp)) hd hv (by omega) hq hq'
      (fun h => hon.xyz h l (by simp)) (fun h => hon.e h l (by simp))
    obtain ⟨gs, ss, h4, h5, h6⟩ := ih (fun l hl => hp l (by simp [hl])) (n := n + 1) (c := layerStep cue c d) h2
      (by omega) (by omega) hq' (fun x hx => hrun x (by rw [Printer.run]; exact List.mem_cons_of_mem _ hx)) hon.exec
    obtain ⟨w, h7, h8⟩ := pauseOf_dbl hd
    obtain ⟨a, ha, ha'⟩ := h2.acc
    obtain ⟨j, hj, hj'⟩ := h2.jerk
    rw [travelLoop_cons_of h1 h7 h2.position, h4]
    have hst : ∃ s, (stateOf cue n (layerStep cue c d) ds.isEmpty vm' (place4 P' O') (w.map .num) d).toPState = .ok s ∧
        s.position = place4 P' O' ∧ s.speed = vm'.pVel ∧ s.pAcc = a ∧ s.jerk = j ∧ s.pause = w := by
      unfold GState.toPState stateOf vmSettings
      simp only [ha, hj]
      cases w <;> exact ⟨_, rfl, rfl, rfl, rfl, rfl, rfl⟩
    obtain ⟨s, hs, e1, e2, e3, e4, e5⟩ := hst
    refine ⟨_, s :: ss, rfl, ?_, ?_⟩
    · rw [List.mapM_cons]
      have hs' := hs
      unfold place4 at hs'
      rw [hs', h5]
      rfl
    · rw [Printer.run]
      refine .cons ⟨?_, ?_, ?_, ?_, ?_⟩ ?_ ?_
      · rw [e1]
        exact h2.apart hq' (by omega) (by omega)
      · rw [e2]
        exact h2.feed
      · rw [e3]
        exact ha'
      · rw [e4]
        exact hj'
      · rw [e5]
        exact h8
      · rw [e1]
        exact ⟨h3 .X, h3 .Y, h3 .Z, h3 .E⟩
      · rw [e1]
        exact h6

theorem Follows.rounded {c p : Vec4 ℝ} {ss : List (PState Dbl)} {xs : List (Printer × Option ℝ)}
    (h : Follows k c p ss xs) : ∀ {rs : List (PState ℝ)}, List.Forall₂ Shows rs xs →
    (ss.map PState.real).length = rs.length ∧ (∀ u ∈ (ss.map PState.real).zip rs, SameSettings u) ∧
    (∀ u : PState ℝ × PState ℝ, u.1.position = c → u.2.position = p →
      (u :: (ss.map PState.real).zip rs).IsChain SameMoves) ∧
    ∀ (n : ℕ) u r, (ss.map PState.real)[n]? = some u → rs[n]? = some r →
      ApartBy ((k + n + 1 : ℕ) * 1e-11) u.position r.position := by
  induction h with
  | nil k c p =>
    intro rs hF
    cases hF
    simp
  | @cons k c p s x ss xs h1 h2 _ ih =>
    intro rs hF
    cases hF with
    | @cons r _ rs _ g1 g2 =>
      obtain ⟨i1, i2, i3, i4⟩ := ih g2
      refine ⟨by simpa using i1, ?_, ?_, ?_⟩
      · intro u hu
        rw [List.map_cons, List.zip_cons_cons, List.mem_cons] at hu
        rcases hu with rfl | hu
        · refine ⟨?_, ?_, ?_, ?_⟩
          · rw [g1.speed]
            exact h1.speed
          · rw [g1.acc]
            exact h1.acc
          · rw [g1.jerk]
            exact h1.jerk
          · rw [g1.pause]
            rcases h1.pause with ⟨a1, a2⟩ | ⟨a, b, a1, a2, a3⟩
            · exact Or.inl ⟨by simp [PState.real, a1], a2⟩
            · exact Or.inr ⟨a.r, b, by simp [PState.real, a1], a2, a3⟩
        · exact i2 u hu
      · intro u hu1 hu2
        rw [List.map_cons, List.zip_cons_cons, List.isChain_cons_cons]
        refine ⟨?_, i3 _ rfl g1.position⟩
        have e1 : s.real.position = s.position.real := rfl
        refine ⟨?_, ?_, ?_, ?_⟩ <;> rw [hu1, hu2, g1.position, e1]
        · exact h2.x
        · exact h2.y
        · exact h2.z
        · exact h2.e
      · intro n u r' hu hr
        cases n with
        | zero =>
          simp only [List.map_cons, List.getElem?_cons_zero, Option.some.injEq] at hu hr
          subst hu hr
          rw [g1.position]
          exact h1.position
        | succ n =>
          simp only [List.map_cons, List.getElem?_cons_succ] at hu hr
          have := i4 n u r' hu hr
          rwa [show k + 1 + n + 1 = k + (n + 1) + 1 by ring] at this

end PyGCD
