import Verif.Spec.Linked
import Mathlib.Data.List.Nodup
import Mathlib.Tactic.Ring
import Mathlib.Tactic.Linarith

/-!
# Planning with linked objects is planning with lists
-/

set_option linter.unusedSectionVars false
set_option linter.unusedSimpArgs false

namespace PyGCD
open Spec

section
variable {K : Type}

/-- The address before position `k`. -/
def addrBefore (list : List Nat) : Nat → Option Nat
  | 0 => none
  | k + 1 => list[k]?

theorem Spec.LinkedList.get {h : BlockHeap K} {list : List Nat} {bs : List (Block K)} (hl : LinkedList h list bs)
    {k i : Nat} {b : Block K} (hi : list[k]? = some i) (hb : bs[k]? = some b) :
    h[i]? = some ⟨b, addrBefore list k, list[k + 1]?⟩ := by
  have hd := hl.data k
  rw [hi, hb] at hd
  simp only [Option.bind_some, Option.map_eq_some_iff] at hd
  obtain ⟨o, ho, rfl⟩ := hd
  rw [ho]
  have h2 := hl.after k i hi o ho
  have h1 : o.prev = addrBefore list k := by
    cases k with
    | zero => exact hl.first i hi o ho
    | succ k => exact hl.before k i hi o ho
  cases o
  simp_all

theorem Spec.LinkedList.deref {h : BlockHeap K} {list : List Nat} {bs : List (Block K)} (hl : LinkedList h list bs)
    {k i : Nat} {b : Block K} (hi : list[k]? = some i) (hb : bs[k]? = some b) :
    h.deref i = .ok ⟨b, addrBefore list k, list[k + 1]?⟩ := by
  unfold BlockHeap.deref
  rw [hl.get hi hb]

theorem Spec.LinkedList.addr {h : BlockHeap K} {list : List Nat} {bs : List (Block K)} (hl : LinkedList h list bs)
    {k : Nat} {b : Block K} (hb : bs[k]? = some b) : ∃ i, list[k]? = some i := by
  have := (List.getElem?_eq_some_iff.1 hb).1
  rw [← hl.length] at this
  exact ⟨_, List.getElem?_eq_getElem this⟩

theorem Spec.LinkedList.store {h : BlockHeap K} {list : List Nat} {bs : List (Block K)} (hl : LinkedList h list bs)
    {k i : Nat} {b b' : Block K} (hi : list[k]? = some i) (hb : bs[k]? = some b) :
    LinkedList (h.store i b') list (bs.set k b') := by
  have hget : ∀ j : Nat, (h.store i b')[j]? = (h[j]?).map fun o => if i = j then { o with data := b' } else o := by
    intro j
    unfold BlockHeap.store
    rw [List.getElem?_modify]
    cases h[j]? with
    | none => rfl
    | some o => by_cases hij : i = j <;> simp [hij]
  refine ⟨hl.distinct, by rw [List.length_set]; exact hl.length, ?_, ?_, ?_, ?_⟩
  · intro m
    rw [List.getElem?_set]
    by_cases hm : k = m
    · subst hm
      have hlt := (List.getElem?_eq_some_iff.1 hb).1
      rw [hi, if_pos rfl, if_pos hlt, Option.bind_some, hget, hl.get hi hb]
      simp
    · rw [if_neg hm, ← hl.data m]
      cases hj : list[m]? with
      | none => rfl
      | some j =>
        have hij : i ≠ j := by
          rintro rfl
          exact hm ((List.getElem?_inj (List.getElem?_eq_some_iff.1 hi).1 hl.distinct).1 (hi.trans hj.symm))
        rw [Option.bind_some, Option.bind_some, hget, Option.map_map]
        congr 1
        funext o
        simp [hij]
  · intro j hj o ho
    rw [hget] at ho
    simp only [Option.mem_def, Option.map_eq_some_iff] at ho
    obtain ⟨o', ho', rfl⟩ := ho
    have := hl.first j hj o' ho'
    split <;> exact this
  · intro m j hj o ho
    rw [hget] at ho
    simp only [Option.mem_def, Option.map_eq_some_iff] at ho
    obtain ⟨o', ho', rfl⟩ := ho
    have := hl.before m j hj o' ho'
    split <;> exact this
  · intro m j hj o ho
    rw [hget] at ho
    simp only [Option.mem_def, Option.map_eq_some_iff] at ho
    obtain ⟨o', ho', rfl⟩ := ho
    have := hl.after m j hj o' ho'
    split <;> exact this

end

section
variable {K : Type} [Add K] [Sub K] [Mul K] [Div K] [Neg K] [LT K] [LE K] [DecidableLT K]
  [DecidableLE K] [DecidableEq K] [OfNat K 0] [OfNat K 1] [OfNat K 2] [OfNat K 4] [OfNat K 18]
  [OfNat K 180] [OfScientific K] [PyMath K]

/-- Does the end speed of `last` differ from the begin speed of `nfirst`? -/
def differs (last nfirst : Segment K) : Bool :=
  decide (¬ last.velEnd.norm3 = nfirst.velBegin.norm3) &&
    decide ((1e-12 : K) < pyAbs (last.velEnd.norm3 - nfirst.velBegin.norm3))

/-- The end of the correction on lists. -/
def finishZip (nx : Block K) (nfirst : Segment K) (x : List (Block K) × Block K) :
    Except CallErr (List (Block K) × Block K × Option (Block K)) :=
  match x.2.lastSeg with
  | .error e => .error (.py e)
  | .ok last =>
    if last.posEnd.eq nfirst.posBegin = true then
      .ok (x.1, x.2, some (nx.timeshift (last.tEnd - nfirst.tBegin)))
    else if (1e-12 : K) < (last.posEnd.sub nfirst.posBegin).norm3 then .error (.py .nameError)
    else .ok (x.1, x.2, some (nx.timeshift (last.tEnd - nfirst.tBegin)))

/-- The correction on lists, with bounded nesting. -/
def correctZip : Nat → List (Block K) → Block K → Option (Block K) →
    Except CallErr (List (Block K) × Block K × Option (Block K))
  | 0, _, _, _ => .error .recursion
  | _ + 1, rp, b, none => .ok (rp, b, none)
  | limit + 1, rp, b, some nx =>
    match b.lastSeg, nx.firstSeg with
    | .error e, _ => .error (.py e)
    | .ok _, .error e => .error (.py e)
    | .ok last, .ok nfirst =>
      if differs last nfirst then
        match moveMaker b rp.head? nfirst.velBegin.norm3 with
        | .error e => .error (.py e)
        | .ok b' =>
          if b'.blocktype = some .single then
            match rp with
            | [] => .error (.py .attributeError)
            | p :: rp' =>
              match correctZip limit rp' p (some b') with
              | .error e => .error e
              | .ok r => finishZip nx nfirst (r.2.1 :: r.1, r.2.2.getD b')
          else finishZip nx nfirst (rp, b')
      else finishZip nx nfirst (rp, b)

theorem finishZip_ok {nx : Block K} {nfirst : Segment K} {x : List (Block K) × Block K}
    {r : List (Block K) × Block K × Option (Block K)} (h : finishZip nx nfirst x = .ok r) :
    r.1 = x.1 ∧ r.2.1 = x.2 ∧ ∃ d, r.2.2 = some (nx.timeshift d) := by
  unfold finishZip at h
  cases hx : x.2.lastSeg with
  | error e => rw [hx] at h; cases h
  | ok last =>
    simp only [hx] at h
    by_cases h1 : last.posEnd.eq nfirst.posBegin = true
    · rw [if_pos h1] at h
      cases h
      exact ⟨rfl, rfl, _, rfl⟩
    · rw [if_neg h1] at h
      by_cases h2 : (1e-12 : K) < (last.posEnd.sub nfirst.posBegin).norm3
      · rw [if_pos h2] at h; cases h
      · rw [if_neg h2] at h
        cases h
        exact ⟨rfl, rfl, _, rfl⟩

/-- The correction has the shape of its arguments. -/
theorem correctZip_shape : ∀ (limit : Nat) (rp : List (Block K)) (b : Block K) (nx : Option (Block K))
    (r : List (Block K) × Block K × Option (Block K)), correctZip limit rp b nx = .ok r →
    r.1.length = rp.length ∧ (nx = none → r.2.2 = none) ∧ ∀ x ∈ nx, ∃ d, r.2.2 = some (x.timeshift d) := by
  intro limit
  induction limit with
  | zero => intro rp b nx r h; cases h
  | succ limit ih =>
    intro rp b nx r h
    cases nx with
    | none =>
      cases h
      exact ⟨rfl, fun _ => rfl, by simp⟩
    | some nx =>
      refine (fun h' => ⟨h'.1, nofun, fun x hx => by cases hx; exact h'.2⟩ :
        (r.1.length = rp.length ∧ ∃ d, r.2.2 = some (nx.timeshift d)) → _) ?_
      unfold correctZip at h
      cases hl : b.lastSeg with
      | error e => rw [hl] at h; cases h
      | ok last =>
      cases hf : nx.firstSeg with
      | error e => rw [hl, hf] at h; cases h
      | ok nfirst =>
      simp only [hl, hf] at h
      by_cases hd : differs last nfirst = true
      · rw [if_pos hd] at h
        cases hm : moveMaker b rp.head? nfirst.velBegin.norm3 with
        | error e => rw [hm] at h; cases h
        | ok b' =>
          simp only [hm] at h
          by_cases hs : b'.blocktype = some .single
          · rw [if_pos hs] at h
            cases rp with
            | nil => cases h
            | cons p rp' =>
              simp only at h
              cases hr : correctZip limit rp' p (some b') with
              | error e => rw [hr] at h; cases h
              | ok r' =>
                rw [hr] at h
                obtain ⟨e1, _, e3⟩ := finishZip_ok h
                refine ⟨?_, e3⟩
                rw [e1]
                simp [(ih rp' p (some b') r' hr).1]
          · rw [if_neg hs] at h
            obtain ⟨e1, _, e3⟩ := finishZip_ok h
            exact ⟨by rw [e1], e3⟩
      · rw [if_neg hd] at h
        obtain ⟨e1, _, e3⟩ := finishZip_ok h
        exact ⟨by rw [e1], e3⟩

/-- Without recursion error the bounded correction is the unbounded one; with enough nesting there is
none. -/
theorem correctZip_eq : ∀ (limit : Nat) (rp : List (Block K)) (b : Block K) (nx : Option (Block K)),
    correctZip limit rp b nx = raised (selfCorrection rp b nx) ∨
      (correctZip limit rp b nx = .error .recursion ∧ limit ≤ rp.length) := by
  intro limit
  induction limit with
  | zero => intro rp b nx; exact Or.inr ⟨by unfold correctZip; rfl, Nat.zero_le _⟩
  | succ limit ih =>
    intro rp b nx
    cases nx with
    | none =>
      left
      unfold correctZip selfCorrection
      rfl
    | some nx =>
      unfold correctZip selfCorrection
      cases hl : b.lastSeg with
      | error e => left; rfl
      | ok last =>
      cases hf : nx.firstSeg with
      | error e => left; rfl
      | ok nfirst =>
      simp only [bind, Except.bind]
      by_cases hd : differs last nfirst = true
      · have hd' := hd
        unfold differs at hd'
        rw [if_pos hd]
        simp only [hd', if_true]
        cases hm : moveMaker b rp.head? nfirst.velBegin.norm3 with
        | error e => left; rfl
        | ok b' =>
          simp only
          by_cases hs : b'.blocktype = some .single
          · rw [if_pos hs, if_pos hs]
            cases rp with
            | nil => left; rfl
            | cons p rp' =>
              simp only
              rcases ih rp' p (some b') with h | h
              · left
                rw [h]
                cases hr : selfCorrection rp' p (some b') with
                | error e => rfl
                | ok r =>
                  simp only [raised]
                  obtain ⟨r1, r2, r3⟩ := r
                  cases r3 with
                  | none =>
                    unfold finishZip
                    cases hx : b'.lastSeg with
                    | error e => simp only [hx, raised, Option.getD_none, Option.getD_some]
                    | ok l =>
                      simp only [hx, raised, Option.getD_none, Option.getD_some]
                      by_cases h1 : l.posEnd.eq nfirst.posBegin = true
                      · simp only [h1, if_true]
                      · by_cases h2 : (1e-12 : K) < (l.posEnd.sub nfirst.posBegin).norm3
                        · simp only [h1, h2, if_true, Bool.false_eq_true, if_false]
                        · simp only [h1, h2, Bool.false_eq_true, if_false]
                  | some x =>
                    unfold finishZip
                    cases hx : x.lastSeg with
                    | error e => simp only [hx, raised, Option.getD_none, Option.getD_some]
                    | ok l =>
                      simp only [hx, raised, Option.getD_none, Option.getD_some]
                      by_cases h1 : l.posEnd.eq nfirst.posBegin = true
                      · simp only [h1, if_true]
                      · by_cases h2 : (1e-12 : K) < (l.posEnd.sub nfirst.posBegin).norm3
                        · simp only [h1, h2, if_true, Bool.false_eq_true, if_false]
                        · simp only [h1, h2, Bool.false_eq_true, if_false]
              · right
                rw [h.1]
                exact ⟨rfl, by rw [List.length_cons]; exact Nat.succ_le_succ h.2⟩
          · rw [if_neg hs, if_neg hs]
            left
            unfold finishZip
            cases hx : b'.lastSeg with
            | error e => simp only [hx, raised, Option.getD_none, Option.getD_some]
            | ok l =>
              simp only [hx, raised, Option.getD_none, Option.getD_some]
              by_cases h1 : l.posEnd.eq nfirst.posBegin = true
              · simp only [h1, if_true]
              · by_cases h2 : (1e-12 : K) < (l.posEnd.sub nfirst.posBegin).norm3
                · simp only [h1, h2, if_true, Bool.false_eq_true, if_false]
                · simp only [h1, h2, Bool.false_eq_true, if_false]
      · have hd' : differs last nfirst = false := by simpa using hd
        rw [if_neg hd]
        unfold differs at hd'
        simp only [hd', Bool.false_eq_true, if_false]
        left
        unfold finishZip
        cases hx : b.lastSeg with
        | error e => simp only [hx, raised, Option.getD_none, Option.getD_some]
        | ok l =>
          simp only [hx, raised, Option.getD_none, Option.getD_some]
          by_cases h1 : l.posEnd.eq nfirst.posBegin = true
          · simp only [h1, if_true]
          · by_cases h2 : (1e-12 : K) < (l.posEnd.sub nfirst.posBegin).norm3
            · simp only [h1, h2, if_true, Bool.false_eq_true, if_false]
            · simp only [h1, h2, Bool.false_eq_true, if_false]

theorem middle_get (rp : List (Block K)) (b : Block K) (tl : List (Block K)) :
    (rp.reverse ++ b :: tl)[rp.length]? = some b := by
  rw [List.getElem?_append_right (by simp)]
  simp

theorem middle_get_next (rp : List (Block K)) (b c : Block K) (tl : List (Block K)) :
    (rp.reverse ++ b :: c :: tl)[rp.length + 1]? = some c := by
  rw [List.getElem?_append_right (by simp)]
  simp

theorem middle_set (rp : List (Block K)) (b b' : Block K) (tl : List (Block K)) :
    (rp.reverse ++ b :: tl).set rp.length b' = rp.reverse ++ b' :: tl := by
  rw [List.set_append_right _ _ (by simp)]
  simp

theorem middle_set_next (rp : List (Block K)) (b c c' : Block K) (tl : List (Block K)) :
    (rp.reverse ++ b :: c :: tl).set (rp.length + 1) c' = rp.reverse ++ b :: c' :: tl := by
  rw [List.set_append_right _ _ (by simp)]
  simp

theorem shiftLinked_spec {h : BlockHeap K} {list : List Nat} {rp tl : List (Block K)} {b nx : Block K}
    {nfirst : Segment K} {i j : Nat} (hl : LinkedList h list (rp.reverse ++ b :: nx :: tl))
    (hi : list[rp.length]? = some i) (hj : list[rp.length + 1]? = some j) (hf : nx.firstSeg = .ok nfirst) :
    (∃ e, finishZip nx nfirst (rp, b) = .error e ∧ shiftLinked h i j = .error e) ∨
      ∃ nx' h', finishZip nx nfirst (rp, b) = .ok (rp, b, some nx') ∧ shiftLinked h i j = .ok h' ∧
        LinkedList h' list (rp.reverse ++ b :: nx' :: tl) := by
  unfold shiftLinked finishZip
  simp only [hl.deref hi (middle_get _ _ _), hl.deref hj (middle_get_next _ _ _ _), bind, Except.bind]
  cases hx : b.lastSeg with
  | error e => exact Or.inl ⟨_, rfl, rfl⟩
  | ok last =>
    have hl' := hl.store (b' := nx.timeshift (last.tEnd - nfirst.tBegin)) hj (middle_get_next _ _ _ _)
    rw [middle_set_next] at hl'
    have hf' : (nx.timeshift (last.tEnd - nfirst.tBegin)).firstSeg = .ok (nfirst.shift (last.tEnd - nfirst.tBegin)) := by
      unfold Block.firstSeg at hf ⊢
      unfold Block.timeshift
      cases hs : nx.segments with
      | nil => rw [hs] at hf; cases hf
      | cons s ss =>
        rw [hs] at hf
        cases hf
        rfl
    simp only [hf, raised, hl'.deref hi (middle_get _ _ _), hl'.deref hj (middle_get_next _ _ _ _), hx, hf']
    have hp : (nfirst.shift (last.tEnd - nfirst.tBegin)).posBegin = nfirst.posBegin := rfl
    rw [hp]
    by_cases h1 : last.posEnd.eq nfirst.posBegin = true
    · simp only [h1, if_true]
      exact Or.inr ⟨_, _, rfl, rfl, hl'⟩
    · by_cases h2 : (1e-12 : K) < (last.posEnd.sub nfirst.posBegin).norm3
      · simp only [h1, h2, if_true, Bool.false_eq_true, if_false]
        exact Or.inl ⟨_, rfl, rfl⟩
      · simp only [h1, h2, Bool.false_eq_true, if_false]
        exact Or.inr ⟨_, _, rfl, rfl, hl'⟩

/-- Correcting through the links is correcting the list. -/
theorem correctLinked_spec : ∀ (limit : Nat) {h : BlockHeap K} {list : List Nat} {rp tl : List (Block K)}
    {b : Block K} {nx : Option (Block K)} {i : Nat},
    LinkedList h list (rp.reverse ++ b :: (nx.toList ++ tl)) → (nx = none → tl = []) →
    list[rp.length]? = some i →
    (∃ e, correctZip limit rp b nx = .error e ∧ correctLinked limit h i = .error e) ∨
      ∃ r h', correctZip limit rp b nx = .ok r ∧ correctLinked limit h i = .ok h' ∧
        LinkedList h' list (r.1.reverse ++ r.2.1 :: (r.2.2.toList ++ tl)) := by
  intro limit
  induction limit with
  | zero =>
    intro h list rp tl b nx i _ _ _
    exact Or.inl ⟨.recursion, by unfold correctZip; rfl, by unfold correctLinked; rfl⟩
  | succ limit ih =>
    intro h list rp tl b nx i hl htl hi
    cases nx with
    | none =>
      have ht := htl rfl
      subst ht
      have hn : list[rp.length + 1]? = none := by
        rw [List.getElem?_eq_none_iff, hl.length]
        simp
      refine Or.inr ⟨(rp, b, none), h, by unfold correctZip; rfl, ?_, hl⟩
      unfold correctLinked
      simp only [hl.deref hi (middle_get _ _ _), hn, bind, Except.bind]
    | some nx =>
      simp only [Option.toList_some, List.singleton_append] at hl
      obtain ⟨j, hj⟩ := hl.addr (middle_get_next rp b nx tl)
      unfold correctZip correctLinked
      simp only [hl.deref hi (middle_get _ _ _), hj, hl.deref hj (middle_get_next _ _ _ _), bind, Except.bind]
      cases hx : b.lastSeg with
      | error e => exact Or.inl ⟨_, rfl, rfl⟩
      | ok last =>
      cases hf : nx.firstSeg with
      | error e => exact Or.inl ⟨_, rfl, rfl⟩
      | ok nfirst =>
      simp only [raised]
      have fin : ∀ {h : BlockHeap K} {rp : List (Block K)} {b : Block K},
          LinkedList h list (rp.reverse ++ b :: nx :: tl) → list[rp.length]? = some i →
          list[rp.length + 1]? = some j →
          (∃ e, finishZip nx nfirst (rp, b) = .error e ∧ shiftLinked h i j = .error e) ∨
            ∃ r h', finishZip nx nfirst (rp, b) = .ok r ∧ shiftLinked h i j = .ok h' ∧
              LinkedList h' list (r.1.reverse ++ r.2.1 :: (r.2.2.toList ++ tl)) := by
        intro h rp b hl hi hj
        rcases shiftLinked_spec hl hi hj hf with h | ⟨nx', h', e1, e2, e3⟩
        · exact Or.inl h
        · exact Or.inr ⟨_, h', e1, e2, e3⟩
      by_cases hd : differs last nfirst = true
      · have hd' := hd
        unfold differs at hd'
        rw [if_pos hd]
        simp only [hd', if_true]
        have hprev : h.derefLink (addrBefore list rp.length) = .ok rp.head? := by
          cases rp with
          | nil => rfl
          | cons p rp' =>
            have hp : (((p :: rp').reverse ++ b :: nx :: tl))[rp'.length]? = some p := by
              rw [List.reverse_cons, List.append_assoc, List.singleton_append]
              exact middle_get _ _ _
            obtain ⟨ip, hip⟩ := hl.addr hp
            rw [List.length_cons]
            show h.derefLink list[rp'.length]? = _
            rw [hip]
            unfold BlockHeap.derefLink
            simp only [hl.deref hip hp, bind, Except.bind, List.head?_cons]
        simp only [hprev]
        cases hm : moveMaker b rp.head? nfirst.velBegin.norm3 with
        | error e => exact Or.inl ⟨_, rfl, rfl⟩
        | ok b' =>
          simp only
          have hl1 := hl.store (b' := b') hi (middle_get _ _ _)
          rw [middle_set] at hl1
          by_cases hs : b'.blocktype = some .single
          · simp only [hs, if_true]
            cases rp with
            | nil => exact Or.inl ⟨_, rfl, rfl⟩
            | cons p rp' =>
              have hl2 : LinkedList (h.store i b') list (rp'.reverse ++ p :: ((some b').toList ++ (nx :: tl))) := by
                simpa using hl1
              obtain ⟨ip, hip⟩ := hl2.addr (middle_get _ _ _)
              simp only [List.length_cons, addrBefore, hip]
              rcases ih hl2 nofun hip with ⟨e, e1, e2⟩ | ⟨r, h', e1, e2, e3⟩
              · rw [e1, e2]
                exact Or.inl ⟨_, rfl, rfl⟩
              · rw [e1, e2]
                simp only
                obtain ⟨s1, _, s2⟩ := correctZip_shape _ _ _ _ _ e1
                obtain ⟨d, s2⟩ := s2 b' rfl
                refine fin (rp := r.2.1 :: r.1) ?_ ?_ ?_
                · rw [s2] at e3 ⊢
                  simpa using e3
                · rw [List.length_cons, s1]
                  simpa using hi
                · rw [List.length_cons, s1]
                  simpa using hj
          · simp only [hs, if_false]
            exact fin hl1 hi hj
      · have hd' : differs last nfirst = false := by simpa using hd
        rw [if_neg hd]
        unfold differs at hd'
        simp only [hd', Bool.false_eq_true, if_false]
        exact fin hl hi hj

/-- The correction of a list of blocks, with bounded nesting. -/
def correctZipFrom (limit : Nat) : List (Block K) → Block K → List (Block K) →
    Except CallErr (List (Block K))
  | rp, b, [] =>
    match correctZip limit rp b none with
    | .error e => .error e
    | .ok r => .ok (r.1.reverse ++ [r.2.1])
  | rp, b, nx :: tl =>
    match correctZip limit rp b (some nx) with
    | .error e => .error e
    | .ok r => correctZipFrom limit (r.2.1 :: r.1) (r.2.2.getD nx) tl

/-- The same for a list that can be empty. -/
def correctZipAll (limit : Nat) : List (Block K) → Except CallErr (List (Block K))
  | [] => .ok []
  | b :: tl => correctZipFrom limit [] b tl

theorem correctZipFrom_eq (limit : Nat) : ∀ (tl rp : List (Block K)) (b : Block K),
    correctZipFrom limit rp b tl = raised (correctFrom rp b tl) ∨
      (correctZipFrom limit rp b tl = .error .recursion ∧ limit ≤ rp.length + tl.length) := by
  intro tl
  induction tl with
  | nil =>
    intro rp b
    unfold correctZipFrom correctFrom
    rcases correctZip_eq limit rp b none with h | h
    · left
      rw [h]
      cases selfCorrection rp b none <;> rfl
    · right
      rw [h.1]
      exact ⟨rfl, h.2⟩
  | cons nx tl ih =>
    intro rp b
    unfold correctZipFrom correctFrom
    rcases correctZip_eq limit rp b (some nx) with h | h
    · have hs := correctZip_shape limit rp b (some nx)
      rw [h] at hs ⊢
      cases hr : selfCorrection rp b (some nx) with
      | error e => left; rfl
      | ok r =>
        rw [hr] at hs
        simp only [raised, bind, Except.bind]
        rcases ih (r.2.1 :: r.1) (r.2.2.getD nx) with h' | h'
        · exact Or.inl h'
        · right
          refine ⟨h'.1, h'.2.trans ?_⟩
          rw [List.length_cons, (hs r rfl).1, List.length_cons]
          omega
    · right
      rw [h.1]
      refine ⟨rfl, h.2.trans (Nat.le_add_right _ _)⟩

theorem correctZipAll_eq (limit : Nat) (bs : List (Block K)) :
    correctZipAll limit bs = raised (correctAll bs) ∨
      (correctZipAll limit bs = .error .recursion ∧ limit < bs.length) := by
  cases bs with
  | nil => left; rfl
  | cons b tl =>
    refine (correctZipFrom_eq limit tl [] b).imp id fun h => ⟨h.1, ?_⟩
    have := h.2
    rw [List.length_nil] at this
    rw [List.length_cons]
    omega

theorem correctLinkedAll_from (limit : Nat) : ∀ (tl : List (Block K)) {h : BlockHeap K} {list : List Nat}
    {rp : List (Block K)} {b : Block K}, LinkedList h list (rp.reverse ++ b :: tl) →
    (∃ e, correctZipFrom limit rp b tl = .error e ∧ correctLinkedAll limit h (list.drop rp.length) = .error e) ∨
      ∃ out h', correctZipFrom limit rp b tl = .ok out ∧
        correctLinkedAll limit h (list.drop rp.length) = .ok h' ∧ LinkedList h' list out := by
  intro tl
  induction tl with
  | nil =>
    intro h list rp b hl
    obtain ⟨i, hi⟩ := hl.addr (middle_get rp b [])
    have hd : list.drop rp.length = [i] := by
      rw [List.drop_eq_getElem_cons (List.getElem?_eq_some_iff.1 hi).1, (List.getElem?_eq_some_iff.1 hi).2]
      congr 1
      rw [List.drop_eq_nil_iff, hl.length]
      simp
    rw [hd]
    unfold correctZipFrom correctLinkedAll
    rcases correctLinked_spec limit (nx := none) (tl := []) (by simpa using hl) (fun _ => rfl) hi with
      ⟨e, e1, e2⟩ | ⟨r, h', e1, e2, e3⟩
    · rw [e1, e2]
      exact Or.inl ⟨e, rfl, rfl⟩
    · rw [e1, e2]
      refine Or.inr ⟨_, _, rfl, rfl, ?_⟩
      rw [(correctZip_shape _ _ _ _ _ e1).2.1 rfl] at e3
      simpa using e3
  | cons nx tl ih =>
    intro h list rp b hl
    obtain ⟨i, hi⟩ := hl.addr (middle_get rp b (nx :: tl))
    have hd : list.drop rp.length = i :: list.drop (rp.length + 1) := by
      rw [List.drop_eq_getElem_cons (List.getElem?_eq_some_iff.1 hi).1, (List.getElem?_eq_some_iff.1 hi).2]
    rw [hd]
    unfold correctZipFrom correctLinkedAll
    rcases correctLinked_spec limit (nx := some nx) (tl := tl) (by simpa using hl) nofun hi with
      ⟨e, e1, e2⟩ | ⟨r, h', e1, e2, e3⟩
    · rw [e1, e2]
      exact Or.inl ⟨e, rfl, rfl⟩
    · rw [e1, e2]
      obtain ⟨s1, _, s2⟩ := correctZip_shape _ _ _ _ _ e1
      obtain ⟨d, s2⟩ := s2 nx rfl
      have hl' : LinkedList h' list ((r.2.1 :: r.1).reverse ++ r.2.2.getD nx :: tl) := by
        rw [s2] at e3 ⊢
        simpa using e3
      have := ih hl'
      rw [List.length_cons, s1] at this
      exact this

theorem correctLinkedAll_spec (limit : Nat) {h : BlockHeap K} {list : List Nat} {bs : List (Block K)}
    (hl : LinkedList h list bs) :
    (∃ e, correctZipAll limit bs = .error e ∧ correctLinkedAll limit h list = .error e) ∨
      ∃ out h', correctZipAll limit bs = .ok out ∧ correctLinkedAll limit h list = .ok h' ∧
        LinkedList h' list out := by
  cases bs with
  | nil =>
    have : list = [] := List.length_eq_zero_iff.1 (by rw [hl.length]; rfl)
    subst this
    exact Or.inr ⟨[], h, rfl, rfl, hl⟩
  | cons b tl =>
    exact correctLinkedAll_from limit tl (rp := []) hl

/-! ## Generation -/

theorem Spec.LinkedList.lt {h : BlockHeap K} {list : List Nat} {bs : List (Block K)} (hl : LinkedList h list bs)
    {i : Nat} (hi : i ∈ list) : i < h.length := by
  obtain ⟨k, hk⟩ := List.mem_iff_getElem?.1 hi
  have hlt := (List.getElem?_eq_some_iff.1 hk).1
  rw [hl.length] at hlt
  have := hl.get hk (List.getElem?_eq_getElem hlt)
  exact (List.getElem?_eq_some_iff.1 this).1

theorem Spec.LinkedList.extend {h : BlockHeap K} {list : List Nat} {bs : List (Block K)} (hl : LinkedList h list bs)
    (o : BlockObj K) : LinkedList (h ++ [o]) list bs := by
  have hget : ∀ {k i : Nat}, list[k]? = some i → (h ++ [o])[i]? = h[i]? := fun hi =>
    List.getElem?_append_left (hl.lt (List.mem_of_getElem? hi))
  refine ⟨hl.distinct, hl.length, ?_, ?_, ?_, ?_⟩
  · intro k
    rw [← hl.data k]
    cases hi : list[k]? with
    | none => rfl
    | some i => rw [Option.bind_some, Option.bind_some, hget hi]
  · intro i hi x hx
    rw [hget hi] at hx
    exact hl.first i hi x hx
  · intro k i hi x hx
    rw [hget hi] at hx
    exact hl.before k i hi x hx
  · intro k i hi x hx
    rw [hget hi] at hx
    exact hl.after k i hi x hx

theorem Spec.LinkedList.derefLast {h : BlockHeap K} {list : List Nat} {bs : List (Block K)} (hl : LinkedList h list bs) :
    h.derefLink list.getLast? = .ok bs.getLast? := by
  rw [List.getLast?_eq_getElem?, List.getLast?_eq_getElem?, hl.length]
  cases hb : bs[bs.length - 1]? with
  | none =>
    have : list[bs.length - 1]? = none := by
      rw [List.getElem?_eq_none_iff] at hb ⊢
      rw [hl.length]
      exact hb
    rw [this]
    rfl
  | some b =>
    obtain ⟨i, hi⟩ := hl.addr hb
    rw [hi]
    unfold BlockHeap.derefLink
    simp only [hl.deref hi hb, bind, Except.bind]

/-- The objects after a block has been put behind the last one. -/
def pushed (h : BlockHeap K) (list : List Nat) (b : Block K) : BlockHeap K :=
  match list.getLast? with
  | some p => BlockHeap.setNext (h ++ [(⟨b, list.getLast?, none⟩ : BlockObj K)]) p h.length
  | none => h ++ [(⟨b, list.getLast?, none⟩ : BlockObj K)]

theorem pushed_old (h : BlockHeap K) (list : List Nat) (b : Block K) {i : Nat} (hi : i < h.length) :
    (pushed h list b)[i]? = h[i]?.map fun o => if list.getLast? = some i then { o with next := some h.length } else o := by
  unfold pushed
  have ha : (h ++ [(⟨b, list.getLast?, none⟩ : BlockObj K)])[i]? = h[i]? := List.getElem?_append_left hi
  cases hp : list.getLast? with
  | none =>
    rw [hp] at ha
    simp [ha]
  | some p =>
    simp only [BlockHeap.setNext]
    rw [List.getElem?_modify, ← hp, ha, hp]
    cases h[i]? with
    | none => rfl
    | some o => by_cases hpi : p = i <;> simp [hpi]

theorem pushed_new (h : BlockHeap K) (list : List Nat) (b : Block K) (hlt : ∀ i ∈ list, i < h.length) :
    (pushed h list b)[h.length]? = some ⟨b, list.getLast?, none⟩ := by
  unfold pushed
  have ha : (h ++ [(⟨b, list.getLast?, none⟩ : BlockObj K)])[h.length]? = some ⟨b, list.getLast?, none⟩ := by simp
  cases hp : list.getLast? with
  | none =>
    rw [hp] at ha
    exact ha
  | some p =>
    simp only [BlockHeap.setNext]
    rw [List.getElem?_modify, ← hp, ha]
    have := (hlt p (List.mem_of_getLast? hp)).ne
    simp [this]

theorem Spec.LinkedList.push {h : BlockHeap K} {list : List Nat} {bs : List (Block K)} (hl : LinkedList h list bs)
    (b : Block K) : LinkedList (pushed h list b) (list ++ [h.length]) (bs ++ [b]) := by
  have hlt : ∀ i ∈ list, i < h.length := fun i hi => hl.lt hi
  have hnew := pushed_new h list b hlt
  have hold : ∀ {k i : Nat}, list[k]? = some i → (pushed h list b)[i]? =
      h[i]?.map fun o => if list.getLast? = some i then { o with next := some h.length } else o := fun hi =>
    pushed_old h list b (hlt _ (List.mem_of_getElem? hi))
  have hcase : ∀ {k i : Nat}, (list ++ [h.length])[k]? = some i →
      list[k]? = some i ∨ (k = list.length ∧ i = h.length) := by
    intro k i hi
    rcases lt_or_ge k list.length with hk | hk
    · left
      rwa [List.getElem?_append_left hk] at hi
    · right
      rw [List.getElem?_append_right hk] at hi
      have h0 : k - list.length = 0 := by
        have := (List.getElem?_eq_some_iff.1 hi).1
        simpa using this
      rw [h0] at hi
      simp only [List.getElem?_cons_zero, Option.some.injEq] at hi
      exact ⟨by omega, hi.symm⟩
  have hlast : ∀ {k i : Nat}, list[k]? = some i → (list.getLast? = some i ↔ k + 1 = list.length) := by
    intro k i hi
    have hk := (List.getElem?_eq_some_iff.1 hi).1
    rw [List.getLast?_eq_getElem?]
    constructor
    · intro h
      have := (List.getElem?_inj hk hl.distinct).1 (hi.trans h.symm)
      omega
    · intro h
      rw [← h]
      simpa using hi
  refine ⟨?_, by simp [hl.length], ?_, ?_, ?_, ?_⟩
  · rw [List.nodup_append]
    refine ⟨hl.distinct, by simp, ?_⟩
    intro i hi j hj
    rw [List.mem_singleton] at hj
    subst hj
    exact (hlt i hi).ne
  · intro k
    rcases lt_trichotomy k list.length with hk | hk | hk
    · rw [List.getElem?_append_left hk, List.getElem?_append_left (by rw [← hl.length]; exact hk), ← hl.data k]
      have hi := List.getElem?_eq_getElem hk
      rw [hi, Option.bind_some, Option.bind_some, hold hi, Option.map_map]
      congr 1
      funext o
      simp only [Function.comp]
      split <;> rfl
    · subst hk
      rw [List.getElem?_concat_length, hl.length, List.getElem?_concat_length, Option.bind_some, hnew]
      rfl
    · rw [List.getElem?_eq_none_iff.2 (by simp; omega), List.getElem?_eq_none_iff.2 (by simp [← hl.length]; omega)]
      rfl
  · intro i hi o ho
    rcases hcase hi with hi | ⟨hk, rfl⟩
    · rw [hold hi] at ho
      simp only [Option.mem_def, Option.map_eq_some_iff] at ho
      obtain ⟨o', ho', rfl⟩ := ho
      have := hl.first i hi o' ho'
      split <;> exact this
    · rw [hnew] at ho
      cases ho
      rw [List.length_eq_zero_iff.1 hk.symm]
      rfl
  · intro k i hi o ho
    rcases hcase hi with hi | ⟨hk, rfl⟩
    · have hk := (List.getElem?_eq_some_iff.1 hi).1
      rw [List.getElem?_append_left (by omega)]
      rw [hold hi] at ho
      simp only [Option.mem_def, Option.map_eq_some_iff] at ho
      obtain ⟨o', ho', rfl⟩ := ho
      have := hl.before k i hi o' ho'
      split <;> exact this
    · rw [hnew] at ho
      cases ho
      rw [List.getElem?_append_left (by omega), List.getLast?_eq_getElem?, ← hk]
      rfl
  · intro k i hi o ho
    rcases hcase hi with hi | ⟨hk, rfl⟩
    · have hk := (List.getElem?_eq_some_iff.1 hi).1
      rw [hold hi] at ho
      simp only [Option.mem_def, Option.map_eq_some_iff] at ho
      obtain ⟨o', ho', rfl⟩ := ho
      have := hl.after k i hi o' ho'
      by_cases hl' : k + 1 = list.length
      · rw [if_pos ((hlast hi).2 hl'), hl', List.getElem?_concat_length]
      · rw [if_neg (fun h => hl' ((hlast hi).1 h)), List.getElem?_append_left (by omega)]
        exact this
    · rw [hnew] at ho
      cases ho
      rw [List.getElem?_eq_none_iff.2 (by simp; omega)]

theorem genLinked_spec (fw : Firmware) : ∀ (states : List (PState K)) {pa : Option (PState K)}
    {h : BlockHeap K} {list : List Nat} {bs : List (Block K)}, LinkedList h list bs →
    (∃ e, genBlocks fw pa bs.getLast? states = .error e ∧ genLinked fw pa h list states = .error (.py e)) ∨
      ∃ new h' list', genBlocks fw pa bs.getLast? states = .ok new ∧
        genLinked fw pa h list states = .ok (h', list') ∧ LinkedList h' list' (bs ++ new) := by
  intro states
  induction states with
  | nil =>
    intro pa h list bs hl
    exact Or.inr ⟨[], h, list, rfl, rfl, by simpa using hl⟩
  | cons s rest ih =>
    intro pa h list bs hl
    unfold genBlocks genLinked
    simp only [hl.derefLast, bind, Except.bind]
    cases hb : mkBlock fw pa s rest bs.getLast? with
    | error e => exact Or.inl ⟨e, rfl, rfl⟩
    | ok b =>
      simp only [raised]
      cases hs : b.segments.isEmpty with
      | true =>
        simp only [if_true]
        exact ih (hl.extend _)
      | false =>
        simp only [Bool.false_eq_true, if_false]
        have := ih (pa := some s) (hl.push b)
        rw [List.getLast?_concat] at this
        rcases this with ⟨e, e1, e2⟩ | ⟨new, h', list', e1, e2, e3⟩
        · left
          refine ⟨e, ?_, e2⟩
          rw [e1]
        · right
          refine ⟨b :: new, h', list', ?_, e2, by simpa using e3⟩
          rw [e1]

end
end PyGCD
