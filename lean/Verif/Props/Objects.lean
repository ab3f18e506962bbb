import Verif.Spec.Objects
import Verif.Props.Vectors

/-!
# Property C77: the vector classes, checked operators, and planning with them
-/

set_option linter.unusedSimpArgs false
set_option linter.unusedSectionVars false

namespace PyGCD

section
variable {K : Type} [Add K] [Sub K] [Mul K] [Div K] [Neg K] [LT K] [LE K] [DecidableLT K]
  [DecidableLE K] [DecidableEq K] [OfNat K 0] [OfNat K 1] [OfNat K 2] [OfNat K 18] [OfNat K 180]
  [OfScientific K] [PyMath K]

theorem vecOf_some (l : List K) (v : Vec4 K) : vecOf l = some v ↔ l = [v.x, v.y, v.z, v.e] := by
  match l with
  | [] => simp [vecOf]
  | [_] => simp [vecOf]
  | [_, _] => simp [vecOf]
  | [_, _, _] => simp [vecOf]
  | [x, y, z, e] =>
    simp only [vecOf, Option.some.injEq, List.cons.injEq, and_true, Vec4.ext_iff]
  | _ :: _ :: _ :: _ :: _ :: _ => simp [vecOf]

theorem Cls.isA_iff (c d : Cls) : c.isA d = true ↔ c = d ∨ d = .vector4D := by
  simp [Cls.isA]

theorem operand_obj (c : Cls) (b : Obj K) (v : Vec4 K) :
    Spec.Operand c (.obj b) v ↔ v = b.v ∧ (b.cls = c ∨ c = .vector4D) := by
  constructor
  · rintro (_ | _ | ⟨d, v, h⟩)
    · exact ⟨rfl, .inl rfl⟩
    · exact ⟨rfl, .inr h⟩
  · rcases b with ⟨d, w⟩
    rintro ⟨rfl, h | h⟩
    · subst h
      exact .same _
    · exact .base _ _ h

theorem operand_seq (c : Cls) (l : List K) (v : Vec4 K) :
    Spec.Operand c (.seq l) v ↔ l = [v.x, v.y, v.z, v.e] := by
  constructor
  · rintro ⟨⟩
    rfl
  · rintro rfl
    exact .four ..

/-- **C77, construction.** A vector class called with one argument succeeds exactly for a sequence of four
numbers, called with several numbers exactly for four; the result has that class and these coordinates. A wrong number of coordinates is a
`ValueError`, anything else than a sequence a `TypeError`. -/
theorem c77_construct (c : Cls) (x : Value K) (args : List K) (r : Obj K) :
    (c.of1 x = .ok r ↔ r.cls = c ∧ x = .seq [r.v.x, r.v.y, r.v.z, r.v.e]) ∧
    (c.ofN args = .ok r ↔ r.cls = c ∧ args = [r.v.x, r.v.y, r.v.z, r.v.e]) ∧
    (∀ l, l.length ≠ 4 → c.of1 (.seq l : Value K) = .error .valueError) ∧
    (args.length ≠ 4 → c.ofN args = .error .valueError) ∧
    ((∀ l, x ≠ .seq l) → c.of1 x = .error .typeError) := by
  have hnone : ∀ l : List K, l.length ≠ 4 → vecOf l = none := by
    intro l hl
    rcases h : vecOf l with _ | v
    · rfl
    · rw [vecOf_some] at h
      rw [h] at hl
      exact absurd rfl hl
  have hseq : ∀ l : List K, (match vecOf l with
      | some v => Except.ok (⟨c, v⟩ : Obj K)
      | none => .error PyErr.valueError) = .ok r ↔ r.cls = c ∧ l = [r.v.x, r.v.y, r.v.z, r.v.e] := by
    intro l
    rw [← vecOf_some]
    rcases h : vecOf l with _ | v
    · simp
    · rcases r with ⟨d, w⟩
      simp only [Except.ok.injEq, Obj.mk.injEq, Option.some.injEq]
      exact ⟨fun h => ⟨h.1.symm, h.2⟩, fun h => ⟨h.1.symm, h.2⟩⟩
  refine ⟨?_, ?_, ?_, ?_, ?_⟩
  · cases x with
    | seq l =>
      rw [Value.seq.injEq]
      exact hseq l
    | obj o => simp [Cls.of1]
    | num t k => simp [Cls.of1]
    | none => simp [Cls.of1]
  · exact hseq args
  · intro l hl
    simp only [Cls.of1, hnone l hl]
  · intro hl
    simp only [Cls.ofN, hnone args hl]
  · intro h
    cases x with
    | seq l => exact absurd rfl (h l)
    | obj o => rfl
    | num t k => rfl
    | none => rfl

/-- **C77, coordinates.** `get_vec` gives back the coordinates a vector was built from: X, Y and Z, and with
`withExtrusion` also E. -/
theorem c77_coordinates (c : Cls) (x y z e : K) :
    ∃ r, c.ofN [x, y, z, e] = .ok r ∧ r.getVec = [x, y, z] ∧ r.getVec true = [x, y, z, e] := by
  exact ⟨_, rfl, rfl, rfl⟩

/-- **C77, sums and differences.** `a + x` and `a - x` succeed exactly if `x` is a sequence of four
numbers, an instance of `a`'s own class, or any instance if `a` is a plain `vector_4D`. The result has the
class of `a` and the sums or differences of the coordinates. Everything else is a `ValueError`. -/
theorem c77_sums (a : Obj K) (x : Value K) :
    (∀ v, Spec.Operand a.cls x v →
      a.add x = .ok ⟨a.cls, ⟨a.v.x + v.x, a.v.y + v.y, a.v.z + v.z, a.v.e + v.e⟩⟩ ∧
      a.sub x = .ok ⟨a.cls, ⟨a.v.x - v.x, a.v.y - v.y, a.v.z - v.z, a.v.e - v.e⟩⟩) ∧
    ((∀ v, ¬ Spec.Operand a.cls x v) →
      a.add x = .error .valueError ∧ a.sub x = .error .valueError) := by
  constructor
  · rintro v (⟨x, y, z, e⟩ | _ | ⟨d, v, h⟩)
    · exact ⟨rfl, rfl⟩
    · simp [Obj.add, Obj.sub, Cls.isA, Vec4.add, Vec4.sub]
    · simp [Obj.add, Obj.sub, Cls.isA, h, Vec4.add, Vec4.sub]
  · intro h
    cases x with
    | obj b =>
      have hb : ¬ b.cls.isA a.cls = true := by
        rw [Cls.isA_iff]
        exact fun hc => h b.v ((operand_obj _ _ _).2 ⟨rfl, hc⟩)
      simp only [Obj.add, Obj.sub, if_neg hb, and_self]
    | seq l =>
      have hl : vecOf l = none := by
        rcases hv : vecOf l with _ | v
        · rfl
        · exact absurd ((operand_seq _ _ _).2 ((vecOf_some _ _).1 hv)) (h v)
      simp only [Obj.add, Obj.sub, hl, and_self]
    | num t k => exact ⟨rfl, rfl⟩
    | none => exact ⟨rfl, rfl⟩

/-- **C77, scaling.** `a * x` succeeds exactly for `float`, `numpy.float64` and `int`; `a / x` exactly for
`float` and `numpy.float64`. The class is kept, the coordinates are scaled; everything else, division by an
`int` included, is a `TypeError`. -/
theorem c77_scaling (a : Obj K) (x : Value K) :
    (∀ k, Spec.Factor x k → a.mul x = .ok ⟨a.cls, ⟨a.v.x * k, a.v.y * k, a.v.z * k, a.v.e * k⟩⟩) ∧
    (∀ k, Spec.Divisor x k → a.div x = .ok ⟨a.cls, ⟨a.v.x / k, a.v.y / k, a.v.z / k, a.v.e / k⟩⟩) ∧
    ((∀ k, ¬ Spec.Factor x k) → a.mul x = .error .typeError) ∧
    ((∀ k, ¬ Spec.Divisor x k) → a.div x = .error .typeError) ∧
    ∀ k, a.div (.num .int k) = .error .typeError := by
  refine ⟨?_, ?_, ?_, ?_, fun k => rfl⟩
  · rintro k (rfl | rfl | rfl) <;> rfl
  · rintro k (rfl | rfl) <;> rfl
  · intro h
    cases x with
    | num t k => cases t <;> first | rfl | exact absurd (by simp [Spec.Factor]) (h k)
    | _ => rfl
  · intro h
    cases x with
    | num t k => cases t <;> first | rfl | exact absurd (by simp [Spec.Divisor]) (h k)
    | _ => rfl

/-- **C77, the claim of the documentation.** The operators are documented for any "4D vector"; a position
and a velocity cannot be added, in either order, whatever their coordinates, and neither can be put in front
of a plain vector, while the plain vector can be put in front of them. -/
theorem c77_mixed (v w : Vec4 K) :
    (⟨.position, v⟩ : Obj K).add (.obj ⟨.velocity, w⟩) = .error .valueError ∧
    (⟨.velocity, v⟩ : Obj K).add (.obj ⟨.position, w⟩) = .error .valueError ∧
    (∀ c, c ≠ .vector4D → (⟨c, v⟩ : Obj K).add (.obj ⟨.vector4D, w⟩) = .error .valueError) ∧
    ∀ c, (⟨.vector4D, v⟩ : Obj K).add (.obj ⟨c, w⟩) = .ok ⟨.vector4D, v.add w⟩ := by
  refine ⟨rfl, rfl, ?_, ?_⟩
  · intro c hc
    cases c <;> first | rfl | exact absurd rfl hc
  · intro c
    cases c <;> rfl

/-- **C77, other arguments.** The methods of positions that are documented for lists and arrays accept
instances only, and the speed limiter of velocities always fails. -/
theorem c77_methods (a : Obj K) (b : Obj K) (l : List K) (ir we : Bool) :
    a.isTravel (.seq l) = .error .attributeError ∧ a.isExtruding ir (.seq l) = .error .attributeError ∧
    a.tDistance we (.seq l) = .error .attributeError ∧ a.avoidOverspeed = .error .attributeError ∧
    (a.isTravel (.obj b)).isOk ∧ (a.isExtruding ir (.obj b)).isOk ∧
    a.tDistance we (.obj b) = .ok (if we then (a.v.sub b.v).norm4 else (a.v.sub b.v).norm3) ∧
    a.tDistance we .none = a.tDistance we (.obj ⟨.position, ⟨0, 0, 0, 0⟩⟩) :=
  ⟨rfl, rfl, rfl, rfl, rfl, rfl, rfl, rfl⟩

end

/-- **C77, equality.** Two instances are equal only if their classes are the same, even if the left one is a
plain `vector_4D` and all coordinates agree; then, and for four numbers on the right, exactly if every
coordinate agrees up to the tolerance. Nothing else is equal to a vector. -/
theorem c77_equality (a b : Obj ℝ) (l : List ℝ) (t : NumType) (k : ℝ) :
    (a.eqOp (.obj b) = true ↔ a.cls = b.cls ∧ Spec.Near a.v b.v) ∧
    (a.eqOp (.seq l) = true ↔ ∃ x y z e, l = [x, y, z, e] ∧ Spec.Near a.v ⟨x, y, z, e⟩) ∧
    a.eqOp (.num t k) = false ∧ a.eqOp .none = false := by
  refine ⟨?_, ?_, rfl, rfl⟩
  · simp only [Obj.eqOp]
    have hn : a.v.eq b.v = true ↔ Spec.Near a.v b.v := (c49_tolerant_equality a.v b.v).1
    by_cases hc : b.cls = a.cls
    · rw [if_neg (by simp [hc])]
      simp [Obj.eqMethod, Cls.isA, hc, hn]
    · by_cases hv : b.cls.isA a.cls = true
      · rw [if_pos ⟨hc, hv⟩]
        rw [Cls.isA_iff] at hv
        have hv' : a.cls = .vector4D := hv.resolve_left hc
        have hb : a.cls.isA b.cls = false := by
          rw [← Bool.not_eq_true, Cls.isA_iff, not_or]
          exact ⟨fun h => hc h.symm, fun h => hc (h.trans hv'.symm)⟩
        simp only [Obj.eqMethod, hb, Bool.false_and, Bool.false_eq_true, false_iff]
        exact fun h => hc h.1.symm
      · rw [if_neg (fun h => hv h.2)]
        simp only [Obj.eqMethod, Bool.eq_false_iff.2 hv, Bool.false_and, Bool.false_eq_true, false_iff]
        exact fun h => hc h.1.symm
  · simp only [Obj.eqOp, Obj.eqMethod]
    rcases hv : vecOf l with _ | v
    · simp only [Bool.false_eq_true, false_iff]
      rintro ⟨x, y, z, e, rfl, _⟩
      simp [vecOf] at hv
    · rw [vecOf_some] at hv
      simp only [(c49_tolerant_equality a.v v).1]
      constructor
      · exact fun h => ⟨_, _, _, _, hv, h⟩
      · rintro ⟨x, y, z, e, hl, h⟩
        rw [hv] at hl
        simp only [List.cons.injEq, and_true] at hl
        obtain ⟨h1, h2, h3, h4⟩ := hl
        simpa only [Spec.Near, h1, h2, h3, h4] using h

/-! ### Segments -/

theorem bind_ok {α β : Type} (a : α) (f : α → Except PyErr β) : (Except.ok a >>= f) = f a := rfl
theorem bind_error {α β : Type} (e : PyErr) (f : α → Except PyErr β) :
    (Except.error e >>= f) = .error e := rfl

section
variable {K : Type} [Add K] [Sub K] [Mul K] [Div K] [Neg K] [LT K] [LE K] [DecidableLT K]
  [DecidableLE K] [DecidableEq K] [OfNat K 0] [OfNat K 1] [OfNat K 2] [OfNat K 18] [OfNat K 180]
  [OfScientific K] [PyMath K]

theorem TSegment.make_eq (t0 t1 : K) (p0 v0 p1 v1 : Obj K) (h : v1.cls.isA v0.cls = true) :
    TSegment.make t0 t1 p0 v0 (.obj p1) (.obj v1) =
      (Segment.make t0 t1 p0.v v0.v p1.v v1.v).map fun _ => ⟨t0, t1, p0, v0, p1, v1⟩ := by
  simp only [TSegment.make, TSegment.selfCheck, Obj.add, h, if_true, bind_ok, Obj.mul, Obj.div, Obj.getVec,
    vecOf, Segment.make, Segment.selfCheckOk]
  by_cases h1 : (1e-6 : K) < (p1.v.sub (p0.v.add ⟨(((v0.v.add v1.v).mul (t1 - t0)).div 2).x,
    (((v0.v.add v1.v).mul (t1 - t0)).div 2).y, (((v0.v.add v1.v).mul (t1 - t0)).div 2).z,
    (((v0.v.add v1.v).mul (t1 - t0)).div 2).e⟩)).norm3
  · simp only [h1, if_true, decide_true, Bool.not_true, Bool.false_and, Bool.false_eq_true, if_false]
    rfl
  · simp only [h1, if_false, decide_false, Bool.not_false, Bool.true_and]
    by_cases h2 : t1 < t0
    · simp only [h2, if_true, decide_true, Bool.not_true, Bool.false_eq_true, if_false]
      rfl
    · simp only [h2, if_false, decide_false, Bool.not_false, if_true]
      rfl

/-- **C77, segments without an end.** The ends of a segment are documented to default to `None`; without
an end velocity construction is a `ValueError`, without an end position it never succeeds, and no initial segment can be
created without a position. -/
theorem c77_no_end (t0 t1 : K) (p0 v0 : Obj K) (pe ve : Value K) :
    TSegment.make t0 t1 p0 v0 pe .none = .error .valueError ∧
    (∀ r, TSegment.make t0 t1 p0 v0 .none ve ≠ .ok r) ∧
    TSegment.initial (none : Option (Obj K)) = .error .typeError := by
  refine ⟨rfl, ?_, rfl⟩
  intro r
  simp only [TSegment.make, TSegment.selfCheck]
  rcases v0.add ve with e | v
  · simp [bind_error]
  · simp [bind_ok, Obj.mul, Obj.div, Obj.getVec, Obj.add, vecOf, bind_error]

theorem typed_dressed (s : TSegment K) (h : Spec.Typed s) : Spec.Dressed s s.erase := by
  obtain ⟨h1, h2, h3, h4⟩ := h
  rcases s with ⟨_, _, ⟨c1, _⟩, ⟨c2, _⟩, ⟨c3, _⟩, ⟨c4, _⟩⟩
  simp only at h1 h2 h3 h4
  subst h1 h2 h3 h4
  rfl

/-- **C77, queries.** A segment whose positions are positions and whose velocities are velocities answers
like the model without classes at every time, with a velocity and a position, if the time and the times of the segment are
`float`s. -/
theorem c77_queries (s : TSegment K) (h : Spec.Typed s) (nt nd : NumType) (hnt : nt ≠ .other)
    (hnd : nd = .float ∨ nd = .float64) (t : K) :
    s.getVelocity nt nd t = (s.erase.getVelocity t).map (⟨.velocity, ·⟩) ∧
    s.getPosition nt nd t = (s.erase.getPosition t).map (⟨.position, ·⟩) ∧
    s.len = .ok s.erase.len := by
  have hd := typed_dressed s h
  generalize s.erase = r at hd
  cases hd
  have hmul : ∀ (a : Obj K) (k : K), a.mul (.num nt k) = .ok ⟨a.cls, a.v.mul k⟩ := by
    intro a k
    cases nt <;> first | rfl | exact absurd rfl hnt
  have hdiv : ∀ (a : Obj K) (k : K), a.div (.num nd k) = .ok ⟨a.cls, a.v.div k⟩ := by
    intro a k
    rcases hnd with rfl | rfl <;> rfl
  have hvel : (⟨r.tBegin, r.tEnd, ⟨.position, r.posBegin⟩, ⟨.velocity, r.velBegin⟩, ⟨.position, r.posEnd⟩,
      ⟨.velocity, r.velEnd⟩⟩ : TSegment K).getVelocity nt nd t =
        (r.getVelocity t).map (⟨.velocity, ·⟩) := by
    simp only [TSegment.getVelocity, Segment.getVelocity]
    by_cases ht : t < r.tBegin ∨ r.tEnd < t
    · simp only [if_pos ht]
      rfl
    · simp only [if_neg ht]
      by_cases hdt : 0 < r.tEnd - r.tBegin
      · simp only [if_pos hdt, Obj.sub, Obj.add, hmul, hdiv, Cls.isA, decide_true, Bool.true_or, if_true, bind_ok]
        rfl
      · simp only [if_neg hdt, Obj.sub, Obj.add, hmul, hdiv, Cls.isA, decide_true, Bool.true_or, if_true, bind_ok]
        rfl
  refine ⟨hvel, ?_, rfl⟩
  simp only [TSegment.getPosition, hvel, Segment.getPosition]
  by_cases ht : t < r.tBegin ∨ r.tEnd < t
  · simp only [if_pos ht]
    rfl
  · simp only [if_neg ht]
    rcases r.getVelocity t with e | v
    · rfl
    · simp only [Except.map, bind_ok, Obj.add, Cls.isA, decide_true, Bool.true_or, if_true, hmul, Obj.div, Obj.getVec,
        vecOf]

/-- **C77, which exceptions a badly typed segment gives.** A segment with a plain vector as begin velocity
and a velocity at its end can be constructed, but its velocity can nowhere be queried. -/
theorem c77_badly_typed (s : TSegment K) (hb : s.velBegin.cls = .vector4D) (he : s.velEnd.cls = .velocity)
    (nt nd : NumType) (t : K) :
    TSegment.make s.tBegin s.tEnd s.posBegin s.velBegin (.obj s.posEnd) (.obj s.velEnd) =
      (Segment.make s.tBegin s.tEnd s.posBegin.v s.velBegin.v s.posEnd.v s.velEnd.v).map (fun _ => s) ∧
    s.getVelocity nt nd t = .error .valueError ∧ s.getPosition nt nd t = .error .valueError := by
  have hv : s.getVelocity nt nd t = .error .valueError := by
    simp only [TSegment.getVelocity, Obj.sub, hb, he, Cls.isA]
    split <;> rfl
  refine ⟨TSegment.make_eq _ _ _ _ _ _ (by simp [Cls.isA, hb]), hv, ?_⟩
  simp only [TSegment.getPosition, hv]
  split <;> rfl

/-! ### Planning -/

theorem arr_vec (c : Cls) (u : Vec4 K) (k : K) : c.of1 (arr u k) = .ok ⟨c, u.mul k⟩ := rfl

theorem add_arr (p u : Vec4 K) (c : Cls) (k : K) :
    (⟨c, p⟩ : Obj K).add (arr u k) = .ok ⟨c, p.add (u.mul k)⟩ := rfl

/-- A segment with the classes of the planner. -/
def dress (t : Segment K) : TSegment K :=
  ⟨t.tBegin, t.tEnd, ⟨.position, t.posBegin⟩, ⟨.velocity, t.velBegin⟩, ⟨.position, t.posEnd⟩,
    ⟨.velocity, t.velEnd⟩⟩

theorem make_dress (t0 t1 : K) (p0 v0 p1 v1 : Vec4 K) :
    TSegment.make t0 t1 ⟨.position, p0⟩ ⟨.velocity, v0⟩ (.obj ⟨.position, p1⟩) (.obj ⟨.velocity, v1⟩) =
      (Segment.make t0 t1 p0 v0 p1 v1).map dress := by
  rw [TSegment.make_eq _ _ _ _ _ _ rfl]
  simp only [Segment.make]
  split <;> rfl

theorem keep_dress (s : Segment K) : (dress s).keep = .ok ((keepSeg s).map dress) := by
  simp only [TSegment.keep, dress, Obj.isTravel, Obj.isExtruding, bind_ok, keepSeg]
  split <;> rfl

/-- The outcome of a successful `make`, spelled out. -/
theorem make_cases (t0 t1 : K) (p0 v0 p1 v1 : Vec4 K) :
    Segment.make t0 t1 p0 v0 p1 v1 = .ok ⟨t0, t1, p0, v0, p1, v1⟩ ∨
    Segment.make t0 t1 p0 v0 p1 v1 = .error .valueError := by
  simp only [Segment.make]
  split
  · exact .inl rfl
  · exact .inr rfl

theorem sameOutcome_map (x : Except PyErr (List (Segment K))) :
    Spec.SameOutcome (List.Forall₂ Spec.Dressed) (x.map (List.map dress)) x := by
  rcases x with e | l
  · exact .error e
  · refine .ok ?_
    rw [List.forall₂_map_left_iff]
    exact List.forall₂_same.2 fun s _ => rfl

theorem trapezoid_dress (prev : Segment K) (u : Vec4 K) (acc vT vB vE d : K) (eo : Bool) :
    (dress prev).trapezoid u acc vT vB vE d eo = (trapezoid prev u acc vT vB vE d eo).map (List.map dress) := by
  simp only [TSegment.trapezoid, trapezoid, dress, arr_vec, add_arr, bind_ok, make_dress, Obj.getNorm]
  rcases make_cases prev.tEnd (prev.tEnd + (vT - vB) / acc) prev.posEnd (u.mul vB)
    (prev.posEnd.add (u.mul ((vT - vB) * (vB + vT) / (2 * acc)))) (u.mul vT) with h | h
  · simp only [h, Except.map, bind_ok, keep_dress]
    simp only [dress, add_arr, bind_ok, make_dress]
    generalize prev.tEnd + (vT - vB) / acc + (d - (vE - vT) * (vE + vT) / (2 * -acc) -
      (vT - vB) * (vB + vT) / (2 * acc)) / (if eo = true then (u.mul vT).norm4 else (u.mul vT).norm3) = t2
    generalize prev.posEnd.add (u.mul ((vT - vB) * (vB + vT) / (2 * acc))) = p1
    rcases make_cases (prev.tEnd + (vT - vB) / acc) t2 p1 (u.mul vT) (p1.add (u.mul (d -
      (vE - vT) * (vE + vT) / (2 * -acc) - (vT - vB) * (vB + vT) / (2 * acc)))) (u.mul vT) with h2 | h2
    · simp only [h2, Except.map, bind_ok, keep_dress]
      simp only [dress, add_arr, bind_ok, make_dress]
      rcases Segment.make t2 (t2 + (vT - vE) / acc) (p1.add (u.mul (d - (vE - vT) * (vE + vT) / (2 * -acc) -
        (vT - vB) * (vB + vT) / (2 * acc)))) (u.mul vT) ((p1.add (u.mul (d - (vE - vT) * (vE + vT) / (2 * -acc) -
        (vT - vB) * (vB + vT) / (2 * acc)))).add (u.mul ((vE - vT) * (vE + vT) / (2 * -acc)))) (u.mul vE) with e | s
      · rfl
      · simp only [Except.map, bind_ok, keep_dress, List.map_append]
    · simp only [h2, Except.map, bind_error]
  · simp only [h, Except.map, bind_error]

theorem triang_dress (prev : Segment K) (u : Vec4 K) (acc vP vB vE : K) :
    (dress prev).triang u acc vP vB vE = (triang prev u acc vP vB vE).map (List.map dress) := by
  simp only [TSegment.triang, triang, dress, arr_vec, add_arr, bind_ok, make_dress]
  generalize prev.posEnd.add (u.mul ((vP - vB) * (vB + vP) / (2 * acc))) = p1
  rcases make_cases prev.tEnd (prev.tEnd + (vP - vB) / acc) prev.posEnd (u.mul vB) p1 (u.mul vP) with h | h
  · simp only [h, Except.map, bind_ok, keep_dress]
    simp only [dress, add_arr, bind_ok, make_dress]
    generalize p1.add (u.mul ((vP - vE) * (vE + vP) / (2 * acc))) = p3
    rcases Segment.make (prev.tEnd + (vP - vB) / acc) (prev.tEnd + (vP - vB) / acc + (vP - vE) / acc) p1
      (u.mul vP) p3 (u.mul vE) with e | s
    · rfl
    · simp only [Except.map, bind_ok, keep_dress, List.map_append]
  · simp only [h, Except.map, bind_error]

theorem singlUp_dress (prev : Segment K) (u : Vec4 K) (acc vES vB : K) :
    (dress prev).single u acc vB vES true = (singlUp prev u acc vES vB).map (List.map dress) := by
  simp only [TSegment.single, singlUp, dress, arr_vec, add_arr, bind_ok, make_dress, if_true]
  rcases Segment.make prev.tEnd (prev.tEnd + (vES - vB) / acc) prev.posEnd (u.mul vB)
    (prev.posEnd.add (u.mul ((vES - vB) * (vB + vES) / (2 * acc)))) (u.mul vES) with e | s
  · rfl
  · simp only [Except.map, bind_ok, keep_dress]

theorem singlDwn_dress (prev : Segment K) (u : Vec4 K) (acc vBS vE : K) :
    (dress prev).single u acc vBS vE false = (singlDwn prev u acc vBS vE).map (List.map dress) := by
  simp only [TSegment.single, singlDwn, dress, arr_vec, add_arr, bind_ok, make_dress, Bool.false_eq_true,
    if_false]
  rcases Segment.make prev.tEnd (prev.tEnd + (vBS - vE) / acc) prev.posEnd (u.mul vBS)
    (prev.posEnd.add (u.mul ((vBS - vE) * (vBS + vE) / (2 * acc)))) (u.mul vE) with e | s
  · rfl
  · simp only [Except.map, bind_ok, keep_dress]

/-- **C77, planning.** The planner never fails a class check: starting from a segment whose positions are
positions and whose velocities are velocities, every move shape, the dwell and the initial segment come out with
exactly the numbers, or the exception, that the model without classes gives, and again with positions for
positions and velocities for velocities. -/
theorem c77_planning (prev : TSegment K) (prev' : Segment K) (hp : Spec.Dressed prev prev') (u : Vec4 K)
    (acc vT vB vE d pause : K) (eo : Bool) (p : Vec4 K) :
    Spec.SameOutcome (List.Forall₂ Spec.Dressed) (prev.trapezoid u acc vT vB vE d eo)
      (trapezoid prev' u acc vT vB vE d eo) ∧
    Spec.SameOutcome (List.Forall₂ Spec.Dressed) (prev.triang u acc vT vB vE) (triang prev' u acc vT vB vE) ∧
    Spec.SameOutcome (List.Forall₂ Spec.Dressed) (prev.single u acc vB vE true)
      (singlUp prev' u acc vE vB) ∧
    Spec.SameOutcome (List.Forall₂ Spec.Dressed) (prev.single u acc vB vE false)
      (singlDwn prev' u acc vB vE) ∧
    Spec.SameOutcome Spec.Dressed (prev.dwell pause)
      (Segment.make prev'.tEnd (prev'.tEnd + pause) prev'.posEnd Vec4.zero prev'.posEnd Vec4.zero) ∧
    Spec.SameOutcome Spec.Dressed (TSegment.initial (some ⟨.position, p⟩))
      (Segment.make 0 0 p Vec4.zero p Vec4.zero) := by
  obtain rfl : prev = dress prev' := hp
  have hone : ∀ x : Except PyErr (Segment K), Spec.SameOutcome Spec.Dressed (x.map dress) x := by
    intro x
    rcases x with e | s
    · exact .error e
    · exact .ok rfl
  refine ⟨?_, ?_, ?_, ?_, ?_, ?_⟩
  · rw [trapezoid_dress]
    exact sameOutcome_map _
  · rw [triang_dress]
    exact sameOutcome_map _
  · rw [singlUp_dress]
    exact sameOutcome_map _
  · rw [singlDwn_dress]
    exact sameOutcome_map _
  · have h := hone (Segment.make prev'.tEnd (prev'.tEnd + pause) prev'.posEnd Vec4.zero prev'.posEnd Vec4.zero)
    rw [← make_dress] at h
    exact h
  · have h := hone (Segment.make 0 0 p Vec4.zero p Vec4.zero)
    rw [← make_dress] at h
    exact h

end

/-- **C77, continuity.** Between two segments of the planner the continuity check fails exactly if the
positions differ by more than the tolerance of `==` in some coordinate and by more than `1e-12` in space. -/
theorem c77_continuity (s n : TSegment ℝ) (s' n' : Segment ℝ) (hs : Spec.Dressed s s') (hn : Spec.Dressed n n') :
    (s.continuity n = .error .nameError ↔
      ¬ Spec.Near s'.posEnd n'.posBegin ∧ 1e-12 < (s'.posEnd.sub n'.posBegin).norm3) ∧
    (s.continuity n = .error .nameError ∨ s.continuity n = .ok ()) := by
  obtain rfl : s = dress s' := hs
  obtain rfl : n = dress n' := hn
  have he := (c77_equality (⟨.position, s'.posEnd⟩ : Obj ℝ) ⟨.position, n'.posBegin⟩ [] .int 0).1
  have hz : ∀ a : Vec4 ℝ, a.sub Vec4.zero = a := by
    intro a
    ext <;> simp [Vec4.sub, Vec4.zero]
  simp only [TSegment.continuity, dress]
  by_cases h : Spec.Near s'.posEnd n'.posBegin
  · simp only [he.2 ⟨rfl, h⟩, if_true, h]
    simp
  · have hf := Bool.eq_false_iff.2 fun hc => h (he.1 hc).2
    simp only [hf, Obj.sub, Cls.isA, decide_true, Bool.true_or, if_true, bind_ok, Obj.tDistance, Bool.false_eq_true,
      if_false, Vec4.tDistance, hz, h, not_false_eq_true, true_and]
    by_cases hd : (1e-12 : ℝ) < (s'.posEnd.sub n'.posBegin).norm3
    · simp [hd]
    · simp [hd]

/-- Two positions that agree up to rounding noise are equal, a position and a velocity never. -/
example : (⟨.position, ⟨1, 2, 3, 4⟩⟩ : Obj ℝ).eqOp (.obj ⟨.position, ⟨1 + 1e-9, 2, 3, 4⟩⟩) = true ∧
    ¬ (⟨.vector4D, ⟨1, 2, 3, 4⟩⟩ : Obj ℝ).eqOp (.obj ⟨.velocity, ⟨1, 2, 3, 4⟩⟩) = true := by
  constructor
  · refine ((c77_equality _ _ [] .int 0).1).2 ⟨rfl, ?_, ?_, ?_, ?_⟩ <;> norm_num [abs_of_nonneg, abs_of_neg]
  · intro h
    exact absurd (((c77_equality _ _ [] .int 0).1).1 h).1 nofun

/-- A position moves by a list, and an accelerating segment answers in its middle. -/
example : (⟨.position, ⟨1, 2, 3, 4⟩⟩ : Obj ℝ).add (.seq [1, 1, 1, 1]) = .ok ⟨.position, ⟨2, 3, 4, 5⟩⟩ := by
  have h := ((c77_sums (⟨.position, ⟨1, 2, 3, 4⟩⟩ : Obj ℝ) (.seq [1, 1, 1, 1])).1 _ (.four 1 1 1 1)).1
  rw [h]
  norm_num

end PyGCD
