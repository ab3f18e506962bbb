import Verif.Proofs.DoubleEnds

/-!
# Where a planned move ends in double precision
-/

set_option linter.unusedSectionVars false
set_option linter.unusedSimpArgs false

namespace PyGCD
open PyGCD.Spec Vec4

/-- The position after the pieces `Ls` along `u`. -/
def walk (u : Vec4 Dbl) : Vec4 Dbl → List Dbl → Vec4 Dbl
  | p, [] => p
  | p, L :: Ls => walk u (p.add (u.mul L)) Ls

/-- One coordinate of it. -/
def walk1 (u : Dbl) : Dbl → List Dbl → Dbl
  | p, [] => p
  | p, L :: Ls => walk1 u (p + u * L) Ls

theorem walk_coord (u : Vec4 Dbl) : ∀ (Ls : List Dbl) (p : Vec4 Dbl),
    walk u p Ls = ⟨walk1 u.x p.x Ls, walk1 u.y p.y Ls, walk1 u.z p.z Ls, walk1 u.e p.e Ls⟩
  | [], _ => rfl
  | L :: Ls, p => by
    show walk u (p.add (u.mul L)) Ls = _
    rw [walk_coord u Ls]
    rfl

theorem walk1_error {u : Dbl} {c : ℝ} (hu : Rel 41 u.r c) : ∀ (Ls : List Dbl) (p : Dbl),
    |p.r| + 1.01 * (Ls.map (fun L => |c * L.r|)).sum + Ls.length ≤ 400000 →
    |(walk1 u p Ls).r - (p.r + c * (Ls.map Dbl.r).sum)| ≤
      Ls.length * (2 * eps * 400000) + 90 * eps * (Ls.map (fun L => |c * L.r|)).sum
  | [], p, _ => by simp [walk1]
  | L :: Ls, p, hb => by
    have he := eps_pos
    have he' := eps_lt
    have h1 := step_error (p := p) (L := L) hu
    simp only [List.map_cons, List.sum_cons, List.length_cons] at hb ⊢
    push_cast at hb ⊢
    have hs : 0 ≤ (Ls.map (fun L => |c * L.r|)).sum := List.sum_nonneg (by
      intro x hx
      obtain ⟨y, _, rfl⟩ := List.mem_map.1 hx
      exact abs_nonneg _)
    have hl : (0 : ℝ) ≤ Ls.length := Nat.cast_nonneg _
    have hc := abs_nonneg (c * L.r)
    have hp := abs_nonneg p.r
    have e1 : eps * |c * L.r| ≤ 0.0001 * |c * L.r| := by gcongr; linarith
    have e2 : eps * |p.r| ≤ eps * 400000 := by gcongr; linarith
    have hp' : |(p + u * L).r| ≤ |p.r| + 1.01 * |c * L.r| + 1 := by
      have a1 := abs_add_le ((p + u * L).r - (p.r + c * L.r)) (p.r + c * L.r)
      rw [sub_add_cancel] at a1
      have a2 := abs_add_le p.r (c * L.r)
      linarith
    have ih := walk1_error hu Ls (p + u * L) (by linarith)
    show |(walk1 u (p + u * L) Ls).r - _| ≤ _
    rw [show (walk1 u (p + u * L) Ls).r - (p.r + c * (L.r + (Ls.map Dbl.r).sum)) =
      ((walk1 u (p + u * L) Ls).r - ((p + u * L).r + c * (Ls.map Dbl.r).sum)) +
      ((p + u * L).r - (p.r + c * L.r)) by ring]
    refine (abs_add_le _ _).trans ?_
    linarith

/-- After the pieces of a move the coordinate is where the move leads to. -/
theorem walk1_end {u : Dbl} {c D w : ℝ} (hu : Rel 41 u.r c) {Ls : List Dbl} {p : Dbl} (hp : Pieces D w Ls)
    (hl : Ls.length ≤ 3) (h0 : |p.r| ≤ 150000) (hcD : |c * D| ≤ 200000) (hcw : |c| * w ≤ 1000000) (hD : 0 ≤ D)
    (hw : 0 ≤ w) : |(walk1 u p Ls).r - (p.r + c * D)| ≤ 1e-8 := by
  have he := eps_pos
  have he' := eps_lt
  obtain ⟨s1, s2⟩ := hp
  have hc := abs_nonneg c
  have hsum : (Ls.map (fun L => |c * L.r|)).sum ≤ 220000 := by
    have : (Ls.map (fun L => |c * L.r|)).sum = |c| * (Ls.map (fun L => |L.r|)).sum := by
      rw [← List.sum_map_mul_left]
      simp only [abs_mul]
    rw [this]
    have h1 : |c| * (Ls.map (fun L => |L.r|)).sum ≤ |c| * (1.1 * D) := by gcongr
    rw [abs_mul, abs_of_nonneg hD] at hcD
    linarith
  have hl' : (Ls.length : ℝ) ≤ 3 := by exact_mod_cast hl
  have h1 := walk1_error hu Ls p (by linarith)
  have h2 : |c * (Ls.map Dbl.r).sum - c * D| ≤ 100 * eps * 200000 + 40 * eps * 1000000 := by
    rw [← mul_sub, abs_mul]
    refine (mul_le_mul_of_nonneg_left s1 hc).trans ?_
    rw [abs_mul, abs_of_nonneg hD] at hcD
    have a1 : eps * (|c| * D) ≤ eps * 200000 := by gcongr
    have a2 : eps * (|c| * w) ≤ eps * 1000000 := by gcongr
    linarith
  rw [show (walk1 u p Ls).r - (p.r + c * D) = ((walk1 u p Ls).r - (p.r + c * (Ls.map Dbl.r).sum)) +
    (c * (Ls.map Dbl.r).sum - c * D) by ring]
  refine (abs_add_le _ _).trans ?_
  have h3 : (Ls.length : ℝ) * (2 * eps * 400000) ≤ 3 * (2 * eps * 400000) := by gcongr
  have h4 : eps * (Ls.map (fun L => |c * L.r|)).sum ≤ eps * 220000 := by gcongr
  linarith

theorem Spec.Leads.append {K : Type} {p q r : Vec4 K} {l m : List (Segment K)} (h : Leads p l q) (g : Leads q m r) :
    Leads p (l ++ m) r := by
  induction l generalizing p with
  | nil =>
    cases h
    exact g
  | cons s l ih => exact ⟨h.1, ih h.2⟩

theorem keepSeg_leads (s : Segment Dbl) : Leads s.posBegin (keepSeg s) s.posEnd := by
  rcases keepSeg_cases s with h | ⟨h, h'⟩
  · rw [h]
    exact ⟨rfl, rfl⟩
  · rw [h]
    exact h'.symm

theorem make_dbl {t t' : Dbl} {p v p' v' : Vec4 Dbl} {s : Segment Dbl} (h : Segment.make t t' p v p' v' = .ok s) :
    s = ⟨t, t', p, v, p', v'⟩ := by
  unfold Segment.make at h
  simp only at h
  split at h
  · cases h
    rfl
  · cases h

theorem keep_made {t t' : Dbl} {p v p' v' : Vec4 Dbl} {s : Segment Dbl} (h : Segment.make t t' p v p' v' = .ok s) :
    Leads p (keepSeg s) p' := by
  have := keepSeg_leads s
  rw [make_dbl h] at this ⊢
  exact this

theorem rescue_ok {α : Type} {r : Except PyErr α} {a : α} (h : rescueValueError r = .ok a) : r = .ok a := by
  unfold rescueValueError at h
  split at h
  · cases h
  · exact h

/-- A planned move leads along its pieces. -/
theorem planMove_leads {prev : Segment Dbl} {u : Vec4 Dbl} {B : PState Dbl} {d vE : Dbl} {eo : Bool} {D w : ℝ}
    {r : List (Segment Dbl) × BlockType} (hr : planMove prev u B d eo vE = .ok r)
    (h : LenHyp B.pAcc B.speed (if prev.velEnd.norm3 < B.speed then prev.velEnd.norm3 else B.speed) vE d D w) :
    ∃ Ls, Pieces D w Ls ∧ Ls.length ≤ 3 ∧ Leads prev.posEnd r.1 (walk u prev.posEnd Ls) := by
  unfold planMove at hr
  have hr := rescue_ok hr
  generalize hB : (if prev.velEnd.norm3 < B.speed then prev.velEnd.norm3 else B.speed) = vB at hr h
  by_cases c1 : (B.speed - vB) * (vB + B.speed) / (2 * B.pAcc) + (vE - B.speed) * (vE + B.speed) / (2 * -B.pAcc) < d ∧
      (0 < (B.speed - vB) * (vB + B.speed) / (2 * B.pAcc) ∨
        isClose ((B.speed - vB) * (vB + B.speed) / (2 * B.pAcc)) 0 = true) ∧
      (0 < (vE - B.speed) * (vE + B.speed) / (2 * -B.pAcc) ∨
        isClose ((vE - B.speed) * (vE + B.speed) / (2 * -B.pAcc)) 0 = true)
  · rw [if_pos c1] at hr
    obtain ⟨a1, _, a3⟩ := c1
    refine ⟨_, trap_pieces h rfl a1 a3, by simp, ?_⟩
    cases ht : trapezoid prev u B.pAcc B.speed vB vE d eo with
    | error e => rw [ht] at hr; cases hr
    | ok ss =>
      rw [ht] at hr
      cases hr
      unfold trapezoid at ht
      simp only [bind, Except.bind] at ht
      split at ht
      · cases ht
      · rename_i sA hA
        split at ht
        · cases ht
        · rename_i sB hB'
          split at ht
          · cases ht
          · rename_i sC hC
            cases ht
            exact ((keep_made hA).append (keep_made hB')).append (keep_made hC)
  · rw [if_neg c1] at hr
    by_cases c2 : vE < PyMath.sqrt (B.pAcc * d + vB * vB / 2 + vE * vE / 2) ∧
        vB < PyMath.sqrt (B.pAcc * d + vB * vB / 2 + vE * vE / 2) ∧
        (PyMath.sqrt (B.pAcc * d + vB * vB / 2 + vE * vE / 2) < B.speed ∨
          isClose (PyMath.sqrt (B.pAcc * d + vB * vB / 2 + vE * vE / 2)) B.speed = true)
    · rw [if_pos c2] at hr
      obtain ⟨a1, a2, _⟩ := c2
      refine ⟨_, tri_pieces h rfl ((Dbl.lt_iff _ _).1 a2) ((Dbl.lt_iff _ _).1 a1), by simp, ?_⟩
      generalize PyMath.sqrt (B.pAcc * d + vB * vB / 2 + vE * vE / 2) = vP at hr ⊢
      cases ht : triang prev u B.pAcc vP vB vE with
      | error e => rw [ht] at hr; cases hr
      | ok ss =>
        rw [ht] at hr
        cases hr
        unfold triang at ht
        simp only [bind, Except.bind] at ht
        split at ht
        · cases ht
        · rename_i sA hA
          split at ht
          · cases ht
          · rename_i sC hC
            cases ht
            exact (keep_made hA).append (keep_made hC)
    · rw [if_neg c2] at hr
      generalize hS : (if 0 ≤ (if vE < vB then vB * vB - 2 * B.pAcc * d else vB * vB + 2 * B.pAcc * d) then
        PyMath.sqrt (if vE < vB then vB * vB - 2 * B.pAcc * d else vB * vB + 2 * B.pAcc * d) else 0) = vS at hr
      by_cases c3 : vB < vS ∧ (vS < B.speed ∨ isClose vS B.speed = true)
      · rw [if_pos c3] at hr
        refine ⟨_, up_pieces h hS.symm ((Dbl.lt_iff _ _).1 c3.1), by simp, ?_⟩
        cases ht : singlUp prev u B.pAcc vS vB with
        | error e => rw [ht] at hr; cases hr
        | ok ss =>
          rw [ht] at hr
          cases hr
          unfold singlUp at ht
          simp only [bind, Except.bind] at ht
          split at ht
          · cases ht
          · rename_i sA hA
            cases ht
            exact keep_made hA
      · rw [if_neg c3] at hr
        by_cases c4 : vS < vB
        · rw [if_pos c4] at hr
          generalize hA : (PyMath.sqrt (2 * B.pAcc * d + vE * vE) : Dbl) = vA at hr
          refine ⟨_, down_pieces h hS.symm ((Dbl.lt_iff _ _).1 c4) hA.symm, by simp, ?_⟩
          cases ht : singlDwn prev u B.pAcc vA vE with
          | error e => rw [ht] at hr; cases hr
          | ok ss =>
            rw [ht] at hr
            cases hr
            unfold singlDwn at ht
            simp only [bind, Except.bind] at ht
            split at ht
            · cases ht
            · rename_i sA hA
              cases ht
              exact keep_made hA
        · rw [if_neg c4] at hr
          cases hr

/-- A move of usual size, planned from a position near its begin. -/
structure UsualMove (A B : PState Dbl) (u : Vec4 Dbl) (ur : Vec4 ℝ) : Prop where
  hu : RelV 41 u ur
  hd : UnitDir ur (moveDistance A B).2
  dist : Rel 9 (moveDistance A B).1.r (moveLength A.position.real B.position.real)
  diff : B.position.real.sub A.position.real = ur.mul (moveLength A.position.real B.position.real)
  speed : 0 < B.speed.r
  acc : 0 < B.pAcc.r
  ramp : B.speed.r * B.speed.r / B.pAcc.r ≤ 10000
  length : 1e-6 ≤ moveLength A.position.real B.position.real
  flow : |B.position.e.r - A.position.e.r| ≤ 100 * moveLength A.position.real B.position.real
  cA : |A.position.x.r| ≤ 100000 ∧ |A.position.y.r| ≤ 100000 ∧ |A.position.z.r| ≤ 100000 ∧ |A.position.e.r| ≤ 100000
  cB : |B.position.x.r| ≤ 100000 ∧ |B.position.y.r| ≤ 100000 ∧ |B.position.z.r| ≤ 100000 ∧ |B.position.e.r| ≤ 100000

theorem dbl_norm3_nonneg (a : Vec4 Dbl) : 0 ≤ a.norm3.r := dbl_sqrt_nonneg _

theorem UsualMove.plan {A B : PState Dbl} {u : Vec4 Dbl} {ur : Vec4 ℝ} (h : UsualMove A B u ur) {prev : Segment Dbl}
    {vE : Dbl} {r : List (Segment Dbl) × BlockType} {k : ℕ}
    (hr : planMove prev u B (moveDistance A B).1 (moveDistance A B).2 vE = .ok r) (hv : 0 ≤ vE.r)
    (hp : Near4 (k * 1e-8) prev.posEnd A.position.real) (hk : k ≤ 1000000) :
    ∃ f l, r.1.head? = some f ∧ r.1.getLast? = some l ∧ f.posBegin = prev.posEnd ∧
      Leads f.posBegin r.1 l.posEnd ∧ Near4 ((k + 1 : ℕ) * 1e-8) l.posEnd B.position.real := by
  set D := moveLength A.position.real B.position.real with hDdef
  have hD : 0 < D := lt_of_lt_of_le (by norm_num) h.length
  have hk' : (k : ℝ) ≤ 1000000 := by exact_mod_cast hk
  have hs := h.speed
  have ha := h.acc
  have hw : 0 ≤ B.speed.r * B.speed.r / B.pAcc.r := by positivity
  have hlen : LenHyp B.pAcc B.speed (if prev.velEnd.norm3 < B.speed then prev.velEnd.norm3 else B.speed) vE
      (moveDistance A B).1 D (B.speed.r * B.speed.r / B.pAcc.r) := by
    refine ⟨h.acc, ?_, ?_, hv, h.dist, h.length, le_rfl, h.ramp⟩
    · split
      · exact dbl_norm3_nonneg _
      · exact h.speed.le
    · split
      · rename_i hlt
        exact ((Dbl.lt_iff _ _).1 hlt).le
      · exact le_rfl
  obtain ⟨Ls, l1, l2, l3⟩ := planMove_leads hr hlen
  have dx := congrArg Vec4.x h.diff
  have dy := congrArg Vec4.y h.diff
  have dz := congrArg Vec4.z h.diff
  have de := congrArg Vec4.e h.diff
  simp only [Vec4.sub, Vec4.mul] at dx dy dz de
  obtain ⟨o1, o2, o3⟩ := UnitDir.le_one h.hd
  have oe : |ur.e| ≤ 100 := by
    have := h.flow
    have e : B.position.e.r - A.position.e.r = ur.e * D := de
    rw [e, abs_mul, abs_of_pos hD] at this
    exact le_of_mul_le_mul_right this hD
  obtain ⟨a1, a2, a3, a4⟩ := h.cA
  obtain ⟨b1, b2, b3, b4⟩ := h.cB
  obtain ⟨p1, p2, p3, p4⟩ := hp
  have big : ∀ c : ℝ, |c| ≤ 100 → |c| * (B.speed.r * B.speed.r / B.pAcc.r) ≤ 1000000 := by
    intro c hc
    calc _ ≤ 100 * (10000 : ℝ) := mul_le_mul hc h.ramp hw (by norm_num)
      _ = _ := by norm_num
  have one : ∀ (v : Dbl) (c : ℝ) (p : Dbl) (a b : ℝ), Rel 41 v.r c → |p.r - a| ≤ k * 1e-8 → |a| ≤ 100000 →
      |b| ≤ 100000 → b - a = c * D → |c| ≤ 100 → |(walk1 v p Ls).r - (p.r + c * D)| ≤ 1e-8 ∧
      |(walk1 v p Ls).r - b| ≤ ((k : ℝ) + 1) * 1e-8 := by
    intro v c p a b hv hp ha hb hab hc
    have := walk1_end hv l1 l2 (near_bound_dbl hp ha hk') (by rw [← hab]; exact diff_bound ha hb) (big c hc) hD.le hw
    exact ⟨this, coord_step this hp hab⟩
  obtain ⟨x1, x2⟩ := one u.x ur.x prev.posEnd.x _ _ h.hu.x p1 a1 b1 dx (by linarith)
  obtain ⟨y1, y2⟩ := one u.y ur.y prev.posEnd.y _ _ h.hu.y p2 a2 b2 dy (by linarith)
  obtain ⟨z1, z2⟩ := one u.z ur.z prev.posEnd.z _ _ h.hu.z p3 a3 b3 dz (by linarith)
  obtain ⟨e1, e2⟩ := one u.e ur.e prev.posEnd.e _ _ h.hu.e p4 a4 b4 de oe
  have hne : prev.posEnd ≠ walk u prev.posEnd Ls := by
    intro heq
    rw [walk_coord] at heq
    have qx := congrArg (fun v => v.x.r) heq
    have qy := congrArg (fun v => v.y.r) heq
    have qz := congrArg (fun v => v.z.r) heq
    have qe := congrArg (fun v => v.e.r) heq
    simp only at qx qy qz qe
    rw [← qx, sub_add_cancel_left, abs_neg, abs_mul, abs_of_pos hD] at x1
    rw [← qy, sub_add_cancel_left, abs_neg, abs_mul, abs_of_pos hD] at y1
    rw [← qz, sub_add_cancel_left, abs_neg, abs_mul, abs_of_pos hD] at z1
    rw [← qe, sub_add_cancel_left, abs_neg, abs_mul, abs_of_pos hD] at e1
    have small : ∀ c : ℝ, |c| * D ≤ 1e-8 → |c| ≤ 1 / 10 := by
      intro c hc
      have : |c| * 1e-6 ≤ |c| * D := mul_le_mul_of_nonneg_left h.length (abs_nonneg c)
      linarith
    have sx := small _ x1
    have sy := small _ y1
    have sz := small _ z1
    have se := small _ e1
    have hd := h.hd
    unfold UnitDir at hd
    split at hd
    · rw [hd.2.2.2] at se
      norm_num at se
    · have hn := norm3_sq ur
      rw [hd] at hn
      have t1 := mul_self_le_mul_self (abs_nonneg _) sx
      have t2 := mul_self_le_mul_self (abs_nonneg _) sy
      have t3 := mul_self_le_mul_self (abs_nonneg _) sz
      rw [abs_mul_abs_self] at t1 t2 t3
      linarith
  obtain ⟨ss, bt⟩ := r
  simp only at l3 ⊢
  cases ss with
  | nil => exact absurd l3 hne
  | cons f ss =>
    obtain ⟨l, hl⟩ : ∃ l, (f :: ss).getLast? = some l := ⟨_, List.getLast?_eq_getLast_of_ne_nil (List.cons_ne_nil _ _)⟩
    have hlast : ∀ (ss : List (Segment Dbl)) (p q : Vec4 Dbl), Leads p ss q → ∀ l, ss.getLast? = some l → l.posEnd = q := by
      intro ss
      induction ss with
      | nil => intro p q _ l hl; cases hl
      | cons a t ih =>
        intro p q hpq l hl
        cases t with
        | nil =>
          cases hl
          exact hpq.2
        | cons b t =>
          rw [List.getLast?_cons_cons] at hl
          exact ih _ _ hpq.2 l hl
    have hend := hlast _ _ _ l3 l hl
    refine ⟨f, l, rfl, hl, l3.1, ?_, ?_⟩
    · rw [l3.1, hend]
      exact l3
    · rw [hend, walk_coord]
      push_cast
      exact ⟨x2, y2, z2, e2⟩

end PyGCD
