import Verif.Proofs.DepthLemmas
import Verif.Props.Cuts

/-!
# Linked blocks and the depth of the correction (C107, C108)
-/

set_option linter.unusedSectionVars false
set_option linter.unusedSimpArgs false

namespace PyGCD
open Vec4 Spec

section
variable {K : Type} [Add K] [Sub K] [Mul K] [Div K] [Neg K] [LT K] [LE K] [DecidableLT K]
  [DecidableLE K] [DecidableEq K] [OfNat K 0] [OfNat K 1] [OfNat K 2] [OfNat K 4] [OfNat K 18]
  [OfNat K 180] [OfScientific K] [PyMath K]

theorem genBlocks_length (fw : Firmware) : ∀ (states : List (PState K)) (pa : Option (PState K))
    (pb : Option (Block K)) (bs : List (Block K)), genBlocks fw pa pb states = .ok bs → bs.length ≤ states.length := by
  intro states
  induction states with
  | nil =>
    intro pa pb bs h
    cases h
    simp
  | cons s rest ih =>
    intro pa pb bs h
    unfold genBlocks at h
    cases hb : mkBlock fw pa s rest pb with
    | error e => rw [hb] at h; cases h
    | ok b =>
      simp only [hb, bind, Except.bind] at h
      by_cases hs : b.segments.isEmpty = true
      · rw [if_pos hs] at h
        exact (ih _ _ _ h).trans (Nat.le_succ _)
      · rw [if_neg hs] at h
        cases hr : genBlocks fw (some s) (some b) rest with
        | error e => rw [hr] at h; cases h
        | ok new =>
          rw [hr] at h
          cases h
          simpa using ih _ _ _ hr

/-- Planning with objects, reduced to the correction of lists with bounded nesting. -/
theorem planLinked_zip (limit : Nat) (fw : Firmware) (states : List (PState K)) :
    (∃ e, genBlocks fw none none states = .error e ∧ planLinked limit fw states = .error (.py e)) ∨
      ∃ bs₀, genBlocks fw none none states = .ok bs₀ ∧
        ((∃ e, correctZipAll limit bs₀ = .error e ∧ planLinked limit fw states = .error e) ∨
          ∃ out h list, correctZipAll limit bs₀ = .ok out ∧ planLinked limit fw states = .ok (h, list) ∧
            LinkedList h list out) := by
  have h0 : LinkedList ([] : BlockHeap K) [] [] := ⟨by simp, rfl, by simp, by simp, by simp, by simp⟩
  unfold planLinked
  rcases genLinked_spec fw states (pa := none) h0 with ⟨e, e1, e2⟩ | ⟨new, h, list, e1, e2, e3⟩
  · left
    rw [List.getLast?_nil] at e1
    exact ⟨e, e1, by simp only [e2, bind, Except.bind]⟩
  · right
    rw [List.getLast?_nil] at e1
    rw [List.nil_append] at e3
    refine ⟨new, e1, ?_⟩
    simp only [e2, bind, Except.bind]
    rcases correctLinkedAll_spec limit e3 with ⟨e, f1, f2⟩ | ⟨out, h', f1, f2, f3⟩
    · left
      exact ⟨e, f1, by simp only [f2]⟩
    · right
      exact ⟨out, h', list, f1, by simp only [f2], f3⟩

/-- C107: the blocks of a simulation are linked in the order of the block list, and they are the blocks of the
plan. -/
theorem c107_links {limit : Nat} {fw : Firmware} {states : List (PState K)} {h : BlockHeap K} {list : List Nat}
    (hp : planLinked limit fw states = .ok (h, list)) : ∃ bs, plan fw states = .ok bs ∧ LinkedList h list bs := by
  rcases planLinked_zip limit fw states with ⟨e, _, e2⟩ | ⟨bs₀, g, ⟨e, _, e2⟩ | ⟨out, h', list', f1, f2, f3⟩⟩
  · rw [e2] at hp; cases hp
  · rw [e2] at hp; cases hp
  · rw [f2] at hp
    cases hp
    refine ⟨out, ?_, f3⟩
    unfold plan
    simp only [g, bind, Except.bind]
    rcases correctZipAll_eq limit bs₀ with he | he
    · rw [f1] at he
      cases hc : correctAll bs₀ with
      | error e => rw [hc] at he; cases he
      | ok o =>
        rw [hc] at he
        cases he
        rfl
    · rw [f1] at he
      cases he.1

/-- C107: the other exceptions are those of the plan. -/
theorem c107_errors {limit : Nat} {fw : Firmware} {states : List (PState K)} {e : PyErr}
    (hp : planLinked limit fw states = .error (.py e)) : plan fw states = .error e := by
  rcases planLinked_zip limit fw states with ⟨e', e1, e2⟩ | ⟨bs₀, g, ⟨e', e1, e2⟩ | ⟨out, h', list', f1, f2, f3⟩⟩
  · rw [e2] at hp
    cases hp
    unfold plan
    simp only [e1, bind, Except.bind]
  · rw [e2] at hp
    cases hp
    unfold plan
    simp only [g, bind, Except.bind]
    rcases correctZipAll_eq limit bs₀ with he | he
    · rw [e1] at he
      cases hc : correctAll bs₀ with
      | error e => rw [hc] at he; cases he; rfl
      | ok o => rw [hc] at he; cases he
    · rw [e1] at he
      cases he.1
  · rw [f2] at hp; cases hp

/-- C108, partial: a program with no more states than calls can be nested never exceeds the limit. -/
theorem c108_short_files_partial {limit : Nat} (fw : Firmware) {states : List (PState K)} (hl : states.length ≤ limit) :
    planLinked limit fw states ≠ .error .recursion := by
  intro hp
  rcases planLinked_zip limit fw states with ⟨e', e1, e2⟩ | ⟨bs₀, g, ⟨e', e1, e2⟩ | ⟨out, h', list', f1, f2, f3⟩⟩
  · rw [e2] at hp; cases hp
  · rw [e2] at hp
    cases hp
    rcases correctZipAll_eq limit bs₀ with he | he
    · rw [e1] at he
      cases hc : correctAll bs₀ with
      | error e => rw [hc] at he; cases he
      | ok o => rw [hc] at he; cases he
    · have := genBlocks_length fw _ _ _ _ g
      omega
  · rw [f2] at hp; cases hp

/-- C107: with enough nesting every plan is reached. -/
theorem c107_complete {limit : Nat} {fw : Firmware} {states : List (PState K)} {bs : List (Block K)}
    (hp : plan fw states = .ok bs) (hl : states.length ≤ limit) :
    ∃ h list, planLinked limit fw states = .ok (h, list) ∧ LinkedList h list bs := by
  cases hq : planLinked limit fw states with
  | error e =>
    cases e with
    | py e =>
      rw [c107_errors hq] at hp
      cases hp
    | recursion => exact absurd hq (c108_short_files_partial fw hl)
  | ok r =>
    obtain ⟨bs', h1, h2⟩ := c107_links hq
    rw [h1] at hp
    cases hp
    exact ⟨r.1, r.2, rfl, h2⟩

end

/-! ## The depth -/

/-- What planning does with the generated blocks of an executable program. -/
theorem generated (fw : Firmware) {states : List (PState ℝ)} (hreg : Regular states) :
    ∃ bs₀, genBlocks fw none none states = .ok bs₀ ∧ (∀ b ∈ bs₀, Good b ∧ b.ExitR) ∧ bs₀.IsChain Link ∧
      (∀ f ∈ bs₀.head?, f.t0 = 0 ∧ f.nIn = 0 ∧ f.stateB.pause = none) ∧
      bs₀.map Block.act = active none states ∧ List.Forall₂ (Acts fw) bs₀ (actions none states) ∧
      ((∀ (A : Option (PState ℝ)) B l, junctionVel fw A B l = 0) → ∀ b ∈ bs₀, b.AtRest) ∧
      ∀ limit, correctZipAll limit bs₀ ≠ .error .recursion → planLinked limit fw states ≠ .error .recursion := by
  obtain ⟨bs₀, g1, g2, g3, g4, g5, g6, g7, g8, g9, _⟩ := genBlocks_spec fw hreg states [] none rfl (by simp)
    (by simp)
  simp only [Option.toList_none, List.nil_append, List.getLast?_nil] at g1 g3 g5 g6 g8
  refine ⟨bs₀, g1, g2, g3, g4 rfl, g5, g8, fun h => g9 h (by simp), ?_⟩
  intro limit hne hp
  rcases planLinked_zip limit fw states with ⟨e, e1, e2⟩ | ⟨bs, g, ⟨e', e1, e2⟩ | ⟨out, h', list', f1, f2, f3⟩⟩
  · rw [e2] at hp; cases hp
  · rw [g1] at g
    cases g
    rw [e2] at hp
    cases hp
    exact hne e1
  · rw [f2] at hp; cases hp

theorem zip_first {b : Block ℝ} (hg : Good b) (h : b.t0 = 0 ∧ b.nIn = 0 ∧ b.stateB.pause = none) : Zip [] b :=
  ⟨by simpa using hg, List.isChain_singleton _, by
    intro f hf
    simp only [List.getLast?_singleton, Option.mem_def, Option.some.injEq] at hf
    subst hf
    exact h⟩

/-- C108, partial: if within any `limit` actions in a row the machine stands still or could brake from its feedrate
to standstill, `limit` nested calls are enough. -/
theorem c108_braking_partial {limit : ℕ} (hl : 0 < limit) (fw : Firmware) {states : List (PState ℝ)}
    (hreg : Regular states) (hbr : BrakesWithin limit states) : planLinked limit fw states ≠ .error .recursion := by
  obtain ⟨bs₀, g1, g2, g3, g4, g5, g6, g7, g8⟩ := generated fw hreg
  refine g8 limit ?_
  obtain ⟨l, rfl⟩ : ∃ l, limit = l + 1 := ⟨limit - 1, by omega⟩
  cases bs₀ with
  | nil =>
    unfold correctZipAll
    simp
  | cons b tl =>
    exact correctZipFrom_short l hbr tl [] b (zip_first (g2 b (by simp)).1 (g4 b rfl))
      (fun c hc => (g2 c (by simp [hc])).1) g3 g5

theorem correctZipFrom_rest (limit : ℕ) : ∀ (tl rp : List (Block ℝ)) (b : Block ℝ), b.AtRest → (∀ x ∈ tl, x.AtRest) →
    (b :: tl).IsChain (fun b c => c.stateA.map PState.position = some b.stateB.position) →
    correctZipFrom (limit + 1) rp b tl ≠ .error .recursion := by
  intro tl
  induction tl with
  | nil =>
    intro rp b _ _ _ h
    unfold correctZipFrom correctZip at h
    cases h
  | cons nx tl ih =>
    intro rp b hb htl hch h
    obtain ⟨hl, hch'⟩ := List.isChain_cons_cons.1 hch
    have hnx := htl nx (by simp)
    obtain ⟨d, hd⟩ := correctZip_same (limit := limit) (rp := rp) hb.good hnx.good hl (by rw [hb.nOut, hnx.nIn])
    unfold correctZipFrom at h
    rw [hd] at h
    refine ih (b :: rp) (nx.timeshift d) (hnx.timeshift d) (fun x hx => htl x (by simp [hx])) ?_ h
    cases tl with
    | nil => exact List.isChain_singleton _
    | cons y tl =>
      rw [List.isChain_cons_cons] at hch' ⊢
      exact hch'

/-- C108, partial: without junction handling calls are never nested. -/
theorem c108_default_partial {limit : ℕ} (hl : 0 < limit) {states : List (PState ℝ)} (hreg : Regular states) :
    planLinked limit .default states ≠ .error .recursion := by
  obtain ⟨bs₀, g1, g2, g3, g4, g5, g6, g7, g8⟩ := generated .default hreg
  refine g8 limit ?_
  obtain ⟨l, rfl⟩ : ∃ l, limit = l + 1 := ⟨limit - 1, by omega⟩
  have hr := g7 (fun _ _ _ => rfl)
  cases bs₀ with
  | nil =>
    unfold correctZipAll
    simp
  | cons b tl =>
    exact correctZipFrom_rest l tl [] b (hr b (by simp)) (fun x hx => hr x (by simp [hx]))
      (g3.imp fun _ _ h => h.1)

/-! ## Programs that nest too deeply -/

/-- A state on the X axis, with feedrate `v`, acceleration `a` and jerk 1. -/
noncomputable def onAxis (v a x : ℝ) : PState ℝ := ⟨⟨x, 0, 0, 0⟩, v, a, 1, none, none⟩

/-- From `x` on, `m` moves of length `d`. -/
noncomputable def steps (v a d : ℝ) : ℝ → ℕ → List (PState ℝ)
  | _, 0 => []
  | x, m + 1 => onAxis v a (x + d) :: steps v a d (x + d) m

/-- A run-up long enough to reach the feedrate, and `m` moves of length `d` on the same line. -/
noncomputable def runway (v a d : ℝ) (m : ℕ) : List (PState ℝ) :=
  onAxis v a (-(v ^ 2 / a)) :: onAxis v a 0 :: steps v a d 0 m

theorem steps_mem {v a d : ℝ} : ∀ {m : ℕ} {x : ℝ}, ∀ s ∈ steps v a d x m, ∃ y, s = onAxis v a y := by
  intro m
  induction m with
  | zero => intro x s hs; cases hs
  | succ m ih =>
    intro x s hs
    unfold steps at hs
    rcases List.mem_cons.1 hs with rfl | hs
    · exact ⟨_, rfl⟩
    · exact ih s hs

theorem runway_mem {v a d : ℝ} {m : ℕ} : ∀ s ∈ runway v a d m, ∃ y, s = onAxis v a y := by
  intro s hs
  unfold runway at hs
  rcases List.mem_cons.1 hs with rfl | hs
  · exact ⟨_, rfl⟩
  · rcases List.mem_cons.1 hs with rfl | hs
    · exact ⟨_, rfl⟩
    · exact steps_mem s hs

theorem runway_regular {v a d : ℝ} (hv : 0 < v) (ha : 0 < a) (m : ℕ) : Regular (runway v a d m) := by
  have hall := runway_mem (v := v) (a := a) (d := d) (m := m)
  have hp : ∀ s ∈ runway v a d m, s.pause = none := by
    intro s hs
    obtain ⟨y, rfl⟩ := hall s hs
    rfl
  refine ⟨?_, ?_, ?_, ?_, ?_, ?_⟩
  · intro s hs
    obtain ⟨y, rfl⟩ := hall s hs
    exact hv
  · intro s hs
    obtain ⟨y, rfl⟩ := hall s hs
    exact ha
  · intro s hs
    obtain ⟨y, rfl⟩ := hall s hs
    show (0 : ℝ) ≤ 1
    norm_num
  · intro s hs p hps
    rw [hp s hs] at hps
    cases hps
  · intro pre s post he hne
    exact absurd (hp s (by rw [he]; simp)) hne
  · intro pre s post he hne
    exact absurd (hp s (by rw [he]; simp)) hne

theorem onAxis_norm (v a x y : ℝ) (h : x < y) :
    ((onAxis v a y).position.sub (onAxis v a x).position).norm3 = y - x := by
  have h1 : ((onAxis v a y).position.sub (onAxis v a x).position).norm3 ^ 2 = (y - x) ^ 2 := by
    rw [norm3_sq]
    simp [onAxis, Vec4.sub]
  exact (sq_eq_sq₀ (norm3_nonneg _) (by linarith)).1 h1

theorem onAxis_ne {v a x y : ℝ} (h : x < y) : (onAxis v a y).position ≠ (onAxis v a x).position := by
  intro he
  have := congrArg Vec4.x he
  simp only [onAxis] at this
  linarith

theorem onAxis_between {v a x y z : ℝ} (h1 : x < y) (h2 : y < z) :
    Between (onAxis v a x) (onAxis v a y) (onAxis v a z) where
  travels := by
    rw [onAxis_norm _ _ _ _ (h1.trans h2)]
    linarith
  point := by
    refine ⟨(y - x) / (z - x), div_pos (by linarith) (by linarith), ?_, ?_⟩
    · rw [div_lt_one (by linarith)]
      linarith
    · have : z - x ≠ 0 := by linarith
      ext
      · simp only [onAxis, Vec4.add, Vec4.sub, Vec4.mul]
        field_simp
        ring
      all_goals simp [onAxis, Vec4.add, Vec4.sub, Vec4.mul]
  speed := rfl
  acc := rfl
  jerk := rfl
  pause := rfl
  pauseB := rfl

/-- A leg on the axis. -/
theorem leg_onAxis {v a x y : ℝ} (h : x < y) (lim : Option (PState ℝ) → PState ℝ → List (PState ℝ) → ℝ)
    (rest : List (PState ℝ)) : leg lim (some (onAxis v a x), onAxis v a y, rest) =
      ⟨2 * a * (y - x), v, lim (some (onAxis v a x)) (onAxis v a y) rest⟩ := by
  have hn := onAxis_norm v a x y h
  unfold leg
  simp only
  rw [if_pos ⟨rfl, by rw [hn]; linarith⟩, hn]
  rfl

theorem gain_onAxis {v a x y : ℝ} (h : x < y) : squareGain (some (onAxis v a x), onAxis v a y) = 2 * a * (y - x) := by
  unfold squareGain
  simp only
  rw [onAxis_norm v a x y h]
  rfl

theorem steps_legs {v a d : ℝ} {fw : Firmware} (hv : 0 < v) (ha : 0 < a) (hd : 0 < d)
    (hfw : fw = .marlinJd ∨ fw = .mka) : ∀ (m : ℕ) (x : ℝ),
    (actions (some (onAxis v a x)) (steps v a d x (m + 1))).map (leg (junctionVel fw)) =
      List.replicate m ⟨2 * a * d, v, v⟩ ++ [⟨2 * a * d, v, 0⟩] := by
  intro m
  induction m with
  | zero =>
    intro x
    have hx : x < x + d := by linarith
    unfold steps steps
    rw [actions_cons_take _ (Or.inr ⟨_, rfl, onAxis_ne hx⟩), actions, List.map_cons, leg_onAxis hx]
    have hstop : junctionVel fw (some (onAxis v a x)) (onAxis v a (x + d)) [] = 0 := by
      refine junctionVel_stop (by rcases hfw with rfl | rfl <;> simp) _ _ _ (by show (0 : ℝ) ≤ 1; norm_num) ?_
      unfold velNext nextTarget
      rw [connectState_norm3 _ _ hv.le, if_pos (by rw [Vec4.sub_self, norm3_zero])]
    rw [hstop]
    simp
  | succ m ih =>
    intro x
    have hx : x < x + d := by linarith
    have hx' : x + d < x + d + d := by linarith
    rw [steps, actions_cons_take _ (Or.inr ⟨_, rfl, onAxis_ne hx⟩), List.map_cons, ih (x + d), leg_onAxis hx]
    have hmid : junctionVel fw (some (onAxis v a x)) (onAxis v a (x + d)) (steps v a d (x + d) (m + 1)) = v := by
      rw [steps]
      refine (onAxis_between hx hx').junction_mid _ hv ha (by show (0 : ℝ) ≤ 1; norm_num) ?_
      rcases hfw with rfl | rfl
      · exact Or.inl ⟨rfl, by show (0 : ℝ) < 1; norm_num⟩
      · exact Or.inr (Or.inr rfl)
    rw [hmid]
    simp [List.replicate_succ]

theorem steps_active {v a d : ℝ} (hd : 0 < d) : ∀ (m : ℕ) (x : ℝ),
    ∀ y ∈ active (some (onAxis v a x)) (steps v a d x m), squareGain y = 2 * a * d := by
  intro m
  induction m with
  | zero =>
    intro x y hy
    simp [steps, active, withPrev] at hy
  | succ m ih =>
    intro x y hy
    have hx : x < x + d := by linarith
    rw [steps, active_cons_take _ (Or.inr ⟨_, rfl, onAxis_ne hx⟩)] at hy
    rcases List.mem_cons.1 hy with rfl | hy
    · rw [gain_onAxis hx]
      ring
    · exact ih _ _ hy

theorem acts_legs {fw : Firmware} {bs : List (Block ℝ)} {xs : List (Option (PState ℝ) × PState ℝ × List (PState ℝ))}
    (hF : List.Forall₂ (Acts fw) bs xs) (hg : ∀ b ∈ bs, Good b) :
    List.Forall₂ LegOf (xs.map (leg (junctionVel fw))) bs := by
  induction hF with
  | nil => exact .nil
  | cons h1 _ ih => exact .cons (h1.legOf (hg _ (by simp))) (ih fun b hb => hg b (by simp [hb]))

/-- The last moves of a straight run that are too short to brake in: the correction goes back over all of them, one
nested call for each. -/
theorem c108_short_moves {limit m : ℕ} {v a d : ℝ} {fw : Firmware} (hfw : fw = .marlinJd ∨ fw = .mka) (hv : 1 ≤ v)
    (ha : 0 < a) (hd : 0 < d) (hbrake : 2 * a * d * (limit + 1) + v ≤ v ^ 2) (hm : limit + 2 ≤ m) :
    Regular (runway v a d m) ∧ (∃ bs, plan fw (runway v a d m) = .ok bs) ∧
      planLinked limit fw (runway v a d m) = .error .recursion := by
  have hv0 : 0 < v := by linarith
  have hreg := runway_regular (d := d) hv0 ha m
  refine ⟨hreg, ?_, ?_⟩
  · obtain ⟨bs₀, bs, h1, h2, _⟩ := plan_spec fw hreg
    exact ⟨bs, by unfold plan; simp only [h1, bind, Except.bind, h2]⟩
  obtain ⟨bs₀, g1, g2, g3, g4, g5, g6, _, _⟩ := generated fw hreg
  obtain ⟨k, rfl⟩ : ∃ k, m = k + 1 := ⟨m - 1, by omega⟩
  have hrun : -(v ^ 2 / a) < 0 := by
    have : 0 < v ^ 2 / a := by positivity
    linarith
  have hacts : actions none (runway v a d (k + 1)) = (some (onAxis v a (-(v ^ 2 / a))), onAxis v a 0,
      steps v a d 0 (k + 1)) :: actions (some (onAxis v a 0)) (steps v a d 0 (k + 1)) := by
    unfold runway
    rw [actions_cons_skip _ (by simp) rfl, actions_cons_take _ (Or.inr ⟨_, rfl, onAxis_ne hrun⟩)]
  have hact : active none (runway v a d (k + 1)) = (some (onAxis v a (-(v ^ 2 / a))), onAxis v a 0) ::
      active (some (onAxis v a 0)) (steps v a d 0 (k + 1)) := by
    unfold runway
    rw [active_cons_skip _ (by simp) rfl, active_cons_take _ (Or.inr ⟨_, rfl, onAxis_ne hrun⟩)]
  have hF := acts_legs g6 fun b hb => (g2 b hb).1
  have hjun : junctionVel fw (some (onAxis v a (-(v ^ 2 / a)))) (onAxis v a 0) (steps v a d 0 (k + 1)) = v := by
    rw [steps]
    refine (onAxis_between hrun (by linarith)).junction_mid _ hv0 ha (by show (0 : ℝ) ≤ 1; norm_num) ?_
    rcases hfw with rfl | rfl
    · exact Or.inl ⟨rfl, by show (0 : ℝ) < 1; norm_num⟩
    · exact Or.inr (Or.inr rfl)
  rw [hacts, List.map_cons, steps_legs hv0 ha hd hfw, leg_onAxis hrun, hjun] at hF
  rw [hact] at g5
  obtain ⟨b, tl, h1, h2, rfl⟩ := List.forall₂_cons_left_iff.1 hF
  obtain ⟨z1, z2, z3⟩ := g4 b rfl
  have hgain : 2 * a * (0 - -(v ^ 2 / a)) = 2 * v ^ 2 := by
    field_simp
    ring
  rw [hgain] at h1
  have hout : b.nOut = v := by
    have h3 := h1.feed'
    have h4 := h1.fin
    rcases h1.exit (g2 b (by simp)).2 with h | h
    · exact le_antisymm h3 h
    · simp only at h h3
      rw [z2] at h
      exfalso
      nlinarith
  have hg0 : 0 < 2 * a * d := by positivity
  have hlg : 0 ≤ 2 * a * d * limit := by positivity
  obtain ⟨mid, z, rfl, e2, e3, e4⟩ := straight_speeds hv0 hg0 (by nlinarith) k b tl h2 hout g3
    (fun c hc => (g2 c (by simp [hc])).2)
  have hzip := zip_first (g2 b (by simp)).1 ⟨z1, z2, z3⟩
  have hrec : correctZipAll limit (b :: (mid ++ [z])) = .error .recursion := by
    refine correctZipFrom_until mid [] b hzip (fun c hc => (g2 c (by simp at hc ⊢; tauto)).1) g3 hout e3 ?_
    intro rp' b' hz' hl' ha' ho'
    rw [List.append_nil] at ha' ho'
    have hlen : (b' :: rp').length = mid.length + 1 := by
      have := congrArg List.length ha'
      simpa using this
    rw [List.length_cons] at hlen
    rw [List.map_cons, List.cons.injEq] at g5
    have hmidact : ∀ y ∈ mid.map Block.act, squareGain y = 2 * a * d := by
      intro y hy
      refine steps_active (v := v) hd (k + 1) 0 y ?_
      rw [← g5.2, List.map_append]
      exact List.mem_append_left _ hy
    refine correctZip_deep (v := v) (g := 2 * a * d) hv limit rp' b' z hz' (g2 z (by simp)).1 hl' (by omega) ?_ hg0.le
      (by rw [e4]; linarith)
    intro x hx
    obtain ⟨i, hi⟩ := List.mem_iff_getElem?.1 hx
    have hilt : i < limit + 1 := by
      have := (List.getElem?_eq_some_iff.1 hi).1
      rw [List.length_take] at this
      omega
    rw [List.getElem?_take_of_lt hilt] at hi
    have hmem : ∀ {β : Type} (f : Block ℝ → β), (b' :: rp').map f = (b :: mid).reverse.map f → f x ∈ mid.map f := by
      intro β f hf
      have h1 : ((b' :: rp').map f)[i]? = some (f x) := by rw [List.getElem?_map, hi]; rfl
      rw [hf, List.reverse_cons, List.map_append, List.getElem?_append_left (by simp; omega), List.map_reverse] at h1
      simpa using List.mem_of_getElem? h1
    have hx1 := hmem Block.act ha'
    have hx2 := hmem Block.nOut ho'
    rw [List.mem_map] at hx2
    obtain ⟨w, hw, hw'⟩ := hx2
    refine ⟨hw'.symm.trans (e3 w hw).2, ?_, hmidact _ hx1⟩
    rw [List.mem_map] at hx1
    obtain ⟨w, hw, hw'⟩ := hx1
    have hwB : x.stateB = w.stateB := congrArg Prod.snd hw'.symm
    have hin : w.act ∈ active none (runway v a d (k + 1)) := by
      rw [hact, ← g5.2]
      refine List.mem_cons_of_mem _ ?_
      rw [List.map_append]
      exact List.mem_append_left _ (List.mem_map_of_mem hw)
    have : w.stateB ∈ runway v a d (k + 1) := by
      unfold active withPrev at hin
      exact (List.of_mem_zip (List.mem_of_mem_filter hin)).2
    obtain ⟨y, hy⟩ := runway_mem _ this
    rw [hwB, hy]
    rfl
  rcases planLinked_zip limit fw (runway v a d (k + 1)) with ⟨e, q1, q2⟩ | ⟨bs, g, ⟨e', q1, q2⟩ | ⟨out, h', list', q1, q2, q3⟩⟩
  · rw [g1] at q1; cases q1
  · rw [g1] at g
    cases g
    rw [hrec] at q1
    cases q1
    exact q2
  · rw [g1] at g
    cases g
    rw [hrec] at q1
    cases q1

/-- The full claim: there is a nesting that is enough for every executable program. -/
def C108Full : Prop := ∃ limit : ℕ, ∀ (fw : Firmware) (states : List (PState ℝ)), Regular states →
  planLinked limit fw states ≠ .error .recursion

/-- C108 is false. -/
theorem c108_refuted : ¬ C108Full := by
  rintro ⟨limit, h⟩
  obtain ⟨h1, _, h3⟩ := c108_short_moves (limit := limit) (m := limit + 2) (v := limit + 2) (a := (limit + 2) / 2)
    (d := 1) (fw := .marlinJd) (Or.inl rfl) (by linarith [(Nat.cast_nonneg limit : (0 : ℝ) ≤ limit)]) (by positivity)
    one_pos (by nlinarith) le_rfl
  exact h .marlinJd _ h1 h3

namespace Demo

/-- With 100 mm/s and 500 mm/s², moves of five micrometres are short enough for a limit of 1000. -/
example : planLinked 1000 .mka (runway 100 500 (0.005 : ℝ) 1002) = .error .recursion :=
  (c108_short_moves (Or.inr rfl) (by norm_num) (by norm_num) (by norm_num) (by norm_num) (by norm_num)).2.2

/-- Every move of the bracket is long enough to brake in. -/
theorem bracket_brakes : BrakesWithin 1 bracket := by
  intro x l hinf hlen
  have hl : l = [] := List.length_eq_zero_iff.1 (by simpa using hlen)
  subst hl
  right
  have hx : x ∈ active none bracket := hinf.subset (by simp)
  have hact : active none bracket = [(some (at2 0 0), at2 10 0), (some (at2 10 0), at2 10 10)] := by
    unfold bracket
    rw [active_cons_skip _ (by simp) rfl, active_cons_take _ (Or.inr ⟨_, rfl, by simp [at2]⟩),
      active_cons_take _ (Or.inr ⟨_, rfl, by simp [at2]⟩)]
    simp [active, withPrev]
  rw [hact] at hx
  simp only [List.mem_cons, List.not_mem_nil, or_false] at hx
  have k1 := at2_norm (x := 0) (y := 0) (x' := 10) (y' := 0) (d := 10) (by norm_num) (by norm_num)
  have k2 := at2_norm (x := 10) (y := 0) (x' := 10) (y' := 10) (d := 10) (by norm_num) (by norm_num)
  rcases hx with rfl | rfl
  · simp only [List.map_cons, List.map_nil, List.sum_cons, List.sum_nil, squareGain, k1]
    norm_num [at2]
  · simp only [List.map_cons, List.map_nil, List.sum_cons, List.sum_nil, squareGain, k2]
    norm_num [at2]

example (fw : Firmware) : planLinked 1 fw bracket ≠ .error .recursion :=
  c108_braking_partial one_pos fw bracket_regular bracket_brakes

example : ∃ h list bs, planLinked 5 .klipper bracket = .ok (h, list) ∧ plan .klipper bracket = .ok bs ∧
    LinkedList h list bs ∧ list.length = 2 := by
  obtain ⟨bs₀, bs, h1, h2, _, _, _, _, _, h3, _⟩ := plan_spec .klipper bracket_regular
  have hp : plan .klipper bracket = .ok bs := by
    unfold plan
    simp only [h1, bind, Except.bind, h2]
  obtain ⟨h, list, e1, e2⟩ := c107_complete (limit := 5) hp (by simp [bracket])
  refine ⟨h, list, bs, e1, hp, e2, ?_⟩
  have hact : active none bracket = [(some (at2 0 0), at2 10 0), (some (at2 10 0), at2 10 10)] := by
    unfold bracket
    rw [active_cons_skip _ (by simp) rfl, active_cons_take _ (Or.inr ⟨_, rfl, by simp [at2]⟩),
      active_cons_take _ (Or.inr ⟨_, rfl, by simp [at2]⟩)]
    simp [active, withPrev]
  rw [hact] at h3
  have := congrArg List.length h3
  rw [e2.length]
  simpa using this

end Demo

end PyGCD
