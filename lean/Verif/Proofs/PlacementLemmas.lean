import Verif.Spec.Placement
import Verif.Model.Sim

/-!
# The planner does not see where a print is placed
-/

set_option linter.unusedSectionVars false
set_option linter.unusedSimpArgs false

namespace PyGCD
open Spec

/-- The scalar product of the travel parts. -/
def Vec4.dot3 (a b : Vec4 ℝ) : ℝ := a.x * b.x + a.y * b.y + a.z * b.z

/-- `g` moves places, `L` turns directions accordingly. -/
structure Sym (g L : Vec4 ℝ → Vec4 ℝ) : Prop where
  shift : ∀ p v, g (p.add v) = (g p).add (L v)
  ladd : ∀ v w, L (v.add w) = (L v).add (L w)
  lmul : ∀ v s, L (v.mul s) = (L v).mul s
  dot : ∀ v w, (L v).dot3 (L w) = v.dot3 w
  le : ∀ v, (L v).e = v.e

theorem norm3_eq_of_dot {a b : Vec4 ℝ} (h : a.dot3 a = b.dot3 b) : a.norm3 = b.norm3 := by
  unfold Vec4.norm3
  rw [show a.x * a.x + a.y * a.y + a.z * a.z = b.x * b.x + b.y * b.y + b.z * b.z from h]

theorem vec_eq_of_dot {a b : Vec4 ℝ} (h : (a.sub b).dot3 (a.sub b) = 0) (he : a.e = b.e) : a = b := by
  simp only [Vec4.dot3, Vec4.sub] at h
  have h1 : a.x - b.x = 0 := by nlinarith [sq_nonneg (a.x - b.x), sq_nonneg (a.y - b.y), sq_nonneg (a.z - b.z)]
  have h2 : a.y - b.y = 0 := by nlinarith [sq_nonneg (a.x - b.x), sq_nonneg (a.y - b.y), sq_nonneg (a.z - b.z)]
  have h3 : a.z - b.z = 0 := by nlinarith [sq_nonneg (a.x - b.x), sq_nonneg (a.y - b.y), sq_nonneg (a.z - b.z)]
  ext <;> linarith

/-- Every rigid motion turns directions linearly. -/
theorem Spec.Rigid.sym {g : Vec4 ℝ → Vec4 ℝ} (h : Rigid g) : Sym g fun v => (g v).sub (g Vec4.zero) := by
  have hdot : ∀ v w, ((g v).sub (g Vec4.zero)).dot3 ((g w).sub (g Vec4.zero)) = v.dot3 w := by
    intro v w
    have h1 := congrArg (· ^ 2) (h v w).1
    have h2 := congrArg (· ^ 2) (h v Vec4.zero).1
    have h3 := congrArg (· ^ 2) (h w Vec4.zero).1
    simp only [Vec4.norm3_sq, Vec4.sub, Vec4.zero, sub_zero] at h1 h2 h3
    simp only [Vec4.dot3, Vec4.sub, Vec4.zero]
    linear_combination (h2 + h3 - h1) / 2
  have he : ∀ v, ((g v).sub (g Vec4.zero)).e = v.e := by
    intro v
    have := (h v Vec4.zero).2
    simpa [Vec4.sub, Vec4.zero] using this
  generalize hL : (fun v => (g v).sub (g Vec4.zero)) = L at *
  have hLv : ∀ v, (g v).sub (g Vec4.zero) = L v := fun v => by rw [← hL]
  simp only [hLv] at hdot he
  have ladd : ∀ v w, L (v.add w) = (L v).add (L w) := by
    intro v w
    refine vec_eq_of_dot ?_ ?_
    · have e1 := hdot (v.add w) (v.add w)
      have e2 := hdot (v.add w) v
      have e3 := hdot (v.add w) w
      have e4 := hdot v v
      have e5 := hdot v w
      have e6 := hdot w w
      simp only [Vec4.dot3, Vec4.add, Vec4.sub] at *
      linear_combination e1 - 2 * e2 - 2 * e3 + e4 + 2 * e5 + e6
    · rw [he]
      simp only [Vec4.add]
      rw [he, he]
  have lmul : ∀ v s, L (v.mul s) = (L v).mul s := by
    intro v s
    refine vec_eq_of_dot ?_ ?_
    · have e1 := hdot (v.mul s) (v.mul s)
      have e2 := hdot (v.mul s) v
      have e4 := hdot v v
      simp only [Vec4.dot3, Vec4.mul, Vec4.sub] at *
      linear_combination e1 - 2 * s * e2 + s ^ 2 * e4
    · rw [he]
      simp only [Vec4.mul]
      rw [he]
  refine ⟨?_, ladd, lmul, hdot, he⟩
  intro p v
  have h1 := hLv (p.add v)
  have h2 := hLv p
  rw [ladd, ← h2] at h1
  have hx := congrArg Vec4.x h1
  have hy := congrArg Vec4.y h1
  have hz := congrArg Vec4.z h1
  have hw := congrArg Vec4.e h1
  simp only [Vec4.sub, Vec4.add] at hx hy hz hw
  ext <;> simp only [Vec4.add] <;> linarith

/-- A shift. -/
theorem sym_shift (c : Vec4 ℝ) : Sym (fun p => p.add c) id where
  shift p v := by ext <;> simp only [Vec4.add, id] <;> ring
  ladd _ _ := rfl
  lmul _ _ := rfl
  dot _ _ := rfl
  le _ := rfl

variable {g L : Vec4 ℝ → Vec4 ℝ}

namespace Sym
variable (h : Sym g L)
include h

theorem lsub (a b : Vec4 ℝ) : L (a.sub b) = (L a).sub (L b) := by
  have : a.sub b = a.add (b.mul (-1)) := by ext <;> simp only [Vec4.sub, Vec4.add, Vec4.mul] <;> ring
  rw [this, h.ladd, h.lmul]
  ext <;> simp only [Vec4.sub, Vec4.add, Vec4.mul] <;> ring

theorem ldiv (a : Vec4 ℝ) (s : ℝ) : L (a.div s) = (L a).div s := by
  have : ∀ a : Vec4 ℝ, a.div s = a.mul s⁻¹ := fun a => by
    ext <;> simp only [Vec4.div, Vec4.mul] <;> ring
  rw [this, h.lmul, this]

theorem lzero : L Vec4.zero = Vec4.zero := by
  have : (Vec4.zero : Vec4 ℝ) = Vec4.zero.mul 0 := by ext <;> simp [Vec4.zero, Vec4.mul]
  rw [this, h.lmul]
  ext <;> simp [Vec4.zero, Vec4.mul]

theorem norm3 (a : Vec4 ℝ) : (L a).norm3 = a.norm3 := norm3_eq_of_dot (h.dot a a)

theorem norm4 (a : Vec4 ℝ) : (L a).norm4 = a.norm4 := by
  have := h.dot a a
  simp only [Vec4.dot3] at this
  unfold Vec4.norm4
  rw [this, h.le]

theorem gsub (p q : Vec4 ℝ) : (g p).sub (g q) = L (p.sub q) := by
  have : p = q.add (p.sub q) := by ext <;> simp [Vec4.add, Vec4.sub]
  conv_lhs => rw [this, h.shift]
  ext <;> simp [Vec4.add, Vec4.sub]

theorem dist (p q : Vec4 ℝ) : (g p).tDistance (g q) = p.tDistance q := by
  unfold Vec4.tDistance
  rw [h.gsub, h.norm3]

theorem dist4 (p q : Vec4 ℝ) : (g p).tDistance4 (g q) = p.tDistance4 q := by
  unfold Vec4.tDistance4
  rw [h.gsub, h.norm4]

theorem ge (p q : Vec4 ℝ) : (g p).e - (g q).e = p.e - q.e := by
  have := congrArg Vec4.e (h.gsub p q)
  rw [h.le] at this
  exact this

theorem isTravel (p q : Vec4 ℝ) : (g p).isTravel (g q) = p.isTravel q := by
  have key : ∀ a b : Vec4 ℝ, a.isTravel b = decide ((b.sub a).norm3 ≠ 0) := by
    intro a b
    unfold Vec4.isTravel
    rw [decide_eq_decide, Ne, Vec4.norm3_eq_zero]
    simp only [pyAbs_real, Vec4.sub]
    constructor
    · rintro h ⟨h1, h2, h3⟩
      rw [h1, h2, h3] at h
      simp at h
    · intro h
      by_contra hn
      refine h ⟨?_, ?_, ?_⟩ <;> refine abs_eq_zero.1 (le_antisymm ?_ (abs_nonneg _)) <;>
        linarith [abs_nonneg (b.x - a.x), abs_nonneg (b.y - a.y), abs_nonneg (b.z - a.z)]
  rw [key, key, h.gsub, h.norm3]

theorem isExtrudingTo (p q : Vec4 ℝ) (r : Bool) : (g p).isExtrudingTo (g q) r = p.isExtrudingTo q r := by
  unfold Vec4.isExtrudingTo
  rw [h.ge]

theorem connect (A B : PState ℝ) : connectState (placed g A) (placed g B) = L (connectState A B) := by
  unfold connectState
  simp only [placed, h.gsub, h.norm3, h.le]
  rw [h.lmul]
  congr 1
  split
  · rw [h.ldiv]
  · split
    · rw [h.ldiv]
    · rw [h.lzero]

theorem target (A : Option (PState ℝ)) (B : PState ℝ) :
    targetVel (A.map (placed g)) (placed g B) = L (targetVel A B) := by
  cases A with
  | none => exact h.lzero.symm
  | some A => exact h.connect A B

theorem next (B : PState ℝ) (rest : List (PState ℝ)) :
    nextTarget (placed g B) (rest.map (placed g)) = placed g (nextTarget B rest) := by
  induction rest with
  | nil => rfl
  | cons n rest ih =>
    rw [List.map_cons, nextTarget, nextTarget, ih]
    have : (placed g B).position.tDistance4 (placed g n).position = B.position.tDistance4 n.position :=
      h.dist4 _ _
    rw [this, List.isEmpty_map]
    split <;> rfl

theorem junction (fw : Firmware) (hfw : fw ≠ .mka ∨ L = id) (A : Option (PState ℝ)) (B : PState ℝ)
    (rest : List (PState ℝ)) :
    junctionVel fw (A.map (placed g)) (placed g B) (rest.map (placed g)) = junctionVel fw A B rest := by
  unfold junctionVel
  simp only [velNext, h.target, h.next, h.connect]
  have hd := h.dot (targetVel A B) (connectState B (nextTarget B rest))
  simp only [Vec4.dot3] at hd
  have hB : (placed g B).speed = B.speed ∧ (placed g B).pAcc = B.pAcc ∧ (placed g B).jerk = B.jerk :=
    ⟨rfl, rfl, rfl⟩
  cases fw with
  | marlinJd =>
    simp only [calcJD, hB, h.norm3]
    have : ∀ a b : Vec4 ℝ, -a.x * b.x + -a.y * b.y + -a.z * b.z = -(a.x * b.x + a.y * b.y + a.z * b.z) := by
      intro a b
      ring
    simp only [this, hd]
  | klipper =>
    simp only [calcKlipper, hB, h.norm3]
    have : (placed g (nextTarget B rest)).position.sub (placed g B).position =
      L ((nextTarget B rest).position.sub B.position) := h.gsub _ _
    rw [this, h.norm3]
    have : ∀ (a b : Vec4 ℝ) (r s : ℝ), (a.div r).x * (b.div s).x + (a.div r).y * (b.div s).y +
        (a.div r).z * (b.div s).z = (a.x * b.x + a.y * b.y + a.z * b.z) / (r * s) := by
      intro a b r s
      simp only [Vec4.div]
      ring
    simp only [this, hd]
  | marlinJerk =>
    simp only [calcJerk, hB, ← h.lsub, ← h.ldiv, h.norm3]
  | mka =>
    rcases hfw with hfw | hfw
    · exact absurd rfl hfw
    · subst hfw
      rfl
  | default => rfl

theorem normDir4 (a : Vec4 ℝ) : (L a).normDir4 = a.normDir4.map L := by
  unfold Vec4.normDir4
  rw [h.norm3, h.norm4]
  split
  · rw [Option.map_some, h.ldiv]
  · split
    · rw [Option.map_some, h.ldiv]
    · rfl

theorem notZero (a : Vec4 ℝ) : (L a).notZero = a.notZero := by
  unfold Vec4.notZero
  rw [h.norm4]

end Sym

/-- A segment, placed elsewhere. -/
def placedSeg (g L : Vec4 ℝ → Vec4 ℝ) (s : Segment ℝ) : Segment ℝ :=
  ⟨s.tBegin, s.tEnd, g s.posBegin, L s.velBegin, g s.posEnd, L s.velEnd⟩

/-- A block, placed elsewhere. -/
def placedBlock (g L : Vec4 ℝ → Vec4 ℝ) (b : Block ℝ) : Block ℝ :=
  { stateA := b.stateA.map (placed g), stateB := placed g b.stateB, direction := b.direction.map L,
    isExtruding := b.isExtruding, jd := b.jd.map L, segments := b.segments.map (placedSeg g L),
    blocktype := b.blocktype }

theorem bind_placed {α β γ δ : Type} {f : α → β} {F : γ → δ} (x : Except PyErr α) {k : α → Except PyErr γ}
    {k' : β → Except PyErr δ} (hk : ∀ a, k' (f a) = (k a).map F) :
    (x.map f >>= k') = (x >>= k).map F := by
  cases x with
  | error e => rfl
  | ok a => exact hk a

/-- Two computations whose results, if both give one, correspond by `F`. -/
def Corr {α β : Type} (F : α → β) (x : Except PyErr α) (y : Except PyErr β) : Prop :=
  ∀ a b, x = .ok a → y = .ok b → b = F a

theorem Corr.of_map {α β : Type} {F : α → β} (x : Except PyErr α) : Corr F x (x.map F) := by
  intro a b h1 h2
  subst h1
  exact (Except.ok.inj h2).symm

theorem Corr.bind {α β γ δ : Type} {F : α → β} {G : γ → δ} {x : Except PyErr α} {y : Except PyErr β}
    {k : α → Except PyErr γ} {k' : β → Except PyErr δ} (h : Corr F x y)
    (hk : ∀ a, Corr G (k a) (k' (F a))) : Corr G (x >>= k) (y >>= k') := by
  intro c d h1 h2
  cases x with
  | error e => cases h1
  | ok a =>
    cases y with
    | error e => cases h2
    | ok b =>
      obtain rfl := h a b rfl rfl
      exact hk a c d h1 h2

theorem Corr.ok {α β : Type} {F : α → β} {a : α} {b : β} (h : b = F a) :
    Corr F (.ok a) (.ok b) := by
  intro a' b' h1 h2
  cases h1
  cases h2
  exact h

theorem Corr.error {α β : Type} {F : α → β} {e : PyErr} {y : Except PyErr β} :
    Corr F (.error e) y := by
  intro a' b' h1 h2
  cases h1

theorem Corr.error' {α β : Type} {F : α → β} {e : PyErr} {x : Except PyErr α} :
    Corr F x (.error e) := by
  intro a' b' h1 h2
  cases h2

namespace Sym
variable (h : Sym g L)
include h

theorem make (t0 t1 : ℝ) (p v p' v' : Vec4 ℝ) :
    Segment.make t0 t1 (g p) (L v) (g p') (L v') = (Segment.make t0 t1 p v p' v').map (placedSeg g L) := by
  have hc : (⟨t0, t1, g p, L v, g p', L v'⟩ : Segment ℝ).selfCheckOk =
      (⟨t0, t1, p, v, p', v'⟩ : Segment ℝ).selfCheckOk := by
    unfold Segment.selfCheckOk
    simp only [← h.ladd, ← h.lmul, ← h.ldiv, ← h.shift, h.gsub, h.norm3]
  unfold Segment.make
  simp only [hc]
  split <;> rfl

theorem keep (s : Segment ℝ) : keepSeg (placedSeg g L s) = (keepSeg s).map (placedSeg g L) := by
  unfold keepSeg
  have h1 : (placedSeg g L s).posEnd.isTravel (placedSeg g L s).posBegin = s.posEnd.isTravel s.posBegin :=
    h.isTravel _ _
  have h2 : (placedSeg g L s).posEnd.isExtrudingTo (placedSeg g L s).posBegin false =
      s.posEnd.isExtrudingTo s.posBegin false := h.isExtrudingTo _ _ _
  rw [h1, h2]
  split <;> rfl

theorem trap (prev : Segment ℝ) (u : Vec4 ℝ) (acc vT v0 v1 d : ℝ) (eo : Bool) :
    trapezoid (placedSeg g L prev) (L u) acc vT v0 v1 d eo =
      (trapezoid prev u acc vT v0 v1 d eo).map (List.map (placedSeg g L)) := by
  unfold trapezoid
  simp only [placedSeg, ← h.lmul, ← h.shift, h.make, h.norm3, h.norm4]
  refine bind_placed _ fun s1 => bind_placed _ fun s2 => bind_placed _ fun s3 => ?_
  simp only [h.keep, Except.map, List.map_append]

theorem tri (prev : Segment ℝ) (u : Vec4 ℝ) (acc vP v0 v1 : ℝ) :
    triang (placedSeg g L prev) (L u) acc vP v0 v1 =
      (triang prev u acc vP v0 v1).map (List.map (placedSeg g L)) := by
  unfold triang
  simp only [placedSeg, ← h.lmul, ← h.shift, h.make]
  refine bind_placed _ fun s1 => bind_placed _ fun s2 => ?_
  simp only [h.keep, Except.map, List.map_append]

theorem up (prev : Segment ℝ) (u : Vec4 ℝ) (acc v1 v0 : ℝ) :
    singlUp (placedSeg g L prev) (L u) acc v1 v0 =
      (singlUp prev u acc v1 v0).map (List.map (placedSeg g L)) := by
  unfold singlUp
  simp only [placedSeg, ← h.lmul, ← h.shift, h.make]
  refine bind_placed _ fun s1 => ?_
  simp only [h.keep, Except.map]

theorem dwn (prev : Segment ℝ) (u : Vec4 ℝ) (acc v1 v0 : ℝ) :
    singlDwn (placedSeg g L prev) (L u) acc v1 v0 =
      (singlDwn prev u acc v1 v0).map (List.map (placedSeg g L)) := by
  unfold singlDwn
  simp only [placedSeg, ← h.lmul, ← h.shift, h.make]
  refine bind_placed _ fun s1 => ?_
  simp only [h.keep, Except.map]

theorem planMove_placed (prev : Segment ℝ) (u : Vec4 ℝ) (B : PState ℝ) (d : ℝ) (eo : Bool) (v : ℝ) :
    planMove (placedSeg g L prev) (L u) (placed g B) d eo v =
      (planMove prev u B d eo v).map fun r => (r.1.map (placedSeg g L), r.2) := by
  have hn : (placedSeg g L prev).velEnd.norm3 = prev.velEnd.norm3 := h.norm3 _
  have hB : (placed g B).speed = B.speed ∧ (placed g B).pAcc = B.pAcc := ⟨rfl, rfl⟩
  have hm : ∀ (r : Except PyErr (List (Segment ℝ))) (bt : BlockType),
      rescueValueError ((r.map (List.map (placedSeg g L))).map (·, bt)) =
        (rescueValueError (r.map (·, bt))).map fun r => (r.1.map (placedSeg g L), r.2) := by
    intro r bt
    cases r with
    | error e => cases e <;> rfl
    | ok r => rfl
  have hite : ∀ (c : Prop) [Decidable c] (x y : Except PyErr (List (Segment ℝ) × BlockType))
      (x' y' : Except PyErr (List (Segment ℝ) × BlockType)),
      rescueValueError x' = (rescueValueError x).map (fun r => (r.1.map (placedSeg g L), r.2)) →
      rescueValueError y' = (rescueValueError y).map (fun r => (r.1.map (placedSeg g L), r.2)) →
      rescueValueError (if c then x' else y') =
        (rescueValueError (if c then x else y)).map (fun r => (r.1.map (placedSeg g L), r.2)) := by
    intro c _ x y x' y' hx hy
    by_cases hc : c
    · rw [if_pos hc, if_pos hc, hx]
    · rw [if_neg hc, if_neg hc, hy]
  unfold planMove
  simp only [hn, hB, h.trap, h.tri, h.up, h.dwn]
  exact hite _ _ _ _ _ (hm _ _) (hite _ _ _ _ _ (hm _ _) (hite _ _ _ _ _ (hm _ _)
    (hite _ _ _ _ _ (hm _ _) rfl)))

theorem lastSeg (b : Block ℝ) : (placedBlock g L b).lastSeg = b.lastSeg.map (placedSeg g L) := by
  unfold Block.lastSeg placedBlock
  simp only [List.getLast?_map]
  cases b.segments.getLast? <;> rfl

theorem firstSeg (b : Block ℝ) : (placedBlock g L b).firstSeg = b.firstSeg.map (placedSeg g L) := by
  unfold Block.firstSeg placedBlock
  simp only [List.head?_map]
  cases b.segments.head? <;> rfl

theorem moveDist (A B : PState ℝ) : moveDistance (placed g A) (placed g B) = moveDistance A B := by
  unfold moveDistance
  simp only [placed, h.dist, h.dist4]

theorem moveMaker_placed (b : Block ℝ) (pb : Option (Block ℝ)) (v : ℝ) :
    moveMaker (placedBlock g L b) (pb.map (placedBlock g L)) v =
      (moveMaker b pb v).map (placedBlock g L) := by
  have hi : ∀ p : Vec4 ℝ, Segment.initial (g p) = placedSeg g L (Segment.initial p) := by
    intro p
    simp only [Segment.initial, placedSeg, h.lzero]
  unfold moveMaker
  cases hA : b.stateA with
  | none => simp only [placedBlock, hA, Option.map_none]; rfl
  | some A =>
    cases hu : b.direction with
    | none => simp only [placedBlock, hA, hu, Option.map_none, Option.map_some]; rfl
    | some u =>
      have hA' : (placedBlock g L b).stateA = some (placed g A) := by simp [placedBlock, hA]
      have hu' : (placedBlock g L b).direction = some (L u) := by simp [placedBlock, hu]
      have hB' : (placedBlock g L b).stateB = placed g b.stateB := rfl
      simp only [hA', hu', hB', h.moveDist]
      have hfin : ∀ s : Segment ℝ, (do
          let r ← planMove (placedSeg g L s) (L u) (placed g b.stateB) (moveDistance A b.stateB).1
            (moveDistance A b.stateB).2 v
          Except.ok (⟨some (placed g A), placed g b.stateB, some (L u),
            (placedBlock g L b).isExtruding, (placedBlock g L b).jd, r.1, some r.2⟩ : Block ℝ)) = (do
          let r ← planMove s u b.stateB (moveDistance A b.stateB).1 (moveDistance A b.stateB).2 v
          Except.ok (⟨some A, b.stateB, some u, b.isExtruding, b.jd, r.1, some r.2⟩ : Block ℝ)).map (placedBlock g L) := by
        intro s
        rw [h.planMove_placed]
        exact bind_placed _ fun r => rfl
      cases pb with
      | none =>
        simp only [Option.map_none, placed, hi]
        exact hfin _
      | some pb =>
        simp only [Option.map_some, h.lastSeg]
        exact bind_placed _ fun s => hfin s

theorem dwell (pb : Option (Block ℝ)) (p : ℝ) :
    dwellSegment (pb.map (placedBlock g L)) p = (dwellSegment pb p).map (placedSeg g L) := by
  cases pb with
  | none => rfl
  | some pb =>
    simp only [Option.map_some, dwellSegment, h.lastSeg]
    cases pb.lastSeg with
    | error e => rfl
    | ok s =>
      simp only [Except.map, bind, Except.bind, placedSeg]
      have := h.make s.tEnd (s.tEnd + p) s.posEnd Vec4.zero s.posEnd Vec4.zero
      rw [h.lzero] at this
      rw [this]
      rfl

theorem block (fw : Firmware) (hfw : fw ≠ .mka ∨ L = id) (A : Option (PState ℝ)) (B : PState ℝ)
    (rest : List (PState ℝ)) (pb : Option (Block ℝ)) :
    mkBlock fw (A.map (placed g)) (placed g B) (rest.map (placed g)) (pb.map (placedBlock g L)) =
      (mkBlock fw A B rest pb).map (placedBlock g L) := by
  have hb0 : (⟨A.map (placed g), placed g B, (L (targetVel A B)).normDir4, false, none, [], none⟩ : Block ℝ) =
      placedBlock g L ⟨A, B, (targetVel A B).normDir4, false, none, [], none⟩ := by
    simp only [placedBlock, h.normDir4, Option.map_none, List.map_nil]
  have hdw : ∀ b : Block ℝ, ∀ s, ({ placedBlock g L b with jd := some Vec4.zero, segments := [placedSeg g L s] } : Block ℝ) =
      placedBlock g L { b with jd := some Vec4.zero, segments := [s] } := by
    intro b s
    simp only [placedBlock, Option.map_some, h.lzero, List.map_cons, List.map_nil]
  have hpause : (placed g B).pause = B.pause := rfl
  unfold mkBlock
  simp only [h.target, h.junction fw hfw, h.notZero, hb0, h.moveMaker_placed, hpause, h.dwell]
  generalize (⟨A, B, (targetVel A B).normDir4, false, none, [], none⟩ : Block ℝ) = b0
  split
  · cases moveMaker b0 pb (junctionVel fw A B rest) with
    | error e => rfl
    | ok b =>
      have hjd : ((L (targetVel A B)).normDir4.map (·.mul (junctionVel fw A B rest))) =
          ((targetVel A B).normDir4.map (·.mul (junctionVel fw A B rest))).map L := by
        rw [h.normDir4]
        simp only [Option.map_map]
        congr 1
        funext v
        exact (h.lmul _ _).symm
      simp only [Except.map, bind, Except.bind]
      rw [hjd]
      have he : ∀ A : PState ℝ, (placed g A).position.isExtrudingTo (placed g B).position =
          A.position.isExtrudingTo B.position := fun A => h.isExtrudingTo _ _ _
      have hz : some (Vec4.zero : Vec4 ℝ) = Option.map L (some Vec4.zero) := by
        rw [Option.map_some, h.lzero]
      cases B.pause with
      | none =>
        cases A with
        | none => rfl
        | some A =>
          simp only [Option.map_some, he]
          rfl
      | some p =>
        simp only
        cases dwellSegment pb p with
        | error e => rfl
        | ok s =>
          simp only
          cases A with
          | none =>
            simp only [placedBlock, Option.map_some, h.lzero]
            rfl
          | some A =>
            simp only [placedBlock, Option.map_some, he, h.lzero]
            rfl
  · simp only [Except.map, bind, Except.bind]
    cases B.pause with
    | none => rfl
    | some p =>
      simp only
      cases dwellSegment pb p with
      | error e => rfl
      | ok s =>
        simp only [placedBlock, Option.map_some, h.lzero]
        rfl

theorem gen (fw : Firmware) (hfw : fw ≠ .mka ∨ L = id) (states : List (PState ℝ)) (pa : Option (PState ℝ))
    (pb : Option (Block ℝ)) :
    genBlocks fw (pa.map (placed g)) (pb.map (placedBlock g L)) (states.map (placed g)) =
      (genBlocks fw pa pb states).map (List.map (placedBlock g L)) := by
  induction states generalizing pa pb with
  | nil => rfl
  | cons s states ih =>
    rw [List.map_cons, genBlocks, genBlocks, h.block fw hfw]
    cases mkBlock fw pa s states pb with
    | error e => rfl
    | ok b =>
      simp only [Except.map, bind, Except.bind]
      have : (placedBlock g L b).segments.isEmpty = b.segments.isEmpty := by
        simp [placedBlock]
      rw [this]
      split
      · exact ih (some s) pb
      · have := ih (some s) (some b)
        simp only [Option.map_some] at this
        rw [this]
        cases genBlocks fw (some s) (some b) states <;> rfl

theorem timeshift (d : ℝ) (b : Block ℝ) :
    (placedBlock g L b).timeshift d = placedBlock g L (b.timeshift d) := by
  simp only [Block.timeshift, placedBlock, List.map_map]
  rfl

theorem correction_step {rp : List (Block ℝ)} (ih : ∀ p rp', rp = p :: rp' → ∀ b,
      Corr (fun r : List (Block ℝ) × Block ℝ × Option (Block ℝ) =>
        (r.1.map (placedBlock g L), placedBlock g L r.2.1, r.2.2.map (placedBlock g L)))
      (selfCorrection rp' p (some b))
      (selfCorrection (rp'.map (placedBlock g L)) (placedBlock g L p) (some (placedBlock g L b))))
    (b nx : Block ℝ) :
    Corr (fun r : List (Block ℝ) × Block ℝ × Option (Block ℝ) =>
        (r.1.map (placedBlock g L), placedBlock g L r.2.1, r.2.2.map (placedBlock g L)))
      (selfCorrection rp b (some nx))
      (selfCorrection (rp.map (placedBlock g L)) (placedBlock g L b) (some (placedBlock g L nx))) := by
  rw [selfCorrection.eq_def, selfCorrection.eq_def (rp.map (placedBlock g L))]
  simp only [h.lastSeg, h.firstSeg]
  refine Corr.bind (Corr.of_map _) fun last => Corr.bind (Corr.of_map _) fun nf => ?_
  have h1 : (placedSeg g L last).velEnd.norm3 = last.velEnd.norm3 := h.norm3 _
  have h2 : (placedSeg g L nf).velBegin.norm3 = nf.velBegin.norm3 := h.norm3 _
  have hh : (rp.map (placedBlock g L)).head? = rp.head?.map (placedBlock g L) := by simp
  simp only [h1, h2, hh, h.moveMaker_placed]
  have hfin : ∀ (rp1 : List (Block ℝ)) (b1 : Block ℝ), Corr
      (fun r : List (Block ℝ) × Block ℝ × Option (Block ℝ) =>
        (r.1.map (placedBlock g L), placedBlock g L r.2.1, r.2.2.map (placedBlock g L)))
      (do
        let last ← b1.lastSeg
        if last.posEnd.eq nf.posBegin = true then .ok (rp1, b1, some (nx.timeshift (last.tEnd - nf.tBegin)))
        else if (1e-12 : ℝ) < (last.posEnd.sub nf.posBegin).norm3 then .error .nameError
        else .ok (rp1, b1, some (nx.timeshift (last.tEnd - nf.tBegin))))
      (do
        let last ← (placedBlock g L b1).lastSeg
        if last.posEnd.eq (placedSeg g L nf).posBegin = true then
          .ok (rp1.map (placedBlock g L), placedBlock g L b1,
            some ((placedBlock g L nx).timeshift (last.tEnd - (placedSeg g L nf).tBegin)))
        else if (1e-12 : ℝ) < (last.posEnd.sub (placedSeg g L nf).posBegin).norm3 then .error .nameError
        else .ok (rp1.map (placedBlock g L), placedBlock g L b1,
          some ((placedBlock g L nx).timeshift (last.tEnd - (placedSeg g L nf).tBegin)))) := by
    intro rp1 b1
    rw [h.lastSeg]
    refine Corr.bind (Corr.of_map _) fun last => ?_
    have hs : (placedBlock g L nx).timeshift ((placedSeg g L last).tEnd - (placedSeg g L nf).tBegin) =
        placedBlock g L (nx.timeshift (last.tEnd - nf.tBegin)) := h.timeshift _ _
    rw [hs]
    split_ifs
    all_goals first
      | exact Corr.ok rfl
      | exact Corr.error
      | exact Corr.error'
  split
  · refine Corr.bind (Corr.of_map _) fun b' => ?_
    have hb : (placedBlock g L b').blocktype = b'.blocktype := rfl
    rw [hb]
    split
    · cases rp with
      | nil => exact Corr.error
      | cons p rp' =>
        simp only [List.map_cons]
        refine Corr.bind (ih p rp' rfl b') fun r => ?_
        obtain ⟨r1, r2, r3⟩ := r
        cases r3 with
        | none => exact hfin (r2 :: r1) b'
        | some b'' => exact hfin (r2 :: r1) b''
    · exact hfin rp b'
  · exact hfin rp b

/-- If both corrections succeed, they correspond. -/
theorem correction : ∀ (rp : List (Block ℝ)) (b : Block ℝ) (nx : Option (Block ℝ)),
    Corr (fun r : List (Block ℝ) × Block ℝ × Option (Block ℝ) =>
        (r.1.map (placedBlock g L), placedBlock g L r.2.1, r.2.2.map (placedBlock g L)))
      (selfCorrection rp b nx)
      (selfCorrection (rp.map (placedBlock g L)) (placedBlock g L b) (nx.map (placedBlock g L))) := by
  intro rp
  induction rp with
  | nil =>
    intro b nx
    cases nx with
    | none =>
      simp only [selfCorrection, Option.map_none, List.map_nil]
      exact Corr.ok rfl
    | some nx => exact h.correction_step (by intro p rp' e; cases e) b nx
  | cons p rp ih =>
    intro b nx
    cases nx with
    | none =>
      simp only [selfCorrection, Option.map_none, List.map_cons]
      exact Corr.ok rfl
    | some nx => exact h.correction_step (by intro p' rp' e; cases e; exact fun b' => ih p (some b')) b nx

theorem correctFrom_placed (tl : List (Block ℝ)) : ∀ (rp : List (Block ℝ)) (b : Block ℝ),
    Corr (List.map (placedBlock g L)) (correctFrom rp b tl)
      (correctFrom (rp.map (placedBlock g L)) (placedBlock g L b) (tl.map (placedBlock g L))) := by
  induction tl with
  | nil =>
    intro rp b
    rw [List.map_nil, correctFrom, correctFrom]
    refine Corr.bind (h.correction rp b none) fun r => Corr.ok ?_
    simp
  | cons nx tl ih =>
    intro rp b
    rw [List.map_cons, correctFrom, correctFrom]
    refine Corr.bind (h.correction rp b (some nx)) fun r => ?_
    have := ih (r.2.1 :: r.1) (r.2.2.getD nx)
    have hd : (r.2.2.map (placedBlock g L)).getD (placedBlock g L nx) = placedBlock g L (r.2.2.getD nx) := by
      cases r.2.2 <;> rfl
    simp only [hd]
    exact this

/-- If both plans succeed, they correspond. -/
theorem plan_placed (fw : Firmware) (hfw : fw ≠ .mka ∨ L = id) (states : List (PState ℝ)) :
    Corr (List.map (placedBlock g L)) (plan fw states) (plan fw (states.map (placed g))) := by
  unfold plan
  have := h.gen fw hfw states none none
  simp only [Option.map_none] at this
  rw [this]
  refine Corr.bind (Corr.of_map _) fun bs => ?_
  cases bs with
  | nil => exact Corr.ok rfl
  | cons b tl => exact h.correctFrom_placed tl [] b

end Sym
end PyGCD
