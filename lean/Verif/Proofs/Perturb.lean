import Verif.Spec.Rounded
import Verif.Props.Stops
import Verif.Proofs.RelError

/-!
# Small changes of a program change its print time little
-/

set_option linter.unusedSectionVars false
set_option linter.unusedSimpArgs false

namespace PyGCD
open Spec Vec4

/-! ## One move -/

theorem moveTime_le_any {a v L w : ℝ} (ha : 0 < a) (hv : 0 < v) (hL : 0 ≤ L) (hw : 0 < w) (hwv : w ≤ v) :
    moveTime a v L 0 0 ≤ L / w + w / a := by
  rw [c65_rest_to_rest ha hv hL]
  by_cases h : v ^ 2 ≤ a * L
  · rw [if_pos h]
    have h1 : (L / w + w / a) - (L / v + v / a) = (v - w) * (a * L - v * w) / (v * w * a) := by
      field_simp
      ring
    have h2 : 0 ≤ (v - w) * (a * L - v * w) / (v * w * a) := by
      apply div_nonneg _ (by positivity)
      apply mul_nonneg (by linarith)
      nlinarith
    linarith
  · rw [if_neg h]
    have h0 : 0 ≤ L / a := by positivity
    have hs := Real.sq_sqrt h0
    have hn := Real.sqrt_nonneg (L / a)
    set r := √(L / a)
    have hr : L = r ^ 2 * a := by rw [hs]; field_simp
    have h1 : L / w + w / a - 2 * r = (r * a - w) ^ 2 / (w * a) := by
      rw [hr]
      field_simp
      ring
    have h2 : 0 ≤ (r * a - w) ^ 2 / (w * a) := by positivity
    linarith

theorem moveTime_best {a v L : ℝ} (ha : 0 < a) (hv : 0 < v) (hL : 0 < L) :
    ∃ w, 0 < w ∧ w ≤ v ∧ moveTime a v L 0 0 = L / w + w / a := by
  rw [c65_rest_to_rest ha hv hL.le]
  by_cases h : v ^ 2 ≤ a * L
  · exact ⟨v, hv, le_rfl, by rw [if_pos h]⟩
  · rw [if_neg h]
    push Not at h
    have h0 : 0 < L / a := by positivity
    have hs := Real.sq_sqrt h0.le
    have hn := Real.sqrt_pos.2 h0
    set r := √(L / a)
    have hr : L = r ^ 2 * a := by rw [hs]; field_simp
    refine ⟨r * a, by positivity, ?_, ?_⟩
    · apply le_of_lt
      apply lt_of_pow_lt_pow_left₀ 2 hv.le
      rw [hr] at h
      nlinarith
    · rw [hr]
      field_simp
      ring

/-- Settings that are smaller by at most a factor `μ` and a length that is greater by at most a factor `ν` prolong a
move by at most the factor `μ * ν`. -/
theorem moveTime_stretch {a v L a' v' L' μ ν : ℝ} (ha : 0 < a) (hv : 0 < v) (hL : 0 < L) (ha' : 0 < a') (hv' : 0 < v')
    (hL' : 0 ≤ L') (hμ : 1 ≤ μ) (hν : 1 ≤ ν) (h1 : a ≤ μ * a') (h2 : v ≤ μ * v') (h3 : L' ≤ ν * L) :
    moveTime a' v' L' 0 0 ≤ μ * ν * moveTime a v L 0 0 := by
  obtain ⟨w, hw, hwv, he⟩ := moveTime_best ha hv hL
  have hμ0 : 0 < μ := by linarith
  have hν0 : 0 < ν := by linarith
  have h4 : w / μ ≤ v' := by
    rw [div_le_iff₀ hμ0]
    linarith
  refine (moveTime_le_any ha' hv' hL' (by positivity) h4).trans ?_
  rw [he]
  have h5 : L' / (w / μ) ≤ μ * ν * (L / w) := by
    rw [div_div_eq_mul_div, div_le_iff₀ hw]
    have : μ * ν * (L / w) * w = μ * (ν * L) := by field_simp
    rw [this]
    nlinarith
  have h6 : w / μ / a' ≤ μ * ν * (w / a) := by
    rw [div_div, div_le_iff₀ (by positivity)]
    have e : μ * ν * (w / a) * (μ * a') = μ * ν * w * ((μ * a') / a) := by ring
    rw [e]
    have h7 : 1 ≤ μ * a' / a := by rwa [le_div_iff₀ ha, _root_.one_mul]
    have h8 : 1 ≤ μ * ν := one_le_mul_of_one_le_of_one_le hμ hν
    have h9 : 1 ≤ μ * ν * (μ * a' / a) := one_le_mul_of_one_le_of_one_le h8 h7
    calc w = w * 1 := (_root_.mul_one w).symm
      _ ≤ w * (μ * ν * (μ * a' / a)) := by gcongr
      _ = _ := by ring
  linarith

theorem Spec.Nearly.pos {x y : ℝ} (h : Nearly x y) (hy : 0 < y) : 0 < x := by
  unfold Nearly at h
  rw [abs_of_pos hy, abs_le] at h
  nlinarith [h.1]

theorem Spec.Nearly.nonneg {x y : ℝ} (h : Nearly x y) (hy : 0 ≤ y) : 0 ≤ x := by
  unfold Nearly at h
  rw [abs_of_nonneg hy, abs_le] at h
  nlinarith [h.1]

theorem Spec.Nearly.le {x y : ℝ} (h : Nearly x y) (hy : 0 < y) : x ≤ (1 + 2e-15) * y ∧ y ≤ (1 + 2e-15) * x := by
  unfold Nearly at h
  rw [abs_of_pos hy, abs_le] at h
  constructor <;> nlinarith [h.1, h.2]

theorem moveTime_near {a v L a' v' L' : ℝ} (ha : 0 < a) (hv : 0 < v) (hL : 1e-3 ≤ L) (h1 : Nearly a' a)
    (h2 : Nearly v' v) (h3 : |L' - L| ≤ 2e-11) :
    |moveTime a' v' L' 0 0 - moveTime a v L 0 0| ≤ 3e-8 * moveTime a v L 0 0 := by
  have hL0 : 0 < L := by linarith
  rw [abs_le] at h3
  have hL' : 0 < L' := by linarith [h3.1]
  have k1 := moveTime_stretch (μ := 1 + 2e-15) (ν := 1 + 2.1e-8) ha hv hL0 (h1.pos ha) (h2.pos hv) hL'.le
    (by norm_num) (by norm_num) (h1.le ha).2 (h2.le hv).2 (by nlinarith [h3.2])
  have k2 := moveTime_stretch (μ := 1 + 2e-15) (ν := 1 + 2.1e-8) (h1.pos ha) (h2.pos hv) hL' ha hv hL0.le
    (by norm_num) (by norm_num) (h1.le ha).1 (h2.le hv).1 (by nlinarith [h3.1])
  have hT : 0 ≤ moveTime a v L 0 0 := by
    obtain ⟨w, hw, _, he⟩ := moveTime_best ha hv hL0
    rw [he]
    positivity
  set T := moveTime a v L 0 0
  set T' := moveTime a' v' L' 0 0
  rw [abs_le]
  constructor <;> nlinarith

/-! ## Lengths -/

theorem norm3_le_near {a b : Vec4 ℝ} {δ : ℝ} (hx : |a.x - b.x| ≤ δ) (hy : |a.y - b.y| ≤ δ) (hz : |a.z - b.z| ≤ δ) :
    a.norm3 ≤ b.norm3 + 2 * δ := by
  have hδ : 0 ≤ δ := (abs_nonneg _).trans hx
  have hb := norm3_nonneg b
  have hsb := norm3_sq b
  have hsa := norm3_sq a
  apply le_of_sq_le_sq _ (by positivity)
  rw [hsa]
  have key : ∀ {p q : ℝ}, |p - q| ≤ δ → p ^ 2 ≤ q ^ 2 + 2 * δ * |q| + δ ^ 2 := by
    intro p q h
    have : |p| ≤ |q| + δ := by
      have := abs_sub_abs_le_abs_sub p q
      linarith
    have h2 := pow_le_pow_left₀ (abs_nonneg p) this 2
    rw [sq_abs] at h2
    have h3 := sq_abs q
    nlinarith
  have k1 := key hx
  have k2 := key hy
  have k3 := key hz
  have hsum : |b.x| + |b.y| + |b.z| ≤ 2 * b.norm3 := by
    apply le_of_sq_le_sq _ (by positivity)
    rw [mul_pow, hsb]
    have e1 := sq_abs b.x
    have e2 := sq_abs b.y
    have e3 := sq_abs b.z
    nlinarith [sq_nonneg (|b.x| - |b.y|), sq_nonneg (|b.y| - |b.z|), sq_nonneg (|b.x| - |b.z|), sq_nonneg b.x,
      sq_nonneg b.y, sq_nonneg b.z]
  nlinarith [mul_le_mul_of_nonneg_left hsum hδ]

theorem norm3_near {a b : Vec4 ℝ} {δ : ℝ} (hx : |a.x - b.x| ≤ δ) (hy : |a.y - b.y| ≤ δ) (hz : |a.z - b.z| ≤ δ) :
    |a.norm3 - b.norm3| ≤ 2 * δ := by
  have h1 := norm3_le_near hx hy hz
  have h2 := norm3_le_near (a := b) (b := a) (δ := δ) (by rwa [abs_sub_comm]) (by rwa [abs_sub_comm])
    (by rwa [abs_sub_comm])
  rw [abs_le]
  constructor <;> linarith

theorem vec4_ext {p q : Vec4 ℝ} (hx : p.x = q.x) (hy : p.y = q.y) (hz : p.z = q.z) (he : p.e = q.e) : p = q := by
  cases p
  cases q
  simp only at *
  subst hx hy hz he
  rfl

theorem moveLength_near {u v : PState ℝ × PState ℝ} (h : SameMoves u v)
    (hL : v.2.position ≠ u.2.position → 1e-3 ≤ moveLength u.2.position v.2.position) :
    (v.1.position = u.1.position ↔ v.2.position = u.2.position) ∧
    (v.2.position ≠ u.2.position →
      |moveLength u.1.position v.1.position - moveLength u.2.position v.2.position| ≤ 2e-11) := by
  have hl : v.2.position ≠ u.2.position →
      |moveLength u.1.position v.1.position - moveLength u.2.position v.2.position| ≤ 2e-11 := by
    intro hne
    have hL := hL hne
    unfold moveLength at hL ⊢
    by_cases h0 : (v.2.position.sub u.2.position).norm3 = 0
    · have h0' := norm3_eq_zero.1 h0
      simp only [Vec4.sub, sub_eq_zero] at h0'
      have h1 : (v.1.position.sub u.1.position).norm3 = 0 := by
        rw [norm3_eq_zero]
        simp only [Vec4.sub, sub_eq_zero]
        exact ⟨h.x.still h0'.1, h.y.still h0'.2.1, h.z.still h0'.2.2⟩
      rw [if_pos h0, if_pos h1]
      refine (abs_abs_sub_abs_le _ _).trans (h.e.near.trans ?_)
      norm_num
    · rw [if_neg h0] at hL ⊢
      have hn : |(v.1.position.sub u.1.position).norm3 - (v.2.position.sub u.2.position).norm3| ≤ 2 * 1e-11 :=
        norm3_near h.x.near h.y.near h.z.near
      have h1 : (v.1.position.sub u.1.position).norm3 ≠ 0 := by
        intro h1
        rw [h1, abs_le] at hn
        linarith [hn.1]
      rw [if_neg h1]
      exact hn.trans (by norm_num)
  refine ⟨⟨?_, ?_⟩, hl⟩
  · intro he
    by_contra hne
    have h1 := hl hne
    have h2 := hL hne
    rw [he, show moveLength u.1.position u.1.position = 0 by
      rw [moveLength, if_pos (norm3_eq_zero.2 (by simp [Vec4.sub])), _root_.sub_self, abs_zero], abs_le] at h1
    linarith [h1.1]
  · intro he
    exact vec4_ext (h.x.still (by rw [he])) (h.y.still (by rw [he])) (h.z.still (by rw [he])) (h.e.still (by rw [he]))

/-! ## All moves -/

/-- The moves of the pairs are long enough. -/
def LongMoves (u v : PState ℝ × PState ℝ) : Prop :=
  v.2.position ≠ u.2.position → 1e-3 ≤ moveLength u.2.position v.2.position

theorem active_near : ∀ (zs : List (PState ℝ × PState ℝ)) (pa : Option (PState ℝ × PState ℝ)),
    (∀ u ∈ zs, SameSettings u) → (∀ u ∈ zs, 0 < u.2.speed ∧ 0 < u.2.pAcc ∧ ∀ p ∈ u.2.pause, 0 ≤ p) →
    (pa.toList ++ zs).IsChain (fun u v => SameMoves u v ∧ LongMoves u v) →
    0 ≤ ((active (pa.map Prod.snd) (zs.map Prod.snd)).map restTime).sum ∧
    |((active (pa.map Prod.fst) (zs.map Prod.fst)).map restTime).sum -
      ((active (pa.map Prod.snd) (zs.map Prod.snd)).map restTime).sum| ≤
      3e-8 * ((active (pa.map Prod.snd) (zs.map Prod.snd)).map restTime).sum := by
  intro zs
  induction zs with
  | nil =>
    intro pa _ _ _
    simp [active, withPrev]
  | cons u zs ih =>
    intro pa hs hp hc
    have hc' : ((some u).toList ++ zs).IsChain (fun u v => SameMoves u v ∧ LongMoves u v) := by
      cases pa with
      | none => simpa using hc
      | some w =>
        simp only [Option.toList_some, List.singleton_append] at hc ⊢
        exact hc.tail
    obtain ⟨i1, i2⟩ := ih (some u) (fun x hx => hs x (by simp [hx])) (fun x hx => hp x (by simp [hx])) hc'
    simp only [Option.map_some] at i1 i2
    have hu := hs u (by simp)
    obtain ⟨p1, p2, p3⟩ := hp u (by simp)
    simp only [List.map_cons]
    rcases hu.pause with ⟨n1, n2⟩ | ⟨p, q, n1, n2, n3⟩
    · cases pa with
      | none =>
        simp only [Option.map_none]
        rw [active_cons_skip _ (by simp) n1, active_cons_skip _ (by simp) n2]
        exact ⟨i1, i2⟩
      | some w =>
        simp only [Option.toList_some, List.singleton_append, List.isChain_cons_cons] at hc
        obtain ⟨⟨m1, m2⟩, _⟩ := hc
        obtain ⟨l1, l2⟩ := moveLength_near m1 m2
        simp only [Option.map_some]
        by_cases he : u.2.position = w.2.position
        · rw [active_cons_skip _ (by simpa using l1.2 he) n1, active_cons_skip _ (by simpa using he) n2]
          exact ⟨i1, i2⟩
        · have he' : u.1.position ≠ w.1.position := fun h => he (l1.1 h)
          rw [active_cons_take _ (Or.inr ⟨w.1, rfl, he'⟩), active_cons_take _ (Or.inr ⟨w.2, rfl, he⟩)]
          simp only [List.map_cons, List.sum_cons, restTime, n1, n2]
          have hT := moveTime_near p2 p1 (m2 he) hu.acc hu.speed (l2 he)
          have hT0 : 0 ≤ moveTime u.2.pAcc u.2.speed (moveLength w.2.position u.2.position) 0 0 := by
            have := (abs_nonneg _).trans hT
            linarith
          generalize moveTime u.2.pAcc u.2.speed (moveLength w.2.position u.2.position) 0 0 = T at *
          generalize moveTime u.1.pAcc u.1.speed (moveLength w.1.position u.1.position) 0 0 = T' at *
          rw [abs_le] at hT i2 ⊢
          refine ⟨by linarith, by linarith [hT.1, i2.1], by linarith [hT.2, i2.2]⟩
    · rw [active_cons_take (s := u.1) _ (Or.inl (by simp [n1])), active_cons_take (s := u.2) _ (Or.inl (by simp [n2]))]
      simp only [List.map_cons, List.sum_cons, restTime, n1, n2]
      have hq : 0 ≤ q := p3 q n2
      have hpq : |p - q| ≤ 3e-8 * q := by
        unfold Nearly at n3
        rw [abs_of_nonneg hq] at n3
        exact n3.trans (by nlinarith)
      rw [abs_le] at hpq i2 ⊢
      refine ⟨by linarith, by linarith [hpq.1, i2.1], by linarith [hpq.2, i2.2]⟩

theorem chain_still : ∀ (zs : List (PState ℝ × PState ℝ)) (u : PState ℝ × PState ℝ),
    (u :: zs).IsChain (fun u v => SameMoves u v ∧ LongMoves u v) →
    (∀ v ∈ zs, v.1.position = u.1.position) → ∀ v ∈ zs, v.2.position = u.2.position := by
  intro zs
  induction zs with
  | nil => simp
  | cons w zs ih =>
    intro u hc h v hv
    obtain ⟨⟨m1, m2⟩, hc'⟩ := List.isChain_cons_cons.1 hc
    have hw := (moveLength_near m1 m2).1.1 (h w (by simp))
    rcases List.mem_cons.1 hv with rfl | hv
    · exact hw
    · rw [← hw]
      refine ih w hc' (fun x hx => ?_) v hv
      rw [h x (by simp [hx]), h w (by simp)]

theorem zip_split {α β : Type} {as : List α} {bs : List β} (hl : as.length = bs.length) {pre post : List α} {a : α}
    (h : as = pre ++ a :: post) : ∃ pre' b post', bs = pre' ++ b :: post' ∧ pre.length = pre'.length ∧
      post.length = post'.length := by
  subst h
  simp only [List.length_append, List.length_cons] at hl
  have hlt : pre.length < bs.length := by omega
  refine ⟨bs.take pre.length, bs[pre.length], bs.drop (pre.length + 1), ?_, ?_, ?_⟩
  · rw [← List.drop_eq_getElem_cons hlt, List.take_append_drop]
  · rw [List.length_take]
    omega
  · rw [List.length_drop]
    omega

theorem Spec.RoundedTo.chain {us rs : List (PState ℝ)} (h : RoundedTo us rs) (hord : Ordinary rs) :
    (us.zip rs).IsChain (fun u v => SameMoves u v ∧ LongMoves u v) := by
  refine List.isChain_iff_getElem.2 ?_
  intro i hi
  refine ⟨List.isChain_iff_getElem.1 h.moves i hi, ?_⟩
  intro hne
  simp only [List.getElem_zip] at hne ⊢
  simp only [List.length_zip, h.length, min_self] at hi
  refine hord.length (rs.take i) rs[i] rs[i + 1] (rs.drop (i + 2)) ?_ hne
  rw [← List.drop_eq_getElem_cons (by omega), ← List.drop_eq_getElem_cons (by omega), List.take_append_drop]

theorem Spec.RoundedTo.maps {us rs : List (PState ℝ)} (h : RoundedTo us rs) :
    (us.zip rs).map Prod.fst = us ∧ (us.zip rs).map Prod.snd = rs :=
  ⟨List.map_fst_zip h.length.le, List.map_snd_zip h.length.ge⟩

/-- Rounding changes the print time with full stops by at most `0.006 s`. -/
theorem Spec.RoundedTo.total {us rs : List (PState ℝ)} (h : RoundedTo us rs) (hreg : Regular rs) (hord : Ordinary rs) :
    |((active none us).map restTime).sum - ((active none rs).map restTime).sum| ≤
      3e-8 * ((active none rs).map restTime).sum := by
  have := (active_near (us.zip rs) none h.settings ?_ (by simpa using h.chain hord)).2
  · simpa only [Option.map_none, h.maps.1, h.maps.2] using this
  · intro u hu
    have hm := (List.of_mem_zip hu).2
    exact ⟨hreg.speed _ hm, hreg.acc _ hm, hreg.pause _ hm⟩

theorem mem_zip_left {α β : Type} {as : List α} {bs : List β} (hl : as.length = bs.length) {a : α} (h : a ∈ as) :
    ∃ b, (a, b) ∈ as.zip bs := by
  obtain ⟨i, hi, rfl⟩ := List.getElem_of_mem h
  refine ⟨bs[i]'(hl ▸ hi), ?_⟩
  have : (as.zip bs)[i]'(by simp [hl ▸ hi, hi]) = (as[i], bs[i]'(hl ▸ hi)) := by simp
  rw [← this]
  exact List.getElem_mem _

theorem mem_zip_right {α β : Type} {as : List α} {bs : List β} (hl : as.length = bs.length) {b : β} (h : b ∈ bs) :
    ∃ a, (a, b) ∈ as.zip bs := by
  obtain ⟨i, hi, rfl⟩ := List.getElem_of_mem h
  refine ⟨as[i]'(hl ▸ hi), ?_⟩
  have : (as.zip bs)[i]'(by simp [hl ▸ hi, hi]) = (as[i]'(hl ▸ hi), bs[i]) := by simp
  rw [← this]
  exact List.getElem_mem _

/-- Rounded programs can be planned if the exact ones can. -/
theorem Spec.RoundedTo.regular {us rs : List (PState ℝ)} (h : RoundedTo us rs) (hreg : Regular rs)
    (hord : Ordinary rs) : Regular us := by
  have hset : ∀ s ∈ us, ∃ r ∈ rs, SameSettings (s, r) := by
    intro s hs
    obtain ⟨r, hr⟩ := mem_zip_left h.length hs
    exact ⟨r, (List.of_mem_zip hr).2, h.settings _ hr⟩
  have hch := h.chain hord
  have hsplit : ∀ pre s post, us = pre ++ s :: post → s.pause ≠ none →
      ∃ pre' r post', rs = pre' ++ r :: post' ∧ pre.length = pre'.length ∧ r.pause ≠ none ∧
        us.zip rs = pre.zip pre' ++ (s, r) :: post.zip post' := by
    intro pre s post he hp
    obtain ⟨pre', r, post', e1, e2, e3⟩ := zip_split h.length he
    have hz : us.zip rs = pre.zip pre' ++ (s, r) :: post.zip post' := by
      rw [he, e1, List.zip_append e2, List.zip_cons_cons]
    refine ⟨pre', r, post', e1, e2, ?_, hz⟩
    have := (h.settings (s, r) (by rw [hz]; simp)).pause
    rcases this with ⟨n1, _⟩ | ⟨p, q, _, n2, _⟩
    · exact absurd n1 hp
    · rw [n2]
      simp
  refine ⟨?_, ?_, ?_, ?_, ?_, ?_⟩
  · intro s hs
    obtain ⟨r, hr, hsr⟩ := hset s hs
    exact hsr.speed.pos (hreg.speed r hr)
  · intro s hs
    obtain ⟨r, hr, hsr⟩ := hset s hs
    exact hsr.acc.pos (hreg.acc r hr)
  · intro s hs
    obtain ⟨r, hr, hsr⟩ := hset s hs
    exact hsr.jerk.nonneg (hreg.jerk r hr)
  · intro s hs p hp
    obtain ⟨r, hr, hsr⟩ := hset s hs
    rcases hsr.pause with ⟨n1, _⟩ | ⟨p', q, n1, n2, n3⟩
    · rw [show s.pause = none from n1] at hp
      cases hp
    · rw [show s.pause = some p' from n1] at hp
      cases hp
      exact n3.nonneg (hreg.pause r hr q n2)
  · intro pre s post he hp
    obtain ⟨pre', r, post', e1, e2, e3, e4⟩ := hsplit pre s post he hp
    obtain ⟨A, hA, hAr⟩ := hreg.stays pre' r post' e1 e3
    have hne : pre ≠ [] := by
      rintro rfl
      have : pre' = [] := List.length_eq_zero_iff.1 e2.symm
      rw [this] at hA
      cases hA
    obtain ⟨init, l, rfl⟩ : ∃ init l, pre = init ++ [l] := by
      rcases List.eq_nil_or_concat pre with rfl | ⟨i, l, rfl⟩
      · exact absurd rfl hne
      · exact ⟨i, l, by simp⟩
    refine ⟨l, by simp, ?_⟩
    obtain ⟨init', l', hp'⟩ : ∃ init' l', pre' = init' ++ [l'] := by
      rcases List.eq_nil_or_concat pre' with rfl | ⟨i, l, rfl⟩
      · cases hA
      · exact ⟨i, l, by simp⟩
    subst hp'
    simp only [List.getLast?_append, List.getLast?_singleton, Option.some_or, Option.some.injEq] at hA
    subst hA
    simp only [List.length_append, List.length_singleton] at e2
    rw [List.zip_append (by omega), List.append_assoc] at e4
    simp only [List.zip_cons_cons, List.zip_nil_left, List.singleton_append] at e4
    rw [e4] at hch
    have := (List.isChain_append_cons_cons.1 hch).2.1
    exact (moveLength_near this.1 this.2).1.2 hAr
  · intro pre s post he hp
    obtain ⟨pre', r, post', e1, e2, e3, e4⟩ := hsplit pre s post he hp
    obtain ⟨x, hx, y, hy, hxy⟩ := hreg.moved pre' r post' e1 e3
    by_contra hno
    push Not at hno
    rw [e4] at hch
    have hc := hch.left_of_append
    cases pre with
    | nil =>
      have : pre' = [] := List.length_eq_zero_iff.1 e2.symm
      rw [this] at hx
      cases hx
    | cons a pre =>
      cases pre' with
      | nil => cases hx
      | cons a' pre' =>
        rw [List.zip_cons_cons] at hc
        have hl : pre.length = pre'.length := by simpa using e2
        have key := chain_still _ _ hc (fun v hv =>
          hno v.1 (by simp [(List.of_mem_zip (show (v.1, v.2) ∈ _ from hv)).1]) a (by simp))
        have all : ∀ w ∈ a' :: pre', w.position = a'.position := by
          intro w hw
          rcases List.mem_cons.1 hw with rfl | hw
          · rfl
          · obtain ⟨v, hv⟩ := mem_zip_right hl hw
            exact key _ hv
        exact hxy ((all x hx).trans (all y hy).symm)

theorem near_reach {p a d : ℝ} (h : |p - a| ≤ d) (ha : |a| ≤ 10000) (hd : d ≤ 1) : |p| ≤ 100000 := by
  rw [abs_le] at *
  constructor <;> linarith [h.1, h.2, ha.1, ha.2]

/-- Rounded programs are of ordinary size if the exact ones are. -/
theorem Spec.RoundedTo.moderate {us rs : List (PState ℝ)} (h : RoundedTo us rs) (hreg : Regular rs)
    (hord : Ordinary rs) : Moderate us := by
  have hset : ∀ s ∈ us, ∃ r ∈ rs, SameSettings (s, r) := by
    intro s hs
    obtain ⟨r, hr⟩ := mem_zip_left h.length hs
    exact ⟨r, (List.of_mem_zip hr).2, h.settings _ hr⟩
  have hch := h.chain hord
  refine ⟨?_, ?_, ?_, ?_, ?_, ?_⟩
  · intro s hs
    obtain ⟨i, hi, rfl⟩ := List.getElem_of_mem hs
    have hi' : i < rs.length := h.length ▸ hi
    obtain ⟨a, b, c, d⟩ := h.near i _ _ (List.getElem?_eq_getElem hi) (List.getElem?_eq_getElem hi')
    obtain ⟨a', b', c', d'⟩ := hord.coord _ (List.getElem_mem hi')
    have hn : ((i : ℝ) + 1) * 1e-11 ≤ 1 := by
      have : i + 1 ≤ 1000000 := by have := hord.count; omega
      have : ((i : ℝ) + 1) ≤ 1000000 := by exact_mod_cast this
      linarith
    exact ⟨near_reach a a' hn, near_reach b b' hn, near_reach c c' hn, near_reach d d' hn⟩
  · intro s hs
    obtain ⟨r, hr, hsr⟩ := hset s hs
    have h1 := (hsr.speed.le (hreg.speed r hr)).1
    have h2 := hord.speed r hr
    simp only at h1
    linarith
  · intro s hs
    obtain ⟨r, hr, hsr⟩ := hset s hs
    have hv := hreg.speed r hr
    have ha := hreg.acc r hr
    have h1 := (hsr.speed.le hv).2
    have h2 := (hsr.acc.le ha).1
    have h3 := hord.ramp r hr
    have hv' := hsr.speed.pos hv
    have ha' := hsr.acc.pos ha
    simp only at h1 h2 hv' ha'
    rw [le_div_iff₀ ha] at h3
    rw [le_div_iff₀ ha']
    have h4 : r.speed * r.speed ≤ ((1 + 2e-15) * s.speed) * ((1 + 2e-15) * s.speed) :=
      mul_le_mul h1 h1 hv.le (by positivity)
    nlinarith [mul_pos hv' hv']
  · intro pre A B post he hne
    obtain ⟨pre', A', post', e1, e2, e3⟩ := zip_split h.length he
    cases post' with
    | nil => simp at e3
    | cons B' post' =>
      have hz : us.zip rs = pre.zip pre' ++ (A, A') :: (B, B') :: post.zip post' := by
        rw [he, e1, List.zip_append e2, List.zip_cons_cons, List.zip_cons_cons]
      rw [hz] at hch
      obtain ⟨m1, m2⟩ := (List.isChain_append_cons_cons.1 hch).2.1
      obtain ⟨l1, l2⟩ := moveLength_near m1 m2
      have hne' : B'.position ≠ A'.position := fun h => hne (l1.2 h)
      have h1 := l2 hne'
      have h2 := m2 hne'
      simp only at h1 h2
      rw [abs_le] at h1
      linarith [h1.1]
  · rw [h.length]
    exact hord.count
  · have h1 := h.total hreg hord
    have h2 := hord.total
    rw [abs_le] at h1
    linarith [h1.2]

end PyGCD
