import Verif.Props.Doubles
import Verif.Proofs.Perturb
import Verif.Proofs.ReadRounded

/-!
# Reading files with double precision (C95, C85)

The states of a plain file, read with doubles, against the states read without rounding; and what this makes of the
end time.
-/

set_option linter.unusedSectionVars false
set_option linter.unusedSimpArgs false

namespace PyGCD
open PyGCD.Spec

variable {rd : List Char → Option ℚ} {d : Dict (SVal ℚ)} {q : Printer}

/-! ## The setup -/

theorem lookup_settings {K : Type} (f : ℚ → K) (d : Dict (SVal ℚ)) (k : String) :
    (convSettings f d).lookup k = (d.lookup k).map (SVal.conv f) := lookup_conv _ d k

theorem lookup_rounded {k : String} {v : ℝ} (h : (convSettings toReal d).lookup k = some (.num v)) :
    ∃ r : ℚ, v = toReal r ∧ (convSettings toDbl d).lookup k = some (.num (toDbl r)) := by
  rw [lookup_settings] at h ⊢
  cases hd : d.lookup k with
  | none => rw [hd] at h; cases h
  | some s =>
    rw [hd] at h
    cases s with
    | text t => cases h
    | null => cases h
    | num r =>
      simp only [Option.map_some, SVal.conv, Option.some.injEq, SVal.num.injEq] at h
      exact ⟨r, h.symm, rfl⟩

theorem accepted_rounded (h : SetupAccepted (convSettings toReal d)) :
    checkInitialSetup (convSettings toDbl d) = .ok () := by
  refine (c46_validation _).1.2 ⟨fun k hk => ?_, fun k hk => ?_⟩
  · have := h.1 k hk
    rw [lookup_settings, Option.isSome_map] at this ⊢
    exact this
  · refine h.2 k ?_
    rw [lookup_settings, Option.isSome_map] at hk ⊢
    exact hk

theorem firmware_rounded : firmwareOf (convSettings toDbl d) = firmwareOf (convSettings toReal d) := by
  unfold firmwareOf
  rw [lookup_settings, lookup_settings]
  cases d.lookup "firmware" with
  | none => rfl
  | some s => cases s <;> rfl

theorem resolve_rounded (h : PrinterOf (convSettings toReal d) q) (hq : Near10 q) :
    ∃ m P, resolveMachine (convSettings toDbl d) = .ok m ∧ VMNear 1 (initVM m) q P fun _ => 0 := by
  obtain ⟨x, hx, hx'⟩ := lookup_rounded h.x
  obtain ⟨y, hy, hy'⟩ := lookup_rounded h.y
  obtain ⟨z, hz, hz'⟩ := lookup_rounded h.z
  obtain ⟨e, he, he'⟩ := lookup_rounded h.e
  obtain ⟨v, hv, hv'⟩ := lookup_rounded h.feed
  obtain ⟨a, ha, ha'⟩ := lookup_rounded h.acc
  obtain ⟨j, hj, hj'⟩ := lookup_rounded h.jerk
  obtain ⟨_, hvx⟩ := h.limits "vX" (by simp)
  obtain ⟨_, hvy⟩ := h.limits "vY" (by simp)
  obtain ⟨_, hvz⟩ := h.limits "vZ" (by simp)
  obtain ⟨_, hve⟩ := h.limits "vE" (by simp)
  obtain ⟨vx, _, hvx⟩ := lookup_rounded hvx
  obtain ⟨vy, _, hvy⟩ := lookup_rounded hvy
  obtain ⟨vz, _, hvz⟩ := lookup_rounded hvz
  obtain ⟨ve, _, hve⟩ := lookup_rounded hve
  have key : ∀ c, VMNear 1 (initVM { pos := fun | .X => toDbl x | .Y => toDbl y | .Z => toDbl z | .E => toDbl e
                                     pVel := toDbl v, pAcc := toDbl a, jerk := toDbl j
                                     vAx := fun | .X => toDbl vx | .Y => toDbl vy | .Z => toDbl vz | .E => toDbl ve
                                     absPos := true, absExt := true, units := .SImm, layerCue := c }) q
      (fun | .X => toDbl x | .Y => toDbl y | .Z => toDbl z | .E => toDbl e) fun _ => 0 := by
    intro c
    refine ⟨?_, ?_, h.abs.1.symm, h.abs.2.symm, ?_, ⟨_, rfl, ?_⟩, ⟨_, rfl, ?_⟩⟩
    · intro b
      cases b <;> exact ⟨rfl, rfl⟩
    · intro b
      rw [h.zero b]
      have hb := hq b
      cases b
      · rw [hx] at hb ⊢
        exact AxisNear.initial hb _
      · rw [hy] at hb ⊢
        exact AxisNear.initial hb _
      · rw [hz] at hb ⊢
        exact AxisNear.initial hb _
      · rw [he] at hb ⊢
        exact AxisNear.initial hb _
    · rw [hv]
      exact toDbl_nearly v
    · rw [ha]
      exact toDbl_nearly a
    · rw [hj]
      exact toDbl_nearly j
  simp only [resolveMachine, numEntry, hx', hy', hz', he', hv', ha', hj', hvx, hvy, hvz, hve, bind, Except.bind]
  exact ⟨_, _, rfl, key _⟩

/-! ## C95 -/

/-- **C95.** A plain file that never returns to absolute coordinates is read with doubles nearly as without rounding:
both readings succeed, the settings are right up to a relative error of `1e-15`, every move is right up to
`1e-11` mm in every coordinate -- however long the file -- and coordinates that should rest do rest; the `n`-th position is
right up to `n · 1e-11` mm. -/
theorem c95_read_with_rounding (hpf : FloatLike (rdReal rd)) (hq : PrinterOf (convSettings toReal d) q)
    {ls : List Line} (hp : ∀ l ∈ ls, l.Plain (rdReal rd)) (hback : NeverBack ls) (hlen : ls.length < 1000000)
    (hreach : ∀ x ∈ (q, none) :: q.run (rdReal rd) ls, InReach x.1.point) {text : List Char} (hc : FileOf ls text) :
    ∃ ds rs, fileStates (fun cs => (rd cs).map toDbl) (convSettings toDbl d) text = .ok ds ∧
      fileStates (fun cs => (rd cs).map toReal) (convSettings toReal d) text = .ok rs ∧
      List.Forall₂ Shows rs ((q, none) :: q.run (rdReal rd) ls) ∧ RoundedTo (ds.map PState.real) rs := by
  obtain ⟨rs, r1, r2⟩ := c67_read_as_written hpf hq hp hc
  have hn : Near10 q := inReach_iff.1 (hreach _ List.mem_cons_self)
  have hrun : ∀ x ∈ q.run (rdReal rd) ls, Near10 x.1 := fun x hx => inReach_iff.1 (hreach x (List.mem_cons_of_mem _ hx))
  obtain ⟨tx, rows, h1, h2, h3⟩ := hc
  obtain ⟨ds, h4, h5⟩ := readLines_rounded hpf h3 hp
  obtain ⟨m, P, h6, h7⟩ := resolve_rounded hq hn
  have hon : Onward q ls := ⟨fun h => absurd (hq.abs.1.symm.trans h) (by simp), fun h => absurd (hq.abs.2.symm.trans h) (by simp), hback⟩
  obtain ⟨gs, ss, h8, h9, h10⟩ := travel_dbl (cue := m.layerCue) h5 hp (n := 1) (c := 0) h7 le_rfl (by omega) hn hrun hon
  obtain ⟨a, ha, ha'⟩ := h7.acc
  obtain ⟨j, hj, hj'⟩ := h7.jerk
  have hgen : ∃ g, generateStates (fun cs => (rd cs).map toDbl) m text = .ok (g :: gs) ∧
      g.position = place4 P (fun _ => 0) ∧ g.settings.speed = (initVM m).pVel ∧ g.settings.pAcc = (initVM m).pAcc ∧
      g.settings.jerk = (initVM m).jerk ∧ g.pause = none := by
    simp only [generateStates, fileLines_eq h1 h2, h4, bind, Except.bind, dictListTraveler, h7.position, h8]
    exact ⟨_, rfl, rfl, rfl, rfl, rfl, rfl⟩
  obtain ⟨g, e1, f1, f2, f4, f5, f3⟩ := hgen
  have hst : ∃ s, g.toPState = .ok s ∧ s.position = place4 P (fun _ => 0) ∧ s.speed = (initVM m).pVel ∧ s.pAcc = a ∧
      s.jerk = j ∧ s.pause = none := by
    simp only [GState.toPState, f1, f2, f3, f4, f5, ha, hj]
    exact ⟨_, rfl, rfl, rfl, rfl, rfl, rfl⟩
  obtain ⟨s, e2, e3, e4, e5, e6, e7⟩ := hst
  refine ⟨s :: ss, rs, ?_, r1, r2, ?_⟩
  · simp only [fileStates, h6, e1, bind, Except.bind]
    rw [List.mapM_cons, e2, h9]
    rfl
  · cases r2 with
    | @cons r _ rs _ g1 g2 =>
      obtain ⟨i1, i2, i3, i4⟩ := h10.rounded g2
      have hpos : s.real.position = (place4 P fun _ => 0).real := by rw [← e3]; rfl
      refine ⟨by simpa using i1, ?_, ?_, ?_⟩
      · intro u hu
        rw [List.map_cons, List.zip_cons_cons, List.mem_cons] at hu
        rcases hu with rfl | hu
        · refine ⟨?_, ?_, ?_, Or.inl ⟨by simp [PState.real, e7], g1.pause⟩⟩
          · rw [g1.speed]
            show Nearly s.speed.r _
            rw [e4]
            exact h7.feed
          · rw [g1.acc]
            show Nearly s.pAcc.r _
            rw [e5]
            exact ha'
          · rw [g1.jerk]
            show Nearly s.jerk.r _
            rw [e6]
            exact hj'
        · exact i2 u hu
      · rw [List.map_cons, List.zip_cons_cons]
        exact i3 _ hpos g1.position
      · intro n u r' hu hr
        cases n with
        | zero =>
          simp only [List.map_cons, List.getElem?_cons_zero, Option.some.injEq] at hu hr
          subst hu hr
          rw [g1.position, hpos]
          have := h7.apart hn (by omega) le_rfl
          simpa using this
        | succ n =>
          simp only [List.map_cons, List.getElem?_cons_succ] at hu hr
          have := i4 n u r' hu hr
          convert this using 2
          push_cast
          ring

/-! ## C85 -/

theorem active_nil_near : ∀ (zs : List (PState ℝ × PState ℝ)) (pa : Option (PState ℝ × PState ℝ)),
    (∀ u ∈ zs, SameSettings u) → (pa.toList ++ zs).IsChain (fun u v => SameMoves u v ∧ LongMoves u v) →
    active (pa.map Prod.fst) (zs.map Prod.fst) = [] → active (pa.map Prod.snd) (zs.map Prod.snd) = [] := by
  intro zs
  induction zs with
  | nil =>
    intro pa _ _ _
    simp [active, withPrev]
  | cons u zs ih =>
    intro pa hs hc h
    have hc' : ((some u).toList ++ zs).IsChain (fun u v => SameMoves u v ∧ LongMoves u v) := by
      cases pa with
      | none => simpa using hc
      | some w =>
        simp only [Option.toList_some, List.singleton_append] at hc ⊢
        exact hc.tail
    have i := ih (some u) (fun x hx => hs x (by simp [hx])) hc'
    simp only [List.map_cons] at h ⊢
    rcases (hs u (by simp)).pause with ⟨n1, n2⟩ | ⟨p, q, n1, n2, n3⟩
    · cases pa with
      | none =>
        simp only [Option.map_none] at h ⊢
        rw [active_cons_skip _ (by simp) n1] at h
        rw [active_cons_skip _ (by simp) n2]
        exact i h
      | some w =>
        simp only [Option.toList_some, List.singleton_append, List.isChain_cons_cons] at hc
        obtain ⟨⟨m1, m2⟩, _⟩ := hc
        obtain ⟨l1, _⟩ := moveLength_near m1 m2
        simp only [Option.map_some] at h ⊢
        by_cases he : u.1.position = w.1.position
        · rw [active_cons_skip _ (by simpa using he) n1] at h
          rw [active_cons_skip _ (by simpa using l1.1 he) n2]
          exact i h
        · rw [active_cons_take _ (Or.inr ⟨w.1, rfl, he⟩)] at h
          cases h
    · rw [active_cons_take (s := u.1) _ (Or.inl (by simp [n1]))] at h
      cases h

/-- The end time with doubles is the print time with full stops, up to `0.002` s. -/
theorem simulate_dbl {ds : List (PState Dbl)} (hreg : Regular (ds.map PState.real))
    (hmod : Moderate (ds.map PState.real)) (hact : active none (ds.map PState.real) ≠ []) :
    ∃ bs t, simulate .default ds = .ok bs ∧ endTime bs = .ok t ∧
      |t.r - ((active none (ds.map PState.real)).map restTime).sum| ≤ 0.002 := by
  obtain ⟨bs', _, b2, b3⟩ := simulate_ok .default hreg hact
  obtain ⟨bs, cs, k1, k2, k3, k4⟩ := c84_default_partial hreg hmod
  rw [b2] at k2
  cases k2
  have hne : bs ≠ [] := by
    rintro rfl
    exact b3 (List.length_eq_zero_iff.1 k3.symm)
  obtain ⟨l, hl⟩ : ∃ l, bs.getLast? = some l := ⟨_, List.getLast?_eq_getLast_of_ne_nil hne⟩
  obtain ⟨l', hl'⟩ : ∃ l, bs'.getLast? = some l := ⟨_, List.getLast?_eq_getLast_of_ne_nil b3⟩
  have hl2 := hl
  have hl2' := hl'
  rw [List.getLast?_eq_getElem?] at hl2 hl2'
  rw [← k3] at hl2'
  obtain ⟨_, _, s, s', l1, l2, _, l3, _⟩ := k4 _ l l' hl2 hl2'
  have he : endTime bs = .ok s.tEnd := by
    simp only [endTime, hl, Block.lastSeg, l1, Except.map]
  refine ⟨bs, s.tEnd, ?_, he, ?_⟩
  · simp only [simulate, k1, he, bind, Except.bind]
  have hT : EndTime (Spec.path bs') s'.tEnd := by
    refine ⟨s', ?_, rfl⟩
    rw [getLast?_flatMap_segments hl' ((plan_ok hreg b2).1 l' (List.mem_of_getLast? hl')).ne_nil]
    exact l2
  have hsum := c64_print_time hreg b2 hT
  rw [← hsum]
  have hn : bs.length ≤ 1000000 := by
    have h3 := congrArg List.length (c28_blocks hreg b2)
    rw [List.length_map, ← k3] at h3
    have h4 : (active none (ds.map PState.real)).length ≤ (ds.map PState.real).length := by
      unfold active withPrev
      refine (List.length_filter_le _ _).trans ?_
      simp
    exact (h3.le.trans h4).trans hmod.count
  have hpos : 0 < bs.length := List.length_pos_iff.2 hne
  have hn' : ((bs.length - 1 : ℕ) : ℝ) + 1 ≤ 1000000 := by
    have : bs.length - 1 + 1 ≤ 1000000 := by omega
    exact_mod_cast this
  have hT4 : s'.tEnd ≤ 400000 := hsum.trans_le hmod.total
  refine l3.trans ?_
  linarith

/-- **C85** for default junction handling and plain files that never return to absolute coordinates, if the exact
program is of ordinary size: both simulations succeed, and their end times differ by at most `0.01` s. Missing: files
that do return, for which it is false, and the other firmwares. -/
theorem c85_plain_files_partial (hpf : FloatLike (rdReal rd)) (hacc : SetupAccepted (convSettings toReal d))
    (hfw : firmwareOf (convSettings toReal d) = .default) (hq : PrinterOf (convSettings toReal d) q)
    {ls : List Line} (hp : ∀ l ∈ ls, l.Plain (rdReal rd)) (hw : Workable (rdReal rd) q ls) (hback : NeverBack ls)
    {text : List Char} (hc : FileOf ls text) {ss : List (PState ℝ)}
    (hs : fileStates (fun cs => (rd cs).map toReal) (convSettings toReal d) text = .ok ss) (hord : Ordinary ss) :
    ∃ bs bs' t t', simulateFile (fun cs => (rd cs).map toDbl) (convSettings toDbl d) text = .ok bs ∧
      endTime bs = .ok t ∧
      simulateFile (fun cs => (rd cs).map toReal) (convSettings toReal d) text = .ok bs' ∧
      endTime bs' = .ok t' ∧ |t.r - t'| ≤ 0.01 := by
  obtain ⟨ss', r1, r2⟩ := c67_read_as_written hpf hq hp hc
  rw [hs] at r1
  cases r1
  have hlen := r2.length_eq
  have hrl : ∀ (q : Printer) (ls : List Line), (q.run (rdReal rd) ls).length = ls.length := by
    intro q ls
    induction ls generalizing q with
    | nil => rfl
    | cons l ls ih => rw [Printer.run, List.length_cons, ih, List.length_cons]
  rw [List.length_cons, hrl] at hlen
  have hcount := hord.count
  have hreach : ∀ x ∈ (q, none) :: q.run (rdReal rd) ls, InReach x.1.point := by
    intro x hx
    obtain ⟨s, h1, h2⟩ := shows_mem r2 hx
    rw [← h2.position]
    exact hord.coord s h1
  obtain ⟨ds, rs, g1, g2, g3, g4⟩ := c95_read_with_rounding hpf hq hp hback (by omega) hreach hc
  rw [hs] at g2
  cases g2
  obtain ⟨hreg, hact⟩ := workable_regular hw g3
  have hact' : active none (ds.map PState.real) ≠ [] := by
    intro h
    have := active_nil_near _ none g4.settings (by simpa using g4.chain hord)
    simp only [Option.map_none, g4.maps.1, g4.maps.2] at this
    exact hact (this h)
  obtain ⟨bs, t, k1, k2, k3⟩ := simulate_dbl (g4.regular hreg hord) (g4.moderate hreg hord) hact'
  obtain ⟨bs', k4, k5, k6⟩ := simulate_ok .default hreg hact
  obtain ⟨_, s', _, _, k7, _⟩ := unpack_ends hreg k5 k6
  refine ⟨bs, bs', t, _, ?_, k2, ?_, k7, ?_⟩
  · simp only [simulateFile, accepted_rounded hacc, g1, firmware_rounded, hfw, k1, bind, Except.bind]
  · simp only [simulateFile, (c46_validation _).1.2 hacc, hs, hfw, k4, bind, Except.bind]
  · rw [c64_print_time hreg k5 (endTime_path k7)]
    have h1 := g4.total hreg hord
    have h2 := hord.total
    generalize ((active none ss).map restTime).sum = S at *
    generalize ((active none (ds.map PState.real)).map restTime).sum = S' at *
    have h3 : |S' - S| ≤ 0.006 := h1.trans (by linarith)
    rw [abs_le] at k3 h3 ⊢
    constructor <;> linarith [k3.1, k3.2, h3.1, h3.2]

/-! ### Two files -/

theorem Demo.numbers_floatLike : FloatLike (rdReal Demo.numbers) where
  empty := by simp [Demo.numbers]
  letter := by
    intro l c t hl _
    have h1 : l ≠ '0' := by rintro rfl; simp at hl
    have h2 : l ≠ '6' := by rintro rfl; simp at hl
    have h3 : l ≠ '-' := by rintro rfl; simp at hl
    simp [Demo.numbers, h1, h2, h3]

/-- The printer of `Demo.plainJob`. -/
noncomputable def Demo.plainPrinter : Printer :=
  ⟨fun | .X => toReal 0 | .Y => toReal 0 | .Z => toReal 0 | .E => toReal 0, fun _ => 0, true, true, toReal 35, toReal 1000, toReal 10⟩

theorem Demo.plainPrinter_of : PrinterOf (convSettings toReal Demo.plainJob) Demo.plainPrinter :=
  ⟨rfl, rfl, rfl, rfl, fun _ => rfl, ⟨rfl, rfl⟩, rfl, rfl, rfl, by
    intro k hk
    simp only [List.mem_cons, List.not_mem_nil, or_false] at hk
    rcases hk with rfl | rfl | rfl | rfl <;> exact ⟨_, rfl⟩⟩

/-- `G1 X0.1 F60`, `G91`, `G1 X0.2 E-5`. -/
def Demo.onward : List Line :=
  [⟨some .G1, [⟨1, 'X', ['0', '.', '1']⟩, ⟨1, 'F', ['6', '0']⟩], 0, none, []⟩,
    ⟨some .G91, [], 0, none, []⟩,
    ⟨some .G1, [⟨1, 'X', ['0', '.', '2']⟩, ⟨1, 'E', ['-', '5']⟩], 0, none, []⟩]

/-- The lines of `Demo.residueFile`. -/
def Demo.residueLines : List Line :=
  [⟨some .G91, [], 0, none, []⟩,
    ⟨some .G1, [⟨1, 'X', ['0', '.', '1']⟩, ⟨1, 'F', ['6', '0']⟩], 0, none, []⟩,
    ⟨some .G1, [⟨1, 'X', ['0', '.', '2']⟩], 0, none, []⟩,
    ⟨some .G90, [], 0, none, []⟩,
    ⟨some .G1, [⟨1, 'X', ['0', '.', '3']⟩, ⟨1, 'E', ['-', '5']⟩], 0, none, []⟩]

theorem Demo.onward_lines : ∀ l ∈ Demo.onward ++ Demo.residueLines, l.Plain (rdReal Demo.numbers) := by
  intro l hl
  simp only [Demo.onward, Demo.residueLines, List.mem_cons, List.cons_append, List.nil_append, List.not_mem_nil,
    or_false] at hl
  rcases hl with rfl | rfl | rfl | rfl | rfl | rfl | rfl | rfl <;>
    exact ⟨by simp, by simp, by simp, by simp [plainLetters], by simp, by simp [Demo.numbers, numChars], by simp [Demo.numbers],
      by
        intro t ht
        simp at ht⟩

theorem Demo.onward_file : FileOf Demo.onward "G1 X0.1 F60\nG91\nG1 X0.2 E-5".toList := by
  refine ⟨"G1 X0.1 F60\nG91\nG1 X0.2 E-5".toList, ["G1 X0.1 F60\n".toList, "G91\n".toList, "G1 X0.2 E-5".toList],
    ?_, ?_, ?_⟩
  · repeat' first | exact .nil | refine .other (by decide) ?_
  · exact .line (l := "G1 X0.1 F60".toList) (by decide) (.line (l := "G91".toList) (by decide)
      (.open (l := "G1 X0.2 E-5".toList) (by decide) (by decide)))
  · exact .cons (Or.inr rfl) (.cons (Or.inr rfl) (.cons (Or.inl rfl) .nil))

theorem Demo.residue_file : FileOf Demo.residueLines Demo.residueFile := by
  refine ⟨Demo.residueFile, ["G91\n".toList, "G1 X0.1 F60\n".toList, "G1 X0.2\n".toList, "G90\n".toList,
    "G1 X0.3 E-5".toList], ?_, ?_, ?_⟩
  · unfold Demo.residueFile
    repeat' first | exact .nil | refine .other (by decide) ?_
  · exact .line (l := "G91".toList) (by decide) (.line (l := "G1 X0.1 F60".toList) (by decide)
      (.line (l := "G1 X0.2".toList) (by decide) (.line (l := "G90".toList) (by decide)
        (.open (l := "G1 X0.3 E-5".toList) (by decide) (by decide)))))
  · exact .cons (Or.inr rfl) (.cons (Or.inr rfl) (.cons (Or.inr rfl) (.cons (Or.inr rfl) (.cons (Or.inl rfl) .nil))))

theorem Demo.onward_never : NeverBack Demo.onward := by
  intro pre l post h
  have hl : ∀ m ∈ post, m ∈ Demo.onward := by
    intro m hm
    rw [h]
    simp [hm]
  constructor <;> intro _ m hm <;> have := hl m hm <;>
    simp only [Demo.onward, List.mem_cons, List.not_mem_nil, or_false] at this <;>
    rcases this with rfl | rfl | rfl <;> simp

/-- The states of the first file. -/
noncomputable def Demo.onwardStates : List (PState ℝ) :=
  [⟨⟨0, 0, 0, 0⟩, 35, 1000, 10, none, none⟩, ⟨⟨1 / 10, 0, 0, 0⟩, 1, 1000, 10, none, none⟩,
    ⟨⟨1 / 10, 0, 0, 0⟩, 1, 1000, 10, none, none⟩, ⟨⟨3 / 10, 0, 0, -5⟩, 1, 1000, 10, none, none⟩]

theorem Demo.onward_states : fileStates (fun cs => (Demo.numbers cs).map toReal) (convSettings toReal Demo.plainJob)
    "G1 X0.1 F60\nG91\nG1 X0.2 E-5".toList = .ok Demo.onwardStates := by
  have h : fileStates (fun cs => (Demo.numbers cs).map toReal) (convSettings toReal Demo.plainJob)
      "G1 X0.1 F60\nG91\nG1 X0.2 E-5".toList =
      .ok [⟨⟨toReal 0 + 0, toReal 0 + 0, toReal 0 + 0, toReal 0 + 0⟩, toReal 35, toReal 1000, toReal 10, none, none⟩,
        ⟨⟨toReal (mkRat 1 10) + 0, toReal 0 + 0, toReal 0 + 0, toReal 0 + 0⟩, toReal 60 / 60, toReal 1000, toReal 10, none, none⟩,
        ⟨⟨toReal (mkRat 1 10) + 0, toReal 0 + 0, toReal 0 + 0, toReal 0 + 0⟩, toReal 60 / 60, toReal 1000, toReal 10, none, none⟩,
        ⟨⟨(toReal (mkRat 1 10) + toReal (mkRat 2 10)) + 0, toReal 0 + 0, toReal 0 + 0, toReal (-5) + 0⟩, toReal 60 / 60, toReal 1000,
          toReal 10, none, none⟩] := rfl
  rw [h]
  have e1 : (mkRat 1 10 : ℚ) = 1 / 10 := by norm_num [Rat.mkRat_eq_div]
  have e2 : (mkRat 2 10 : ℚ) = 2 / 10 := by norm_num [Rat.mkRat_eq_div]
  simp only [toReal, Demo.onwardStates, e1, e2]
  norm_num

theorem Demo.onward_length (x y e : ℝ) (hx : x < y) : moveLength (⟨x, 0, 0, 0⟩ : Vec4 ℝ) ⟨y, 0, 0, e⟩ = y - x := by
  have h : ((⟨y, 0, 0, e⟩ : Vec4 ℝ).sub ⟨x, 0, 0, 0⟩).norm3 = y - x := by
    unfold Vec4.norm3
    simp only [Vec4.sub, sqrt_real, _root_.sub_self, MulZeroClass.mul_zero, add_zero]
    exact Real.sqrt_mul_self (by linarith)
  unfold moveLength
  rw [if_neg (by rw [h]; linarith), h]

theorem Demo.onward_ordinary : Ordinary Demo.onwardStates := by
  refine ⟨?_, ?_, ?_, ?_, by simp [Demo.onwardStates], ?_⟩
  · intro s hs
    simp only [Demo.onwardStates, List.mem_cons, List.not_mem_nil, or_false] at hs
    rcases hs with rfl | rfl | rfl | rfl <;> norm_num [InReach]
  · intro s hs
    simp only [Demo.onwardStates, List.mem_cons, List.not_mem_nil, or_false] at hs
    rcases hs with rfl | rfl | rfl | rfl <;> norm_num
  · intro s hs
    simp only [Demo.onwardStates, List.mem_cons, List.not_mem_nil, or_false] at hs
    rcases hs with rfl | rfl | rfl | rfl <;> norm_num
  · intro pre A B post h hne
    rcases pre with _ | ⟨p, _ | ⟨q, _ | ⟨r, pre⟩⟩⟩
    · simp only [Demo.onwardStates, List.nil_append, List.cons.injEq] at h
      obtain ⟨rfl, rfl, _⟩ := h
      rw [Demo.onward_length _ _ _ (by norm_num)]
      norm_num
    · simp only [Demo.onwardStates, List.cons_append, List.nil_append, List.cons.injEq] at h
      obtain ⟨rfl, rfl, rfl, _⟩ := h
      exact absurd rfl hne
    · simp only [Demo.onwardStates, List.cons_append, List.nil_append, List.cons.injEq] at h
      obtain ⟨rfl, rfl, rfl, rfl, _⟩ := h
      rw [Demo.onward_length _ _ _ (by norm_num)]
      norm_num
    · have := congrArg List.length h
      simp [Demo.onwardStates] at this
      omega
  · unfold Demo.onwardStates
    rw [active_cons_skip _ (by simp) rfl, active_cons_take _ (Or.inr ⟨_, rfl, by simp⟩),
      active_cons_skip _ (by simp) rfl, active_cons_take _ (Or.inr ⟨_, rfl, by norm_num⟩)]
    have h1 := moveTime_le_any (a := 1000) (v := 1) (L := 1 / 10) (w := 1) (by norm_num) (by norm_num) (by norm_num)
      (by norm_num) le_rfl
    have h2 := moveTime_le_any (a := 1000) (v := 1) (L := 3 / 10 - 1 / 10) (w := 1) (by norm_num) (by norm_num) (by norm_num)
      (by norm_num) le_rfl
    simp only [active, withPrev, List.zip_nil_right, List.filter_nil, List.map_cons, List.map_nil, List.sum_cons,
      List.sum_nil, restTime, Demo.onward_length 0 (1 / 10) 0 (by norm_num),
      Demo.onward_length (1 / 10) (3 / 10) (-5) (by norm_num), sub_zero]
    linarith

theorem Demo.onward_moves : (Demo.plainPrinter.exec (rdReal Demo.numbers)
    ⟨some .G1, [⟨1, 'X', ['0', '.', '1']⟩, ⟨1, 'F', ['6', '0']⟩], 0, none, []⟩).point ≠ Demo.plainPrinter.point := by
  intro h
  have := congrArg Vec4.x h
  simp [Printer.exec, Printer.point, Line.value, Demo.plainPrinter, letter, Printer.abs, toReal] at this
  rw [show rdReal Demo.numbers ['0', '.', '1'] = some (toReal (mkRat 1 10)) from rfl] at this
  simp [toReal, Rat.mkRat_eq_div] at this

theorem Demo.onward_workable : Workable (rdReal Demo.numbers) Demo.plainPrinter Demo.onward where
  settings := by simp [Demo.plainPrinter, toReal]
  feed := by simp [Demo.onward, Line.value, Demo.numbers, toReal]
  acc := by simp [Demo.onward]
  jerk := by simp [Demo.onward]
  wait := by simp [Demo.onward, Line.wait]
  warm := by
    intro pre l post he hl
    have : l ∈ Demo.onward := by rw [he]; simp
    simp only [Demo.onward, List.mem_cons, List.not_mem_nil, or_false] at this
    rcases this with rfl | rfl | rfl <;> simp [Line.wait] at hl
  moves := ⟨_, by rw [Demo.onward, Printer.run]; exact List.mem_cons_self, Demo.onward_moves⟩

theorem Demo.plainJob_accepted : SetupAccepted (convSettings toReal Demo.plainJob) :=
  (c46_validation _).1.1 rfl

theorem Demo.reach_of {ls : List Line} {text : List Char} {rs : List (PState ℝ)} (hp : ∀ l ∈ ls, l.Plain (rdReal Demo.numbers))
    (hc : FileOf ls text)
    (hs : fileStates (fun cs => (Demo.numbers cs).map toReal) (convSettings toReal Demo.plainJob) text = .ok rs)
    (hr : ∀ s ∈ rs, InReach s.position) :
    ∀ x ∈ (Demo.plainPrinter, none) :: Demo.plainPrinter.run (rdReal Demo.numbers) ls, InReach x.1.point := by
  intro x hx
  obtain ⟨ps, h1, h2⟩ := c67_read_as_written Demo.numbers_floatLike Demo.plainPrinter_of hp hc
  rw [hs] at h1
  cases h1
  obtain ⟨s, h3, h4⟩ := shows_mem h2 hx
  rw [← h4.position]
  exact hr s h3

/-- The hypotheses of `c95_read_with_rounding` hold for the first file, in which `0.1 + 0.2` is rounded. -/
example : ∃ ds rs, fileStates (fun cs => (Demo.numbers cs).map toDbl) (convSettings toDbl Demo.plainJob)
      "G1 X0.1 F60\nG91\nG1 X0.2 E-5".toList = .ok ds ∧
    fileStates (fun cs => (Demo.numbers cs).map toReal) (convSettings toReal Demo.plainJob)
      "G1 X0.1 F60\nG91\nG1 X0.2 E-5".toList = .ok rs ∧
    List.Forall₂ Shows rs ((Demo.plainPrinter, none) :: Demo.plainPrinter.run (rdReal Demo.numbers) Demo.onward) ∧
    RoundedTo (ds.map PState.real) rs :=
  c95_read_with_rounding Demo.numbers_floatLike Demo.plainPrinter_of (fun l hl => Demo.onward_lines l (by simp [hl]))
    Demo.onward_never (by decide) (Demo.reach_of (fun l hl => Demo.onward_lines l (by simp [hl])) Demo.onward_file
      Demo.onward_states Demo.onward_ordinary.coord) Demo.onward_file

/-- The hypotheses of `c85_plain_files_partial` hold for it, too. -/
example : ∃ bs bs' t t', simulateFile (fun cs => (Demo.numbers cs).map toDbl) (convSettings toDbl Demo.plainJob)
      "G1 X0.1 F60\nG91\nG1 X0.2 E-5".toList = .ok bs ∧ endTime bs = .ok t ∧
    simulateFile (fun cs => (Demo.numbers cs).map toReal) (convSettings toReal Demo.plainJob)
      "G1 X0.1 F60\nG91\nG1 X0.2 E-5".toList = .ok bs' ∧ endTime bs' = .ok t' ∧ |t.r - t'| ≤ 0.01 :=
  c85_plain_files_partial Demo.numbers_floatLike Demo.plainJob_accepted rfl Demo.plainPrinter_of
    (fun l hl => Demo.onward_lines l (by simp [hl])) Demo.onward_workable Demo.onward_never Demo.onward_file
    Demo.onward_states Demo.onward_ordinary

/-- The last two `X` coordinates of the second file, read with doubles, differ. -/
theorem Demo.residue_differs : (match fileStates (fun cs => (Demo.numbers cs).map toDbl) (convSettings toDbl Demo.plainJob)
    Demo.residueFile with
    | .ok [_, _, _, _, a, b] => decide (a.position.x ≠ b.position.x)
    | _ => false) = true := by
  decide +kernel

/-- **C95** needs that the file never returns: in `Demo.residueFile`, which is plain and small but does return, the
retraction gets a travel move with doubles. -/
theorem c95_return_matters : ∃ (rd : List Char → Option ℚ) (d : Dict (SVal ℚ)) (q : Printer) (ls : List Line)
    (text : List Char) (ds : List (PState Dbl)) (rs : List (PState ℝ)), FloatLike (rdReal rd) ∧
    PrinterOf (convSettings toReal d) q ∧ (∀ l ∈ ls, l.Plain (rdReal rd)) ∧ ls.length < 1000000 ∧
    (∀ x ∈ (q, none) :: q.run (rdReal rd) ls, InReach x.1.point) ∧ FileOf ls text ∧
    fileStates (fun cs => (rd cs).map toDbl) (convSettings toDbl d) text = .ok ds ∧
    fileStates (fun cs => (rd cs).map toReal) (convSettings toReal d) text = .ok rs ∧
    ¬ RoundedTo (ds.map PState.real) rs := by
  have hd := Demo.residue_differs
  split at hd
  case h_2 => cases hd
  rename_i a0 a1 a2 a3 a b hds
  refine ⟨Demo.numbers, Demo.plainJob, Demo.plainPrinter, Demo.residueLines, Demo.residueFile, _, _,
    Demo.numbers_floatLike, Demo.plainPrinter_of, fun l hl => Demo.onward_lines l (by simp [hl]), by decide,
    Demo.reach_of (fun l hl => Demo.onward_lines l (by simp [hl])) Demo.residue_file Demo.residue_states ?_,
    Demo.residue_file, hds, Demo.residue_states, ?_⟩
  · intro s hs
    simp only [Demo.residueStates, List.mem_cons, List.not_mem_nil, or_false] at hs
    rcases hs with rfl | rfl | rfl | rfl | rfl | rfl <;> norm_num [InReach]
  · intro h
    have h1 := h.moves
    simp only [Demo.residueStates, List.map_cons, List.map_nil, List.zip_cons_cons, List.zip_nil_left,
      List.isChain_cons_cons] at h1
    have h2 := h1.2.2.2.2.1.x.still rfl
    have h3 : a.position.x.val = b.position.x.val := by
      have : (b.position.x.val : ℝ) = a.position.x.val := h2
      exact_mod_cast this.symm
    rw [decide_eq_true_iff] at hd
    apply hd
    cases hx : a.position.x
    cases hy : b.position.x
    rw [hx, hy] at h3
    simp only at h3
    rw [h3]

end PyGCD
