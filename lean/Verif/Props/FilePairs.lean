import Verif.Spec.FilePairs
import Verif.Props.Idle
import Verif.Props.UnusualCuts
import Verif.Props.IrregularOutputs
import Verif.Props.Shortest

/-!
# Property C129: comparing the prints of two G-code files
-/

set_option linter.unusedSectionVars false
set_option linter.unusedSimpArgs false

namespace PyGCD
open Vec4 Spec

variable {pf : List Char → Option ℝ} {d d' : Dict (SVal ℝ)} {q q' : Printer} {ls ls' : List Line} {content content' : List Char}
  {bs bs' : List (Block ℝ)} {fw : Firmware}

/-- The program for what is done from a place. -/
noncomputable def program (p : Vec4 ℝ) (l : List Doing) : List (PState ℝ) := ⟨p, 0, 1, 1, none, none⟩ :: l.map Doing.state

theorem simulate_program (hpf : FloatLike pf) (hd : SetupAccepted d) (hq : PrinterOf d q) (hp : ∀ l ∈ ls, l.Plain pf)
    (hc : FileOf ls content) :
    (simulateFile pf d content).map (List.map fun b => (b.segments, b.isExtruding)) =
      (simulate (firmwareOf d) (program q.point (q.doings pf ls))).map (List.map fun b => (b.segments, b.isExtruding)) := by
  obtain ⟨ps, h1, h2⟩ := c67_read_as_written hpf hq hp hc
  simp only [simulateFile, (c46_validation d).1.2 hd, h1, bind, Except.bind]
  cases h2 with
  | @cons A _ ps _ hA h2 =>
    refine c128_idle (.first hA.position hA.pause rfl ?_)
    rw [hA.position]
    exact file_thinned h2

theorem path_of_segments {bs bs' : List (Block ℝ)}
    (h : bs.map (fun b => (b.segments, b.isExtruding)) = bs'.map fun b => (b.segments, b.isExtruding)) :
    Spec.path bs = Spec.path bs' := by
  have := congrArg (List.flatMap Prod.fst) h
  rwa [List.flatMap_map, List.flatMap_map] at this

/-- The path of a simulated file is the one planned for what it does. -/
theorem program_planned (hpf : FloatLike pf) (hd : SetupAccepted d) (hq : PrinterOf d q) (hp : ∀ l ∈ ls, l.Plain pf)
    (hc : FileOf ls content) (h : simulateFile pf d content = .ok bs) :
    ∃ cs, plan (firmwareOf d) (program q.point (q.doings pf ls)) = .ok cs ∧ Spec.path cs = Spec.path bs := by
  have hs := simulate_program hpf hd hq hp hc
  rw [h] at hs
  unfold simulate at hs
  simp only [bind] at hs
  cases hpl : plan (firmwareOf d) (program q.point (q.doings pf ls)) with
  | error e =>
    rw [hpl] at hs
    cases hs
  | ok cs =>
    rw [hpl] at hs
    simp only [Except.bind] at hs
    cases he : endTime cs with
    | error e =>
      rw [he] at hs
      cases hs
    | ok t =>
      rw [he] at hs
      simp only [Except.map, Except.ok.injEq] at hs
      exact ⟨cs, rfl, (path_of_segments hs).symm⟩

theorem planned_simulated (hpf : FloatLike pf) (hd : SetupAccepted d) (hq : PrinterOf d q) (hp : ∀ l ∈ ls, l.Plain pf)
    (hc : FileOf ls content) {cs : List (Block ℝ)}
    (h : simulate (firmwareOf d) (program q.point (q.doings pf ls)) = .ok cs) :
    ∃ bs, simulateFile pf d content = .ok bs ∧ Spec.path bs = Spec.path cs := by
  have hs := simulate_program hpf hd hq hp hc
  rw [h] at hs
  cases hf : simulateFile pf d content with
  | error e =>
    rw [hf] at hs
    cases hs
  | ok bs =>
    rw [hf] at hs
    simp only [Except.map, Except.ok.injEq] at hs
    exact ⟨bs, rfl, path_of_segments hs⟩

theorem doings_run : ∀ {ls : List Line} {q : Printer} {x : Doing}, x ∈ q.doings pf ls →
    ∃ y ∈ q.run pf ls, x.feed = y.1.feed ∧ x.acc = y.1.acc ∧ x.jerk = y.1.jerk
  | [], _, _, h => by cases h
  | l :: ls, q, x, h => by
    rw [Printer.doings] at h
    rw [Printer.run]
    split_ifs at h with hi
    · obtain ⟨y, hy, k⟩ := doings_run h
      exact ⟨y, List.mem_cons_of_mem _ hy, k⟩
    · rcases List.mem_cons.1 h with rfl | h
      · exact ⟨_, List.mem_cons_self, rfl, rfl, rfl⟩
      · obtain ⟨y, hy, k⟩ := doings_run h
        exact ⟨y, List.mem_cons_of_mem _ hy, k⟩

theorem program_sensible (hw : Decent pf q ls) (p : Vec4 ℝ) : Sensible (program p (q.doings pf ls)) := by
  have hf : List.Forall₂ Shows (((q, none) :: q.run pf ls).map fun x => (⟨x.1.point, x.1.feed, x.1.acc, x.1.jerk, x.2, none⟩ : PState ℝ))
      ((q, none) :: q.run pf ls) := by
    rw [List.forall₂_map_left_iff]
    exact List.forall₂_same.2 fun x _ => ⟨rfl, rfl, rfl, rfl, rfl⟩
  have hs := decent_sensible hw hf
  have key : ∀ s ∈ program p (q.doings pf ls), s = ⟨p, 0, 1, 1, none, none⟩ ∨
      ∃ s' ∈ (((q, none) :: q.run pf ls).map fun x => (⟨x.1.point, x.1.feed, x.1.acc, x.1.jerk, x.2, none⟩ : PState ℝ)),
        s.speed = s'.speed ∧ s.pAcc = s'.pAcc ∧ s.jerk = s'.jerk := by
    intro s hs
    rcases List.mem_cons.1 hs with rfl | hs
    · exact Or.inl rfl
    · obtain ⟨x, hx, rfl⟩ := List.mem_map.1 hs
      obtain ⟨y, hy, k1, k2, k3⟩ := doings_run hx
      exact Or.inr ⟨_, List.mem_map.2 ⟨y, List.mem_cons_of_mem _ hy, rfl⟩, k1, k2, k3⟩
  refine ⟨?_, ?_, ?_⟩ <;> intro s h <;> rcases key s h with rfl | ⟨s', h', k1, k2, k3⟩
  · exact le_rfl
  · rw [k1]; exact hs.speed s' h'
  · exact one_pos
  · rw [k2]; exact hs.acc s' h'
  · exact zero_le_one
  · rw [k3]; exact hs.jerk s' h'

theorem slack_program (p : Vec4 ℝ) (l : List Doing) : slack (program p l) = doingsSlack l := by
  unfold slack doingsSlack program
  simp [Doing.state, Function.comp_def]

theorem sub_shift (a b : Vec4 ℝ) : (a.add b).sub a = b := by ext <;> simp [Vec4.add, Vec4.sub]

theorem tasks_allTravel : ∀ {l : List Doing} {A : PState ℝ} (here : Option (Vec4 ℝ)), AllTravel A.position l →
    ∀ x ∈ tasks here (some A) (l.map Doing.state), x.1.B.pause = none → (x.1.dst.sub x.1.src).norm3 ≠ 0
  | [], _, _, _, x, hx => by simp [tasks] at hx
  | y :: l, A, here, h, x, hx => by
    rw [AllTravel] at h
    rw [List.map_cons, tasks] at hx
    simp only at hx
    split_ifs at hx with h1 h2
    · rcases List.mem_cons.1 hx with rfl | hx
      · exact fun hp => absurd hp h1
      · exact tasks_allTravel (A := y.state) _ h.2 x hx
    · rcases List.mem_cons.1 hx with rfl | hx
      · intro hp
        simp only [sub_shift]
        exact h.1 hp
      · exact tasks_allTravel (A := y.state) _ h.2 x hx
    · exact tasks_allTravel (A := y.state) _ h.2 x hx

theorem program_travels {p : Vec4 ℝ} {l : List Doing} (h : AllTravel p l) : TasksTravel (program p l) := by
  unfold TasksTravel program
  rw [tasks]
  exact tasks_allTravel (A := ⟨p, 0, 1, 1, none, none⟩) none h

/-- **C129, faster.** If the second file makes its printer do the same with no lower settings, however both files say it, its
print takes no longer, up to the planner's tolerance. With `marlin_jerk` the moves must all travel. -/
theorem c129_faster (hpf : FloatLike pf) (hd : SetupAccepted d) (hd' : SetupAccepted d') (hq : PrinterOf d q)
    (hq' : PrinterOf d' q') (hfw : firmwareOf d' = firmwareOf d) (hp : ∀ l ∈ ls, l.Plain pf) (hp' : ∀ l ∈ ls', l.Plain pf)
    (hw : Decent pf q ls) (hc : FileOf ls content) (hc' : FileOf ls' content') (h0 : q'.point = q.point)
    (hR : List.Forall₂ (Quicker (firmwareOf d)) (q.doings pf ls) (q'.doings pf ls'))
    (hT : firmwareOf d = .marlinJerk → AllTravel q.point (q.doings pf ls)) {t t' : ℝ}
    (h : simulateFile pf d content = .ok bs) (ht : EndTime (Spec.path bs) t)
    (h' : simulateFile pf d' content' = .ok bs') (ht' : EndTime (Spec.path bs') t') :
    t' ≤ t + doingsSlack (q.doings pf ls) := by
  obtain ⟨cs, k1, k2⟩ := program_planned hpf hd hq hp hc h
  obtain ⟨cs', k1', k2'⟩ := program_planned hpf hd' hq' hp' hc' h'
  rw [← k2] at ht
  rw [← k2'] at ht'
  rw [h0, hfw] at k1'
  rw [← slack_program q.point]
  refine c66_raised_limits_sensible (program_sensible hw q.point) ?_ (fun hx => program_travels (hT hx)) k1 ht k1' ht'
  refine .cons ⟨⟨rfl, rfl, le_rfl, le_rfl, le_rfl, fun _ => rfl, fun _ h => h⟩, fun h => h⟩ ?_
  rw [List.forall₂_map_left_iff, List.forall₂_map_right_iff]
  exact hR.imp fun x x' hx => ⟨⟨hx.place, hx.wait, hx.acc, hx.jerk, hx.feed, hx.sameFeed, hx.unlimited⟩, hx.zeroFeed⟩

theorem Spec.Abler.exec (h : Abler fw q q') (l : Line) : Abler fw (q.exec pf l) (q'.exec pf l) := by
  obtain ⟨place, zero, aX, aE, feed, acc, jerk⟩ := q
  obtain ⟨place', zero', aX', aE', feed', acc', jerk'⟩ := q'
  obtain ⟨h1, h2, h3, h4, h5, h6, h7, h8, h9, h10⟩ := h
  simp only at h1 h2 h3 h4 h5 h6 h7 h8 h9 h10
  subst h1 h2 h3 h4
  have move : ∀ (o : Option ℝ) (pl : Axis → ℝ), Abler fw
      ⟨pl, zero', aX', aE', match o with | none => feed | some v => v / 60, acc, jerk⟩
      ⟨pl, zero', aX', aE', match o with | none => feed' | some v => v / 60, acc', jerk'⟩ := by
    intro o pl
    cases o with
    | none => exact ⟨rfl, rfl, rfl, rfl, h5, h6, h7, h8, h9, h10⟩
    | some v => exact ⟨rfl, rfl, rfl, rfl, le_rfl, h6, h7, fun _ => rfl, h9, fun h => h⟩
  unfold Printer.exec
  split
  · exact move _ _
  · exact move _ _
  · exact ⟨rfl, rfl, rfl, rfl, h5, h6, h7, h8, h9, h10⟩
  · exact ⟨rfl, rfl, rfl, rfl, h5, h6, h7, h8, h9, h10⟩
  · exact ⟨rfl, rfl, rfl, rfl, h5, h6, h7, h8, h9, h10⟩
  · exact ⟨rfl, rfl, rfl, rfl, h5, h6, h7, h8, h9, h10⟩
  · exact ⟨rfl, rfl, rfl, rfl, h5, h6, h7, h8, h9, h10⟩
  · cases l.value pf 'P' with
    | none => exact ⟨rfl, rfl, rfl, rfl, h5, h6, h7, h8, h9, h10⟩
    | some v => exact ⟨rfl, rfl, rfl, rfl, h5, le_rfl, h7, h8, h9, h10⟩
  · cases l.value pf 'X' with
    | none => exact ⟨rfl, rfl, rfl, rfl, h5, h6, h7, h8, h9, h10⟩
    | some v => exact ⟨rfl, rfl, rfl, rfl, h5, h6, le_rfl, h8, fun _ h => h, h10⟩
  · exact ⟨rfl, rfl, rfl, rfl, h5, h6, h7, h8, h9, h10⟩

theorem Spec.Abler.point (h : Abler fw q q') : q'.point = q.point := by
  simp [Printer.point, h.place]

theorem Spec.Abler.doings : ∀ {ls : List Line} {q q' : Printer}, Abler fw q q' →
    List.Forall₂ (Quicker fw) (q.doings pf ls) (q'.doings pf ls)
  | [], _, _, _ => .nil
  | l :: ls, q, q', h => by
    have hx := h.exec (pf := pf) l
    have ih := Spec.Abler.doings (ls := ls) hx
    rw [Printer.doings, Printer.doings]
    simp only [hx.point, h.point]
    split_ifs
    · exact ih
    · exact .cons ⟨rfl, rfl, hx.feed, hx.acc, hx.jerk, hx.sameFeed, hx.unlimited, hx.zeroFeed⟩ ih

/-- **C129, setups.** The same file with a setup whose acceleration and jerk (and with `no firmware`, `marlin_jd` and `klipper`
feedrate) are no lower: the print takes no longer, up to the planner's tolerance. -/
theorem c129_setup (hpf : FloatLike pf) (hd : SetupAccepted d) (hd' : SetupAccepted d') (hq : PrinterOf d q)
    (hq' : PrinterOf d' q') (hfw : firmwareOf d' = firmwareOf d) (hp : ∀ l ∈ ls, l.Plain pf)
    (hw : Decent pf q ls) (hc : FileOf ls content) (hA : Abler (firmwareOf d) q q')
    (hT : firmwareOf d = .marlinJerk → AllTravel q.point (q.doings pf ls)) {t t' : ℝ}
    (h : simulateFile pf d content = .ok bs) (ht : EndTime (Spec.path bs) t)
    (h' : simulateFile pf d' content = .ok bs') (ht' : EndTime (Spec.path bs') t') :
    t' ≤ t + doingsSlack (q.doings pf ls) :=
  c129_faster hpf hd hd' hq hq' hfw hp hp hw hc hc hA.point hA.doings hT h ht h' ht'

theorem Spec.Cuts.first {n : ℕ} {a b c : List (PState ℝ)} (h : Cut a b) (hc : Cuts n b c) : Cuts (n + 1) a c := by
  induction hc with
  | none => exact .more (.none a) h
  | more _ hc ih => exact .more (ih h) hc

theorem Spec.InPieces.cuts {p : Vec4 ℝ} {l l' : List Doing} (h : InPieces p l l') :
    ∀ (pre : List (PState ℝ)) (A : PState ℝ), A.position = p →
      ∃ n, Cuts n (pre ++ A :: l.map Doing.state) (pre ++ A :: l'.map Doing.state) := by
  induction h with
  | nil => exact fun pre A _ => ⟨0, .none _⟩
  | @keep p x l l' h ih =>
    intro pre A _
    obtain ⟨n, hn⟩ := ih (pre ++ [A]) x.state rfl
    exact ⟨n, by simpa using hn⟩
  | @cut p x l l' s h1 h2 h3 h4 h ih =>
    intro pre A hA
    obtain ⟨n, hn⟩ := ih (pre ++ [A]) (Doing.state ⟨p.add ((x.place.sub p).mul s), x.feed, x.acc, x.jerk, none⟩) rfl
    refine ⟨n + 1, Spec.Cuts.first (b := pre ++ A :: Doing.state ⟨p.add ((x.place.sub p).mul s), x.feed, x.acc, x.jerk, none⟩ ::
      x.state :: l.map Doing.state) ⟨pre, A, _, x.state, l.map Doing.state, rfl, rfl, ?_⟩ (by simpa using hn)⟩
    exact ⟨by rw [hA]; exact h1, ⟨s, h3, h4, by rw [hA]; rfl⟩, rfl, rfl, rfl, rfl, h2⟩

/-- **C129, pieces.** If the second file makes its printer do the same with some of the straight travel moves in several
pieces, its print does not get shorter, and with `marlin_jd` (and positive jerk), `marlin_jerk` (if all moves travel) and `MKA`
not longer either, up to the planner's tolerance. -/
theorem c129_pieces (hpf : FloatLike pf) (hd : SetupAccepted d) (hd' : SetupAccepted d') (hq : PrinterOf d q)
    (hq' : PrinterOf d' q') (hfw : firmwareOf d' = firmwareOf d) (hp : ∀ l ∈ ls, l.Plain pf) (hp' : ∀ l ∈ ls', l.Plain pf)
    (hw : Decent pf q ls) (hc : FileOf ls content) (hc' : FileOf ls' content') (h0 : q'.point = q.point)
    (hR : InPieces q.point (q.doings pf ls) (q'.doings pf ls'))
    (hT : firmwareOf d = .marlinJerk → AllTravel q.point (q.doings pf ls)) {t t' : ℝ}
    (h : simulateFile pf d content = .ok bs) (ht : EndTime (Spec.path bs) t)
    (h' : simulateFile pf d' content' = .ok bs') (ht' : EndTime (Spec.path bs') t') :
    t ≤ t' + doingsSlack (q'.doings pf ls') ∧
      (firmwareOf d = .marlinJd ∧ (∀ x ∈ q.doings pf ls, 0 < x.jerk) ∨ firmwareOf d = .marlinJerk ∨ firmwareOf d = .mka →
        t' ≤ t + doingsSlack (q'.doings pf ls')) := by
  obtain ⟨cs, k1, k2⟩ := program_planned hpf hd hq hp hc h
  obtain ⟨cs', k1', k2'⟩ := program_planned hpf hd' hq' hp' hc' h'
  rw [← k2] at ht
  rw [← k2'] at ht'
  rw [h0, hfw] at k1'
  rw [← slack_program q.point]
  obtain ⟨n, hn⟩ := hR.cuts [] ⟨q.point, 0, 1, 1, none, none⟩ rfl
  have hs := program_sensible hw q.point
  refine ⟨c71_not_shorter_sensible hs hn (fun hx => program_travels (hT hx)) k1 ht k1' ht', fun hx => ?_⟩
  have := c71_cuts_sensible_partial hs hn (fw := firmwareOf d) ?_ k1 ht k1' ht'
  · have := (abs_le.1 this).2
    change t' - t ≤ slack (program q.point (q'.doings pf ls')) at this
    linarith
  · rcases hx with ⟨e, hj⟩ | e | e
    · refine Or.inl ⟨e, ?_⟩
      intro s hs
      rcases List.mem_cons.1 hs with rfl | hs
      · exact one_pos
      · obtain ⟨x, hx, rfl⟩ := List.mem_map.1 hs
        exact hj x hx
    · exact Or.inr (Or.inl ⟨e, program_travels (hT e)⟩)
    · exact Or.inr (Or.inr e)

theorem simulate_of_endTime {states : List (PState ℝ)} {T : ℝ} (hsens : Sensible states) (h : plan fw states = .ok bs)
    (hT : EndTime (Spec.path bs) T) : simulate fw states = .ok bs := by
  have he := endTime_sensible hsens h
  unfold simulate
  simp only [bind, Except.bind, h]
  by_cases hx : executed none none states = []
  · obtain ⟨s, hs, _⟩ := hT
    rw [(he.1 hx).1] at hs
    simp [Spec.path] at hs
  · obtain ⟨T, h1, _⟩ := he.2 hx
    rw [h1]

theorem simulated_end (h : simulateFile pf d content = .ok bs) (hpf : FloatLike pf) (hd : SetupAccepted d) (hq : PrinterOf d q)
    (hp : ∀ l ∈ ls, l.Plain pf) (hw : Decent pf q ls) (hc : FileOf ls content) : ∃ T, EndTime (Spec.path bs) T := by
  obtain ⟨A, ps, h1, _, _, hs, hpl⟩ := simulated_states hpf hd hq hp hw hc h
  by_cases hx : executed none none (A :: ps) = []
  · obtain ⟨rfl, he⟩ := (endTime_sensible hs hpl).1 hx
    simp only [simulateFile, (c46_validation d).1.2 hd, h1, bind, Except.bind, simulate, hpl, he] at h
    cases h
  · obtain ⟨T, _, hT⟩ := (endTime_sensible hs hpl).2 hx
    exact ⟨T, hT⟩

theorem program_placed (g : Vec4 ℝ → Vec4 ℝ) (p : Vec4 ℝ) (l : List Doing) :
    (program p l).map (placed g) = program (g p) (l.map fun x => { x with place := g x.place }) := by
  unfold program
  rw [List.map_cons, List.map_map, List.map_map]
  rfl

theorem Spec.Sensible.placed {states : List (PState ℝ)} (h : Sensible states) (g : Vec4 ℝ → Vec4 ℝ) :
    Sensible (states.map (Spec.placed g)) := by
  refine ⟨?_, ?_, ?_⟩ <;> intro s hs <;> obtain ⟨x, hx, rfl⟩ := List.mem_map.1 hs
  · exact h.speed x hx
  · exact h.acc x hx
  · exact h.jerk x hx

/-- **C129, shifted.** If the second file makes its printer do the same in another place, it is simulated as well, the print
takes as long, and answers to queries differ by the shift only. -/
theorem c129_shifted (hpf : FloatLike pf) (hd : SetupAccepted d) (hd' : SetupAccepted d') (hq : PrinterOf d q)
    (hq' : PrinterOf d' q') (hfw : firmwareOf d' = firmwareOf d) (hp : ∀ l ∈ ls, l.Plain pf) (hp' : ∀ l ∈ ls', l.Plain pf)
    (hw : Decent pf q ls) (hc : FileOf ls content) (hc' : FileOf ls' content') (c : Vec4 ℝ) (h0 : q'.point = q.point.add c)
    (hR : q'.doings pf ls' = (q.doings pf ls).map fun x => { x with place := x.place.add c })
    (h : simulateFile pf d content = .ok bs) :
    ∃ bs', simulateFile pf d' content' = .ok bs' ∧ (∀ T, EndTime (Spec.path bs') T ↔ EndTime (Spec.path bs) T) ∧
      ∀ own u f, InUnit (u.getD own) f → ∀ t history,
        ShiftedAnswer (c.mul f) (getValues (Spec.path bs) own u t (queryHistory (Spec.path bs) own history none)).1
          (getValues (Spec.path bs') own u t (queryHistory (Spec.path bs') own history none)).1 := by
  obtain ⟨T, hT⟩ := simulated_end h hpf hd hq hp hw hc
  obtain ⟨cs, k1, k2⟩ := program_planned hpf hd hq hp hc h
  have hs := program_sensible hw q.point
  obtain ⟨cs', g1, _, g2, g3⟩ := c70_shift_sensible c hs k1
  have g4 := simulate_of_endTime (hs.placed _) g1 ((g2 T).2 (by rw [k2]; exact hT))
  rw [program_placed, ← hR, ← h0, ← hfw] at g4
  obtain ⟨bs', e1, e2⟩ := planned_simulated hpf hd' hq' hp' hc' g4
  refine ⟨bs', e1, ?_, ?_⟩
  · rw [e2, ← k2]
    exact g2
  · rw [e2, ← k2]
    exact g3

/-- **C129, placed.** The same for turned and mirrored prints, for all firmwares but `MKA`. -/
theorem c129_placed (hpf : FloatLike pf) (hd : SetupAccepted d) (hd' : SetupAccepted d') (hq : PrinterOf d q)
    (hq' : PrinterOf d' q') (hfw : firmwareOf d' = firmwareOf d) (hp : ∀ l ∈ ls, l.Plain pf) (hp' : ∀ l ∈ ls', l.Plain pf)
    (hw : Decent pf q ls) (hc : FileOf ls content) (hc' : FileOf ls' content') {g : Vec4 ℝ → Vec4 ℝ} (hg : Rigid g)
    (hm : firmwareOf d ≠ .mka) (h0 : q'.point = g q.point)
    (hR : q'.doings pf ls' = (q.doings pf ls).map fun x => { x with place := g x.place })
    (h : simulateFile pf d content = .ok bs) :
    ∃ bs', simulateFile pf d' content' = .ok bs' ∧ (∀ T, EndTime (Spec.path bs') T ↔ EndTime (Spec.path bs) T) ∧
      ∀ own u f, InUnit (u.getD own) f → ∀ t history,
        PlacedAnswer g f (getValues (Spec.path bs) own u t (queryHistory (Spec.path bs) own history none)).1
          (getValues (Spec.path bs') own u t (queryHistory (Spec.path bs') own history none)).1 := by
  obtain ⟨T, hT⟩ := simulated_end h hpf hd hq hp hw hc
  obtain ⟨cs, k1, k2⟩ := program_planned hpf hd hq hp hc h
  have hs := program_sensible hw q.point
  obtain ⟨cs', g1, _, g2, g3⟩ := c70_rigid_sensible_partial hg hm hs k1
  have g4 := simulate_of_endTime (hs.placed _) g1 ((g2 T).2 (by rw [k2]; exact hT))
  rw [program_placed, ← hR, ← h0, ← hfw] at g4
  obtain ⟨bs', e1, e2⟩ := planned_simulated hpf hd' hq' hp' hc' g4
  refine ⟨bs', e1, ?_, ?_⟩
  · rw [e2, ← k2]
    exact g2
  · rw [e2, ← k2]
    exact g3

/-! ## Examples -/

/-- A setup dictionary with a given place and given settings. -/
noncomputable def Demo.setupAt (x y v a j : ℝ) (fw : String) : Dict (SVal ℝ) :=
  [("p_vel", .num v), ("p_acc", .num a), ("jerk", .num j), ("vX", .num 180), ("vY", .num 180),
    ("vZ", .num 30), ("vE", .num 33), ("X", .num x), ("Y", .num y), ("Z", .num 3), ("E", .num 4),
    ("printer_name", .text "p"), ("firmware", .text fw)]

/-- The printer that it describes. -/
noncomputable def Demo.printerAt (x y v a j : ℝ) : Printer :=
  ⟨fun | .X => x | .Y => y | .Z => 3 | .E => 4, fun _ => 0, true, true, v, a, j⟩

theorem Demo.at_accepted (x y v a j : ℝ) (fw : String) : SetupAccepted (Demo.setupAt x y v a j fw) := by
  refine ⟨?_, ?_⟩
  · simp [Demo.setupAt]
  · intro k hk
    rw [← mem_keys_iff] at hk
    exact Or.inl hk

theorem Demo.at_printer (x y v a j : ℝ) (fw : String) : PrinterOf (Demo.setupAt x y v a j fw) (Demo.printerAt x y v a j) :=
  ⟨rfl, rfl, rfl, rfl, fun _ => rfl, ⟨rfl, rfl⟩, rfl, rfl, rfl, by
    intro k hk
    simp only [List.mem_cons, List.not_mem_nil, or_false] at hk
    rcases hk with rfl | rfl | rfl | rfl <;> exact ⟨_, rfl⟩⟩

theorem Demo.at_firmware (x y v a j : ℝ) (fw : String) : firmwareOf (Demo.setupAt x y v a j fw) = Firmware.ofName (some fw) := rfl

theorem Demo.at_first (y v a j : ℝ) : ((Demo.printerAt 1 y v a j).exec Demo.num
    ⟨some .G1, [⟨1, 'X', ['1', '0']⟩, ⟨1, 'F', ['1', '0']⟩], 1, some [' ', 'g', 'o'], []⟩).point ≠
    (Demo.printerAt 1 y v a j).point := by
  intro h
  have := congrArg Vec4.x h
  simp [Printer.exec, Printer.point, Line.value, Demo.num, Demo.printerAt, letter, Printer.abs] at this

theorem Demo.at_workable (y : ℝ) {v a j : ℝ} (hv : 0 < v) (ha : 0 < a) (hj : 0 ≤ j) :
    Workable Demo.num (Demo.printerAt 1 y v a j) Demo.plain where
  settings := ⟨hv, ha, hj⟩
  feed := Demo.workable.feed
  acc := Demo.workable.acc
  jerk := Demo.workable.jerk
  wait := Demo.workable.wait
  warm := by
    intro pre l post he hl
    cases pre with
    | nil =>
      rw [List.nil_append, Demo.plain, List.cons.injEq] at he
      rw [← he.1] at hl
      simp [Line.wait] at hl
    | cons z pre =>
      rw [List.cons_append, Demo.plain, List.cons.injEq] at he
      refine ⟨_, List.mem_cons_self, ?_⟩
      rw [← he.1]
      exact Demo.at_first y v a j
  moves := ⟨_, List.mem_cons_self, Demo.at_first y v a j⟩

theorem Demo.at_decent (y : ℝ) {v a j : ℝ} (hv : 0 < v) (ha : 0 < a) (hj : 0 ≤ j) :
    Decent Demo.num (Demo.printerAt 1 y v a j) Demo.plain :=
  ⟨⟨hv.le, ha, hj⟩, Demo.plain_decent.feed, Demo.plain_decent.acc, Demo.plain_decent.jerk⟩

/-- `c129_setup`: the file of the earlier examples, with the acceleration doubled, the jerk doubled and a higher feedrate at
the beginning. -/
example : ∃ bs bs' t t', simulateFile Demo.num (Demo.setupAt 1 2 35 200 10 "klipper") Demo.plainText = .ok bs ∧
    simulateFile Demo.num (Demo.setupAt 1 2 50 400 20 "klipper") Demo.plainText = .ok bs' ∧ EndTime (Spec.path bs) t ∧
    EndTime (Spec.path bs') t' ∧
    t' ≤ t + doingsSlack ((Demo.printerAt 1 2 35 200 10).doings Demo.num Demo.plain) := by
  obtain ⟨bs, t, _, _, h, ht, _⟩ := c69_simulated_as_written Demo.num_floatLike (Demo.at_accepted 1 2 35 200 10 "klipper")
    (Demo.at_printer ..) Demo.plain_lines (Demo.at_workable 2 (by norm_num) (by norm_num) (by norm_num)) Demo.plain_file
  obtain ⟨bs', t', _, _, h', ht', _⟩ := c69_simulated_as_written Demo.num_floatLike (Demo.at_accepted 1 2 50 400 20 "klipper")
    (Demo.at_printer ..) Demo.plain_lines (Demo.at_workable 2 (by norm_num) (by norm_num) (by norm_num)) Demo.plain_file
  have hf : ∀ x y v a j, firmwareOf (Demo.setupAt x y v a j "klipper") = .klipper := fun _ _ _ _ _ => rfl
  have hA : Abler .klipper (Demo.printerAt 1 2 35 200 10) (Demo.printerAt 1 2 50 400 20) :=
    ⟨rfl, rfl, rfl, rfl, by norm_num [Demo.printerAt], by norm_num [Demo.printerAt], by norm_num [Demo.printerAt],
      by simp, by simp, by norm_num [Demo.printerAt]⟩
  exact ⟨bs, bs', t, t', h, h', ht, ht', c129_setup Demo.num_floatLike (Demo.at_accepted 1 2 35 200 10 "klipper")
    (Demo.at_accepted 1 2 50 400 20 "klipper") (Demo.at_printer ..) (Demo.at_printer ..) (by rw [hf, hf]) Demo.plain_lines
    (Demo.at_decent 2 (by norm_num) (by norm_num) (by norm_num)) Demo.plain_file (by rw [hf]; exact hA)
    (by rw [hf]; simp) h ht h' ht'⟩

theorem Demo.at_shifted (y y' v a j : ℝ) : (Demo.printerAt 1 y' v a j).doings Demo.num Demo.plain =
    ((Demo.printerAt 1 y v a j).doings Demo.num Demo.plain).map
      fun x => { x with place := x.place.add ⟨0, y' - y, 0, 0⟩ } := by
  simp [Printer.doings, Demo.plain, Line.wait, Line.value, Demo.num, Printer.exec, Demo.printerAt, Printer.point,
    letter, Printer.abs, Vec4.add]

/-- `c129_shifted`: the file of the earlier examples never mentions Y, so that with a setup that begins elsewhere in Y the
print is shifted. -/
example : ∃ bs bs', simulateFile Demo.num (Demo.setupAt 1 2 35 200 10 "MKA") Demo.plainText = .ok bs ∧
    simulateFile Demo.num (Demo.setupAt 1 7 35 200 10 "MKA") Demo.plainText = .ok bs' ∧
    ∀ T, EndTime (Spec.path bs') T ↔ EndTime (Spec.path bs) T := by
  obtain ⟨bs, t, _, _, h, ht, _⟩ := c69_simulated_as_written Demo.num_floatLike (Demo.at_accepted 1 2 35 200 10 "MKA")
    (Demo.at_printer ..) Demo.plain_lines (Demo.at_workable 2 (by norm_num) (by norm_num) (by norm_num)) Demo.plain_file
  obtain ⟨bs', h1, h2, _⟩ := c129_shifted Demo.num_floatLike (Demo.at_accepted 1 2 35 200 10 "MKA")
    (Demo.at_accepted 1 7 35 200 10 "MKA") (Demo.at_printer ..) (Demo.at_printer ..) rfl Demo.plain_lines Demo.plain_lines
    (Demo.at_decent 2 (by norm_num) (by norm_num) (by norm_num)) Demo.plain_file Demo.plain_file ⟨0, 7 - 2, 0, 0⟩
    (by simp [Printer.point, Demo.printerAt, Vec4.add]) (Demo.at_shifted ..) h
  exact ⟨bs, bs', h, h1, h2⟩

/-- A mirror. -/
def Demo.mirrorY (p : Vec4 ℝ) : Vec4 ℝ := ⟨p.x, -p.y, p.z, p.e⟩

theorem Demo.mirrorY_rigid : Rigid Demo.mirrorY := by
  intro p q
  refine ⟨?_, rfl⟩
  unfold norm3 Demo.mirrorY Vec4.sub
  rw [sqrt_real, sqrt_real]
  congr 1
  simp only
  ring

theorem Demo.at_mirrored (y v a j : ℝ) : (Demo.printerAt 1 (-y) v a j).doings Demo.num Demo.plain =
    ((Demo.printerAt 1 y v a j).doings Demo.num Demo.plain).map fun x => { x with place := Demo.mirrorY x.place } := by
  simp [Printer.doings, Demo.plain, Line.wait, Line.value, Demo.num, Printer.exec, Demo.printerAt, Printer.point,
    letter, Printer.abs, Demo.mirrorY]

/-- `c129_placed`: the same with the mirrored place. -/
example : ∃ bs bs', simulateFile Demo.num (Demo.setupAt 1 2 35 200 10 "klipper") Demo.plainText = .ok bs ∧
    simulateFile Demo.num (Demo.setupAt 1 (-2) 35 200 10 "klipper") Demo.plainText = .ok bs' ∧
    ∀ T, EndTime (Spec.path bs') T ↔ EndTime (Spec.path bs) T := by
  have hf : ∀ x y v a j, firmwareOf (Demo.setupAt x y v a j "klipper") = .klipper := fun _ _ _ _ _ => rfl
  obtain ⟨bs, t, _, _, h, ht, _⟩ := c69_simulated_as_written Demo.num_floatLike (Demo.at_accepted 1 2 35 200 10 "klipper")
    (Demo.at_printer ..) Demo.plain_lines (Demo.at_workable 2 (by norm_num) (by norm_num) (by norm_num)) Demo.plain_file
  obtain ⟨bs', h1, h2, _⟩ := c129_placed Demo.num_floatLike (Demo.at_accepted 1 2 35 200 10 "klipper")
    (Demo.at_accepted 1 (-2) 35 200 10 "klipper") (Demo.at_printer ..) (Demo.at_printer ..) (by rw [hf, hf]) Demo.plain_lines
    Demo.plain_lines (Demo.at_decent 2 (by norm_num) (by norm_num) (by norm_num)) Demo.plain_file Demo.plain_file
    Demo.mirrorY_rigid (by rw [hf]; simp) rfl (Demo.at_mirrored ..) h
  exact ⟨bs, bs', h, h1, h2⟩

/-- One move, and the same in two pieces. -/
def Demo.whole : List Line := [⟨some .G1, [⟨1, 'X', ['0']⟩, ⟨1, 'F', ['1', '0']⟩], 0, none, []⟩]

def Demo.halves : List Line :=
  [⟨some .G1, [⟨1, 'X', ['1', '0']⟩, ⟨1, 'F', ['1', '0']⟩], 0, none, []⟩, ⟨some .G1, [⟨1, 'X', ['0']⟩], 0, none, []⟩]

theorem Demo.whole_lines : ∀ l ∈ Demo.whole, l.Plain Demo.num := by
  intro l hl
  simp only [Demo.whole, List.mem_cons, List.not_mem_nil, or_false] at hl
  subst hl
  exact ⟨by simp, by simp, by simp, by simp [plainLetters], by simp, by simp [Demo.num, numChars], by simp, by simp⟩

theorem Demo.halves_lines : ∀ l ∈ Demo.halves, l.Plain Demo.num := by
  intro l hl
  simp only [Demo.halves, List.mem_cons, List.not_mem_nil, or_false] at hl
  rcases hl with rfl | rfl <;>
    exact ⟨by simp, by simp, by simp, by simp [plainLetters], by simp, by simp [Demo.num, numChars], by simp, by simp⟩

theorem Demo.whole_file : FileOf Demo.whole "G1 X0 F10\n".toList := by
  refine ⟨"G1 X0 F10\n".toList, ["G1 X0 F10\n".toList], ?_, ?_, ?_⟩
  · repeat' first | exact .nil | refine .other (by decide) ?_
  · exact .line (l := "G1 X0 F10".toList) (by decide) .none
  · exact .cons (Or.inr rfl) .nil

theorem Demo.halves_file : FileOf Demo.halves "G1 X10 F10\nG1 X0\n".toList := by
  refine ⟨"G1 X10 F10\nG1 X0\n".toList, ["G1 X10 F10\n".toList, "G1 X0\n".toList], ?_, ?_, ?_⟩
  · repeat' first | exact .nil | refine .other (by decide) ?_
  · exact .line (l := "G1 X10 F10".toList) (by decide) (.line (l := "G1 X0".toList) (by decide) .none)
  · exact .cons (Or.inr rfl) (.cons (Or.inr rfl) .nil)

theorem Demo.whole_workable : Workable Demo.num (Demo.printerAt 20 2 35 200 10) Demo.whole where
  settings := by norm_num [Demo.printerAt]
  feed := by simp [Demo.whole, Line.value, Demo.num]
  acc := by simp [Demo.whole]
  jerk := by simp [Demo.whole]
  wait := by simp [Demo.whole, Line.wait]
  warm := by
    intro pre l post he hl
    have : l ∈ Demo.whole := by rw [he]; simp
    simp only [Demo.whole, List.mem_cons, List.not_mem_nil, or_false] at this
    subst this
    simp [Line.wait] at hl
  moves := by
    refine ⟨_, List.mem_cons_self, fun h => ?_⟩
    have := congrArg Vec4.x h
    simp [Printer.exec, Printer.point, Line.value, Demo.num, Demo.printerAt, letter, Printer.abs] at this

theorem Demo.halves_workable : Workable Demo.num (Demo.printerAt 20 2 35 200 10) Demo.halves where
  settings := by norm_num [Demo.printerAt]
  feed := by simp [Demo.halves, Line.value, Demo.num]
  acc := by simp [Demo.halves]
  jerk := by simp [Demo.halves]
  wait := by simp [Demo.halves, Line.wait]
  warm := by
    intro pre l post he hl
    have : l ∈ Demo.halves := by rw [he]; simp
    simp only [Demo.halves, List.mem_cons, List.not_mem_nil, or_false] at this
    rcases this with rfl | rfl <;> simp [Line.wait] at hl
  moves := by
    refine ⟨_, List.mem_cons_self, fun h => ?_⟩
    have := congrArg Vec4.x h
    norm_num [Printer.exec, Printer.point, Line.value, Demo.num, Demo.printerAt, letter, Printer.abs] at this

theorem Demo.whole_doings : (Demo.printerAt 20 2 35 200 10).doings Demo.num Demo.whole = [⟨⟨0, 2, 3, 4⟩, 1 / 6, 200, 10, none⟩] := by
  simp [Printer.doings, Demo.whole, Line.wait, Line.value, Demo.num, Printer.exec, Demo.printerAt, Printer.point,
    letter, Printer.abs]
  norm_num

theorem Demo.halves_doings : (Demo.printerAt 20 2 35 200 10).doings Demo.num Demo.halves =
    [⟨⟨10, 2, 3, 4⟩, 1 / 6, 200, 10, none⟩, ⟨⟨0, 2, 3, 4⟩, 1 / 6, 200, 10, none⟩] := by
  simp [Printer.doings, Demo.halves, Line.wait, Line.value, Demo.num, Printer.exec, Demo.printerAt, Printer.point,
    letter, Printer.abs]
  norm_num

/-- `c129_pieces`: the two files. -/
example : ∃ bs bs' t t', simulateFile Demo.num (Demo.setupAt 20 2 35 200 10 "marlin_jd") "G1 X0 F10\n".toList = .ok bs ∧
    simulateFile Demo.num (Demo.setupAt 20 2 35 200 10 "marlin_jd") "G1 X10 F10\nG1 X0\n".toList = .ok bs' ∧
    EndTime (Spec.path bs) t ∧ EndTime (Spec.path bs') t' ∧ |t' - t| ≤ 1e-9 := by
  obtain ⟨bs, t, _, _, h, ht, _⟩ := c69_simulated_as_written Demo.num_floatLike (Demo.at_accepted 20 2 35 200 10 "marlin_jd")
    (Demo.at_printer ..) Demo.whole_lines Demo.whole_workable Demo.whole_file
  obtain ⟨bs', t', _, _, h', ht', _⟩ := c69_simulated_as_written Demo.num_floatLike
    (Demo.at_accepted 20 2 35 200 10 "marlin_jd") (Demo.at_printer ..) Demo.halves_lines Demo.halves_workable Demo.halves_file
  refine ⟨bs, bs', t, t', h, h', ht, ht', ?_⟩
  have hm : (Demo.printerAt 20 2 35 200 10).point = ⟨20, 2, 3, 4⟩ := rfl
  have hfw : firmwareOf (Demo.setupAt 20 2 35 200 10 "marlin_jd") = .marlinJd := rfl
  have hsub : Vec4.sub (⟨0, 2, 3, 4⟩ : Vec4 ℝ) ⟨20, 2, 3, 4⟩ = ⟨-20, 0, 0, 0⟩ := by ext <;> norm_num [Vec4.sub]
  have key := c129_pieces Demo.num_floatLike (Demo.at_accepted 20 2 35 200 10 "marlin_jd")
    (Demo.at_accepted 20 2 35 200 10 "marlin_jd") (Demo.at_printer ..) (Demo.at_printer ..) rfl Demo.whole_lines
    Demo.halves_lines ⟨by norm_num [Demo.printerAt], by simp [Demo.whole, Line.value, Demo.num], by simp [Demo.whole],
      by simp [Demo.whole]⟩ Demo.whole_file Demo.halves_file rfl ?_ ?_ h ht h' ht'
  · rw [Demo.whole_doings, Demo.halves_doings] at key
    have h2 := key.2 (Or.inl ⟨hfw, by simp⟩)
    have h1 := key.1
    rw [abs_le]
    norm_num [doingsSlack] at h1 h2
    constructor <;> norm_num at h1 h2 ⊢ <;> linarith
  · rw [Demo.whole_doings, Demo.halves_doings, hm]
    have e : (⟨10, 2, 3, 4⟩ : Vec4 ℝ) = Vec4.add ⟨20, 2, 3, 4⟩ ((Vec4.sub (⟨0, 2, 3, 4⟩ : Vec4 ℝ) ⟨20, 2, 3, 4⟩).mul (1 / 2)) := by
      rw [hsub]
      ext <;> norm_num [Vec4.add, Vec4.mul]
    rw [e]
    refine InPieces.cut (x := ⟨⟨0, 2, 3, 4⟩, 1 / 6, 200, 10, none⟩) ?_ rfl (by norm_num) (by norm_num) (.keep (.nil _))
    simp only [hsub]
    unfold norm3
    rw [sqrt_real]
    norm_num
  · intro e
    rw [hfw] at e
    cases e

end PyGCD
