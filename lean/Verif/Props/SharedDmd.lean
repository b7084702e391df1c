import Verif.Lemmas.SharedDmd

/-!
# C165: threads that update one DMD

The full property, that threads updating one DMD always leave it as if their calls had been made one after the other, is false: see
`C165_refuted`.  It holds if patches of different threads do not overlap.
-/

noncomputable section

namespace PySLM2.SharedDmd

open Lib DMD

/-- **C165**, proved part.  Any number of threads make calls of the binary methods on one new device, patches of different threads having no
mirror in common.  For every schedule and at every moment: the calls of each thread take effect in its order; `dmd_state` is what the
calls begun so far give one after the other, at every mirror that is not still to be written by a patch under way; and when all threads have ended it
is that at every mirror.  Missing: patches of different threads that overlap. -/
theorem C165_threads_partial {d : DMD} (hx : d.slm.Nx ≠ 1) (hy : d.slm.Ny ≠ 1) {progs : ℕ → List Call}
    (hb : ∀ i, ∀ c ∈ progs i, c.binary) (hsep : Separate d progs) (sched : List ℕ) :
    let w := (World.start d progs).run d sched
    let l := history d (World.start d progs) sched
    (∀ i, callsOf i l ++ (w.threads i).todo = progs i) ∧
    (∃ t t' : Tensor Bool, w.state = .bool t ∧ d.runCalls d.initialState (l.map Prod.snd) = .bool t' ∧
      t.shape = .mat d.slm.Ny d.slm.Nx ∧ t'.shape = .mat d.slm.Ny d.slm.Nx ∧
      ∀ a < d.slm.Ny, ∀ b < d.slm.Nx, ¬ w.Pending a b → t.get a b = t'.get a b) ∧
    (w.Ended → (∀ i, callsOf i l = progs i) ∧ w.state.Same (d.runCalls d.initialState (l.map Prod.snd))) := by
  intro w l
  have inv := inv_run hx hy hb hsep sched (inv_start d progs)
  rw [List.nil_append] at inv
  have hcs : ∀ c ∈ l.map Prod.snd, c.binary := by
    intro c hc
    obtain ⟨⟨i, c'⟩, hq, rfl⟩ := List.mem_map.mp hc
    refine hb i _ ?_
    rw [← inv.calls i]
    exact List.mem_append_left _ (List.mem_filterMap.mpr ⟨_, hq, if_pos rfl⟩)
  obtain ⟨t', e', s', g'⟩ := C105_last_writer hx hy hcs
  obtain ⟨t, e, s⟩ := inv.arrays w.mem.cur
  refine ⟨inv.calls, ⟨t, t', e, e', s, s', fun a ha b hb' hp => ?_⟩, fun hend => ⟨fun i => ?_, ?_⟩⟩
  · rw [g']; exact inv.shown a ha b hb' hp t e
  · have := inv.calls i
    rwa [(hend i).1, List.append_nil] at this
  · rw [show w.state = .bool t from e, e']
    refine ⟨s.trans s'.symm, ?_⟩
    rw [s]
    intro a ha b hb'
    rw [g']
    refine inv.shown a ha b hb' ?_ t e
    rintro ⟨i, c, p1, -⟩
    rw [(hend i).2] at p1
    cases p1

/-- **C165.** Threads that make no patches: at every moment `dmd_state` is at every mirror what the calls begun so far give one after the
other, so that no mixture of two patterns is ever shown. -/
theorem C165_whole {d : DMD} (hx : d.slm.Nx ≠ 1) (hy : d.slm.Ny ≠ 1) {progs : ℕ → List Call}
    (hb : ∀ i, ∀ c ∈ progs i, c.binary ∧ ¬ c.isPatch) (sched : List ℕ) :
    ((World.start d progs).run d sched).state.Same
      (d.runCalls d.initialState ((history d (World.start d progs) sched).map Prod.snd)) := by
  have nocover : ∀ {c : Call}, ¬ c.isPatch → ∀ a b, ¬ covers c a b := by
    intro c hc a b h
    cases c with
    | patch => exact hc trivial
    | off => exact h
    | on => exact h
    | setGrating => exact h
    | calculate => exact h
  have hsep : Separate d progs := fun i j _ c hc _ _ a _ b _ h => nocover (hb i c hc).2 a b h.1
  have inv := inv_run hx hy (fun i c hc => (hb i c hc).1) hsep sched (inv_start d progs)
  obtain ⟨h1, ⟨t, t', e, e', s, s', g⟩, -⟩ := C165_threads_partial hx hy (fun i c hc => (hb i c hc).1) hsep sched
  rw [e, e']
  refine ⟨s.trans s'.symm, ?_⟩
  rw [s]
  intro a ha b hb'
  refine g a ha b hb' ?_
  rintro ⟨i, c, p1, -, p3⟩
  obtain ⟨-, n, -, k⟩ := inv.copies i c p1
  obtain ⟨-, -, ⟨c', k3, k4⟩, -⟩ := k a b p3
  refine nocover (hb i c' ?_).2 a b k4
  rw [← h1 i]
  exact List.mem_append_left _ k3

/-- **C165.** Threads whose patches may overlap: when all threads have ended every mirror shows what one of the calls wrote to it, and the
calls begun later that also wrote to it are patches of other threads; or it is off and no call wrote to it.  In particular a mirror never shows
anything else, each thread sees the effects of its own calls in their order, and calls that assign the whole array undo what was begun before. -/
theorem C165_mirrors {d : DMD} (hx : d.slm.Nx ≠ 1) (hy : d.slm.Ny ≠ 1) {progs : ℕ → List Call}
    (hb : ∀ i, ∀ c ∈ progs i, c.binary) (sched : List ℕ) (hend : ((World.start d progs).run d sched).Ended) :
    let l := history d (World.start d progs) sched
    (∀ i, callsOf i l = progs i) ∧
    ∃ t : Tensor Bool, ((World.start d progs).run d sched).state = .bool t ∧ t.shape = .mat d.slm.Ny d.slm.Nx ∧
      ∀ a < d.slm.Ny, ∀ b < d.slm.Nx,
        (∃ l1 i c l2, l = l1 ++ (i, c) :: l2 ∧ d.writes a b c = some (t.get a b) ∧
          ∀ q ∈ l2, d.writes a b q.2 ≠ none → q.2.isPatch ∧ q.1 ≠ i) ∨
        (t.get a b = false ∧ ∀ q ∈ l, d.writes a b q.2 = none) := by
  intro l
  have inv := inv'_run hx hy hb sched (inv'_start d progs)
  rw [List.nil_append] at inv
  obtain ⟨t, e, s⟩ := inv.arrays ((World.start d progs).run d sched).mem.cur
  have hp : ∀ i a b, ¬ PendingBy ((World.start d progs).run d sched) i a b := by
    rintro i a b ⟨c, p1, -⟩
    rw [(hend i).2] at p1
    cases p1
  refine ⟨fun i => ?_, t, e, s, fun a ha b hb' => ?_⟩
  · have := inv.calls i
    rwa [(hend i).1, List.append_nil] at this
  · obtain ⟨l1, i, c, l2, k1, k2, k3⟩ | ⟨k1, k2⟩ := inv.shown a ha b hb' t e
    · exact Or.inl ⟨l1, i, c, l2, k1, k2, fun q hq hw => ⟨(k3 q hq hw).1, fun h => hp _ _ _ ((k3 q hq hw).2 h)⟩⟩
    · refine Or.inr ⟨k1, fun q hq => ?_⟩
      by_contra hw
      exact hp _ _ _ (k2 q hq hw)

/-- **C165.** No thread ever waits for another: whatever has happened, a thread that runs alone ends, after which it makes no further
changes. -/
theorem C165_ends (d : DMD) (w : World) (i : ℕ) :
    ∃ k, ((w.run d (List.replicate k i)).threads i).todo = [] ∧ ((w.run d (List.replicate k i)).threads i).copy = none ∧
      (∀ j ≠ i, (w.run d (List.replicate k i)).threads j = w.threads j) ∧
      (w.run d (List.replicate k i)).step d i = w.run d (List.replicate k i) := by
  have others : ∀ k (w : World), ∀ j ≠ i, (w.run d (List.replicate k i)).threads j = w.threads j := by
    intro k
    induction k with
    | zero => exact fun _ _ _ => rfl
    | succ k ih =>
      intro w j hj
      rw [List.replicate_succ]
      exact (ih (w.step d i) j hj).trans (Function.update_of_ne hj ..)
  have done : ∀ {w : World}, (w.threads i).todo = [] → (w.threads i).copy = none → w.step d i = w := by
    rintro ⟨m, th⟩ h1 h2
    cases hth : th i with
    | mk todo copy =>
      simp only [hth] at h1 h2
      subst h1; subst h2
      simp only [World.step, stepThread, hth]
      rw [← hth, Function.update_eq_self]
  have idle : ∀ (todo : List Call) (w : World), (w.threads i) = ⟨todo, none⟩ →
      ∃ k, ((w.run d (List.replicate k i)).threads i).todo = [] ∧ ((w.run d (List.replicate k i)).threads i).copy = none := by
    have copying : ∀ (todo : List Call), (∀ (w : World), (w.threads i) = ⟨todo, none⟩ →
        ∃ k, ((w.run d (List.replicate k i)).threads i).todo = [] ∧ ((w.run d (List.replicate k i)).threads i).copy = none) →
        ∀ (left : List (ℕ × ℕ)) (w : World) (array : ℕ) (values : StateArr), (w.threads i) = ⟨todo, some ⟨array, values, left⟩⟩ →
        ∃ k, ((w.run d (List.replicate k i)).threads i).todo = [] ∧ ((w.run d (List.replicate k i)).threads i).copy = none := by
      intro todo ih left
      induction left with
      | nil =>
        intro w array values h
        obtain ⟨k, hk⟩ := ih (w.step d i) (by simp [World.step, stepThread, h])
        exact ⟨k + 1, hk⟩
      | cons q left ihl =>
        intro w array values h
        obtain ⟨k, hk⟩ := ihl (w.step d i) array values (by simp [World.step, stepThread, h])
        exact ⟨k + 1, hk⟩
    intro todo
    induction todo with
    | nil => exact fun w h => ⟨0, congrArg Thread.todo h, congrArg Thread.copy h⟩
    | cons c cs ih =>
      intro w h
      cases hb : (begin d w.mem c).2 with
      | none =>
        obtain ⟨k, hk⟩ := ih (w.step d i) (by simp [World.step, stepThread, h, hb])
        exact ⟨k + 1, hk⟩
      | some cp =>
        obtain ⟨k, hk⟩ := copying cs ih cp.left (w.step d i) cp.array cp.values (by simp [World.step, stepThread, h, hb])
        exact ⟨k + 1, hk⟩
  have : ∃ k, ((w.run d (List.replicate k i)).threads i).todo = [] ∧ ((w.run d (List.replicate k i)).threads i).copy = none := by
    cases h : w.threads i with
    | mk todo copy =>
      cases copy with
      | none => exact idle todo w h
      | some cp =>
        obtain ⟨array, values, left⟩ := cp
        induction left generalizing w with
        | nil =>
          obtain ⟨k, hk⟩ := idle todo (w.step d i) (by simp [World.step, stepThread, h])
          exact ⟨k + 1, hk⟩
        | cons q left ihl =>
          obtain ⟨k, hk⟩ := ihl (w.step d i) (by simp [World.step, stepThread, h])
          exact ⟨k + 1, hk⟩
  obtain ⟨k, h1, h2⟩ := this
  exact ⟨k, h1, h2, others k w, done h1 h2⟩

/-! ## Overlapping patches -/

/-- A device of 20 rows of 40 mirrors whose grating lines run along the rows, ten rows apart. -/
def exShared : DMD := DMD.new ⟨3, 5, 40, 20, 2⟩ 10 (Real.pi / 2) false

/-- A patch of the given amplitude that covers the first two mirrors of the device. -/
def exPatch (amp : ℝ) : Call :=
  .patch ⟨fun _ => 0, fun _ => 0, 0⟩ 0 (1 / 2) (.num (.real amp)) (.num (.real 0)) (.num (.real 0)) (6 / 5) "simple" {} fun _ _ => 0

theorem ex_mirrors : maskMirrors exShared 0 (1 / 2) (6 / 5) = [(0, 0), (0, 1)] := by
  classical
  unfold maskMirrors
  rw [show exShared.slm.Ny = 19 + 1 from rfl, show exShared.slm.Nx = 38 + 1 + 1 from rfl, List.range_succ_eq_map (n := 19),
    List.flatMap_cons, List.filter_append, List.range_succ_eq_map (n := 38 + 1), List.range_succ_eq_map (n := 38)]
  have rest : List.filter (fun q : ℕ × ℕ => decide (circularMask 0 (1 / 2) (6 / 5) q.1 q.2))
      (List.flatMap (fun a => List.map (fun b => (a, b)) (0 :: List.map Nat.succ (0 :: List.map Nat.succ (List.range 38))))
        (List.map Nat.succ (List.range 19))) = [] := by
    rw [List.filter_eq_nil_iff]
    rintro ⟨a, b⟩ hq
    obtain ⟨a', ha, hb⟩ := List.mem_flatMap.mp hq
    obtain ⟨a'', -, rfl⟩ := List.mem_map.mp ha
    obtain ⟨b', -, hb⟩ := List.mem_map.mp hb
    cases hb
    have h0 : (0 : ℝ) ≤ a'' := Nat.cast_nonneg _
    rw [decide_eq_true_eq, circularMask, not_lt]
    push_cast
    nlinarith [sq_nonneg ((b : ℝ) - 1 / 2)]
  rw [rest, List.append_nil, List.map_cons, List.map_cons, List.map_cons, List.filter_cons_of_pos, List.filter_cons_of_pos,
    List.filter_eq_nil_iff.mpr]
  · rintro ⟨a, b⟩ hq
    simp only [List.map_map, List.mem_map, Function.comp, Prod.mk.injEq] at hq
    obtain ⟨b', -, rfl, rfl⟩ := hq
    have h0 : (0 : ℝ) ≤ b' := Nat.cast_nonneg _
    rw [decide_eq_true_eq, circularMask, not_lt]
    push_cast
    nlinarith
  · norm_num [circularMask]
  · norm_num [circularMask]

theorem ex_grating {amp : ℝ} (ha : amp = 0 ∨ amp = 1) : ∃ n : Tensor Bool,
    exShared.gratingOfArgs ⟨fun _ => 0, fun _ => 0, 0⟩ (.num (.real amp)) (.num (.real 0)) (.num (.real 0)) "simple" {} (fun _ _ => 0) =
      .ok (.bool n) ∧ n.shape = .mat 20 40 ∧ n.get 0 0 = decide (amp = 1) ∧ n.get 0 1 = decide (amp = 1) := by
  have ga : GratingArgs exShared ⟨fun _ => 0, fun _ => 0, 0⟩ (.num (.real amp)) (.num (.real 0)) (.num (.real 0))
      (fun _ _ => amp) (fun _ _ => 0) (fun _ _ => 0) := by
    refine ⟨⟨_, rfl, rfl, fun i _ j _ => ?_⟩, ⟨_, rfl, rfl, fun i _ j _ => ?_⟩,
      ⟨_, rfl, rfl, fun i _ j _ => ?_⟩⟩ <;> simp [Tensor.at_, Tensor.map, Tensor.scalar]
  obtain ⟨n, n1, n2, n3⟩ := C29_consequences ga (by norm_num [exShared, DMD.new]) {} (fun _ _ => 0)
  have det : ∀ j, 0 < Real.cos (exShared.detuning (fun _ _ => 0) (fun _ _ => 0) 0 j) := by
    intro j
    have : exShared.detuning (fun _ _ => 0) (fun _ _ => 0) 0 j = 2 * Real.pi := by
      simp only [detuning, carrier, exShared, DMD.new, SLM.fourierGrid, SLM.fourierX, SLM.fourierY, SLM.indexToCoord,
        Real.cos_pi_div_two, Real.sin_pi_div_two]
      norm_num
    rw [this, Real.cos_two_pi]
    exact one_pos
  refine ⟨n, ?_, n2, ?_, ?_⟩
  · unfold setDmdGratingState at n1
    split at n1
    · cases n1
    · rename_i g hg
      rw [hg]
      injection n1 with n1
      injection n1 with n1
      rw [n1]
  all_goals
    rcases ha with rfl | rfl
    · rw [(n3 0 (by norm_num [exShared, DMD.new]) _ (by norm_num [exShared, DMD.new])).1 (by norm_num)]
      norm_num
    · rw [((n3 0 (by norm_num [exShared, DMD.new]) _ (by norm_num [exShared, DMD.new])).2 rfl).mpr (det _)]
      norm_num

theorem ex_begin {amp : ℝ} (ha : amp = 0 ∨ amp = 1) {m : Memory} {t : Tensor Bool} (hm : m.arrays m.cur = .bool t)
    (ht : t.shape = .mat 20 40) : ∃ n : Tensor Bool, begin exShared m (exPatch amp) = (m, some ⟨m.cur, .bool n, [(0, 0), (0, 1)]⟩) ∧
      n.get 0 0 = decide (amp = 1) ∧ n.get 0 1 = decide (amp = 1) := by
  classical
  obtain ⟨n, n1, n2, n3, n4⟩ := ex_grating ha
  refine ⟨⟨t.shape, fun a b => if circularMask 0 (1 / 2) (6 / 5) a b then n.get a b else t.get a b⟩, ?_, ?_, ?_⟩
  · have hs : (m.arrays m.cur).shape = .mat exShared.slm.Ny exShared.slm.Nx := by rw [hm]; exact ht
    simp only [begin, exPatch, call, circularPatch, n1]
    rw [if_pos ⟨n2, hs⟩, hm, ex_mirrors]
    rfl
  · rw [← n3]; exact if_pos (by norm_num [circularMask])
  · rw [← n4]; exact if_pos (by norm_num [circularMask])

theorem ex_writes {amp : ℝ} (ha : amp = 0 ∨ amp = 1) :
    exShared.writes 0 0 (exPatch amp) = some (decide (amp = 1)) ∧ exShared.writes 0 1 (exPatch amp) = some (decide (amp = 1)) := by
  obtain ⟨n, n1, -, n3, n4⟩ := ex_grating ha
  have hs : ∀ a b, exShared.shows (.setGrating ⟨fun _ => 0, fun _ => 0, 0⟩ (.num (.real amp)) (.num (.real 0)) (.num (.real 0)) "simple" {}
      fun _ _ => 0) a b = some (n.get a b) := fun a b => by simp only [shows, call, setDmdGratingState, n1]
  constructor
  · rw [exPatch, writes, hs, n3, if_pos ((circularMask_iff _ _ _ _ _).mp (by norm_num [circularMask]))]
  · rw [exPatch, writes, hs, n4, if_pos ((circularMask_iff _ _ _ _ _).mp (by norm_num [circularMask]))]

/-- Two threads, each of which makes one patch at the same place, with amplitudes 1 and 0. -/
def exProgs (i : ℕ) : List Call := if i = 0 then [exPatch 1] else if i = 1 then [exPatch 0] else []

/-- The state both threads leave behind when thread 1 makes its whole patch after the first mirror that thread 0 writes. -/
theorem ex_run : ∃ t : Tensor Bool, ((World.start exShared exProgs).run exShared [0, 1, 0, 1, 1, 1, 0, 0]).state = .bool t ∧
    t.get 0 0 = false ∧ t.get 0 1 = true ∧ ((World.start exShared exProgs).run exShared [0, 1, 0, 1, 1, 1, 0, 0]).Ended := by
  obtain ⟨p, p1, p2, p3⟩ := ex_begin (Or.inr rfl) (m := ⟨fun _ => exShared.initialState, 0, 1⟩) rfl rfl
  obtain ⟨q, q1, q2, q3⟩ := ex_begin (Or.inl rfl) (m := ⟨fun _ => exShared.initialState, 0, 1⟩) rfl rfl
  have e0 : ((World.start exShared exProgs).step exShared 0) = ⟨⟨fun _ => exShared.initialState, 0, 1⟩, fun i =>
      if i = 0 then ⟨[], some ⟨0, .bool p, [(0, 0), (0, 1)]⟩⟩ else if i = 1 then ⟨[exPatch 0], none⟩ else ⟨[], none⟩⟩ := by
    simp only [World.step, World.start, stepThread, exProgs, if_true, p1, World.mk.injEq, true_and]
    funext i
    by_cases h0 : i = 0
    · subst h0; simp
    · by_cases h1 : i = 1
      · subst h1; simp
      · simp [Function.update_of_ne h0, h0, h1]
  have e1 : ((World.start exShared exProgs).step exShared 0).step exShared 1 = ⟨⟨fun _ => exShared.initialState, 0, 1⟩, fun i =>
      if i = 0 then ⟨[], some ⟨0, .bool p, [(0, 0), (0, 1)]⟩⟩ else
        if i = 1 then ⟨[], some ⟨0, .bool q, [(0, 0), (0, 1)]⟩⟩ else ⟨[], none⟩⟩ := by
    rw [e0]
    simp only [World.step, stepThread, one_ne_zero, if_false, if_true, q1, World.mk.injEq, true_and]
    funext i
    by_cases h1 : i = 1
    · subst h1; simp
    · simp [Function.update_of_ne h1, h1]
  simp only [World.run, List.foldl_cons, List.foldl_nil]
  rw [e1]
  simp only [World.step, stepThread, World.state, writeMirror, initialState, allOff, World.Ended]
  simp [p2, p3, q2, q3, Function.update_apply]
  intro i
  split_ifs <;> exact ⟨rfl, rfl⟩

/-- **C165**, the full property is false: two threads that make one patch each at the same place, with amplitudes 1 and 0, can leave the first
mirror off and the second on although both patches give the two mirrors the same state, so that no order of the calls explains
`dmd_state`. -/
theorem C165_refuted : ∃ (d : DMD) (progs : ℕ → List Call) (sched : List ℕ),
    (∀ i, ∀ c ∈ progs i, c.binary) ∧ ((World.start d progs).run d sched).Ended ∧
    ∀ l : List (ℕ × Call), (∀ i, callsOf i l = progs i) →
      ¬ ((World.start d progs).run d sched).state.Same (d.runCalls d.initialState (l.map Prod.snd)) := by
  have hbin : ∀ i, ∀ c ∈ exProgs i, ∃ amp, (amp = 0 ∨ amp = 1) ∧ c = exPatch amp := by
    intro i c hc
    unfold exProgs at hc
    split_ifs at hc
    · exact ⟨1, Or.inr rfl, by simpa using hc⟩
    · exact ⟨0, Or.inl rfl, by simpa using hc⟩
    · simp at hc
  have hbin' : ∀ amp, (exPatch amp).binary := fun amp => show "simple" ≠ "ideal" by decide
  obtain ⟨t, t1, t2, t3, t4⟩ := ex_run
  refine ⟨exShared, exProgs, _, fun i c hc => ?_, t4, fun l hl hsame => ?_⟩
  · obtain ⟨amp, -, rfl⟩ := hbin i c hc
    exact hbin' amp
  · have hmem : ∀ i c, (i, c) ∈ l → ∃ amp, (amp = 0 ∨ amp = 1) ∧ c = exPatch amp := by
      intro i c hc
      refine hbin i c ?_
      rw [← hl i]
      exact List.mem_filterMap.mpr ⟨_, hc, if_pos rfl⟩
    have hcs : ∀ c ∈ l.map Prod.snd, c.binary := by
      intro c hc
      obtain ⟨⟨i, c'⟩, hq, rfl⟩ := List.mem_map.mp hc
      obtain ⟨amp, -, h⟩ := hmem i c' hq
      exact h ▸ hbin' amp
    obtain ⟨t', e', s', g'⟩ := C105_last_writer (d := exShared) (by norm_num [exShared, DMD.new]) (by norm_num [exShared, DMD.new]) hcs
    rw [t1, e'] at hsame
    obtain ⟨h1, h2⟩ := hsame
    rw [h1, s'] at h2
    have h00 := h2 0 (by norm_num [exShared, DMD.new]) 0 (by norm_num [exShared, DMD.new])
    have h01 := h2 0 (by norm_num [exShared, DMD.new]) 1 (by norm_num [exShared, DMD.new])
    have hne : t'.get 0 0 = t'.get 0 1 := by
      rw [g', g']
      rcases List.eq_nil_or_concat' l with rfl | ⟨l', ⟨i, c⟩, rfl⟩
      · rfl
      · obtain ⟨amp, ha, rfl⟩ := hmem i c (by simp)
        have k0 := lastOf_append exShared l' i (exPatch amp) 0 0
        have k1 := lastOf_append exShared l' i (exPatch amp) 0 1
        rw [(ex_writes ha).1] at k0
        rw [(ex_writes ha).2] at k1
        exact k0.trans k1.symm
    rw [t2] at h00
    rw [t3] at h01
    rw [← h00, ← h01] at hne
    cases hne

/-- C165_mirrors: the hypotheses hold for the two overlapping patches of `C165_refuted`. -/
example : (exShared.slm.Nx ≠ 1 ∧ exShared.slm.Ny ≠ 1) ∧ (∀ i, ∀ c ∈ exProgs i, c.binary) ∧
    ((World.start exShared exProgs).run exShared [0, 1, 0, 1, 1, 1, 0, 0]).Ended := by
  refine ⟨by norm_num [exShared, DMD.new], fun i c hc => ?_, ?_⟩
  · unfold exProgs at hc
    split_ifs at hc
    · rw [List.mem_singleton.mp hc]; show "simple" ≠ "ideal"; decide
    · rw [List.mem_singleton.mp hc]; show "simple" ≠ "ideal"; decide
    · simp at hc
  · obtain ⟨t, -, -, -, t4⟩ := ex_run
    exact t4

/-- C165: the hypotheses hold for two threads of which one switches the mirrors on and off and makes the patch, and the other one makes gratings. -/
example (h : Profile.Heap) : let progs : ℕ → List Call := fun i =>
      if i = 0 then [.on, exPatch 1, .off] else if i = 1 then [.setGrating h (.num (.real 1)) (.num (.real 0)) (.num (.real 0)) "simple" {} fun _ _ => 0]
      else []
    (∀ i, ∀ c ∈ progs i, c.binary) ∧ Separate exShared progs ∧ (exShared.slm.Nx ≠ 1 ∧ exShared.slm.Ny ≠ 1) := by
  refine ⟨fun i c hc => ?_, fun i j hij c hc c' hc' a ha b hb hcov => ?_, by norm_num [exShared, DMD.new]⟩
  · simp only at hc
    split_ifs at hc
    · simp only [List.mem_cons, List.not_mem_nil, or_false] at hc
      rcases hc with rfl | rfl | rfl
      · trivial
      · show "simple" ≠ "ideal"; decide
      · trivial
    · simp only [List.mem_cons, List.not_mem_nil, or_false] at hc
      subst hc
      show "simple" ≠ "ideal"; decide
    · simp at hc
  · have key : ∀ {i : ℕ} {c : Call}, c ∈ (if i = 0 then [.on, exPatch 1, .off] else if i = 1 then
        [.setGrating h (.num (.real 1)) (.num (.real 0)) (.num (.real 0)) "simple" {} fun _ _ => 0] else [] : List Call) →
        covers c a b → i = 0 := by
      intro i c hc hcov
      split_ifs at hc with h0 h1
      · exact h0
      · simp only [List.mem_cons, List.not_mem_nil, or_false] at hc
        subst hc
        exact hcov.elim
      · simp at hc
    exact hij ((key hc hcov.1).trans (key hc' hcov.2).symm)

end PySLM2.SharedDmd
