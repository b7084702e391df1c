import Verif.Lemmas.SimRead
import Verif.Props.SharedRead

/-!
# C179: a simulation of a DMD while other threads update the device
-/

noncomputable section

namespace PySLM2.SimRead

open Lib DMD SharedDmd SharedRead

/-- **C179.** With patches: the outcome is that of a state which has the dtype and the shape of the state that the device shows at one moment of the
call, and each mirror is what the array of this state has there at this or a later moment of the call. -/
theorem C179_mirrors (d : DMD) (progs : ℕ → List Call) (tasks : ℕ → Task) {r : ℕ} (ht : (tasks r).Complete) (sched : List Who) {o : Outcome}
    (hend : ((World.start d progs).run d tasks sched).Ended r o) :
    ∃ before copy, Moment d tasks (World.start d progs) r sched before ∧ o = (tasks r).outcome d copy ∧
      copy.isFloat = ((World.start d progs).run d tasks before).dmd.state.isFloat ∧
      copy.shape = ((World.start d progs).run d tasks before).dmd.state.shape ∧
      ∀ i j, Inside copy.shape i j → ∃ later, Moment d tasks (World.start d progs) r sched later ∧ before <+: later ∧
        copy.entry i j = (((World.start d progs).run d tasks later).dmd.mem.arrays
          ((World.start d progs).run d tasks before).dmd.mem.cur).entry i j := by
  have := (copyInv_run (d := d) (tasks := tasks) (w0 := World.start d progs) Nat.one_pos (r := r) rfl sched).2
  unfold CopyInv at this
  rw [show ((World.start d progs).run d tasks sched).sims r = .ended o from hend] at this
  obtain ⟨before, copy, k1, k2, k3, k4⟩ := this
  exact ⟨before, copy, k1, k2, k3.1, k3.2, fun i j hij => k4 (i, j) (ht _ _ _ (by rw [← k3.2]; exact hij))⟩

/-- **C179** (partial: no thread makes patches): the fields that `propagate_to_image` computes, and what it raises, are those for the state that the
device shows at one moment of the call, whatever the other threads do meanwhile. -/
theorem C179_whole_partial (d : DMD) {progs : ℕ → List Call} (hp : ∀ i, ∀ c ∈ progs i, ¬ c.isPatch) (tasks : ℕ → Task) {r : ℕ}
    (ht : (tasks r).Complete) (sched : List Who) {o : Outcome} (hend : ((World.start d progs).run d tasks sched).Ended r o) :
    ∃ before, Moment d tasks (World.start d progs) r sched before ∧
      o = (tasks r).outcome d ((World.start d progs).run d tasks before).dmd.state := by
  obtain ⟨before, copy, k1, rfl, k3, k4, k5⟩ := C179_mirrors d progs tasks ht sched hend
  refine ⟨before, k1, outcome_same _ _ (same_of_inside ⟨k3, k4⟩ fun i j hij => ?_)⟩
  rw [← k4] at hij
  obtain ⟨later, -, ⟨l, rfl⟩, m3⟩ := k5 i j hij
  have hq : Quiet (World.start d progs).dmd := ⟨Nat.one_pos, fun _ => rfl, hp⟩
  have hb := (quiet_run (d := d) (tasks := tasks) hq before).1
  rw [m3, run_append, (quiet_run hb l).2 _ hb.cur]
  rfl

/-- **C179.** If the threads only make patches, the outcome is that of a state each of whose mirrors is what the device shows there at a moment of
the call. -/
theorem C179_patches (d : DMD) {progs : ℕ → List Call} (hp : ∀ i, ∀ c ∈ progs i, c.isPatch) (tasks : ℕ → Task) {r : ℕ}
    (ht : (tasks r).Complete) (sched : List Who) {o : Outcome} (hend : ((World.start d progs).run d tasks sched).Ended r o) :
    ∃ copy, o = (tasks r).outcome d copy ∧ copy.isFloat = false ∧ copy.shape = .mat d.slm.Ny d.slm.Nx ∧
      ∀ i < d.slm.Ny, ∀ j < d.slm.Nx, ∃ later, Moment d tasks (World.start d progs) r sched later ∧
        copy.entry i j = ((World.start d progs).run d tasks later).dmd.state.entry i j := by
  obtain ⟨before, copy, k1, k2, k3, k4, k5⟩ := C179_mirrors d progs tasks ht sched hend
  have e := patches_run (d := d) (tasks := tasks) (w := World.start d progs) hp
  have init : ∀ l, Alike ((World.start d progs).run d tasks l).dmd.state d.initialState := by
    intro l
    have key : ((World.start d progs).run d tasks l).dmd.mem.cur < ((World.start d progs).run d tasks l).dmd.mem.next ∧
        0 < ((World.start d progs).run d tasks l).dmd.mem.next ∧
        Alike (((World.start d progs).run d tasks l).dmd.mem.arrays 0) d.initialState := by
      induction l using List.reverseRecOn with
      | nil => exact ⟨Nat.one_pos, Nat.one_pos, rfl, rfl⟩
      | append_singleton l x ih =>
        obtain ⟨i1, i2, i3⟩ := ih
        rw [run_snoc]
        cases x with
        | writer i =>
          obtain ⟨q1, q2, q3⟩ := alike_step (d := d) i1 i
          exact ⟨q1, i2.trans_le q2, (q3 0 i2).trans i3⟩
        | reader r => exact ⟨i1, i2, i3⟩
    have := key.2.2
    rw [SharedDmd.World.state, e l]
    exact this
  have hs : copy.shape = .mat d.slm.Ny d.slm.Nx := k4.trans (init before).2
  refine ⟨copy, k2, k3.trans (init before).1, hs, fun i hi j hj => ?_⟩
  obtain ⟨later, m1, -, m3⟩ := k5 i j (by rw [hs]; exact ⟨hi, hj⟩)
  refine ⟨later, m1, ?_⟩
  rw [m3, SharedDmd.World.state, e before, ← e later]

/-- **C179.** A call of `propagate_to_image` never waits: whatever has happened, it ends if its thread runs, and it does not change the device. -/
theorem C179_ends (d : DMD) (tasks : ℕ → Task) (w : World) (r : ℕ) : ∃ k o, (w.run d tasks (List.replicate k (.reader r))).Ended r o ∧
    (w.run d tasks (List.replicate k (.reader r))).dmd = w.dmd := by
  have still : ∀ k (w : World), (w.run d tasks (List.replicate k (.reader r))).dmd = w.dmd := by
    intro k
    induction k with
    | zero => exact fun _ => rfl
    | succ k ih => exact fun w => ih (w.step d tasks (.reader r))
  have copying : ∀ (left : List (ℕ × ℕ)) (w : World) k copy, w.sims r = .copying k copy left →
      ∃ n o, (w.run d tasks (List.replicate n (.reader r))).Ended r o := by
    intro left
    induction left with
    | nil => exact fun w k copy h => ⟨1, (tasks r).outcome d copy, by simp [World.run, World.Ended, World.step, h, Phase.step]⟩
    | cons q left ih =>
      intro w k copy h
      obtain ⟨n, o, hn⟩ := ih (w.step d tasks (.reader r)) k _ (by simp only [World.step, Function.update_self, h, Phase.step]; rfl)
      exact ⟨n + 1, o, hn⟩
  have : ∃ n o, (w.run d tasks (List.replicate n (.reader r))).Ended r o := by
    cases h : w.sims r with
    | ended o => exact ⟨0, o, h⟩
    | copying k copy left => exact copying left w k copy h
    | ready =>
      obtain ⟨n, o, hn⟩ := copying _ (w.step d tasks (.reader r)) _ _ (by simp only [World.step, Function.update_self, h, Phase.step]; rfl)
      exact ⟨n + 1, o, hn⟩
  obtain ⟨n, o, hn⟩ := this
  exact ⟨n, o, hn, still n w⟩

/-- A simulation without padding, illuminated by a plane wave of amplitude 1; the state is copied row by row. -/
def exTask : Task := ⟨⟨.dmd exShared exShared.initialState, 0, 0, none, none, none⟩, ⟨fun _ => 0, fun _ => 0, 0⟩, .tensor .cplx ⟨.mat 20 40, fun _ _ => 1⟩, positions,
  fun _ _ => false, fun _ _ => .nan⟩

theorem exTask_complete : exTask.Complete := by
  intro s a b h
  change (a, b) ∈ positions s
  cases s with
  | scalar =>
    obtain ⟨rfl, rfl⟩ := h
    simp [positions]
  | mat M N => exact List.mem_of_getElem? (positions_get h.1 h.2)

/-- The output field shows the mirrors. -/
theorem exTask_output {t : Tensor Bool} (hs : t.shape = .mat 20 40) : ∃ out, (exTask.outcome exShared (.bool t)).output = some out ∧
    (exTask.outcome exShared (.bool t)).result = .ok () ∧
    ∀ i < 20, ∀ j < 40, out.get i j = if t.get i j then 1 else 0 := by
  have hst : DMD.stateTensor (.bool t) = .ok (t.map fun b => if b then 1 else 0) := rfl
  have hmap : Tensor.map2 (fun a b : ℂ => a * b) ⟨.mat 20 40, fun _ _ => 1⟩ (t.map fun b => if b then 1 else 0) =
      .ok ⟨.mat 20 40, fun i j => 1 * (t.map fun b => if b then (1 : ℂ) else 0).at_ i j⟩ := by
    simp only [Tensor.map2, Tensor.map, hs]
    rfl
  have hsc : exShared.slm.scaling ≠ 0 := by norm_num [exShared, DMD.new, SLM.scaling]
  refine ⟨⟨.mat 20 40, Sim.pad2 20 40 0 0 fun i j => 1 * (t.map fun b => if b then (1 : ℂ) else 0).at_ i j⟩, ?_, ?_, fun i hi j hj => ?_⟩
  · simp [Task.outcome, Sim.propagate, exTask, SLM.profileToTensor, castTo, Sim.pad, Device.stateTensor, hst, hmap, Sim.imageOf, Device.slm, hsc]
  · simp [Task.outcome, Sim.propagate, exTask, SLM.profileToTensor, castTo, Sim.pad, Device.stateTensor, hst, hmap, Sim.imageOf, Device.slm, hsc]
  · simp [Sim.pad2, hi, hj, Tensor.at_, Tensor.map, hs]

theorem positions_nodup (M N : ℕ) : (positions (.mat M N)).Nodup := by
  simp only [positions]
  rw [List.nodup_flatMap]
  refine ⟨fun i _ => List.nodup_range.map fun a b h => (Prod.mk.inj h).2, ?_⟩
  refine List.nodup_range.imp fun {a b} hab => ?_
  simp only [Function.onFun, List.disjoint_left, List.mem_map]
  rintro q ⟨j, -, rfl⟩ ⟨j', -, h⟩
  exact hab (Prod.mk.inj h).1.symm

theorem ex_prefix {before : List Who} {k m : ℕ} (hb : before <+: List.replicate 2 (.reader 0) ++ List.replicate k (.writer 0) ++
    List.replicate m (.reader 0)) : ∃ n ≤ k, writersOf before = List.replicate n 0 := by
  have hrep : ∀ n, writersOf (List.replicate n (.reader 0)) = [] := by
    intro n
    induction n with
    | zero => rfl
    | succ n ih => exact ih
  have hrep' : ∀ n, writersOf (List.replicate n (.writer 0)) = List.replicate n 0 := by
    intro n
    induction n with
    | zero => rfl
    | succ n ih => exact congrArg (List.cons 0) ih
  have h1 : writersOf before <+: List.replicate k 0 := by
    have happ : ∀ l l' : List Who, writersOf (l ++ l') = writersOf l ++ writersOf l' := fun l l' => List.filterMap_append
    have : writersOf before <+: writersOf _ := hb.filterMap _
    rw [happ, happ, hrep, hrep, hrep'] at this
    simpa using this
  refine ⟨(writersOf before).length, by simpa using h1.length_le, ?_⟩
  exact List.eq_replicate_iff.mpr ⟨rfl, fun b hb => List.eq_of_mem_replicate (h1.subset hb)⟩

/-- A simulation that runs alone ends. -/
theorem copy_alone (d : DMD) (tasks : ℕ → Task) {w : World} {r k : ℕ} {c t : Tensor Bool} {left : List (ℕ × ℕ)}
    (h : w.sims r = .copying k (.bool c) left) (hk : w.dmd.mem.arrays k = .bool t) :
    ∃ c' : Tensor Bool, (w.run d tasks (List.replicate (left.length + 1) (.reader r))).Ended r ((tasks r).outcome d (.bool c')) ∧
      c'.shape = c.shape ∧ (∀ q ∈ left, c'.get q.1 q.2 = t.get q.1 q.2) ∧ ∀ i j, (i, j) ∉ left → c'.get i j = c.get i j := by
  induction left generalizing w c with
  | nil => exact ⟨c, by simp [World.run, World.Ended, World.step, h, Phase.step], rfl, by simp, fun _ _ _ => rfl⟩
  | cons q left ih =>
    obtain ⟨c', h1, h2, h3, h4⟩ := ih (w := w.step d tasks (.reader r))
      (c := ⟨c.shape, fun a b => if a = q.1 ∧ b = q.2 then t.get q.1 q.2 else c.get a b⟩)
      (by simp only [World.step, Function.update_self, h, Phase.step, hk, writeMirror]) hk
    refine ⟨c', h1, h2, fun q' hq' => ?_, fun i j hij => ?_⟩
    · by_cases hm : q' ∈ left
      · exact h3 q' hm
      · rcases List.mem_cons.mp hq' with rfl | hq'
        · rw [h4 _ _ hm]; simp
        · exact absurd hq' hm
    · rw [h4 i j fun hm => hij (List.mem_cons_of_mem _ hm)]
      refine if_neg fun e => hij ?_
      rw [e.1, e.2]
      exact List.mem_cons_self

/-- **C179**, the full property is false: while one thread makes a patch of two mirrors, a simulation can compute the fields of a state that the
device never shows. -/
theorem C179_refuted : ∃ (d : DMD) (progs : ℕ → List Call) (tasks : ℕ → Task) (sched : List Who) (o : Outcome),
    (tasks 0).Complete ∧ ((World.start d progs).run d tasks sched).Ended 0 o ∧ o.result = .ok () ∧
    ∀ before, before <+: sched → o.output ≠ ((tasks 0).outcome d ((World.start d progs).run d tasks before).dmd.state).output := by
  obtain ⟨s1, t, t1, t2⟩ := ex_states
  obtain ⟨rest, hpos, hlen⟩ := positions_head 19 38
  norm_num only at hpos
  set w1 := (World.start exShared exProg).run exShared (fun _ => exTask) (List.replicate 2 (.reader 0)) with hw1
  have hr1 : ∃ c : Tensor Bool, w1.sims 0 = .copying 0 (.bool c) ((0, 1) :: rest) ∧ c.shape = .mat 20 40 ∧ c.get 0 0 = false := by
    have : exShared.slm.Ny = 20 ∧ exShared.slm.Nx = 40 := ⟨rfl, rfl⟩
    rw [hw1]
    simp only [World.run, List.replicate, List.foldl_cons, List.foldl_nil, World.start, World.step, SharedDmd.World.start, Function.update_self,
      Phase.step, initialState, allOff, this.1, this.2, exTask, StateArr.shape, Task.fresh]
    rw [hpos]
    simp only [Phase.step, writeMirror]
    exact ⟨_, rfl, rfl, rfl⟩
  obtain ⟨c, hr1, hc1, hc2⟩ := hr1
  set w2 := w1.run exShared (fun _ => exTask) (List.replicate 4 (.writer 0)) with hw2
  have hr2 : w2.sims 0 = .copying 0 (.bool c) ((0, 1) :: rest) := by rw [← hr1]; rfl
  have hd2 : w2.dmd = (SharedDmd.World.start exShared exProg).run exShared (List.replicate 4 0) := by
    rw [hw2, run_dmd, hw1, run_dmd]; rfl
  obtain ⟨c', hend, g1, g2, g3⟩ := copy_alone exShared (fun _ => exTask) hr2 (t := t) (by rw [hd2]; exact t1)
  rw [hw2, hw1, ← run_append, ← run_append] at hend
  have hnd : (0, 0) ∉ ((0, 1) :: rest : List (ℕ × ℕ)) := by
    have : (positions (.mat 20 40)).Nodup := positions_nodup 20 40
    rw [hpos] at this
    exact (List.nodup_cons.mp this).1
  have v0 : c'.get 0 0 = false := (g3 0 0 hnd).trans hc2
  have v1 : c'.get 0 1 = true := (g2 (0, 1) List.mem_cons_self).trans t2
  obtain ⟨out, o1, o2, o3⟩ := exTask_output (g1.trans hc1)
  refine ⟨exShared, exProg, fun _ => exTask, _, _, exTask_complete, hend, o2, fun before hb he => ?_⟩
  obtain ⟨n, hn, hw⟩ := ex_prefix (k := 4) (m := ((0, 1) :: rest).length + 1) (before := before) (by rw [List.append_assoc]; exact hb)
  obtain ⟨t', k1, k2, k3, k4⟩ := s1 n hn
  rw [run_dmd, hw, SharedDmd.World.state] at he
  have : ((World.start exShared exProg).dmd.run exShared (List.replicate n 0)) =
    (SharedDmd.World.start exShared exProg).run exShared (List.replicate n 0) := rfl
  rw [this, k2, k1] at he
  obtain ⟨out', p1, -, p3⟩ := exTask_output k3
  rw [o1, p1, Option.some.injEq] at he
  subst he
  have b0 := (o3 0 (by norm_num) 0 (by norm_num)).symm.trans (p3 0 (by norm_num) 0 (by norm_num))
  have b1 := (o3 0 (by norm_num) 1 (by norm_num)).symm.trans (p3 0 (by norm_num) 1 (by norm_num))
  have b1' : t'.get 0 1 = true := by
    by_contra hne
    simp [v1, hne] at b1
  simp [v0, k4 b1'] at b0

/-- C179: the hypotheses of C179_whole_partial hold for a thread that switches the mirrors on after the simulation has looked up the state and
copied a mirror: the simulation ends, and no light leaves the device. -/
example : let progs : ℕ → List Call := fun i => if i = 0 then [.on] else []
    (∀ i, ∀ c ∈ progs i, ¬ c.isPatch) ∧ exTask.Complete ∧
    ∃ n o out, ((World.start exShared progs).run exShared (fun _ => exTask)
        (List.replicate 2 (.reader 0) ++ ([.writer 0] ++ List.replicate n (.reader 0)))).Ended 0 o ∧
      o.output = some out ∧ out.get 3 7 = 0 := by
  intro progs
  refine ⟨fun i c hc => ?_, exTask_complete, ?_⟩
  · simp only [progs] at hc
    split_ifs at hc
    · rw [List.mem_singleton.mp hc]; exact fun h => h
    · simp at hc
  · obtain ⟨rest, hpos, hlen⟩ := positions_head 19 38
    norm_num only at hpos
    set w1 := (World.start exShared progs).run exShared (fun _ => exTask) (List.replicate 2 (.reader 0)) with hw1
    have hr1 : ∃ c : Tensor Bool, w1.sims 0 = .copying 0 (.bool c) ((0, 1) :: rest) ∧ c.shape = .mat 20 40 ∧ c.get 3 7 = false := by
      have : exShared.slm.Ny = 20 ∧ exShared.slm.Nx = 40 := ⟨rfl, rfl⟩
      rw [hw1]
      simp only [World.run, List.replicate, List.foldl_cons, List.foldl_nil, World.start, World.step, SharedDmd.World.start, Function.update_self,
        Phase.step, initialState, allOff, this.1, this.2, exTask, StateArr.shape, Task.fresh]
      rw [hpos]
      simp only [Phase.step, writeMirror]
      exact ⟨_, rfl, rfl, rfl⟩
    obtain ⟨c, hr1, hc1, hc2⟩ := hr1
    set w2 := w1.run exShared (fun _ => exTask) [.writer 0] with hw2
    have hr2 : w2.sims 0 = .copying 0 (.bool c) ((0, 1) :: rest) := by rw [← hr1]; rfl
    have hd2 : w2.dmd.mem.arrays 0 = .bool ⟨.mat 20 40, fun _ _ => false⟩ := by
      rw [hw2, run_dmd, hw1, run_dmd]; rfl
    obtain ⟨c', hend, g1, g2, g3⟩ := copy_alone exShared (fun _ => exTask) hr2 hd2
    rw [hw2, hw1, ← run_append, ← run_append] at hend
    obtain ⟨out, o1, -, o3⟩ := exTask_output (g1.trans hc1)
    refine ⟨_, _, out, by rw [← List.append_assoc]; exact hend, o1, ?_⟩
    rw [o3 3 (by norm_num) 7 (by norm_num)]
    have : c'.get 3 7 = false := by
      by_cases hm : (3, 7) ∈ ((0, 1) :: rest : List (ℕ × ℕ))
      · exact g2 (3, 7) hm
      · exact (g3 3 7 hm).trans hc2
    simp [this]

end PySLM2.SimRead
