import Verif.Lemmas.SharedRead
import Verif.Props.SharedDmd

/-!
# C167: reading the state of a DMD while other threads update it
-/

noncomputable section

namespace PySLM2.SharedRead

open Lib DMD SharedDmd

/-- **C167** (partial: no thread makes patches): what `pack_dmd_state` returns or raises is what it would return or raise for the state that the
device shows at one moment of the call, whatever the other threads do meanwhile (also if they replace the state by a grey one between the test of
the dtype and the packing). -/
theorem C167_pack_partial (d : DMD) {progs : ℕ → List Call} (hp : ∀ i, ∀ c ∈ progs i, ¬ c.isPatch) (sched : List Who) {r : ℕ}
    {result : Except PyErr (List ℕ)} (hend : ((World.start d progs).run d sched).Ended r result) :
    ∃ before, Moment d (World.start d progs) r sched before ∧
      result = packDmdState ((World.start d progs).run d before).dmd.state := by
  have := (readInv_run (d := d) (w0 := World.start d progs) ⟨Nat.one_pos, fun _ => rfl, hp⟩ (r := r) rfl sched).2
  unfold ReadInv at this
  rw [show ((World.start d progs).run d sched).readers r = .ended result from hend] at this
  exact this

/-- **C167.** With patches: there is a moment of the call at which the device shows a boolean state of the size that is packed, and each bit
is what the array of this state has at the mirror at this or a later moment of the call. -/
theorem C167_mirrors (d : DMD) (progs : ℕ → List Call) (sched : List Who) {r : ℕ} {bytes : List ℕ}
    (hend : ((World.start d progs).run d sched).Ended r (.ok bytes)) :
    ∃ before t, Moment d (World.start d progs) r sched before ∧ ((World.start d progs).run d before).dmd.state = .bool t ∧
      ∀ M N, t.shape = .mat M N → bytes.length = (M * N + 7) / 8 ∧ (∀ n, M * N ≤ n → bit bytes n = false) ∧
        ∀ i < M, ∀ j < N, ∃ later t', Moment d (World.start d progs) r sched later ∧ before <+: later ∧
          ((World.start d progs).run d later).dmd.mem.arrays ((World.start d progs).run d before).dmd.mem.cur = .bool t' ∧
          bit bytes (i * N + j) = t'.get i j := by
  have := readInv'_run (d := d) (w0 := World.start d progs) (r := r) rfl sched
  unfold ReadInv' at this
  rw [show ((World.start d progs).run d sched).readers r = .ended (.ok bytes) from hend] at this
  obtain ⟨before, t, k1, k2, bits, rfl, k3⟩ := this
  refine ⟨before, t, k1, k2, fun M N hs => ?_⟩
  rw [hs] at k3
  have hl : bits.length = M * N := k3.length_eq.symm.trans (flatten_length M N Prod.mk)
  refine ⟨by rw [(packBits_spec bits).1, hl], fun n hn => ?_, fun i hi j hj => ?_⟩
  · rw [bit_packBits, List.getD_eq_default _ _ (by omega)]
  · have hg := positions_get hi hj
    obtain ⟨hlt, hg'⟩ := List.getElem?_eq_some_iff.mp hg
    have hlt' : i * N + j < bits.length := by rwa [← k3.length_eq]
    obtain ⟨later, t', m1, m2, m3, m4⟩ := List.forall₂_iff_get.mp k3 |>.2 (i * N + j) hlt hlt'
    refine ⟨later, t', m1, m2, m3, ?_⟩
    rw [bit_packBits, List.getD_eq_getElem _ _ hlt']
    simp only [List.get_eq_getElem, hg'] at m4
    exact m4

/-- **C167.** If the threads only make patches, each bit is what the device shows at this mirror at a moment of the call. -/
theorem C167_patches (d : DMD) {progs : ℕ → List Call} (hp : ∀ i, ∀ c ∈ progs i, c.isPatch) (sched : List Who) {r : ℕ}
    {bytes : List ℕ} (hend : ((World.start d progs).run d sched).Ended r (.ok bytes)) :
    ∃ before t, Moment d (World.start d progs) r sched before ∧ ((World.start d progs).run d before).dmd.state = .bool t ∧
      ∀ M N, t.shape = .mat M N → bytes.length = (M * N + 7) / 8 ∧ (∀ n, M * N ≤ n → bit bytes n = false) ∧
        ∀ i < M, ∀ j < N, ∃ later t', Moment d (World.start d progs) r sched later ∧
          ((World.start d progs).run d later).dmd.state = .bool t' ∧ bit bytes (i * N + j) = t'.get i j := by
  obtain ⟨before, t, k1, k2, k3⟩ := C167_mirrors d progs sched hend
  refine ⟨before, t, k1, k2, fun M N hs => ?_⟩
  obtain ⟨h1, h2, h3⟩ := k3 M N hs
  refine ⟨h1, h2, fun i hi j hj => ?_⟩
  obtain ⟨later, t', m1, -, m3, m4⟩ := h3 i hi j hj
  refine ⟨later, t', m1, ?_, m4⟩
  have e := patches_run (d := d) (w := World.start d progs) hp
  rw [e before, ← e later] at m3
  exact m3

/-- **C167.** A call of `pack_dmd_state` never waits: whatever has happened, it ends if its thread runs. -/
theorem C167_ends (d : DMD) (w : World) (r : ℕ) : ∃ k result, (w.run d (List.replicate k (.reader r))).Ended r result ∧
    (w.run d (List.replicate k (.reader r))).dmd = w.dmd := by
  have still : ∀ k (w : World), (w.run d (List.replicate k (.reader r))).dmd = w.dmd := by
    intro k
    induction k with
    | zero => exact fun _ => rfl
    | succ k ih => exact fun w => ih (w.step d (.reader r))
  have reading : ∀ (left : List (ℕ × ℕ)) (w : World) k bits, w.readers r = .reading k bits left →
      ∃ n result, (w.run d (List.replicate n (.reader r))).Ended r result := by
    intro left w k bits h
    cases ha : w.dmd.mem.arrays k with
    | bool t => exact ⟨_, _, read_alone d h ha⟩
    | float t =>
      cases left with
      | nil => exact ⟨1, _, by simp [World.run, World.Ended, World.step, h, Reader.step]; rfl⟩
      | cons q left => exact ⟨1, _, by simp [World.run, World.Ended, World.step, h, Reader.step, ha]; rfl⟩
  have checked : ∀ (w : World), w.readers r = .checked → ∃ n result, (w.run d (List.replicate n (.reader r))).Ended r result := by
    intro w h
    cases ha : w.dmd.mem.arrays w.dmd.mem.cur with
    | bool t =>
      obtain ⟨n, result, hn⟩ := reading (positions t.shape) (w.step d (.reader r)) w.dmd.mem.cur [] (by simp [World.step, h, Reader.step, ha])
      exact ⟨n + 1, result, hn⟩
    | float t => exact ⟨1, _, by simp [World.run, World.Ended, World.step, h, Reader.step, ha]; rfl⟩
  have : ∃ n result, (w.run d (List.replicate n (.reader r))).Ended r result := by
    cases h : w.readers r with
    | ended res => exact ⟨0, res, h⟩
    | reading k bits left => exact reading left w k bits h
    | checked => exact checked w h
    | ready =>
      cases ha : w.dmd.mem.arrays w.dmd.mem.cur with
      | bool t =>
        obtain ⟨n, result, hn⟩ := checked (w.step d (.reader r)) (by simp [World.step, h, Reader.step, ha])
        exact ⟨n + 1, result, hn⟩
      | float t => exact ⟨1, _, by simp [World.run, World.Ended, World.step, h, Reader.step, ha]; rfl⟩
  obtain ⟨n, result, hn⟩ := this
  exact ⟨n, result, hn, still n w⟩

/-- One thread that makes a patch of two mirrors. -/
def exProg (i : ℕ) : List Call := if i = 0 then [exPatch 1] else []

/-- The states the device goes through while the patch is made: no state has the second mirror on and the first one off, the last one has the
second mirror on. -/
theorem ex_states : (∀ n ≤ 4, ∃ t : Tensor Bool, ((SharedDmd.World.start exShared exProg).run exShared (List.replicate n 0)).mem.arrays 0 = .bool t ∧
    ((SharedDmd.World.start exShared exProg).run exShared (List.replicate n 0)).mem.cur = 0 ∧ t.shape = .mat 20 40 ∧
    (t.get 0 1 = true → t.get 0 0 = true)) ∧
    ∃ t : Tensor Bool, ((SharedDmd.World.start exShared exProg).run exShared (List.replicate 4 0)).mem.arrays 0 = .bool t ∧ t.get 0 1 = true := by
  obtain ⟨p, p1, p2, p3⟩ := ex_begin (Or.inr rfl) (m := ⟨fun _ => exShared.initialState, 0, 1⟩) rfl rfl
  have e0 : ((SharedDmd.World.start exShared exProg).step exShared 0) = ⟨⟨fun _ => exShared.initialState, 0, 1⟩, fun i =>
      if i = 0 then ⟨[], some ⟨0, .bool p, [(0, 0), (0, 1)]⟩⟩ else ⟨[], none⟩⟩ := by
    simp only [SharedDmd.World.step, SharedDmd.World.start, stepThread, exProg, if_true, p1, SharedDmd.World.mk.injEq, true_and]
    funext i
    by_cases h0 : i = 0
    · subst h0; simp
    · simp [Function.update_of_ne h0, h0]
  have e : ∀ n, (SharedDmd.World.start exShared exProg).run exShared (List.replicate (n + 1) 0) =
      SharedDmd.World.run exShared ⟨⟨fun _ => exShared.initialState, 0, 1⟩, fun i =>
        if i = 0 then ⟨[], some ⟨0, .bool p, [(0, 0), (0, 1)]⟩⟩ else ⟨[], none⟩⟩ (List.replicate n 0) := by
    intro n
    rw [List.replicate_succ]
    simp only [SharedDmd.World.run, List.foldl_cons]
    rw [e0]
  refine ⟨fun n hn => ?_, ?_⟩
  · interval_cases n
    · exact ⟨_, rfl, rfl, rfl, fun h => by cases h⟩
    all_goals
      rw [e]
      simp only [List.replicate, SharedDmd.World.run, List.foldl_cons, List.foldl_nil, SharedDmd.World.step, stepThread, writeMirror, initialState,
        allOff]
      simp [p2, p3, exShared, DMD.new]
  · rw [e]
    simp only [List.replicate, SharedDmd.World.run, List.foldl_cons, List.foldl_nil, SharedDmd.World.step, stepThread, writeMirror, initialState,
      allOff]
    simp [p2, p3]

/-- **C167**, the full property is false: while one thread makes a patch of two mirrors, `pack_dmd_state` can return bytes of a state that the
device never shows. -/
theorem C167_refuted : ∃ (d : DMD) (progs : ℕ → List Call) (sched : List Who) (bytes : List ℕ),
    ((World.start d progs).run d sched).Ended 0 (.ok bytes) ∧
    ∀ before, before <+: sched → .ok bytes ≠ packDmdState ((World.start d progs).run d before).dmd.state := by
  obtain ⟨s1, t, t1, t2⟩ := ex_states
  set w1 := (World.start exShared exProg).run exShared (List.replicate 3 (.reader 0)) with hw1
  obtain ⟨rest, hpos, -⟩ := positions_head 19 38
  norm_num only at hpos
  have hr1 : w1.readers 0 = .reading 0 [false] ((0, 1) :: rest) := by
    have : exShared.slm.Ny = 20 ∧ exShared.slm.Nx = 40 := ⟨rfl, rfl⟩
    rw [hw1]
    simp only [World.run, List.replicate, List.foldl_cons, List.foldl_nil, World.start, World.step, SharedDmd.World.start, Function.update_self,
      Reader.step, initialState, allOff, this.1, this.2]
    rw [hpos]
    rfl
  set w2 := w1.run exShared (List.replicate 4 (.writer 0)) with hw2
  have hr2 : w2.readers 0 = .reading 0 [false] ((0, 1) :: rest) := by rw [← hr1]; rfl
  have hd2 : w2.dmd = (SharedDmd.World.start exShared exProg).run exShared (List.replicate 4 0) := by
    rw [hw2, run_dmd, hw1, run_dmd]; rfl
  have hend := read_alone exShared hr2 (t := t) (by rw [hd2]; exact t1)
  rw [hw2, hw1, ← run_append, ← run_append] at hend
  refine ⟨exShared, exProg, _, _, hend, fun before hb he => ?_⟩
  have hsub : ∃ n ≤ 4, writersOf before = List.replicate n 0 := by
    have h1 : writersOf before <+: List.replicate 4 0 := by
      have := hb.filterMap (f := fun | .writer i => some i | .reader _ => none)
      refine this.trans ?_
      have hrep : ∀ n, writersOf (List.replicate n (.reader 0)) = [] := by
        intro n
        induction n with
        | zero => rfl
        | succ n ih => exact ih
      have : writersOf (List.replicate 3 (.reader 0) ++ (List.replicate 4 (.writer 0) ++
          List.replicate (((0, 1) :: rest).length + 1) (.reader 0))) = List.replicate 4 0 := by
        unfold writersOf at hrep ⊢
        rw [List.filterMap_append, List.filterMap_append, hrep, hrep]
        rfl
      rw [← List.append_assoc] at this
      rw [← this]
      exact List.prefix_refl _
    refine ⟨(writersOf before).length, by simpa using h1.length_le, ?_⟩
    exact List.eq_replicate_iff.mpr ⟨rfl, fun b hb => List.eq_of_mem_replicate (h1.subset hb)⟩
  obtain ⟨n, hn, hw⟩ := hsub
  obtain ⟨t', k1, k2, k3, k4⟩ := s1 n hn
  rw [run_dmd, hw, SharedDmd.World.state] at he
  have : ((World.start exShared exProg).dmd.run exShared (List.replicate n 0)) =
    (SharedDmd.World.start exShared exProg).run exShared (List.replicate n 0) := rfl
  rw [this, k2, k1, pack_bitsOf] at he
  injection he with he
  have b0 := congrArg (bit · 0) he
  have b1 := congrArg (bit · 1) he
  simp only [bit_packBits, bitsOf, k3] at b0 b1
  rw [hpos] at b0 b1
  simp only [List.map_cons, List.singleton_append, List.getD_cons_zero, List.getD_cons_succ] at b0 b1
  rw [t2] at b1
  rw [k4 b1.symm] at b0
  cases b0

/-- C167: the hypotheses hold for a thread that switches the mirrors on and one that packs the state, which here happens between the two steps at
which `pack_dmd_state` looks up the state; the bytes are those of the state with all mirrors on. -/
example : let progs : ℕ → List Call := fun i => if i = 0 then [.on] else []
    let sched : List Who := [.reader 5, .writer 0] ++ .reader 5 :: List.replicate 801 (.reader 5)
    (∀ i, ∀ c ∈ progs i, ¬ c.isPatch) ∧
    ∃ bytes, ((World.start exShared progs).run exShared sched).Ended 5 (.ok bytes) ∧ bit bytes 0 = true := by
  intro progs sched
  refine ⟨fun i c hc => ?_, ?_⟩
  · simp only [progs] at hc
    split_ifs at hc
    · rw [List.mem_singleton.mp hc]; exact fun h => h
    · simp at hc
  · obtain ⟨rest, hpos, -⟩ := positions_head 19 38
    norm_num only at hpos
    have hlen : (positions (.mat 20 40)).length = 800 := flatten_length 20 40 Prod.mk
    set w := (World.start exShared progs).run exShared [.reader 5, .writer 0, .reader 5] with hw
    have hr : w.readers 5 = .reading 1 [] (positions (.mat 20 40)) := by rw [hw]; rfl
    have hd : w.dmd.mem.arrays 1 = .bool ⟨.mat 20 40, fun _ _ => true⟩ := by rw [hw]; rfl
    have hend := read_alone exShared hr hd
    rw [hlen, hw, ← run_append] at hend
    refine ⟨_, hend, ?_⟩
    rw [bit_packBits, hpos]
    rfl

end PySLM2.SharedRead
