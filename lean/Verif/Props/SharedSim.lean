import Verif.Lemmas.SharedSim
import Verif.Props.Interrupt

/-!
# C166: threads that use one simulation

The full property, that threads using one simulation always leave it as if their calls had been made one after the other, is false: see
`C166_refuted`.  It holds if one thread uses the simulation and the others only update the SLM.  In general each of the three fields is right, but
they need not belong together.
-/

noncomputable section

open Complex

namespace PySLM2.SharedSim

open Lib Sim Profile

/-- **C166**, proved part: any number of threads make any calls on one new simulation and update its SLM.  For every schedule and at every moment,
each field is one that a propagation of some thread gives when it is made alone with some state that the SLM has had: the image, after
some of the blockings that the threads make.  Missing: that the three fields belong to the same propagation. -/
theorem C166_fields_partial {s : Sim} (hs : s.inputField = none ∧ s.outputField = none ∧ s.imageField = none) (hx : s.dev.slm.Nx ≠ 1)
    (hy : s.dev.slm.Ny ≠ 1) {progs : ℕ → List Op} (hsz : ∀ dev, Seen s progs dev → Sized dev) (sched : List ℕ) :
    let w := ((World.start s progs).run sched).sim
    (w.px = s.px ∧ w.py = s.py ∧ Seen s progs w.dev) ∧
    (w.inputField = none ∨ ∃ h a, Made progs (.propagate h a) ∧ w.inputField = (s.propagate h a).1.inputField) ∧
    (w.outputField = none ∨ ∃ h a dev, Made progs (.propagate h a) ∧ Seen s progs dev ∧
      w.outputField = (({ s with dev := dev } : Sim).propagate h a).1.outputField) ∧
    (w.imageField = none ∨ ∃ (h : Heap) (a : ProfArg) (dev : Device) (bs : List (Option ℝ)), Made progs (.propagate h a) ∧ Seen s progs dev ∧
      (∀ r ∈ bs, Made progs (.block r)) ∧
      w.imageField = (({ s with dev := dev } : Sim).run (.propagate h a :: bs.map .block)).imageField) := by
  have inv : Inv s progs ((World.start s progs).run sched) := by
    suffices ∀ w, Inv s progs w → Inv s progs (w.run sched) from this _ (inv_start hs progs)
    induction sched with
    | nil => exact fun w h => h
    | cons i sched ih => exact fun w h => ih _ (inv_step hs.2 hx hy hsz h i)
  refine ⟨⟨inv.px, inv.py, inv.dev⟩, ?_, ?_, ?_⟩
  · cases h : ((World.start s progs).run sched).sim.inputField with
    | none => exact Or.inl rfl
    | some f =>
      obtain ⟨hp, a, h1, h2⟩ := inv.input f h
      exact Or.inr ⟨hp, a, h1, h2.symm⟩
  · cases h : ((World.start s progs).run sched).sim.outputField with
    | none => exact Or.inl rfl
    | some f =>
      obtain ⟨hp, a, dev, h1, h2, h3⟩ := inv.output f h
      exact Or.inr ⟨hp, a, dev, h1, h2, h3.symm⟩
  · cases h : ((World.start s progs).run sched).sim.imageField with
    | none => exact Or.inl rfl
    | some f =>
      obtain ⟨hp, a, dev, bs, h1, h2, h3, -, -, h4⟩ := inv.image f h
      exact Or.inr ⟨hp, a, dev, bs, h1, h2, h3, h4.symm⟩

/-- **C166.** One thread makes any calls on the simulation, the others only update the SLM, all at the same time.  Whenever the first one is between
calls the simulation, and the SLM, are exactly as if all calls had been made one after the other, the calls of each thread in their order. -/
theorem C166_one_user {s : Sim} {progs : ℕ → List Op} {k : ℕ} (hprog : ∀ i, i ≠ k → ∀ op ∈ progs i, isUpdate op) (sched : List ℕ)
    (hidle : (((World.start s progs).run sched).threads k).job = .idle) :
    ∃ l : List (ℕ × Op), (∀ i, callsOf i l ++ (((World.start s progs).run sched).threads i).todo = progs i) ∧
      ((World.start s progs).run sched).sim = s.run (l.map Prod.snd) := by
  obtain ⟨l, h1, h2⟩ := tied_run (s := s) hprog sched
  rw [hidle] at h1
  refine ⟨l, fun i => ?_, h1.2.symm⟩
  by_cases hi : i = k
  · subst hi; exact h1.1
  · exact (h2 i hi).2

theorem ready_steps {s : Sim} {px py : ℕ} {h : Heap} {a : ProfArg} {u m : ℕ → ℕ → ℂ} (r : Ready s px py h a u m) :
    ∃ inp p st out po img, s.dev.slm.profileToTensor h a true true = .ok inp ∧ pad inp s.py s.px = .ok p ∧ s.dev.stateTensor = .ok st ∧
      Tensor.map2 (fun a b => a * b) inp st = .ok out ∧ pad out s.py s.px = .ok po ∧ s.imageOf po = .ok img ∧
      s.propagated px py u m = { s with inputField := some p, outputField := some po, imageField := some img } := by
  have hq := propagate_ready r
  unfold propagate at hq
  cases e1 : s.dev.slm.profileToTensor h a true true with
  | error e => simp [e1] at hq
  | ok inp =>
    simp only [e1] at hq
    cases e2 : pad inp s.py s.px with
    | error e => simp [e2] at hq
    | ok p =>
      simp only [e2] at hq
      cases e3 : s.dev.stateTensor with
      | error e => simp [e3] at hq
      | ok st =>
        simp only [e3] at hq
        cases e4 : Tensor.map2 (fun a b => a * b) inp st with
        | error e => simp [e4] at hq
        | ok out =>
          simp only [e4] at hq
          cases e5 : pad out s.py s.px with
          | error e => simp [e5] at hq
          | ok po =>
            simp only [e5] at hq
            rw [show imageOf ⟨s.dev, s.px, s.py, some p, some po, s.imageField⟩ po = s.imageOf po from rfl] at hq
            cases e6 : s.imageOf po with
            | error e => simp [e6] at hq
            | ok img =>
              rw [e6] at hq
              exact ⟨inp, p, st, out, po, img, rfl, e2, rfl, e4, e5, e6, (congrArg Prod.fst hq).symm⟩

/-- Two threads that make one propagation each, of `a` and of `b`. -/
def exProgs (h : Heap) (a b : ProfArg) (i : ℕ) : List Op := if i = 0 then [.propagate h a] else if i = 1 then [.propagate h b] else []

/-- What the two threads leave when the first one is held up before its last assignment. -/
theorem ex_run {s : Sim} {px py : ℕ} {h : Heap} {a b : ProfArg} {u w m : ℕ → ℕ → ℂ} (ra : Ready s px py h a u m) (rb : Ready s px py h b w m) :
    let t := (World.start s (exProgs h a b)).run [0, 0, 0, 1, 1, 1, 1, 0]
    t.Ended ∧ t.sim = { s.propagated px py w m with imageField := (s.propagated px py u m).imageField } := by
  obtain ⟨inp, p, st, out, po, img, e1, e2, e3, e4, e5, e6, e7⟩ := ready_steps ra
  obtain ⟨inp', p', st', out', po', img', f1, f2, f3, f4, f5, f6, f7⟩ := ready_steps rb
  rw [e3] at f3
  injection f3 with f3
  subst f3
  have e6' : ∀ x y z, imageOf ⟨s.dev, s.px, s.py, x, y, z⟩ po = .ok img := fun _ _ _ => e6
  have f6' : ∀ x y z, imageOf ⟨s.dev, s.px, s.py, x, y, z⟩ po' = .ok img' := fun _ _ _ => f6
  intro t
  have ht : t = ⟨⟨s.dev, s.px, s.py, some p', some po', some img⟩, fun _ => ⟨[], .idle⟩⟩ := by
    simp only [t, World.run, World.start, List.foldl_cons, List.foldl_nil, World.step, stepThread, begin, exProgs, Function.update_apply,
      if_true, one_ne_zero, zero_ne_one, if_false, e1, e2, e3, e4, e5, e6', f1, f2, f4, f5, f6']
    congr 1
    funext i
    by_cases h0 : i = 0
    · simp [h0]
    · by_cases h1 : i = 1
      · simp [h1]
      · simp [h0, h1]
  rw [ht, e7, f7]
  exact ⟨fun _ => ⟨rfl, rfl⟩, rfl⟩

/-- **C166**, the full property is false: of two threads that propagate a beam and a dark input, the first can be held up before its last
assignment.  When both have ended there is no power on the SLM and power in the image plane, which no order of the two calls gives. -/
theorem C166_refuted : ∃ (s : Sim) (progs : ℕ → List Op) (sched : List ℕ),
    ((World.start s progs).run sched).Ended ∧
    ((World.start s progs).run sched).sim.inputPower = .ok 0 ∧ (∃ p, 0 < p ∧ ((World.start s progs).run sched).sim.imagePower = .ok p) ∧
    ∀ l : List (ℕ × Op), (∀ i, callsOf i l = progs i) →
      ¬((s.run (l.map Prod.snd)).inputPower = .ok 0 ∧ ∃ p, 0 < p ∧ (s.run (l.map Prod.snd)).imagePower = .ok p) := by
  let h : Heap := ⟨fun _ => 0, fun _ => 0, 0⟩
  obtain ⟨k1, k2⟩ := ex_run (exReady h) (exReady_dark h)
  have pa := propagated_powers (exReady h)
  have pb := propagated_powers (exReady_dark h)
  have hbright : 0 < slmPower exSim.dev.slm fun i j => ((i : ℂ) + j * I + 1) * if (i + j) % 2 = 0 then 1 else 0 := by
    norm_num [slmPower, exSim, exDmd, Device.slm, Finset.sum_range_succ]
    positivity
  have hin : 0 < slmPower exSim.dev.slm fun i j => ((i : ℂ) + j * I + 1) := by
    norm_num [slmPower, exSim, exDmd, Device.slm, Finset.sum_range_succ]
    positivity
  refine ⟨exSim, exProgs h exInput exDark, _, k1, ?_, ⟨_, hbright, ?_⟩, fun l hl hcon => ?_⟩
  · rw [k2]
    refine pb.1.trans ?_
    simp [slmPower]
  · rw [k2]
    exact pa.2.2
  · have hmem : ∀ q ∈ l, q.2 = .propagate h exInput ∨ q.2 = .propagate h exDark := by
      rintro ⟨i, op⟩ hq
      have : op ∈ exProgs h exInput exDark i := by
        rw [← hl i]
        exact List.mem_filterMap.mpr ⟨_, hq, if_pos rfl⟩
      unfold exProgs at this
      split_ifs at this
      · exact Or.inl (by simpa using this)
      · exact Or.inr (by simpa using this)
      · simp at this
    have hdev : ∀ l : List (ℕ × Op), (∀ q ∈ l, q.2 = .propagate h exInput ∨ q.2 = .propagate h exDark) →
        (exSim.run (l.map Prod.snd)).dev = exSim.dev ∧ (exSim.run (l.map Prod.snd)).px = exSim.px ∧
          (exSim.run (l.map Prod.snd)).py = exSim.py := by
      intro l
      induction l using List.reverseRecOn with
      | nil => exact fun _ => ⟨rfl, rfl, rfl⟩
      | append_singleton l q ih =>
        intro hq
        obtain ⟨i1, i2, i3⟩ := ih fun q' h' => hq q' (List.mem_append_left _ h')
        rw [List.map_append, List.map_singleton, run_concat]
        rcases hq q (by simp) with e | e
        · rw [e]
          obtain ⟨j1, j2, j3⟩ := propagate_dev (exSim.run (l.map Prod.snd)) h exInput
          exact ⟨j1.trans i1, j2.trans i2, j3.trans i3⟩
        · rw [e]
          obtain ⟨j1, j2, j3⟩ := propagate_dev (exSim.run (l.map Prod.snd)) h exDark
          exact ⟨j1.trans i1, j2.trans i2, j3.trans i3⟩
    rcases List.eq_nil_or_concat' l with rfl | ⟨l', q, rfl⟩
    · have := hl 0
      simp [callsOf, exProgs] at this
    · obtain ⟨d1, d2, d3⟩ := hdev l' fun q' h' => hmem q' (List.mem_append_left _ h')
      rw [List.map_append, List.map_singleton, run_concat] at hcon
      revert hcon d1 d2 d3
      generalize exSim.run (l'.map Prod.snd) = t
      intro hcon d1 d2 d3
      have ready : ∀ {a u}, Ready exSim 3 1 h a u (fun i j => if (i + j) % 2 = 0 then 1 else 0) →
          Ready t 3 1 h a u (fun i j => if (i + j) % 2 = 0 then 1 else 0) := by
        rintro a u ⟨r1, r2, r3, r4, r5, r6, r7, r8⟩
        refine ⟨d2.trans r1, d3.trans r2, by rw [d1]; exact r3, by rw [d1]; exact r4, by rw [d1]; exact r5, by rw [d1]; exact r6, ?_,
          by rw [d1]; exact r8⟩
        unfold InputField at r7 ⊢
        rw [d1]
        exact r7
      rcases hmem q (by simp) with e | e
      · rw [e] at hcon
        have h1 : (t.propagate h exInput).1.inputPower = .ok 0 := hcon.1
        rw [propagate_ready (ready (exReady h)), (propagated_powers (ready (exReady h))).1, d1] at h1
        injection h1 with h1
        exact hin.ne' h1
      · rw [e] at hcon
        obtain ⟨p, hp, h1⟩ := hcon.2
        have h1 : (t.propagate h exDark).1.imagePower = .ok p := h1
        rw [propagate_ready (ready (exReady_dark h)), (propagated_powers (ready (exReady_dark h))).2.2, d1] at h1
        injection h1 with h1
        rw [← h1] at hp
        simp [slmPower] at hp

/-- C166: the hypotheses of the theorems above hold for a thread that propagates twice, blocks the zeroth order and clears, while another one turns
the mirrors on. -/
example (h : Heap) : let progs : ℕ → List Op := fun i =>
      if i = 0 then [.propagate h exInput, .block none, .propagate h exDark, .clear] else
        if i = 1 then [.setState (.bool ⟨.mat 2 4, fun _ _ => true⟩)] else []
    (∀ i, i ≠ 0 → ∀ op ∈ progs i, isUpdate op) ∧ (∀ dev, Seen exSim progs dev → Sized dev) ∧
    (exSim.inputField = none ∧ exSim.outputField = none ∧ exSim.imageField = none) ∧ exSim.dev.slm.Nx ≠ 1 ∧ exSim.dev.slm.Ny ≠ 1 := by
  refine ⟨fun i hi op hop => ?_, fun dev hd => ?_, ⟨rfl, rfl, rfl⟩, by decide, by decide⟩
  · simp only [if_neg hi] at hop
    split_ifs at hop
    · rw [List.mem_singleton.mp hop]; trivial
    · simp at hop
  · have key : ∀ {i st}, Op.setState st ∈ (if i = 0 then [.propagate h exInput, .block none, .propagate h exDark, .clear] else
        if i = 1 then [.setState (.bool ⟨.mat 2 4, fun _ _ => true⟩)] else [] : List Op) → st = .bool ⟨.mat 2 4, fun _ _ => true⟩ := by
      intro i st hm
      split_ifs at hm <;> simpa using hm
    cases hd with
    | start =>
      intro st hst
      injection hst with hst
      rw [← hst]; rfl
    | dmd h1 hm =>
      rw [key hm]
      injection h1 with h1 _
      rw [← h1]
      intro st hst
      injection hst with hst
      rw [← hst]; rfl
    | lcos h1 => cases h1

end PySLM2.SharedSim
