import Verif.Spec.SharedSim
import Verif.Lemmas.DmdHistory

/-!
# Lemmas on threads that use one simulation
-/

noncomputable section

namespace PySLM2

open Lib

theorem bcastDim_same (n : ℕ) : bcastDim n n = some n := by simp [bcastDim]

theorem bcast_same (s : Shape) : bcast s s = some s := by
  cases s with
  | scalar => rfl
  | mat r c => simp [bcast, bcastDim_same]

theorem bcastAll_pair (a b c : Shape) (h : bcast b c = some c) : bcastAll [a, b, c] = bcast a c := by
  have h0 : bcast c .scalar = some c := by cases c <;> rfl
  simp [bcastAll, h0, h]

namespace SharedSim

open Sim Profile

/-- The same SLM in another state. -/
inductive Like : Device → Device → Prop
  | refl (d : Device) : Like d d
  | dmd (d : DMD) (st st' : StateArr) : Like (.dmd d st) (.dmd d st')
  | lcos (l : LCOS) (st : LcosState) : Like (.lcos l) (.lcos { l with state := st })

theorem Like.slm {d d' : Device} (h : Like d d') : d'.slm = d.slm := by cases h <;> rfl

theorem Like.dmd_iff {d d' : Device} (h : Like d d') {D : DMD} {st : StateArr} (hd : d = .dmd D st) : ∃ st', d' = .dmd D st' := by
  cases h with
  | refl => exact ⟨_, hd⟩
  | dmd d0 st0 st' => injection hd with h1 h2; subst h1; exact ⟨st', rfl⟩
  | lcos => cases hd

theorem Like.symm {d d' : Device} (h : Like d d') : Like d' d := by
  cases h with
  | refl => exact .refl _
  | dmd d0 st0 st' => exact .dmd ..
  | lcos l st => exact Like.lcos { l with state := st } l.state

theorem Like.trans {d d' d'' : Device} (h : Like d d') (h' : Like d' d'') : Like d d'' := by
  cases h with
  | refl => exact h'
  | dmd d0 st0 st' => cases h' <;> exact .dmd ..
  | lcos l st =>
    cases h' with
    | refl => exact .lcos ..
    | lcos _ st' => exact Like.lcos l st'

variable {s : Sim} {D : Device}

theorem imageOf_like (h : Like s.dev D) (a b c : Option (Tensor ℂ)) (out : Tensor ℂ) :
    imageOf ⟨D, s.px, s.py, a, b, c⟩ out = s.imageOf out := by
  unfold imageOf Sim.Nx Sim.Ny NxInt NyInt fourierPixelArea
  simp only [h.slm]

theorem grid_like (h : Like s.dev D) (a b c : Option (Tensor ℂ)) :
    imagePaddedGrid ⟨D, s.px, s.py, a, b, c⟩ = s.imagePaddedGrid := by
  unfold imagePaddedGrid Sim.Nx Sim.Ny NxInt NyInt
  simp only [h.slm]

theorem size_like (h : Like s.dev D) (a b c : Option (Tensor ℂ)) :
    Sim.Nx ⟨D, s.px, s.py, a, b, c⟩ = s.Nx ∧ Sim.Ny ⟨D, s.px, s.py, a, b, c⟩ = s.Ny := by
  unfold Sim.Nx Sim.Ny NxInt NyInt
  simp only [h.slm, and_self]

theorem maskField_like (h : Like s.dev D) (a b c : Option (Tensor ℂ)) (r : Option ℝ) (sh : Shape) (img : Tensor ℂ) :
    maskField ⟨D, s.px, s.py, a, b, c⟩ r sh img = maskField s r sh img := by
  unfold maskField
  rw [grid_like h, (size_like h a b c).1, (size_like h a b c).2]
  obtain ⟨dev, px, py, f1, f2, f3⟩ := s
  cases h with
  | refl => rfl
  | dmd => rfl
  | lcos => rfl

/-- Blocking in terms of the masked field. -/
theorem block_eq (s : Sim) (r : Option ℝ) : (s.blockZerothOrder r).1 =
    match s.outputField, s.imageField with
    | some _, some img => match maskField s r img.shape img with
      | .ok img' => { s with imageField := some img' }
      | .error _ => s
    | _, _ => s := by
  unfold blockZerothOrder maskField
  obtain ⟨dev, px, py, f1, f2, f3⟩ := s
  cases dev with
  | base => cases f2 <;> cases f3 <;> rfl
  | lcos => cases f2 <;> cases f3 <;> rfl
  | dmd d st =>
    cases f2 with
    | none => rfl
    | some out =>
      simp only
      cases hg : imagePaddedGrid ⟨.dmd d st, px, py, f1, some out, f3⟩ with
      | error e => cases f3 <;> rfl
      | ok g =>
        simp only
        cases f3 with
        | none => rfl
        | some img =>
          simp only
          rw [bcastAll_pair _ _ _ (bcast_same _)]
          cases bcast (Shape.mat (Sim.Ny ⟨.dmd d st, px, py, f1, some out, some img⟩) (Sim.Nx ⟨.dmd d st, px, py, f1, some out, some img⟩))
            img.shape <;> rfl

theorem update_step {op : Op} (hop : isUpdate op) (D : Device) : ∃ D', Like D D' ∧ ∀ s : Sim, s.dev = D → (s.step op).1 = { s with dev := D' } := by
  cases op with
  | propagate => exact hop.elim
  | block => exact hop.elim
  | clear => exact hop.elim
  | setState st =>
    cases D with
    | dmd d old =>
      refine ⟨.dmd d st, .dmd .., fun s hs => ?_⟩
      simp only [Sim.step, hs]
    | base b => exact ⟨.base b, .refl _, fun s hs => by simp only [Sim.step, hs]; rw [← hs]⟩
    | lcos l => exact ⟨.lcos l, .refl _, fun s hs => by simp only [Sim.step, hs]; rw [← hs]⟩
  | setLcos st =>
    cases D with
    | lcos l =>
      refine ⟨.lcos { l with state := st }, .lcos .., fun s hs => ?_⟩
      simp only [Sim.step, hs]
    | base b => exact ⟨.base b, .refl _, fun s hs => by simp only [Sim.step, hs]; rw [← hs]⟩
    | dmd d old => exact ⟨.dmd d old, .refl _, fun s hs => by simp only [Sim.step, hs]; rw [← hs]⟩

theorem run_concat (s : Sim) (l : List Op) (op : Op) : s.run (l ++ [op]) = ((s.run l).step op).1 := by
  induction l generalizing s with
  | nil => rfl
  | cons o l ih => exact ih _

/-! ## One thread uses the simulation -/

/-- Where the thread that uses the simulation is: the simulation, compared to `t`, the result of the history `l`. -/
def Tied (progs : List Op) (mine todo : List Op) (w t : Sim) : Job → Prop
  | .idle => mine ++ todo = progs ∧ t = w
  | .padded inp => ∃ h a p, w.dev.slm.profileToTensor h a true true = .ok inp ∧ pad inp w.py w.px = .ok p ∧
      mine ++ .propagate h a :: todo = progs ∧ w = { t with inputField := some p }
  | .formed => mine ++ todo = progs ∧ ∃ out, w.outputField = some out ∧
      ((∃ e, w.imageOf out = .error e ∧ t = w) ∨ ∃ img, w.imageOf out = .ok img ∧ t = { w with imageField := some img })
  | .image img => mine ++ todo = progs ∧ t = { w with imageField := some img }
  | .checked r => mine ++ todo = progs ∧ (w.outputField.isSome ∧ ∃ d st, w.dev = .dmd d st) ∧ t = (w.blockZerothOrder r).1
  | .zeros r sh => mine ++ todo = progs ∧ ∃ img, w.imageField = some img ∧ img.shape = sh ∧
      ((∃ e, maskField w r sh img = .error e ∧ t = w) ∨ ∃ img', maskField w r sh img = .ok img' ∧ t = { w with imageField := some img' })
  | .cleared => mine ++ todo = progs ∧ t = { w with outputField := none, imageField := none }
  | .cleared' => mine ++ todo = progs ∧ t = { w with imageField := none }

theorem Tied.dev {progs mine todo : List Op} {w t : Sim} {j : Job} (h : Tied progs mine todo w t j) :
    t.dev = w.dev ∧ t.px = w.px ∧ t.py = w.py := by
  cases j with
  | idle => obtain ⟨-, rfl⟩ := h; exact ⟨rfl, rfl, rfl⟩
  | padded inp => obtain ⟨h, a, p, -, -, -, rfl⟩ := h; exact ⟨rfl, rfl, rfl⟩
  | formed =>
    obtain ⟨-, out, -, ⟨e, -, rfl⟩ | ⟨img, -, rfl⟩⟩ := h
    · exact ⟨rfl, rfl, rfl⟩
    · exact ⟨rfl, rfl, rfl⟩
  | image img => obtain ⟨-, rfl⟩ := h; exact ⟨rfl, rfl, rfl⟩
  | checked r =>
    obtain ⟨-, -, rfl⟩ := h
    rw [block_eq]
    repeat' split
    all_goals exact ⟨rfl, rfl, rfl⟩
  | zeros r sh =>
    obtain ⟨-, img, -, -, ⟨e, -, rfl⟩ | ⟨img, -, rfl⟩⟩ := h
    · exact ⟨rfl, rfl, rfl⟩
    · exact ⟨rfl, rfl, rfl⟩
  | cleared => obtain ⟨-, rfl⟩ := h; exact ⟨rfl, rfl, rfl⟩
  | cleared' => obtain ⟨-, rfl⟩ := h; exact ⟨rfl, rfl, rfl⟩

/-- An update of the SLM by another thread. -/
theorem Tied.update {progs mine todo : List Op} {w t : Sim} {j : Job} (h : Tied progs mine todo w t j) {D : Device} (hD : Like w.dev D) :
    Tied progs mine todo { w with dev := D } { t with dev := D } j := by
  cases j with
  | idle => obtain ⟨h1, rfl⟩ := h; exact ⟨h1, rfl⟩
  | padded inp =>
    obtain ⟨h, a, p, h1, h2, h3, rfl⟩ := h
    refine ⟨h, a, p, ?_, h2, h3, rfl⟩
    show D.slm.profileToTensor h a true true = _
    rw [hD.slm]; exact h1
  | formed =>
    obtain ⟨h0, out, h1, h2⟩ := h
    refine ⟨h0, out, h1, ?_⟩
    rw [imageOf_like hD]
    obtain ⟨e, h3, rfl⟩ | ⟨img, h3, rfl⟩ := h2
    · exact Or.inl ⟨e, h3, rfl⟩
    · exact Or.inr ⟨img, h3, rfl⟩
  | image img => obtain ⟨h1, rfl⟩ := h; exact ⟨h1, rfl⟩
  | checked r =>
    obtain ⟨h1, ⟨h2, d, st, h3⟩, rfl⟩ := h
    refine ⟨h1, ⟨h2, d, hD.dmd_iff h3⟩, ?_⟩
    rw [block_eq, block_eq]
    simp only [maskField_like hD]
    obtain ⟨dev, px, py, f1, f2, f3⟩ := w
    cases f2 with
    | none => rfl
    | some out =>
      cases f3 with
      | none => rfl
      | some img =>
        simp only
        cases maskField ⟨dev, px, py, f1, some out, some img⟩ r img.shape img <;> rfl
  | zeros r sh =>
    obtain ⟨h0, img, h1, h2, h3⟩ := h
    refine ⟨h0, img, h1, h2, ?_⟩
    rw [maskField_like hD]
    obtain ⟨e, h4, rfl⟩ | ⟨img, h4, rfl⟩ := h3
    · exact Or.inl ⟨e, h4, rfl⟩
    · exact Or.inr ⟨img, h4, rfl⟩
  | cleared => obtain ⟨h1, rfl⟩ := h; exact ⟨h1, rfl⟩
  | cleared' => obtain ⟨h1, rfl⟩ := h; exact ⟨h1, rfl⟩

/-- A step of the thread that uses the simulation: it appends at most one call to the history. -/
theorem Tied.step {progs mine todo : List Op} {w t : Sim} {j : Job} (h : Tied progs mine todo w t j) :
    ∃ ops : List Op, Tied progs (mine ++ ops) (stepThread w ⟨todo, j⟩).2.todo (stepThread w ⟨todo, j⟩).1 (t.run ops) (stepThread w ⟨todo, j⟩).2.job := by
  cases j with
  | idle =>
    obtain ⟨h1, rfl⟩ := h
    cases todo with
    | nil => exact ⟨[], by rw [List.append_nil]; exact ⟨h1, rfl⟩⟩
    | cons op todo =>
      cases op with
      | propagate hp a =>
        simp only [stepThread, begin]
        cases e1 : t.dev.slm.profileToTensor hp a true true with
        | error e =>
          refine ⟨[.propagate hp a], by simpa using h1, ?_⟩
          simp only [Sim.run, Sim.step, propagate, e1]
        | ok inp =>
          simp only
          cases e2 : pad inp t.py t.px with
          | error e =>
            refine ⟨[.propagate hp a], by simpa using h1, ?_⟩
            simp only [Sim.run, Sim.step, propagate, e1, e2]
          | ok p => exact ⟨[], hp, a, p, e1, e2, by simpa using h1, rfl⟩
      | block r =>
        refine ⟨[.block r], ?_⟩
        have h1' : mine ++ [Op.block r] ++ todo = progs := by simpa using h1
        cases hd : t.dev with
        | base =>
          have hb : begin t (.block r) = (t, .idle) := by simp only [begin, hd]
          simp only [stepThread, hb]
          refine ⟨h1', ?_⟩
          simp only [Sim.run, Sim.step, block_eq, maskField, hd]; split <;> rfl
        | lcos =>
          have hb : begin t (.block r) = (t, .idle) := by simp only [begin, hd]
          simp only [stepThread, hb]
          refine ⟨h1', ?_⟩
          simp only [Sim.run, Sim.step, block_eq, maskField, hd]; split <;> rfl
        | dmd d st =>
          cases ho : t.outputField with
          | none =>
            have hb : begin t (.block r) = (t, .idle) := by simp only [begin, hd, ho]
            simp only [stepThread, hb]
            refine ⟨h1', ?_⟩
            simp only [Sim.run, Sim.step, block_eq, ho]
          | some out =>
            have hb : begin t (.block r) = (t, .checked r) := by simp only [begin, hd, ho]
            simp only [stepThread, hb]
            exact ⟨h1', ⟨by simp [ho], d, st, hd⟩, rfl⟩
      | clear => exact ⟨[.clear], by simpa [stepThread, begin] using h1, rfl⟩
      | setState st => exact ⟨[.setState st], by simpa [stepThread, begin] using h1, rfl⟩
      | setLcos st => exact ⟨[.setLcos st], by simpa [stepThread, begin] using h1, rfl⟩
  | padded inp =>
    obtain ⟨hp, a, p, e1, e2, h3, rfl⟩ := h
    refine ⟨[.propagate hp a], ?_⟩
    have h3' : (mine ++ [Op.propagate hp a]) ++ todo = progs := by simpa using h3
    simp only at e1 e2
    simp only [stepThread, Sim.run, Sim.step, propagate, e1, e2]
    cases e3 : t.dev.stateTensor with
    | error e => exact ⟨h3', rfl⟩
    | ok st =>
      simp only
      cases e4 : Tensor.map2 (fun a b => a * b) inp st with
      | error e => exact ⟨h3', rfl⟩
      | ok out =>
        simp only
        cases e5 : pad out t.py t.px with
        | error e => exact ⟨h3', rfl⟩
        | ok po =>
          simp only
          refine ⟨h3', po, rfl, ?_⟩
          cases e6 : imageOf ⟨t.dev, t.px, t.py, some p, some po, t.imageField⟩ po with
          | error e => exact Or.inl ⟨e, rfl, rfl⟩
          | ok img => exact Or.inr ⟨img, rfl, rfl⟩
  | formed =>
    obtain ⟨h1, out, h2, h3⟩ := h
    refine ⟨[], ?_⟩
    rw [List.append_nil]
    simp only [stepThread, h2]
    obtain ⟨e, h4, rfl⟩ | ⟨img, h4, rfl⟩ := h3
    · rw [h4]; exact ⟨h1, rfl⟩
    · rw [h4]; exact ⟨h1, rfl⟩
  | image img =>
    obtain ⟨h1, rfl⟩ := h
    exact ⟨[], by rw [List.append_nil]; exact ⟨h1, rfl⟩⟩
  | checked r =>
    obtain ⟨h1, ⟨h2, d, st, h3⟩, rfl⟩ := h
    refine ⟨[], ?_⟩
    rw [List.append_nil]
    obtain ⟨out, h2⟩ := Option.isSome_iff_exists.mp h2
    simp only [stepThread, Sim.run]
    rw [block_eq, h2]
    cases hg : w.imagePaddedGrid with
    | error e =>
      refine ⟨h1, ?_⟩
      cases hi : w.imageField with
      | none => rfl
      | some img => simp only [maskField, h3, hg]
    | ok g =>
      simp only
      cases hi : w.imageField with
      | none => exact ⟨h1, rfl⟩
      | some img =>
        refine ⟨h1, img, hi, rfl, ?_⟩
        cases hm : maskField w r img.shape img with
        | error e => exact Or.inl ⟨e, rfl, by simp only [hm]⟩
        | ok img' => exact Or.inr ⟨img', rfl, by simp only [hm, h2]⟩
  | zeros r sh =>
    obtain ⟨h1, img, h2, h3, h4⟩ := h
    refine ⟨[], ?_⟩
    rw [List.append_nil]
    simp only [stepThread, h2]
    obtain ⟨e, h4, rfl⟩ | ⟨img', h4, rfl⟩ := h4
    · rw [h4]; exact ⟨h1, rfl⟩
    · rw [h4]; exact ⟨h1, rfl⟩
  | cleared =>
    obtain ⟨h1, rfl⟩ := h
    exact ⟨[], by rw [List.append_nil]; exact ⟨h1, rfl⟩⟩
  | cleared' =>
    obtain ⟨h1, rfl⟩ := h
    exact ⟨[], by rw [List.append_nil]; exact ⟨h1, rfl⟩⟩

theorem callsOf_concat (i j : ℕ) (l : List (ℕ × Op)) (op : Op) :
    callsOf i (l ++ [(j, op)]) = if j = i then callsOf i l ++ [op] else callsOf i l := by
  unfold callsOf
  rw [List.filterMap_append]
  split_ifs with h <;> simp [h]

theorem callsOf_mine (i j : ℕ) (l : List (ℕ × Op)) (ops : List Op) :
    callsOf i (l ++ ops.map fun op => (j, op)) = if j = i then callsOf i l ++ ops else callsOf i l := by
  unfold callsOf
  rw [List.filterMap_append, List.filterMap_map]
  split_ifs with h
  · congr 1
    subst h
    induction ops with
    | nil => rfl
    | cons o ops ih => simp
  · have : List.filterMap ((fun q : ℕ × Op => if q.1 = i then some q.2 else none) ∘ fun op => (j, op)) ops = [] := by
      rw [List.filterMap_eq_nil_iff]
      intro o _
      exact if_neg h
    rw [this, List.append_nil]

theorem run_append (s : Sim) (l l' : List Op) : s.run (l ++ l') = (s.run l).run l' := by
  induction l generalizing s with
  | nil => rfl
  | cons o l ih => exact ih _

/-- Thread `k` uses the simulation, the others update the SLM. -/
theorem tied_run {s : Sim} {progs : ℕ → List Op} {k : ℕ} (hprog : ∀ i, i ≠ k → ∀ op ∈ progs i, isUpdate op) (sched : List ℕ) :
    ∃ l : List (ℕ × Op), Tied (progs k) (callsOf k l) (((World.start s progs).run sched).threads k).todo ((World.start s progs).run sched).sim
        (s.run (l.map Prod.snd)) (((World.start s progs).run sched).threads k).job ∧
      ∀ i ≠ k, (((World.start s progs).run sched).threads i).job = .idle ∧
        callsOf i l ++ (((World.start s progs).run sched).threads i).todo = progs i := by
  suffices ∀ (w : World) (l : List (ℕ × Op)), (Tied (progs k) (callsOf k l) (w.threads k).todo w.sim
        (s.run (l.map Prod.snd)) (w.threads k).job ∧
      ∀ i ≠ k, (w.threads i).job = .idle ∧ callsOf i l ++ (w.threads i).todo = progs i) →
      ∃ l : List (ℕ × Op), Tied (progs k) (callsOf k l) ((w.run sched).threads k).todo (w.run sched).sim
        (s.run (l.map Prod.snd)) ((w.run sched).threads k).job ∧
      ∀ i ≠ k, ((w.run sched).threads i).job = .idle ∧ callsOf i l ++ ((w.run sched).threads i).todo = progs i from
    this _ [] ⟨⟨rfl, rfl⟩, fun i _ => ⟨rfl, rfl⟩⟩
  induction sched with
  | nil => exact fun w l h => ⟨l, h⟩
  | cons i sched ih =>
    intro w l h
    suffices ∃ l' : List (ℕ × Op), Tied (progs k) (callsOf k l') ((w.step i).threads k).todo (w.step i).sim
        (s.run (l'.map Prod.snd)) ((w.step i).threads k).job ∧
        ∀ j ≠ k, ((w.step i).threads j).job = .idle ∧ callsOf j l' ++ ((w.step i).threads j).todo = progs j by
      obtain ⟨l', hl'⟩ := this
      exact ih (w.step i) l' hl'
    obtain ⟨h1, h2⟩ := h
    by_cases hik : i = k
    · subst hik
      obtain ⟨ops, h3⟩ := h1.step
      refine ⟨l ++ ops.map fun op => (i, op), ?_, fun j hj => ?_⟩
      · rw [callsOf_mine, if_pos rfl, List.map_append, run_append,
          show List.map Prod.snd (List.map (fun op => (i, op)) ops) = ops by rw [List.map_map]; exact List.map_id _]
        simp only [World.step, Function.update_self]
        exact h3
      · rw [callsOf_mine, if_neg (Ne.symm hj)]
        simp only [World.step, Function.update_of_ne hj]
        exact h2 j hj
    · obtain ⟨h4, h5⟩ := h2 i hik
      cases hti : w.threads i with
      | mk todo job =>
      rw [hti] at h4 h5
      simp only at h4 h5
      subst h4
      cases todo with
      | nil =>
        have : w.step i = w := by
          obtain ⟨sim, th⟩ := w
          simp only at hti
          simp only [World.step, stepThread, hti]
          rw [← hti, Function.update_eq_self]
        rw [this]
        exact ⟨l, h1, h2⟩
      | cons op todo =>
        have hup : isUpdate op := hprog i hik op (by rw [← h5]; simp)
        obtain ⟨D, hD, hstep⟩ := update_step hup w.sim.dev
        have hbeg : begin w.sim op = ({ w.sim with dev := D }, .idle) := by
          rw [← hstep w.sim rfl]
          cases op with
          | propagate => exact hup.elim
          | block => exact hup.elim
          | clear => exact hup.elim
          | setState => rfl
          | setLcos => rfl
        have hw : w.step i = ⟨{ w.sim with dev := D }, Function.update w.threads i ⟨todo, .idle⟩⟩ := by
          simp only [World.step, stepThread, hti, hbeg]
        refine ⟨l ++ [(i, op)], ?_, fun j hj => ?_⟩
        · rw [callsOf_concat, if_neg hik, List.map_append, List.map_singleton, run_concat, hstep _ h1.dev.1, hw]
          simp only [Function.update_of_ne (Ne.symm hik)]
          exact h1.update hD
        · rw [hw, callsOf_concat]
          by_cases hji : j = i
          · subst hji
            simpa using h5
          · simp only [Function.update_of_ne hji, if_neg (Ne.symm hji)]
            exact h2 j hj

/-! ## Any threads -/

theorem propagate_input {s : Sim} {h : Heap} {a : ProfArg} {inp p : Tensor ℂ} (e1 : s.dev.slm.profileToTensor h a true true = .ok inp)
    (e2 : pad inp s.py s.px = .ok p) : (s.propagate h a).1.inputField = some p := by
  unfold propagate
  simp only [e1, e2]
  repeat' split
  all_goals rfl

theorem propagate_output {s : Sim} {h : Heap} {a : ProfArg} {inp p st out po : Tensor ℂ}
    (e1 : s.dev.slm.profileToTensor h a true true = .ok inp) (e2 : pad inp s.py s.px = .ok p) (e3 : s.dev.stateTensor = .ok st)
    (e4 : Tensor.map2 (fun a b => a * b) inp st = .ok out) (e5 : pad out s.py s.px = .ok po) :
    (s.propagate h a).1.outputField = some po ∧
      ∀ img, s.imageOf po = .ok img → (s.propagate h a).1.imageField = some img := by
  unfold propagate
  simp only [e1, e2, e3, e4, e5]
  rw [show imageOf ⟨s.dev, s.px, s.py, some p, some po, s.imageField⟩ po = s.imageOf po from rfl]
  cases e6 : s.imageOf po with
  | error e => exact ⟨rfl, fun _ h => by cases h⟩
  | ok img => exact ⟨rfl, fun _ h => by cases h; rfl⟩

/-- What a successful propagation computes, from the fields it leaves on a new simulation. -/
theorem propagate_cases {s : Sim} (hs : s.outputField = none ∧ s.imageField = none) {h : Heap} {a : ProfArg} :
    ((s.propagate h a).1.outputField = none ∧ (s.propagate h a).1.imageField = none) ∨
    ∃ inp p st out po, s.dev.slm.profileToTensor h a true true = .ok inp ∧ pad inp s.py s.px = .ok p ∧ s.dev.stateTensor = .ok st ∧
      Tensor.map2 (fun a b => a * b) inp st = .ok out ∧ pad out s.py s.px = .ok po ∧ (s.propagate h a).1.outputField = some po ∧
      ∀ img, (s.propagate h a).1.imageField = some img → s.imageOf po = .ok img := by
  cases e1 : s.dev.slm.profileToTensor h a true true with
  | error e => left; simp only [propagate, e1]; exact hs
  | ok inp =>
    cases e2 : pad inp s.py s.px with
    | error e => left; simp only [propagate, e1, e2]; exact hs
    | ok p =>
      cases e3 : s.dev.stateTensor with
      | error e => left; simp only [propagate, e1, e2, e3]; exact hs
      | ok st =>
        cases e4 : Tensor.map2 (fun a b => a * b) inp st with
        | error e => left; simp only [propagate, e1, e2, e3, e4]; exact hs
        | ok out =>
          cases e5 : pad out s.py s.px with
          | error e => left; simp only [propagate, e1, e2, e3, e4, e5]; exact hs
          | ok po =>
            right
            obtain ⟨k1, k2⟩ := propagate_output e1 e2 e3 e4 e5
            refine ⟨inp, p, st, out, po, rfl, e2, rfl, e4, e5, k1, fun img hi => ?_⟩
            unfold propagate at hi
            simp only [e1, e2, e3, e4, e5] at hi
            rw [show imageOf ⟨s.dev, s.px, s.py, some p, some po, s.imageField⟩ po = s.imageOf po from rfl] at hi
            cases e6 : s.imageOf po with
            | error e => rw [e6] at hi; simp only [hs.2] at hi; cases hi
            | ok img' => rw [e6] at hi; injection hi with hi; rw [hi]

theorem propagate_dev (s : Sim) (h : Heap) (a : ProfArg) :
    (s.propagate h a).1.dev = s.dev ∧ (s.propagate h a).1.px = s.px ∧ (s.propagate h a).1.py = s.py := by
  unfold propagate
  dsimp only
  repeat' split
  all_goals exact ⟨rfl, rfl, rfl⟩

theorem block_dev (s : Sim) (r : Option ℝ) : (s.blockZerothOrder r).1.dev = s.dev ∧ (s.blockZerothOrder r).1.px = s.px ∧
    (s.blockZerothOrder r).1.py = s.py ∧ (s.blockZerothOrder r).1.outputField = s.outputField := by
  rw [block_eq]
  repeat' split
  all_goals exact ⟨rfl, rfl, rfl, rfl⟩

theorem blocks_dev (bs : List (Option ℝ)) (s : Sim) : (s.run (bs.map .block)).dev = s.dev ∧ (s.run (bs.map .block)).px = s.px ∧
    (s.run (bs.map .block)).py = s.py ∧ (s.run (bs.map .block)).outputField = s.outputField := by
  induction bs generalizing s with
  | nil => exact ⟨rfl, rfl, rfl, rfl⟩
  | cons r bs ih =>
    obtain ⟨h1, h2, h3, h4⟩ := ih (s.blockZerothOrder r).1
    obtain ⟨k1, k2, k3, k4⟩ := block_dev s r
    exact ⟨h1.trans k1, h2.trans k2, h3.trans k3, h4.trans k4⟩

/-- An output field that some propagation gives on its own. -/
def IsOut (s : Sim) (progs : ℕ → List Op) (out : Tensor ℂ) : Prop :=
  ∃ h a dev, Made progs (.propagate h a) ∧ Seen s progs dev ∧ (({ s with dev := dev } : Sim).propagate h a).1.outputField = some out

/-- An image that some propagation gives on its own, followed by blockings. -/
def IsImg (s : Sim) (progs : ℕ → List Op) (img : Tensor ℂ) : Prop :=
  ∃ (h : Heap) (a : ProfArg) (dev : Device) (bs : List (Option ℝ)), Made progs (.propagate h a) ∧ Seen s progs dev ∧ (∀ r ∈ bs, Made progs (.block r)) ∧
    ((({ s with dev := dev } : Sim).propagate h a).1.outputField).isSome ∧ img.shape = .mat s.Ny s.Nx ∧
    (({ s with dev := dev } : Sim).run (.propagate h a :: bs.map .block)).imageField = some img

theorem Seen.like {s : Sim} {progs : ℕ → List Op} {dev : Device} (h : Seen s progs dev) : Like s.dev dev := by
  cases h with
  | start => exact .refl _
  | dmd h => rw [h]; exact .dmd ..
  | lcos h => rw [h]; exact .lcos ..

/-- What holds at every moment. -/
structure Inv (s : Sim) (progs : ℕ → List Op) (w : World) : Prop where
  todo : ∀ i, ∀ op ∈ (w.threads i).todo, op ∈ progs i
  px : w.sim.px = s.px
  py : w.sim.py = s.py
  dev : Seen s progs w.sim.dev
  input : ∀ f, w.sim.inputField = some f → ∃ h a, Made progs (.propagate h a) ∧ (s.propagate h a).1.inputField = some f
  output : ∀ f, w.sim.outputField = some f → IsOut s progs f
  image : ∀ f, w.sim.imageField = some f → IsImg s progs f
  job : ∀ i, match (w.threads i).job with
    | .padded inp => ∃ h a p, Made progs (.propagate h a) ∧ s.dev.slm.profileToTensor h a true true = .ok inp ∧ pad inp s.py s.px = .ok p
    | .image img => IsImg s progs img
    | .checked r => Made progs (.block r)
    | .zeros r sh => Made progs (.block r) ∧ sh = .mat s.Ny s.Nx
    | _ => True

theorem pad_shape {t p : Tensor ℂ} {M N : ℕ} {py px : ℤ} (ht : t.shape = .mat M N) (h : pad t py px = .ok p) :
    p.shape = .mat ((M : ℤ) + 2 * py).toNat ((N : ℤ) + 2 * px).toNat := by
  unfold pad at h
  rw [ht] at h
  simp only at h
  split_ifs at h with hn
  push Not at hn
  injection h with h
  subst h
  show Shape.mat _ _ = _
  congr 1 <;> omega

theorem imageOf_shape {s : Sim} {out img : Tensor ℂ} (h : s.imageOf out = .ok img) : img.shape = out.shape := by
  unfold imageOf at h
  split at h
  · cases h
  · rename_i M N hs
    split_ifs at h
    injection h with h
    subst h
    exact hs.symm

theorem map2_shape {inp st out : Tensor ℂ} {M N : ℕ} (hm : M ≠ 1) (hn : N ≠ 1) (hst : st.shape = .mat M N)
    (h : Tensor.map2 (fun a b : ℂ => a * b) inp st = .ok out) : out.shape = .mat M N := by
  unfold Tensor.map2 at h
  split at h
  · rename_i sh hb
    injection h with h
    subst h
    rw [hst] at hb
    exact bcast_right hm hn hb
  · cases h

theorem out_shape {s : Sim} {progs : ℕ → List Op} (hs : s.outputField = none ∧ s.imageField = none) (hx : s.dev.slm.Nx ≠ 1)
    (hy : s.dev.slm.Ny ≠ 1) (hsz : ∀ dev, Seen s progs dev → Sized dev) {out : Tensor ℂ} (h : IsOut s progs out) :
    out.shape = .mat s.Ny s.Nx := by
  obtain ⟨h, a, dev, h1, h2, h3⟩ := h
  obtain ⟨k, -⟩ | ⟨inp, p, st, o, po, -, -, e3, e4, e5, e6, -⟩ := propagate_cases (s := { s with dev := dev }) (h := h) (a := a) hs
  · rw [k] at h3; cases h3
  · rw [e6] at h3
    injection h3 with h3
    subst h3
    have hst := hsz dev h2 st e3
    rw [h2.like.slm] at hst
    exact pad_shape (map2_shape hy hx hst e4) e5

/-- From an output field to its image. -/
theorem img_of_out {s : Sim} {progs : ℕ → List Op} (hs : s.outputField = none ∧ s.imageField = none) (hx : s.dev.slm.Nx ≠ 1)
    (hy : s.dev.slm.Ny ≠ 1) (hsz : ∀ dev, Seen s progs dev → Sized dev) {out img : Tensor ℂ} (ho : IsOut s progs out)
    (hi : s.imageOf out = .ok img) : IsImg s progs img := by
  have hsh := out_shape hs hx hy hsz ho
  obtain ⟨h, a, dev, h1, h2, h3⟩ := ho
  refine ⟨h, a, dev, [], h1, h2, fun _ h => by simp at h, by rw [h3]; rfl, (imageOf_shape hi).trans hsh, ?_⟩
  obtain ⟨k, -⟩ | ⟨inp, p, st, o, po, e1, e2, e3, e4, e5, e6, -⟩ := propagate_cases (s := { s with dev := dev }) (h := h) (a := a) hs
  · rw [k] at h3; cases h3
  · rw [e6] at h3
    injection h3 with h3
    subst h3
    refine (propagate_output (s := { s with dev := dev }) e1 e2 e3 e4 e5).2 img ?_
    rw [imageOf_like h2.like]
    exact hi

/-- From an image to the image with the zeroth order blocked. -/
theorem img_of_img {s : Sim} {progs : ℕ → List Op} {img img' : Tensor ℂ} (hi : IsImg s progs img) {r : Option ℝ} (hr : Made progs (.block r))
    (hm : maskField s r (.mat s.Ny s.Nx) img = .ok img') : IsImg s progs img' := by
  obtain ⟨h, a, dev, bs, h1, h2, h3, h4, h5, h6⟩ := hi
  have hsh : img'.shape = .mat s.Ny s.Nx := by
    unfold maskField at hm
    rw [h5, bcastAll_pair _ _ _ (bcast_same _), bcast_same] at hm
    split at hm
    · simp only at hm
      split at hm
      · cases hm
      · injection hm with hm; rw [← hm]
    · cases hm
  refine ⟨h, a, dev, bs ++ [r], h1, h2, fun r' hr' => ?_, h4, hsh, ?_⟩
  · rcases List.mem_append.mp hr' with k | k
    · exact h3 r' k
    · rw [List.mem_singleton.mp k]; exact hr
  · rw [List.map_append, List.map_singleton, ← List.cons_append, run_concat]
    show (blockZerothOrder _ r).1.imageField = _
    rw [block_eq, h6]
    obtain ⟨out, ho⟩ := Option.isSome_iff_exists.mp h4
    obtain ⟨d1, d2, d3, d4⟩ := blocks_dev bs (({ s with dev := dev } : Sim).propagate h a).1
    obtain ⟨q1, q2, q3⟩ := propagate_dev { s with dev := dev } h a
    have ho' : (({ s with dev := dev } : Sim).run (.propagate h a :: bs.map .block)).outputField = some out := d4.trans ho
    rw [ho']
    simp only
    have key : maskField (({ s with dev := dev } : Sim).run (.propagate h a :: bs.map .block)) r img.shape img = .ok img' := by
      have e : (({ s with dev := dev } : Sim).run (.propagate h a :: bs.map .block)) = ⟨dev, s.px, s.py,
          (({ s with dev := dev } : Sim).run (.propagate h a :: bs.map .block)).inputField,
          (({ s with dev := dev } : Sim).run (.propagate h a :: bs.map .block)).outputField,
          (({ s with dev := dev } : Sim).run (.propagate h a :: bs.map .block)).imageField⟩ := by
        have e1 : (({ s with dev := dev } : Sim).run (.propagate h a :: bs.map .block)).dev = dev := d1.trans q1
        have e2 : (({ s with dev := dev } : Sim).run (.propagate h a :: bs.map .block)).px = s.px := d2.trans q2
        have e3 : (({ s with dev := dev } : Sim).run (.propagate h a :: bs.map .block)).py = s.py := d3.trans q3
        revert e1 e2 e3
        generalize ({ s with dev := dev } : Sim).run (.propagate h a :: bs.map .block) = u
        rintro rfl e2 e3
        rw [← e2, ← e3]
      rw [e, maskField_like h2.like, h5]
      exact hm
    rw [key]

theorem sim_like {s w : Sim} {progs : ℕ → List Op} (hd : Seen s progs w.dev) (hpx : w.px = s.px) (hpy : w.py = s.py) :
    (∀ out, w.imageOf out = s.imageOf out) ∧ (∀ r sh img, maskField w r sh img = maskField s r sh img) := by
  obtain ⟨dev, px, py, f1, f2, f3⟩ := w
  simp only at hd hpx hpy
  subst hpx; subst hpy
  exact ⟨fun out => imageOf_like hd.like .., fun r sh img => maskField_like hd.like ..⟩

theorem inv_start {s : Sim} (hs : s.inputField = none ∧ s.outputField = none ∧ s.imageField = none) (progs : ℕ → List Op) :
    Inv s progs (World.start s progs) where
  todo _ _ h := h
  px := rfl
  py := rfl
  dev := .start
  input f h := by rw [show (World.start s progs).sim.inputField = none from hs.1] at h; cases h
  output f h := by rw [show (World.start s progs).sim.outputField = none from hs.2.1] at h; cases h
  image f h := by rw [show (World.start s progs).sim.imageField = none from hs.2.2] at h; cases h
  job i := trivial

theorem seen_update {s : Sim} {progs : ℕ → List Op} {w : Sim} (hd : Seen s progs w.dev) {op : Op} (hop : isUpdate op) (hm : Made progs op) :
    Seen s progs (w.step op).1.dev ∧ (w.step op).1 = { w with dev := (w.step op).1.dev } := by
  obtain ⟨D, -, hD⟩ := update_step hop w.dev
  have e := hD w rfl
  refine ⟨?_, by rw [e]⟩
  obtain ⟨i, hm⟩ := hm
  cases op with
  | propagate => exact hop.elim
  | block => exact hop.elim
  | clear => exact hop.elim
  | setState st =>
    simp only [Sim.step]
    cases hw : w.dev with
    | base => simp only; rw [hw] at hd ⊢; exact hd
    | lcos => simp only; rw [hw] at hd ⊢; exact hd
    | dmd d old =>
      rw [hw] at hd
      obtain ⟨st', h⟩ := hd.like.symm.dmd_iff rfl
      exact .dmd h hm
  | setLcos st =>
    simp only [Sim.step]
    cases hw : w.dev with
    | base => simp only; rw [hw] at hd ⊢; exact hd
    | dmd => simp only; rw [hw] at hd ⊢; exact hd
    | lcos l =>
      rw [hw] at hd
      cases hsd : s.dev with
      | base b => have := hd.like; rw [hsd] at this; cases this
      | dmd d old => have := hd.like; rw [hsd] at this; cases this
      | lcos l' =>
        have hl := hd.like
        rw [hsd] at hl
        have : (Device.lcos { l with state := st }) = .lcos { l' with state := st } := by cases hl <;> rfl
        show Seen s progs (.lcos { l with state := st })
        rw [this]
        exact .lcos hsd hm

theorem inv_step {s : Sim} {progs : ℕ → List Op} (hs : s.outputField = none ∧ s.imageField = none) (hx : s.dev.slm.Nx ≠ 1)
    (hy : s.dev.slm.Ny ≠ 1) (hsz : ∀ dev, Seen s progs dev → Sized dev) {w : World} (inv : Inv s progs w) (i : ℕ) :
    Inv s progs (w.step i) := by
  obtain ⟨todo, hpx, hpy, dev, input, output, image, job⟩ := inv
  obtain ⟨sim, th⟩ := w
  simp only at todo hpx hpy dev input output image job
  obtain ⟨im, mk⟩ := sim_like dev hpx hpy
  have td := todo i
  have jb := job i
  have same : ∀ (sim' : Sim) (t : Thread), (∀ op ∈ t.todo, op ∈ progs i) → sim'.px = s.px → sim'.py = s.py → Seen s progs sim'.dev →
      (∀ f, sim'.inputField = some f → ∃ h a, Made progs (.propagate h a) ∧ (s.propagate h a).1.inputField = some f) →
      (∀ f, sim'.outputField = some f → IsOut s progs f) → (∀ f, sim'.imageField = some f → IsImg s progs f) →
      (match t.job with
        | .padded inp => ∃ h a p, Made progs (.propagate h a) ∧ s.dev.slm.profileToTensor h a true true = .ok inp ∧ pad inp s.py s.px = .ok p
        | .image img => IsImg s progs img
        | .checked r => Made progs (.block r)
        | .zeros r sh => Made progs (.block r) ∧ sh = .mat s.Ny s.Nx
        | _ => True) →
      Inv s progs ⟨sim', Function.update th i t⟩ := by
    intro sim' t a1 a2 a3 a4 a5 a6 a7 a8
    refine ⟨fun j => ?_, a2, a3, a4, a5, a6, a7, fun j => ?_⟩
    · by_cases hj : j = i
      · subst hj; simp only [Function.update_self]; exact a1
      · simp only [Function.update_of_ne hj]; exact todo j
    · by_cases hj : j = i
      · subst hj; simp only [Function.update_self]; exact a8
      · simp only [Function.update_of_ne hj]; exact job j
  show Inv s progs ⟨(stepThread sim (th i)).1, Function.update th i (stepThread sim (th i)).2⟩
  revert td jb
  generalize th i = t
  intro td jb
  obtain ⟨todo', jobi⟩ := t
  cases jobi with
  | idle =>
    cases todo' with
    | nil => exact same _ _ td hpx hpy dev input output image trivial
    | cons op ops =>
      have hmem : Made progs op := ⟨i, td op (List.mem_cons_self ..)⟩
      have td' : ∀ o ∈ ops, o ∈ progs i := fun o ho => td o (List.mem_cons_of_mem _ ho)
      cases op with
      | propagate h a =>
        simp only [stepThread, begin]
        cases e1 : sim.dev.slm.profileToTensor h a true true with
        | error e => exact same _ _ td' hpx hpy dev input output image trivial
        | ok inp =>
          simp only
          cases e2 : pad inp sim.py sim.px with
          | error e => exact same _ _ td' hpx hpy dev input output image trivial
          | ok p =>
            rw [dev.like.slm] at e1
            rw [hpx, hpy] at e2
            refine same _ _ td' hpx hpy dev (fun f hf => ?_) output image ⟨h, a, p, hmem, e1, e2⟩
            injection hf with hf
            exact ⟨h, a, hmem, by rw [← hf]; exact propagate_input e1 e2⟩
      | block r =>
        simp only [stepThread, begin]
        split
        · split
          · exact same _ _ td' hpx hpy dev input output image trivial
          · exact same _ _ td' hpx hpy dev input output image hmem
        · exact same _ _ td' hpx hpy dev input output image trivial
      | clear => exact same _ _ td' hpx hpy dev (fun f hf => by cases hf) output image trivial
      | setState st =>
        obtain ⟨u1, u2⟩ := seen_update (w := sim) dev (op := .setState st) trivial hmem
        simp only [stepThread, begin]
        rw [u2]
        exact same _ _ td' hpx hpy u1 input output image trivial
      | setLcos st =>
        obtain ⟨u1, u2⟩ := seen_update (w := sim) dev (op := .setLcos st) trivial hmem
        simp only [stepThread, begin]
        rw [u2]
        exact same _ _ td' hpx hpy u1 input output image trivial
  | padded inp =>
    obtain ⟨h, a, p, h1, e1, e2⟩ := jb
    simp only [stepThread]
    cases e3 : sim.dev.stateTensor with
    | error e => exact same _ _ td hpx hpy dev input output image trivial
    | ok st =>
      simp only
      cases e4 : Tensor.map2 (fun a b => a * b) inp st with
      | error e => exact same _ _ td hpx hpy dev input output image trivial
      | ok out =>
        simp only
        cases e5 : pad out sim.py sim.px with
        | error e => exact same _ _ td hpx hpy dev input output image trivial
        | ok po =>
          refine same _ _ td hpx hpy dev input (fun f hf => ?_) image trivial
          injection hf with hf
          rw [← hf]
          rw [hpx, hpy] at e5
          refine ⟨h, a, sim.dev, h1, dev, ?_⟩
          refine (propagate_output (s := { s with dev := sim.dev }) ?_ e2 e3 e4 e5).1
          simp only [dev.like.slm]
          exact e1
  | formed =>
    simp only [stepThread]
    cases e1 : sim.outputField with
    | none => exact same _ _ td hpx hpy dev input output image trivial
    | some out =>
      simp only
      cases e2 : sim.imageOf out with
      | error e => exact same _ _ td hpx hpy dev input output image trivial
      | ok img =>
        refine same _ _ td hpx hpy dev input output image ?_
        rw [im] at e2
        exact img_of_out hs hx hy hsz (output out e1) e2
  | image img =>
    refine same _ _ td hpx hpy dev input output (fun f hf => ?_) trivial
    injection hf with hf
    rw [← hf]; exact jb
  | checked r =>
    simp only [stepThread]
    cases e1 : sim.imagePaddedGrid with
    | error e => exact same _ _ td hpx hpy dev input output image trivial
    | ok g =>
      simp only
      cases e2 : sim.imageField with
      | none => exact same _ _ td hpx hpy dev input output image trivial
      | some img =>
        refine same _ _ td hpx hpy dev input output image ⟨jb, ?_⟩
        obtain ⟨h, a, dev', bs, h1, h2, h3, h4, h5, h6⟩ := image img e2
        exact h5
  | zeros r sh =>
    obtain ⟨j1, rfl⟩ := jb
    simp only [stepThread]
    cases e1 : sim.imageField with
    | none => exact same _ _ td hpx hpy dev input output image trivial
    | some img =>
      simp only
      cases e2 : maskField sim r (.mat s.Ny s.Nx) img with
      | error e => exact same _ _ td hpx hpy dev input output image trivial
      | ok img' =>
        refine same _ _ td hpx hpy dev input output image ?_
        rw [mk] at e2
        exact img_of_img (image img e1) j1 e2
  | cleared => exact same _ _ td hpx hpy dev input (fun f hf => by cases hf) image trivial
  | cleared' => exact same _ _ td hpx hpy dev input output (fun f hf => by cases hf) trivial

end SharedSim

end PySLM2
