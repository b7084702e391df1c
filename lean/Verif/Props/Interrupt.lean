import Verif.Model.Interrupt
import Verif.Props.SimLife

/-!
# C153: interrupted calls on a simulation
-/

noncomputable section

open Complex Finset

namespace PySLM2.Sim

open Profile Lib

theorem propagate_trace_cases (s : Sim) (h : Heap) (a : ProfArg) :
    (∃ e, s.propagateTrace h a = [s] ∧ s.propagate h a = (s, .error e)) ∨
    (∃ e f, s.propagateTrace h a = [s, { s with inputField := some f }] ∧
      s.propagate h a = ({ s with inputField := some f }, .error e)) ∨
    (∃ e f g, s.propagateTrace h a = [s, { s with inputField := some f }, { s with inputField := some f, outputField := some g }] ∧
      s.propagate h a = ({ s with inputField := some f, outputField := some g }, .error e)) ∨
    (∃ f g i, s.propagateTrace h a = [s, { s with inputField := some f }, { s with inputField := some f, outputField := some g },
        { s with inputField := some f, outputField := some g, imageField := some i }] ∧
      s.propagate h a = ({ s with inputField := some f, outputField := some g, imageField := some i }, .ok ())) := by
  unfold propagateTrace propagate
  cases hp : s.dev.slm.profileToTensor h a true true with
  | error e => exact Or.inl ⟨e, rfl, rfl⟩
  | ok inp =>
    simp only
    cases hpad : pad inp s.py s.px with
    | error e => exact Or.inl ⟨e, rfl, rfl⟩
    | ok padded =>
      simp only
      cases hst : s.dev.stateTensor with
      | error e => exact Or.inr (Or.inl ⟨e, padded, rfl, rfl⟩)
      | ok st =>
        simp only
        cases hm : Tensor.map2 (fun a b => a * b) inp st with
        | error e => exact Or.inr (Or.inl ⟨e, padded, rfl, rfl⟩)
        | ok out =>
          simp only
          cases hpo : pad out s.py s.px with
          | error e => exact Or.inr (Or.inl ⟨e, padded, rfl, rfl⟩)
          | ok outP =>
            simp only
            have himg : imageOf { s with inputField := some padded, outputField := some outP } outP = s.imageOf outP := rfl
            rw [himg]
            cases hi : s.imageOf outP with
            | error e => exact Or.inr (Or.inr (Or.inl ⟨e, padded, outP, rfl, rfl⟩))
            | ok img => exact Or.inr (Or.inr (Or.inr ⟨padded, outP, img, rfl, rfl⟩))

/-- The states listed for a call begin with the object as it is and end with what the call leaves when it is not cut short. -/
theorem trace_ends (s : Sim) (op : Op) : (s.trace op).head? = some s ∧ (s.trace op).getLast? = some (s.step op).1 := by
  cases op with
  | propagate h a =>
    show (s.propagateTrace h a).head? = some s ∧ (s.propagateTrace h a).getLast? = some (s.propagate h a).1
    obtain ⟨e, h1, h2⟩ | ⟨e, f, h1, h2⟩ | ⟨e, f, g, h1, h2⟩ | ⟨f, g, i, h1, h2⟩ := s.propagate_trace_cases h a <;>
      rw [h1, h2] <;> exact ⟨rfl, rfl⟩
  | clear => exact ⟨rfl, rfl⟩
  | block r => exact ⟨rfl, rfl⟩
  | setState st => exact ⟨rfl, rfl⟩
  | setLcos st => exact ⟨rfl, rfl⟩

/-- **C153** (proved part): wherever `propagate_to_image` is cut short, the device and the paddings are untouched and each result is the
old one or the one the complete call would give; a new image comes with everything else new, a new output field with the new input
field.  Missing: that the results always belong to one propagation, which is false (`C153_refuted`). -/
theorem C153_partial (s : Sim) (h : Heap) (a : ProfArg) (k : ℕ) :
    let t := s.handle (.cut (.propagate h a) k)
    let s' := (s.propagate h a).1
    t.dev = s.dev ∧ t.px = s.px ∧ t.py = s.py ∧
      (t = s' ∨ t.imageField = s.imageField) ∧
      ((t.inputField = s'.inputField ∧ t.outputField = s'.outputField) ∨ t.outputField = s.outputField) ∧
      (t.inputField = s'.inputField ∨ t = s) := by
  intro t s'
  have ht : t = (s.propagateTrace h a)[k]?.getD s' := rfl
  obtain ⟨e, h1, h2⟩ | ⟨e, f, h1, h2⟩ | ⟨e, f, g, h1, h2⟩ | ⟨f, g, i, h1, h2⟩ := s.propagate_trace_cases h a <;>
    simp only [s', h1, h2] at ht ⊢
  · rcases k with _ | k <;> simp at ht <;> simp [ht]
  · rcases k with _ | _ | k <;> simp at ht <;> simp [ht]
  · rcases k with _ | _ | _ | k <;> simp at ht <;> simp [ht]
  · rcases k with _ | _ | _ | _ | k <;> simp at ht <;> simp [ht]

/-- **C153.** A `clear` that is cut short after `k` assignments: the results are dropped in the order input, output, image, and those not yet
dropped are the old ones. -/
theorem C153_clear (s : Sim) (k : ℕ) :
    let t := s.handle (.cut .clear k)
    t.dev = s.dev ∧ t.px = s.px ∧ t.py = s.py ∧ t.inputField = (if 1 ≤ k then none else s.inputField) ∧
      t.outputField = (if 2 ≤ k then none else s.outputField) ∧ t.imageField = (if 3 ≤ k then none else s.imageField) := by
  rcases k with _ | _ | _ | _ | k
  · exact ⟨rfl, rfl, rfl, rfl, rfl, rfl⟩
  · exact ⟨rfl, rfl, rfl, rfl, rfl, rfl⟩
  · exact ⟨rfl, rfl, rfl, rfl, rfl, rfl⟩
  · exact ⟨rfl, rfl, rfl, rfl, rfl, rfl⟩
  · intro t
    have ht : t = (s.step .clear).1 := rfl
    rw [ht, if_pos (by omega), if_pos (by omega), if_pos (by omega)]
    exact ⟨rfl, rfl, rfl, rfl, rfl, rfl⟩

/-- **C153.** A propagation that succeeds repairs everything: whatever calls came before, complete or cut short anywhere, from then on the
object is the same as if only calls with the same effect on the device had been made. -/
theorem C153_repair (s t : Sim) (before before' later : List Event) (hd : (t.runEvents before').dev = (s.runEvents before).dev)
    (hx : (t.runEvents before').px = (s.runEvents before).px) (hy : (t.runEvents before').py = (s.runEvents before).py)
    (h : Heap) (a : ProfArg) (hok : ((s.runEvents before).propagate h a).2 = .ok ()) :
    t.runEvents (before' ++ .done (.propagate h a) :: later) = s.runEvents (before ++ .done (.propagate h a) :: later) := by
  unfold runEvents at hd hx hy hok ⊢
  rw [List.foldl_append, List.foldl_append, List.foldl_cons, List.foldl_cons]
  congr 1
  show (propagate _ h a).1 = (propagate _ h a).1
  rw [propagate_success_indep hd hx hy h a hok]

/-- **C153.** No event other than an update of the SLM changes the SLM, and none changes the paddings. -/
theorem C153_device (s : Sim) (evs : List Event)
    (hev : ∀ st st' k, Event.done (.setState st) ∉ evs ∧ Event.done (.setLcos st') ∉ evs ∧
      Event.cut (.setState st) k ∉ evs ∧ Event.cut (.setLcos st') k ∉ evs) :
    (s.runEvents evs).dev = s.dev ∧ (s.runEvents evs).px = s.px ∧ (s.runEvents evs).py = s.py := by
  have hprop : ∀ (s : Sim) h a, (s.propagate h a).1.dev = s.dev ∧ (s.propagate h a).1.px = s.px ∧ (s.propagate h a).1.py = s.py := by
    intro s h a
    obtain ⟨e, h1, h2⟩ | ⟨e, f, h1, h2⟩ | ⟨e, f, g, h1, h2⟩ | ⟨f, g, i, h1, h2⟩ := s.propagate_trace_cases h a <;>
      rw [h2] <;> exact ⟨rfl, rfl, rfl⟩
  have hblock : ∀ (s : Sim) r, (s.blockZerothOrder r).1.dev = s.dev ∧ (s.blockZerothOrder r).1.px = s.px ∧
      (s.blockZerothOrder r).1.py = s.py := by
    intro s r
    unfold blockZerothOrder
    repeat' split
    all_goals exact ⟨rfl, rfl, rfl⟩
  induction evs generalizing s with
  | nil => exact ⟨rfl, rfl, rfl⟩
  | cons ev evs ih =>
    have ih' := ih (s.handle ev) fun st st' k => by
      have := hev st st' k
      simp only [List.mem_cons, not_or] at this
      exact ⟨this.1.2, this.2.1.2, this.2.2.1.2, this.2.2.2.2⟩
    have key : (s.handle ev).dev = s.dev ∧ (s.handle ev).px = s.px ∧ (s.handle ev).py = s.py := by
      cases ev with
      | done op =>
        cases op with
        | propagate h a => exact hprop s h a
        | block r => exact hblock s r
        | clear => exact ⟨rfl, rfl, rfl⟩
        | setState st => exact absurd List.mem_cons_self (hev st ⟨.real, ⟨.scalar, fun _ _ => 0⟩⟩ 0).1
        | setLcos st => exact absurd List.mem_cons_self (hev (.bool ⟨.scalar, fun _ _ => false⟩) st 0).2.1
      | cut op k =>
        cases op with
        | propagate h a => exact ⟨(C153_partial s h a k).1, (C153_partial s h a k).2.1, (C153_partial s h a k).2.2.1⟩
        | block r =>
          have := hblock s r
          rcases k with _ | _ | k
          · exact ⟨rfl, rfl, rfl⟩
          · exact this
          · exact this
        | clear => rcases k with _ | _ | _ | _ | k <;> exact ⟨rfl, rfl, rfl⟩
        | setState st => exact absurd List.mem_cons_self (hev st ⟨.real, ⟨.scalar, fun _ _ => 0⟩⟩ k).2.2.1
        | setLcos st => exact absurd List.mem_cons_self (hev (.bool ⟨.scalar, fun _ _ => false⟩) st k).2.2.2
    show ((s.handle ev).runEvents evs).dev = _ ∧ _
    exact ⟨ih'.1.trans key.1, ih'.2.1.trans key.2.1, ih'.2.2.trans key.2.2⟩

/-- **C153 is false in general**: if the second of two propagations is cut short before its last assignment, the input power is that of
the second input and the power in the image plane that of the first; and if the first propagation of a simulation is cut short there,
`block_zeroth_order` does not raise the `TypeError` that asks for a propagation first. -/
theorem C153_refuted {s : Sim} {px py : ℕ} {h : Heap} {a b : ProfArg} {u w m : ℕ → ℕ → ℂ} (ra : Ready s px py h a u m)
    (rb : Ready s px py h b w m) :
    let t := s.runEvents [.done (.propagate h a), .cut (.propagate h b) 2]
    t.inputPower = .ok (slmPower s.dev.slm w) ∧ t.imagePower = .ok (slmPower s.dev.slm fun i j => u i j * m i j) ∧
      (s.imageField = none → ∀ d st r, s.dev = .dmd d st →
        ((s.runEvents [.cut (.propagate h a) 2]).blockZerothOrder r).2 = .error .tensorflow) := by
  intro t
  have ea := propagate_ready ra
  have rb' : Ready (s.propagated px py u m) px py h b w m := ⟨rb.hpx, rb.hpy, rb.hNx, rb.hNy, rb.hsc, rb.hps, rb.input, rb.modulation⟩
  have eb := propagate_ready rb'
  have key : ∀ {s : Sim} {a u}, Ready s px py h a u m → s.handle (.cut (.propagate h a) 2) =
      { s with inputField := (s.propagated px py u m).inputField, outputField := (s.propagated px py u m).outputField } := by
    intro s a u r
    have e := propagate_ready r
    obtain ⟨e', h1, h2⟩ | ⟨e', f, h1, h2⟩ | ⟨e', f, g, h1, h2⟩ | ⟨f, g, i, h1, h2⟩ := s.propagate_trace_cases h a
    · rw [e] at h2; simp at h2
    · rw [e] at h2; simp at h2
    · rw [e] at h2; simp at h2
    · rw [e] at h2
      have h3 : s.propagated px py u m = { s with inputField := some f, outputField := some g, imageField := some i } :=
        congrArg Prod.fst h2
      show (s.propagateTrace h a)[2]?.getD _ = _
      rw [h1, h3]
      rfl
  have ht : t = { s.propagated px py u m with
      inputField := ((s.propagated px py u m).propagated px py w m).inputField
      outputField := ((s.propagated px py u m).propagated px py w m).outputField } := by
    show ((s.propagate h a).1).handle (.cut (.propagate h b) 2) = _
    rw [ea]
    exact key rb'
  refine ⟨?_, ?_, fun hn d st r hd => ?_⟩
  · rw [ht]
    exact (propagated_powers rb').1
  · rw [ht]
    exact (propagated_powers ra).2.2
  · show ((s.handle (.cut (.propagate h a) 2)).blockZerothOrder r).2 = _
    rw [key ra]
    obtain ⟨g, hg⟩ := imagePaddedGrid_ok ra
    unfold blockZerothOrder
    simp only [hd, propagated, hn]
    have hg' : imagePaddedGrid { s with
        inputField := (s.propagated px py u m).inputField, outputField := (s.propagated px py u m).outputField } = .ok g := hg
    simp only [propagated, hd, hn] at hg'
    simp only [hg']

/-- An input that is dark everywhere -/
def exDark : ProfArg := .ndarray .cplx ⟨.mat 2 4, fun _ _ => 0⟩

theorem exReady_dark (h : Profile.Heap) :
    Ready exSim 3 1 h exDark (fun _ _ => 0) (fun i j => if (i + j) % 2 = 0 then 1 else 0) := by
  have r := exReady h
  exact ⟨r.hpx, r.hpy, r.hNx, r.hNy, r.hsc, r.hps, ⟨_, rfl, rfl, fun _ _ _ _ => rfl⟩, r.modulation⟩

/-- The hypotheses of the theorems above are met: light in the image plane without any light on the SLM, and a complete propagation
that repairs this. -/
example (h : Heap) :
    let t := exSim.runEvents [.done (.propagate h exInput), .cut (.propagate h exDark) 2]
    t.inputPower = .ok 0 ∧ (∃ p, 0 < p ∧ t.imagePower = .ok p) ∧
      t.runEvents [.done (.propagate h exInput)] = exSim.runEvents [.done (.propagate h exInput)] ∧
      ((exSim.runEvents [.cut (.propagate h exInput) 2]).blockZerothOrder none).2 = .error .tensorflow := by
  intro t
  have key := C153_refuted (exReady h) (exReady_dark h)
  refine ⟨?_, ⟨_, ?_, key.2.1⟩, ?_, key.2.2 rfl _ _ none rfl⟩
  · rw [key.1]
    simp [slmPower]
  · norm_num [slmPower, exSim, exDmd, Device.slm, Finset.sum_range_succ]
    positivity
  · have hd := C153_device exSim [.done (.propagate h exInput), .cut (.propagate h exDark) 2] (by simp)
    have := C153_repair exSim exSim [] [.done (.propagate h exInput), .cut (.propagate h exDark) 2] [] hd.1 hd.2.1 hd.2.2 h exInput
      (by rw [show exSim.runEvents [] = exSim from rfl, propagate_ready (exReady h)])
    exact this

end PySLM2.Sim
