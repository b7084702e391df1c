import Verif.Props.Propagation
import Verif.Spec.Mirror

/-!
# C109: devices without a hologram
-/

noncomputable section

open Complex Finset

namespace PySLM2.Sim

open Lib

theorem blank_modulation {d : Device} (hd : Blank d) : Modulation d fun _ _ => 1 := by
  cases d with
  | base s => exact hd.elim
  | dmd d st =>
    obtain ⟨cur, rfl⟩ := hd
    exact ⟨_, rfl, rfl, fun i _ j _ => by simp [Tensor.map]⟩
  | lcos l =>
    rcases hd with ⟨s, rfl⟩ | ⟨l', rfl⟩
    · exact ⟨_, rfl, rfl, fun i _ j _ => by simp [LCOS.stateTensor, LCOS.new, LCOS.zeroState, Tensor.map]⟩
    · exact ⟨_, rfl, rfl, fun i _ j _ => by simp [LCOS.stateTensor, LCOS.reset, LCOS.zeroState, Tensor.map]⟩

theorem dark_modulation {d : Device} (hd : Dark d) : Modulation d fun _ _ => 0 := by
  cases d with
  | base s => exact hd.elim
  | lcos l => exact hd.elim
  | dmd d st =>
    rcases hd with rfl | ⟨cur, rfl⟩
    · exact ⟨_, rfl, rfl, fun i _ j _ => by simp [Tensor.map]⟩
    · exact ⟨_, rfl, rfl, fun i _ j _ => by simp [Tensor.map]⟩

/-- **C109.** A new or reset LCOS SLM, and a DMD with all mirrors on, are plain mirrors: the field behind the SLM is the
input field, the image is the diffraction pattern of the input field itself, and no power is lost. -/
theorem C109_mirror {s : Sim} {px py : ℕ} {h : Profile.Heap} {a : ProfArg} {u : ℕ → ℕ → ℂ} (hd : Blank s.dev)
    (hpx : s.px = px) (hpy : s.py = py) (hNx : 0 < s.dev.slm.Nx) (hNy : 0 < s.dev.slm.Ny)
    (hsc : s.dev.slm.wavelength * s.dev.slm.focal ≠ 0) (hps : s.dev.slm.ps ≠ 0) (hin : InputField s h a u) :
    (s.propagate h a).2 = .ok () ∧
    (∃ inp out, (s.propagate h a).1.inputField = some inp ∧ (s.propagate h a).1.outputField = some out ∧
      inp = out) ∧
    (∃ img g, (s.propagate h a).1.imageField = some img ∧ s.imagePaddedGrid = .ok g ∧
      ∀ k < s.dev.slm.Ny + 2 * py, ∀ l < s.dev.slm.Nx + 2 * px,
        ‖img.get k l‖ = ‖fraunhofer s.dev.slm u (g.1.get k l) (g.2.get k l)‖ ∧
        (Even s.dev.slm.Nx → Even s.dev.slm.Ny →
          img.get k l = fraunhofer s.dev.slm u (g.1.get k l) (g.2.get k l))) ∧
    ∃ P, (s.propagate h a).1.inputPower = .ok P ∧ (s.propagate h a).1.outputPower = .ok P ∧
      (s.propagate h a).1.imagePower = .ok P := by
  have r : Ready s px py h a u fun _ _ => 1 := ⟨hpx, hpy, hNx, hNy, hsc, hps, hin, blank_modulation hd⟩
  obtain ⟨h1, img, g, h2, h3, -, h4⟩ := C10_fraunhofer r
  simp only [mul_one] at h4
  refine ⟨h1, ?_, ⟨img, g, h2, h3, h4⟩, ?_⟩
  · rw [propagate_ready r]
    refine ⟨_, _, rfl, rfl, ?_⟩
    simp only [mul_one]
  · rw [propagate_ready r]
    obtain ⟨p1, p2, p3⟩ := propagated_powers r
    simp only [mul_one] at p2 p3
    exact ⟨_, p1, p2, p3⟩

/-- **C109.** A new DMD and a DMD with all mirrors off give a dark image: the propagation succeeds, the field is zero at
every image plane pixel and the output power is zero, whatever the input. -/
theorem C109_dark {s : Sim} {px py : ℕ} {h : Profile.Heap} {a : ProfArg} {u : ℕ → ℕ → ℂ} (hd : Dark s.dev)
    (hpx : s.px = px) (hpy : s.py = py) (hNx : 0 < s.dev.slm.Nx) (hNy : 0 < s.dev.slm.Ny)
    (hsc : s.dev.slm.wavelength * s.dev.slm.focal ≠ 0) (hps : s.dev.slm.ps ≠ 0) (hin : InputField s h a u) :
    (s.propagate h a).2 = .ok () ∧ (s.propagate h a).1.outputPower = .ok 0 ∧
    (s.propagate h a).1.imagePower = .ok 0 ∧
    ∃ img, (s.propagate h a).1.imageField = some img ∧
      img.shape = .mat (s.dev.slm.Ny + 2 * py) (s.dev.slm.Nx + 2 * px) ∧
      ∀ k < s.dev.slm.Ny + 2 * py, ∀ l < s.dev.slm.Nx + 2 * px, img.get k l = 0 := by
  have r : Ready s px py h a u fun _ _ => 0 := ⟨hpx, hpy, hNx, hNy, hsc, hps, hin, dark_modulation hd⟩
  obtain ⟨h1, img, g, h2, h3, h5, h4⟩ := C10_fraunhofer r
  refine ⟨h1, ?_, ?_, img, h2, h5, fun k hk l hl => ?_⟩
  · rw [propagate_ready r]
    obtain ⟨-, p2, -⟩ := propagated_powers r
    simpa [slmPower] using p2
  · rw [propagate_ready r]
    obtain ⟨-, -, p3⟩ := propagated_powers r
    simpa [slmPower] using p3
  · have h6 := (h4 k hk l hl).1
    simpa [fraunhofer] using h6

/-- The hypotheses are satisfiable: a new LCOS SLM, one that was reset, a DMD switched on and a new DMD, with a
non-trivial input. -/
example (h : Profile.Heap) : let slm : SLM := ⟨3, 5, 4, 2, 2⟩
    let s : Sim := ⟨.lcos (LCOS.new slm), 3, 1, none, none, none⟩
    Blank s.dev ∧ Blank (.lcos (LCOS.reset ⟨slm, ⟨.real, ⟨.mat 2 4, fun i j => i + j⟩⟩⟩)) ∧
    Blank (.dmd exDmd (exDmd.runCalls exDmd.initialState [.on])) ∧ Dark (.dmd exDmd exDmd.initialState) ∧
    InputField s h exInput (fun i j => i + j * I + 1) :=
  ⟨Or.inl ⟨_, rfl⟩, Or.inr ⟨_, rfl⟩, ⟨_, rfl⟩, Or.inl rfl, ⟨_, rfl, rfl, fun _ _ _ _ => rfl⟩⟩

end PySLM2.Sim
