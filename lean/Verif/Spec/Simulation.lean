import Verif.Model.Simulation

/-!
# Specification vocabulary for the simulation
-/

noncomputable section

open Complex Finset

namespace PySLM2.Sim

/-- The argument `a` of `propagate_to_image` denotes the field `u` on the pixels of the SLM (an array of
the shape of the device, or a profile sampled there). -/
def InputField (s : Sim) (h : Profile.Heap) (a : ProfArg) (u : ℕ → ℕ → ℂ) : Prop :=
  ∃ t, s.dev.slm.profileToTensor h a true true = .ok t ∧
    t.shape = .mat s.dev.slm.Ny s.dev.slm.Nx ∧
    ∀ i < s.dev.slm.Ny, ∀ j < s.dev.slm.Nx, t.get i j = u i j

/-- The SLM multiplies the field by `m`, pixel by pixel. -/
def Modulation (d : Device) (m : ℕ → ℕ → ℂ) : Prop :=
  ∃ t, d.stateTensor = .ok t ∧ t.shape = .mat d.slm.Ny d.slm.Nx ∧
    ∀ i < d.slm.Ny, ∀ j < d.slm.Nx, t.get i j = m i j

/-- A simulation of a sensible device (non-empty, non-zero wavelength, focal length and pixel size) with
paddings `px`, `py`, about to propagate the field `u` with the SLM showing the modulation `m`. -/
structure Ready (s : Sim) (px py : ℕ) (h : Profile.Heap) (a : ProfArg) (u m : ℕ → ℕ → ℂ) : Prop where
  hpx : s.px = px
  hpy : s.py = py
  hNx : 0 < s.dev.slm.Nx
  hNy : 0 < s.dev.slm.Ny
  hsc : s.dev.slm.wavelength * s.dev.slm.focal ≠ 0
  hps : s.dev.slm.ps ≠ 0
  input : InputField s h a u
  modulation : Modulation s.dev m

/-- Fraunhofer diffraction of the field `U` on the SLM pixels: the integral of `U exp(2 pi i (xX + yY) /
(wavelength f)) / (wavelength f)` over the SLM, each pixel counted with its centre coordinate and its area.
The coordinates `(X, Y)` are those of `fourier_plane_grid`. -/
def fraunhofer (s : SLM) (U : ℕ → ℕ → ℂ) (x y : ℝ) : ℂ :=
  ((s.ps ^ 2 / (s.wavelength * s.focal) : ℝ) : ℂ) *
    ∑ i ∈ range s.Ny, ∑ j ∈ range s.Nx, U i j *
      cexp (2 * Real.pi * I *
        ((x * s.fourierGrid.1.get i j + y * s.fourierGrid.2.get i j : ℝ) : ℂ) /
        ((s.wavelength * s.focal : ℝ) : ℂ))

/-- The same diffraction integral with the positions measured from pixel `(Ny//2, Nx//2)`, which is the
origin of the coordinates if the sizes are even (`fieldAt_even`) and half a pixel away from it otherwise. -/
def fieldAt (s : SLM) (U : ℕ → ℕ → ℂ) (x y : ℝ) : ℂ :=
  ((s.ps ^ 2 / s.scaling : ℝ) : ℂ) * ∑ i ∈ range s.Ny, ∑ j ∈ range s.Nx, U i j *
    cexp ((2 * Real.pi * I) * ((x * ((j : ℝ) - (s.Nx / 2 : ℕ)) * s.ps / s.scaling +
      y * ((s.Ny / 2 : ℕ) - (i : ℝ)) * s.ps / s.scaling : ℝ) : ℂ))

/-- Total power of the field `U` on the SLM: sum of the intensities times the pixel area. -/
def slmPower (s : SLM) (U : ℕ → ℕ → ℂ) : ℝ :=
  (∑ i ∈ range s.Ny, ∑ j ∈ range s.Nx, ‖U i j‖ ^ 2) * s.ps ^ 2

/-- The power of the target: sum of the intensities times the area of a pixel of the image plane. -/
def targetPower (s : SLM) (T : ℕ → ℕ → ℂ) : ℝ :=
  (∑ k ∈ Finset.range s.Ny, ∑ l ∈ Finset.range s.Nx, ‖T k l‖ ^ 2) *
    ((s.wavelength * s.focal / (s.Nx * s.ps)) * (s.wavelength * s.focal / (s.Ny * s.ps)))

/-! ## Histories -/

/-- The state array held by the device has the shape of the device. -/
def Device.StateFits : Device → Prop
  | .base _ => True
  | .dmd d st => st.shape = .mat d.slm.Ny d.slm.Nx
  | .lcos l => l.state.arr.shape = .mat l.slm.Ny l.slm.Nx

/-- A sensible device: at least two rows and columns, non-zero optical constants, a state array of the
right shape. -/
structure GoodDevice (d : Device) : Prop where
  hNx : 2 ≤ d.slm.Nx
  hNy : 2 ≤ d.slm.Ny
  hsc : d.slm.wavelength * d.slm.focal ≠ 0
  hps : d.slm.ps ≠ 0
  fits : Device.StateFits d

/-- State arrays assigned by the user have the shape of the device; no condition on other calls (in
particular none on the arguments of `propagate_to_image`). -/
def FittingOp (s : SLM) : Op → Prop
  | .setState st => st.shape = .mat s.Ny s.Nx
  | .setLcos st => st.arr.shape = .mat s.Ny s.Nx
  | _ => True

/-- The calls of a history with what they returned or raised. -/
def outcomes (s : Sim) : List Op → List (Op × Except PyErr Unit)
  | [] => []
  | op :: ops => (op, (s.step op).2) :: outcomes (s.step op).1 ops

/-- Is there a propagated result after these calls: a propagation succeeded and nothing was cleared
since.  (`b`: was there one before.) -/
def availableAfter (b : Bool) : List (Op × Except PyErr Unit) → Bool
  | [] => b
  | (.propagate _ _, .ok _) :: l => availableAfter true l
  | (.clear, _) :: l => availableAfter false l
  | _ :: l => availableAfter b l

end PySLM2.Sim
