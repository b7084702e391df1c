import Verif.Model.Dmd

/-!
# Specification vocabulary for DMD gratings and mode matching
-/

noncomputable section

open Complex Finset

namespace PySLM2

open Lib

/-- The tensor denotes the array `f` on an `M x N` grid (scalars and arrays with a dimension of length 1
are broadcast). -/
def Tensor.Denotes {α : Type} (t : Tensor α) (M N : ℕ) (f : ℕ → ℕ → α) : Prop :=
  bcast t.shape (.mat M N) = some (.mat M N) ∧ ∀ i < M, ∀ j < N, t.at_ i j = f i j

/-- Two state arrays are the same: same dtype, same shape, same entries. -/
def Lib.StateArr.Same : StateArr → StateArr → Prop
  | .bool a, .bool b => a.Same b
  | .float a, .float b => a.Same b
  | _, _ => False

namespace DMD

/-- The argument (a number, array or profile) denotes the real values `f` on the DMD pixels. -/
def RealArg (d : DMD) (h : Profile.Heap) (a : ProfArg) (f : ℕ → ℕ → ℝ) : Prop :=
  ∃ t, d.slm.profileToReal h a true = .ok t ∧ t.Denotes d.slm.Ny d.slm.Nx f

/-- The arguments `amp`, `phase_in`, `phase_out` denote these values on the DMD pixels. -/
structure GratingArgs (d : DMD) (h : Profile.Heap) (amp phaseIn phaseOut : ProfArg)
    (A φin φout : ℕ → ℕ → ℝ) : Prop where
  amp : RealArg d h amp A
  phaseIn : RealArg d h phaseIn φin
  phaseOut : RealArg d h phaseOut φout

/-- Phase of the carrier grating at position `(X, Y)`: `2 pi` per period along the direction `theta`. -/
def carrier (d : DMD) (X Y : ℝ) : ℝ :=
  2 * Real.pi * ((X * Real.cos d.theta + Y * Real.sin d.theta) / d.p)

/-- Carrier phase minus the requested phase difference at pixel `(i, j)`; the difference is taken with
the opposite sign for `negative_order`. -/
def detuning (d : DMD) (φin φout : ℕ → ℕ → ℝ) (i j : ℕ) : ℝ :=
  d.carrier (d.slm.fourierGrid.1.get i j) (d.slm.fourierGrid.2.get i j) -
    (if d.neg then -(φout i j - φin i j) else φout i j - φin i j)

/-- The duty value of method `random`: a smoothed pulse around the grating lines of half width
`asin(amp)`. -/
def duty (d : DMD) (r : ℝ) (A φin φout : ℕ → ℕ → ℝ) (i j : ℕ) : ℝ :=
  (Real.tanh (r * (Real.arccos (Real.cos (d.detuning φin φout i j)) + Real.arcsin (A i j))) -
    Real.tanh (r * (Real.arccos (Real.cos (d.detuning φin φout i j)) - Real.arcsin (A i j)))) / 2

/-- The argument (number, array or profile) denotes the complex field `u` on the pixels of the device. -/
def FieldArg (s : SLM) (h : Profile.Heap) (a : ProfArg) (u : ℕ → ℕ → ℂ) : Prop :=
  ∃ t, s.profileToTensor h a true true = .ok t ∧ t.Denotes s.Ny s.Nx u

/-- The argument (array of the shape of the device, or profile) denotes the complex field `T` on the image
plane pixels. -/
def TargetArg (s : SLM) (h : Profile.Heap) (a : ProfArg) (T : ℕ → ℕ → ℂ) : Prop :=
  ∃ t, s.profileToTensor h a false true = .ok t ∧ t.shape = .mat s.Ny s.Nx ∧
    ∀ i < s.Ny, ∀ j < s.Nx, t.get i j = T i j

/-- The argument (array of the shape of the device, or profile) is converted to the array `u` of the shape
of the device, without broadcasting. -/
def ArrayArg (s : SLM) (h : Profile.Heap) (a : ProfArg) (u : ℕ → ℕ → ℂ) : Prop :=
  ∃ t, s.profileToTensor h a true true = .ok t ∧ t.shape = .mat s.Ny s.Nx ∧
    ∀ i < s.Ny, ∀ j < s.Nx, t.get i j = u i j

/-- The optional argument `window` denotes the function `w` on the pixels, 1 if it is not given. -/
def WindowArg (s : SLM) (h : Profile.Heap) (a : Option ProfArg) (w : ℕ → ℕ → ℂ) : Prop :=
  match a with
  | none => ∀ i j, w i j = 1
  | some a => FieldArg s h a w

/-- Well-formed arguments of `calculate_dmd_state`: a device with pixels, an input field `u`, a target `T`
and a window `w`. -/
structure Matching (d : DMD) (h : Profile.Heap) (inp target : ProfArg) (window : Option ProfArg)
    (u T w : ℕ → ℕ → ℂ) : Prop where
  hNx : 0 < d.slm.Nx
  hNy : 0 < d.slm.Ny
  input : FieldArg d.slm h inp u
  target : TargetArg d.slm h target T
  window : WindowArg d.slm h window w

/-- The centred discrete Fourier transform of the target: the field on the SLM whose image is the
target (`C23_interp`). -/
def spectrum (s : SLM) (T : ℕ → ℕ → ℂ) (i j : ℕ) : ℂ :=
  ∑ k ∈ range s.Ny, ∑ l ∈ range s.Nx, T k l *
    cexp (-(2 * Real.pi * I) * ((((i : ℂ) - (s.Ny / 2 : ℕ)) * ((k : ℂ) - (s.Ny / 2 : ℕ)) / s.Ny) +
      ((j : ℂ) - (s.Nx / 2 : ℕ)) * ((l : ℂ) - (s.Nx / 2 : ℕ)) / s.Nx))

/-- Band-limited interpolation of the target between the image plane pixels: the combination of the plane
waves of the SLM pixels (the same as in `Sim.fieldAt`) that agrees with the target at the image plane
pixels (`C23_interp`). -/
def interp (s : SLM) (T : ℕ → ℕ → ℂ) (x y : ℝ) : ℂ :=
  1 / (s.Nx * s.Ny : ℂ) * ∑ i ∈ range s.Ny, ∑ j ∈ range s.Nx, spectrum s T i j *
    cexp ((2 * Real.pi * I) * ((x * ((j : ℝ) - (s.Nx / 2 : ℕ)) * s.ps / (s.wavelength * s.focal) +
      y * ((s.Ny / 2 : ℕ) - (i : ℝ)) * s.ps / (s.wavelength * s.focal) : ℝ) : ℂ))

/-- A real numpy array of the shape of the device. -/
def realArray (s : SLM) (A : ℕ → ℕ → ℝ) : ProfArg :=
  .ndarray .real ⟨.mat s.Ny s.Nx, fun i j => ((A i j : ℝ) : ℂ)⟩

/-- `kw'` are the keyword arguments of `calculate_dmd_state`, with the input field and the signal window as
tensors in case of method `ifta`. -/
def Forwarded (d : DMD) (h : Profile.Heap) (inp : ProfArg) (method : String) (kw : CalcKwargs)
    (kw' : Kwargs) : Prop :=
  kw'.r = kw.r ∧ kw'.N = kw.N ∧ kw'.s = kw.s ∧
    (method = "ifta" → ∃ w tw ti, kw.signalWindow = some w ∧ d.slm.profileToTensor h w false true = .ok tw ∧
      kw'.signalWindow = some tw ∧ d.slm.profileToTensor h inp true true = .ok ti ∧
      kw'.inputProfile = some ti)

/-- Two updates of `dmd_state` are the same: both leave it alone, or both rebind it (or both overwrite it)
with the same array contents. -/
def Effect.Same : Effect → Effect → Prop
  | .none, .none => True
  | .rebind a, .rebind b => a.Same b
  | .inplace a, .inplace b => a.Same b
  | _, _ => False

end DMD

end PySLM2
