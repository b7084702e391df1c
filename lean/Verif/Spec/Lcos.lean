import Verif.Model.Lcos
import Verif.Spec.Dmd

/-!
# Specification vocabulary for LCOS holograms
-/

noncomputable section

open Complex Finset

namespace PySLM2

namespace LCOS

/-- Well-formed arguments of `calculate_hologram`: a device with pixels, an input field `A` and a target
amplitude `T`, given as arrays of the shape of the device or as profiles. -/
structure HologramArgs (s : SLM) (h : Profile.Heap) (inp target : ProfArg) (A : ℕ → ℕ → ℂ) (T : ℕ → ℕ → ℝ) :
    Prop where
  hNx : 0 < s.Nx
  hNy : 0 < s.Ny
  input : DMD.ArrayArg s h inp A
  target : ∃ t, s.profileToReal h target false = .ok t ∧ t.shape = .mat s.Ny s.Nx ∧
    ∀ i < s.Ny, ∀ j < s.Nx, t.get i j = T i j

/-- The SLM shows the phases `φ`: a real array of the shape of the device. -/
def Shows (l : LCOS) (φ : ℕ → ℕ → ℝ) : Prop :=
  l.state.kind = .real ∧ l.state.arr.shape = .mat l.slm.Ny l.slm.Nx ∧
    ∀ i < l.slm.Ny, ∀ j < l.slm.Nx, l.state.arr.get i j = φ i j

/-- The field behind the SLM in the hologram algorithms: the input with the phases added. -/
def modulated (A : ℕ → ℕ → ℂ) (φ : ℕ → ℕ → ℝ) (i j : ℕ) : ℂ := A i j * cexp (I * φ i j)

/-- The image the hologram algorithms predict for the field `U` on the SLM at image plane pixel `(k, l)`: the
inverse discrete Fourier transform with pixel `(Ny//2, Nx//2)` of the image plane as the origin. -/
def predicted (s : SLM) (U : ℕ → ℕ → ℂ) (k l : ℕ) : ℂ :=
  1 / (s.Ny * s.Nx : ℂ) * ∑ i ∈ range s.Ny, ∑ j ∈ range s.Nx, U i j *
    cexp ((2 * Real.pi * I) * ((((k : ℂ) - (s.Ny / 2 : ℕ)) * i / s.Ny) + ((l : ℂ) - (s.Nx / 2 : ℕ)) * j / s.Nx))

/-- The field on the SLM that `predicted` maps to the image `F`. -/
def backPropagated (s : SLM) (F : ℕ → ℕ → ℂ) (i j : ℕ) : ℂ :=
  ∑ k ∈ range s.Ny, ∑ l ∈ range s.Nx, F k l *
    cexp (-(2 * Real.pi * I) * ((((k : ℂ) - (s.Ny / 2 : ℕ)) * i / s.Ny) + ((l : ℂ) - (s.Nx / 2 : ℕ)) * j / s.Nx))

/-- The predicted image of the phases `φ` with its modulus replaced by the target `T`. -/
def corrected (s : SLM) (A : ℕ → ℕ → ℂ) (T φ : ℕ → ℕ → ℝ) (k l : ℕ) : ℂ :=
  T k l * cexp (I * arg (predicted s (modulated A φ) k l))

/-- Squared error between the modulus of the predicted image of the phases `φ` and the target `T`. -/
def imageError (s : SLM) (A : ℕ → ℕ → ℂ) (T : ℕ → ℕ → ℝ) (φ : ℕ → ℕ → ℝ) : ℝ :=
  ∑ k ∈ range s.Ny, ∑ l ∈ range s.Nx, (‖predicted s (modulated A φ) k l‖ - T k l) ^ 2

/-- The pixel opposite to `k` with respect to the origin `n//2` (cyclically). -/
def reflect (n k : ℕ) : ℕ := (2 * (n / 2) + n - k) % n

/-- The LCOS object after `calculate_hologram` with these arguments. -/
def after (l : LCOS) (h : Profile.Heap) (inp target : ProfArg) (method : String) (kw : Kwargs)
    (u : ℕ → ℕ → ℝ) : LCOS := (l.calculateHologram h inp target method kw u).1

end LCOS

end PySLM2
