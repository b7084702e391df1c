import Verif.Spec.Dmd

/-!
# Specification vocabulary for aberrations

The device is illuminated through a screen `φ`, the factor by which the actual field differs from the one the
hologram was calculated for; `φ = exp (i Φ)` for an aberration `Φ`.
-/

noncomputable section

open Complex Finset

namespace PySLM2.Spec

/-- The point spread function of the screen `φ` in the image plane: the mean of the screen over the SLM pixels
with the plane waves of the pixels (the same as in `DMD.interp`). -/
def psf (s : SLM) (φ : ℕ → ℕ → ℂ) (x y : ℝ) : ℂ :=
  1 / (s.Nx * s.Ny : ℂ) * ∑ i ∈ range s.Ny, ∑ j ∈ range s.Nx, φ i j *
    cexp ((2 * Real.pi * I) * ((x * ((j : ℝ) - (s.Nx / 2 : ℕ)) * s.ps / (s.wavelength * s.focal) +
      y * ((s.Ny / 2 : ℕ) - (i : ℝ)) * s.ps / (s.wavelength * s.focal) : ℝ) : ℂ))

/-- The target with every pixel replaced by the point spread function around it; `g` is the grid of the image
plane. -/
def blurred (s : SLM) (g : Tensor ℝ × Tensor ℝ) (φ T : ℕ → ℕ → ℂ) (x y : ℝ) : ℂ :=
  ∑ k ∈ range s.Ny, ∑ l ∈ range s.Nx, T k l * psf s φ (x - g.1.get k l) (y - g.2.get k l)

end PySLM2.Spec
