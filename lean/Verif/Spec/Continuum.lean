import Verif.Spec.Modes
import Mathlib.MeasureTheory.Integral.IntervalIntegral.Basic
import Mathlib.Analysis.SpecialFunctions.Complex.Log

/-!
# Fraunhofer diffraction of a continuous field
-/

noncomputable section

open Complex MeasureTheory

namespace PySLM2.Spec

/-- The field in the focal plane of a lens, `1/(λf) ∫∫ E(x, y) exp(2πi (xξ + yη)/(λf)) dx dy` over the aperture
`[-X, X] x [-Y, Y]`; `sc` is `λf`. -/
def fraunhoferIntegral (sc X Y : ℝ) (E : ℝ → ℝ → ℂ) (ξ η : ℝ) : ℂ :=
  ((1 / sc : ℝ) : ℂ) * ∫ x in -X..X, ∫ y in -Y..Y, E x y *
    cexp (2 * Real.pi * I * ((ξ * x + η * y : ℝ) : ℂ) / ((sc : ℝ) : ℂ))

/-- `E` is bounded by `B` on the aperture `[-X, X] x [-Y, Y]` and changes by at most `L` per unit length along each
axis. -/
structure SmoothOn (X Y : ℝ) (E : ℝ → ℝ → ℂ) (B L : ℝ) : Prop where
  bound : ∀ x ∈ Set.Icc (-X) X, ∀ y ∈ Set.Icc (-Y) Y, ‖E x y‖ ≤ B
  lip : ∀ x ∈ Set.Icc (-X) X, ∀ y ∈ Set.Icc (-Y) Y, ∀ x' ∈ Set.Icc (-X) X, ∀ y' ∈ Set.Icc (-Y) Y,
    ‖E x y - E x' y'‖ ≤ L * (|x - x'| + |y - y'|)

/-- The focal plane field of the Gaussian beam `a exp(-((x-x0)² + (y-y0)²)/w²)`: a Gaussian of waist `λf/(πw)` on the
axis, with a phase gradient proportional to the displacement of the beam. -/
def gaussianSpot (sc x0 y0 a w ξ η : ℝ) : ℂ :=
  ((Real.pi * w ^ 2 * a / sc * Real.exp (-((ξ ^ 2 + η ^ 2) / (sc / (Real.pi * w)) ^ 2)) : ℝ) : ℂ) *
    cexp (2 * Real.pi * I * ((ξ * x0 + η * y0 : ℝ) : ℂ) / ((sc : ℝ) : ℂ))

/-- The focal plane field of the beam `HermiteGaussian(x0, y0, a, w, n, m)`: the Hermite-Gaussian mode of the same order on
the axis, of waist `λf/(πw)`, with the phase `i^(n+m)` and a phase gradient proportional to the displacement of the
beam. -/
def hermiteSpot (sc x0 y0 a w : ℝ) (n m : ℕ) (ξ η : ℝ) : ℂ :=
  I ^ (n + m) * ((hermiteGauss 0 0 (Real.pi * w ^ 2 * a / sc) (sc / (Real.pi * w)) n m ξ η : ℝ) : ℂ) *
    cexp (2 * Real.pi * I * ((ξ * x0 + η * y0 : ℝ) : ℂ) / ((sc : ℝ) : ℂ))

/-- The focal plane field of the beam `LaguerreGaussian(x0, y0, a, w, l, p)`: the Laguerre-Gaussian mode with the same
indices on the axis, of waist `λf/(πw)`, with the phase `i^(2p+|l|)` and a phase gradient proportional to the displacement
of the beam. -/
def laguerreSpot (sc x0 y0 a w : ℝ) (l : ℤ) (p : ℕ) (ξ η : ℝ) : ℂ :=
  I ^ (2 * p + l.natAbs) * laguerreGauss 0 0 (Real.pi * w ^ 2 * a / sc) (sc / (Real.pi * w)) l p ξ η *
    cexp (2 * Real.pi * I * ((ξ * x0 + η * y0 : ℝ) : ℂ) / ((sc : ℝ) : ℂ))

/-- Error of replacing the integral of a Gaussian of waist `w` times `exp(2πi ξx/(λf))` by the sum over pixels of size
`ps` that cover the centre and at least `T` to both sides. -/
def gaussError (ps w T κ : ℝ) : ℝ := ps * (2 + |κ| * (√Real.pi * w)) + √Real.pi * w * Real.exp (-(T ^ 2 / w ^ 2))

end PySLM2.Spec
