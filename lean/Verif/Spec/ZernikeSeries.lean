import Verif.Spec.Analysis
import Mathlib.MeasureTheory.Integral.Bochner.Set
import Mathlib.MeasureTheory.Measure.Lebesgue.Basic

/-!
# Zernike series of functions on the unit disc
-/

noncomputable section

open MeasureTheory

namespace PySLM2.Spec

/-- The average of a function over the unit disc. -/
def discAverage (F : ℝ × ℝ → ℝ) : ℝ := 1 / Real.pi * ∫ z in {z : ℝ × ℝ | z.1 ^ 2 + z.2 ^ 2 < 1}, F z

/-- The Zernike coefficient of a phase on the unit disc. -/
def zernikeCoefficient (φ : ℝ × ℝ → ℝ) (n m : ℤ) : ℝ :=
  discAverage fun z => φ z * (zernikeNorm n m * zernikeMode n m 1 z.1 z.2)

/-- A phase on the unit disc: bounded, and continuous up to a set of measure zero (wrapped phases and masks have edges). -/
structure IsPhase (φ : ℝ × ℝ → ℝ) : Prop where
  bounded : ∃ C, ∀ z : ℝ × ℝ, z.1 ^ 2 + z.2 ^ 2 < 1 → |φ z| ≤ C
  continuous : ∀ᵐ z : ℝ × ℝ, z.1 ^ 2 + z.2 ^ 2 < 1 → ContinuousAt φ z

/-- The phase on the pixels of an `M x N` array, if the unit circle has the radius of `R` pixels. -/
def phaseMap (φ : ℝ × ℝ → ℝ) (M N : ℕ) (R : ℝ) (i j : ℕ) : ℝ := φ (pixelX N j / R, pixelY M i / R)

end PySLM2.Spec
