import Verif.Model.FloatAnalysis
import Verif.Spec.FloatProfile
import Verif.Spec.Analysis

/-!
# What is assumed of the arithmetic of `analysis.py`
-/

noncomputable section

namespace PySLM2.Spec

open Profile Analysis

/-- Arithmetic with relative error at most `u` per operation and library functions within `v` (see `ProfPrecise`), for `M x N` phase maps:
the half-integer coordinates of the pixels and sums of two of their squares are exact, the radius is a number of `BACKEND.dtype`, the
coefficients of the Zernike polynomials have a relative error of at most `g`, and a mean adds up every pixel once, in any order with
chains of at most `D` additions. -/
structure AnalysisPrecise (u v g : ℝ) (M N : ℕ) (R : ℝ) (D : ℕ) (A : AnalysisArith) : Prop where
  prof : ProfPrecise u v A.prof
  np : RelErr u A.np
  grid : RelErr u A.grid
  grid_exact : ∀ k : ℤ, |k| ≤ (M + N + 1) ^ 2 → A.grid ((k : ℝ) / 4) = k / 4
  prof_exact : ∀ k : ℤ, |k| ≤ M + N + 1 → A.prof.rnd ((k : ℝ) / 2) = k / 2
  radius : A.prof.rnd R = R
  coef : ∀ n m : ℤ, ZernikeIndex n m →
    CoefClose g ((zernikeCoef n m).reverse.map (|·|)) (zernikeCoef n m).reverse (A.coef n m)
  order : ∀ s : Finset (ℕ × ℕ), s ≠ ∅ → (A.order s).leaves = s.val
  depth : ∀ s : Finset (ℕ × ℕ), s ⊆ Finset.range M ×ˢ Finset.range N → s ≠ ∅ → (A.order s).depth ≤ D

/-- No pixel of the array is close to the circle of radius `R` without being on it. -/
def Clear (w : ℝ) (M N : ℕ) (R : ℝ) : Prop :=
  ∀ i < M, ∀ j < N, pixelX N j ^ 2 + pixelY M i ^ 2 = R ^ 2 ∨ w ≤ |√(pixelX N j ^ 2 + pixelY M i ^ 2) / R - 1|

/-- A bound of the size of a normalised mode on its disc: the sum of the absolute values of its coefficients. -/
def weight (n m : ℤ) : ℝ := zernikeNorm n m * ((zernikeCoef n m).map (|·|)).sum

end PySLM2.Spec
