import Verif.Model.FloatCalc
import Verif.Spec.Dmd
import Verif.Spec.Float
import Verif.Spec.FloatSim

/-!
# What is assumed of the arithmetic of `calculate_dmd_state`
-/

noncomputable section

open Complex Finset

namespace PySLM2.Spec

/-- Arithmetic with `t` significant bits and library functions within `v` of the exact ones (the modulus with relative error `v`, the
angle up to multiples of `2 pi`); rounding keeps the order of numbers.  Nothing is assumed of the FFT. -/
structure CalcPrecise (t : ℕ) (v : ℝ) (F : CalcArith) : Prop where
  arith : Precise t v F.toArith
  mono : Monotone F.rnd
  abs : ∀ z, |F.abs z - ‖z‖| ≤ v * ‖z‖
  angle : ∀ z ≠ 0, ∃ k : ℤ, |F.angle z - (arg z + k * (2 * Real.pi))| ≤ v
  angle_range : ∀ z, |F.angle z| ≤ 4

/-- The field `z'` is within `δ` of the field `z` as seen by mode matching: the largest ratio of `z` to the input field `u` on the `M x N`
pixels being `R`, nowhere do `z'` and `z` differ by more than `δ R` times the input field. -/
def Resolved (M N : ℕ) (u z z' : ℕ → ℕ → ℂ) (δ : ℝ) : Prop :=
  ∃ i₀ < M, ∃ j₀ < N, z i₀ j₀ ≠ 0 ∧ u i₀ j₀ ≠ 0 ∧
    ∀ i < M, ∀ j < N, ‖z' i j - z i j‖ ≤ δ * (‖z i₀ j₀‖ / ‖u i₀ j₀‖) * ‖u i j‖

/-- The FFT of `M x N` arrays is within `τ` of the exact transform, relative to the root of the sum of squares. -/
def FftPrecise (τ : ℝ) (M N : ℕ) (F : CalcArith) : Prop :=
  ∀ f, ∑ i ∈ range M, ∑ j ∈ range N, ‖F.fft M N f i j - Lib.dft2 M N f i j‖ ^ 2 ≤
    τ ^ 2 * ∑ i ∈ range M, ∑ j ∈ range N, ‖Lib.dft2 M N f i j‖ ^ 2

end PySLM2.Spec
