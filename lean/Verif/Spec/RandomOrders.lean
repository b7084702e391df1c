import Verif.Spec.Dmd
import Mathlib.MeasureTheory.Integral.IntervalIntegral.Basic

/-!
# The diffraction orders of a randomly dithered grating
-/

noncomputable section

open Complex

namespace PySLM2.DMD

/-- Amplitude of diffraction order `n` of a grating whose lines are the smoothed pulses of method `random` with steepness
`r` and requested amplitude `a`: the `n`-th Fourier coefficient of the pulse (which is even). -/
def orderAmplitude (r a : ℝ) (n : ℤ) : ℝ :=
  1 / Real.pi * ∫ t in (0 : ℝ)..Real.pi,
    (Real.tanh (r * (t + Real.arcsin a)) - Real.tanh (r * (t - Real.arcsin a))) / 2 * Real.cos (n * t)

/-- The field of diffraction order `n` on the DMD, without the carrier: the input `u`, with `n` times the phase difference
between `F` and `u`, with the order's amplitude. -/
def orderField (u F : ℕ → ℕ → ℂ) (A : ℕ → ℕ → ℝ) (r : ℝ) (n : ℤ) (i j : ℕ) : ℂ :=
  u i j * orderAmplitude r (A i j) n * cexp ((n * (arg (F i j) - arg (u i j)) : ℝ) * I)

end PySLM2.DMD
