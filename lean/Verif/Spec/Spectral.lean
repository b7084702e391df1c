import Mathlib.MeasureTheory.Integral.Bochner.Set
import Mathlib.MeasureTheory.Measure.Lebesgue.Basic
import Mathlib.Analysis.SpecialFunctions.Exp
import Mathlib.Analysis.Real.Pi.Bounds

/-!
# The error of a sampled Gaussian (C170)
-/

noncomputable section

open MeasureTheory

namespace PySLM2.Spec

/-- The area under `exp(-t²/w²)` beyond `T` -/
def gaussTail (w T : ℝ) : ℝ := ∫ t in Set.Ioi T, Real.exp (-(t ^ 2 / w ^ 2))

/-- What a Gaussian of waist `w` loses by being cut off at `T` on both sides and gains by being sampled with the step `ps` -/
def sampledError (ps w T : ℝ) : ℝ :=
  2 * gaussTail w T +
    √Real.pi * w * (2 * Real.exp (-(Real.pi * w / (2 * ps)) ^ 2) / (1 - Real.exp (-(Real.pi * w / (2 * ps)) ^ 2) ^ 4))

end PySLM2.Spec
