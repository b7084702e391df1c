import Verif.Model.FloatSuper
import Mathlib.Analysis.SpecialFunctions.Pow.Real

/-!
# The power function of the floating point arithmetic (C191)
-/

noncomputable section

namespace PySLM2.Spec

/-- A power function for a base that is not negative and a positive exponent: the result is infinite, which happens only when the exact power is `Ω₁` or
more, or it is a number that is not negative and has the relative accuracy `v`, up to `s`. -/
structure PowRanged (s v Ω₁ : ℝ) (pw : ℝ → ℝ → XR) : Prop where
  total : ∀ x p : ℝ, 0 ≤ x → 0 < p → pw x p = .pinf ∧ Ω₁ ≤ x ^ p ∨ ∃ y, pw x p = .fin y ∧ 0 ≤ y ∧ |y - x ^ p| ≤ v * x ^ p + s

end PySLM2.Spec
