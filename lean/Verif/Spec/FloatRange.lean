import Verif.Model.FloatRange

/-!
# Floating point arithmetic with a limited range (C172, C173)
-/

noncomputable section

open Complex

namespace PySLM2.Spec

/-- An arithmetic with relative accuracy `u`, in which results below `Ω₁` are finite and results from `Ω₂` on are infinite, small results are off by up to
`s`, and `exp` is 0 from `-E₂` down and accurate down to `-E₁`; the library functions have the relative accuracy `v`.  (For `float32` and round
to nearest: `u = 2^-24`, `Ω₁ = 2^127`, `Ω₂ = 2^128`, `s = 2^-126`, `E₁ = 87`, `E₂ = 104`, with or without subnormal numbers.) -/
structure Ranged (u s v Ω₁ Ω₂ E₁ E₂ : ℝ) (F : RangeArith) : Prop where
  near : ∀ x y, F.rnd x = .fin y → |y - x| ≤ u * |x| + s
  zero : F.rnd 0 = .fin 0
  nonneg : ∀ x y, F.rnd x = .fin y → 0 ≤ x → 0 ≤ y
  sign : ∀ x y, F.rnd x = .fin y → x ≤ 0 → y ≤ 0
  finite : ∀ x, |x| < Ω₁ → ∃ y, F.rnd x = .fin y
  infinite : ∀ x, Ω₂ ≤ x → F.rnd x = .pinf
  infinite_neg : ∀ x, x ≤ -Ω₂ → F.rnd x = .ninf
  total : ∀ x, (∃ y, F.rnd x = .fin y) ∨ F.rnd x = .pinf ∧ 0 < x ∨ F.rnd x = .ninf ∧ x < 0
  py : |F.py (√2) - √2| ≤ u * √2
  exp_near : ∀ x, -E₁ ≤ x → x ≤ 0 → ∃ y, F.exp x = .fin y ∧ |y - Real.exp x| ≤ v * Real.exp x
  exp_range : ∀ x, x ≤ 0 → ∃ y, F.exp x = .fin y ∧ 0 ≤ y ∧ y ≤ 1
  exp_zero : ∀ x, x ≤ -E₂ → F.exp x = .fin 0
  pow_near : ∀ x n, 0 ≤ x → x ^ n < Ω₁ → ∃ y, F.pow x n = .fin y ∧ |y - x ^ n| ≤ v * x ^ n + s
  pow_infinite : ∀ x n, 0 ≤ x → (1 + v) * Ω₂ ≤ x ^ n → F.pow x n = .pinf
  sqrt_near : ∀ x, 0 ≤ x → |F.sqrt x - √x| ≤ v * √x
  expC_near : ∀ t : ℝ, ‖F.expC (I * t) - cexp (I * t)‖ ≤ v

/-- The polynomial with the coefficients `cl` (highest power first), these replaced by their absolute values, or by 1 if that is larger, at `X` -/
def largestPoly (cl : List ℝ) (X : ℝ) : ℝ := (cl.map fun c => max |c| 1).foldl (fun q c => q * X + c) 0

end PySLM2.Spec
