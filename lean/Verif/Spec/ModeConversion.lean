import Mathlib.Algebra.Polynomial.Coeff
import Mathlib.Data.Complex.Basic

/-!
# Coefficients of the conversion between Hermite-Gaussian and Laguerre-Gaussian modes
-/

noncomputable section

open Polynomial

namespace PySLM2.Spec

/-- The share of the Hermite-Gaussian mode `(2p+|l|-k, k)` in the Laguerre-Gaussian mode `(l, p)`: `(-1)^p / (p! 2^(2p+|l|))` times the coefficient
of `T^k` in `(1 - σT)^(p+|l|) (1 + σT)^p`, where `σ` is `i` for `l ≥ 0` and `-i` otherwise. -/
def hermiteShare (l : ℤ) (p k : ℕ) : ℂ :=
  let σ : ℂ := if 0 ≤ l then Complex.I else -Complex.I
  (-1) ^ p / (p.factorial * 2 ^ (2 * p + l.natAbs)) * ((1 - C σ * X) ^ (p + l.natAbs) * (1 + C σ * X) ^ p : ℂ[X]).coeff k

/-- The share of the Laguerre-Gaussian mode with `l = n + m - 2k` and `p = min(k, n + m - k)` in the Hermite-Gaussian mode `(n, m)`:
`(-i)^m (-1)^p p!` times the coefficient of `T^k` in `(T + 1)^n (T - 1)^m`. -/
def laguerreShare (n m k : ℕ) : ℂ :=
  let p := min k (n + m - k)
  (-Complex.I) ^ m * (-1) ^ p * p.factorial * ((X + 1) ^ n * (X - 1) ^ m : ℂ[X]).coeff k

end PySLM2.Spec
