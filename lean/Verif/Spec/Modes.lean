import Mathlib.Analysis.SpecialFunctions.ExpDeriv
import Mathlib.Analysis.Calculus.IteratedDeriv.Defs
import Mathlib.Analysis.SpecialFunctions.Complex.Arg
import Mathlib.Data.Nat.Choose.Basic

/-!
# Documented formulas of the beam profiles
-/

noncomputable section

namespace PySLM2.Spec

/-- `H_n(t) = (-1)^n exp(t^2) d^n/dt^n exp(-t^2)`, the formula of the docstring of `HermiteGaussian`. -/
def rodrigues (n : ℕ) (t : ℝ) : ℝ := (-1) ^ n * Real.exp (t ^ 2) * iteratedDeriv n (fun s => Real.exp (-s ^ 2)) t

/-- `E(x, y)` of the docstring of `HermiteGaussian`. -/
def hermiteGauss (x0 y0 a w : ℝ) (n m : ℕ) (x y : ℝ) : ℝ :=
  a * rodrigues n (√2 * (x - x0) / w) * rodrigues m (√2 * (y - y0) / w) *
    Real.exp (-((x - x0) ^ 2 + (y - y0) ^ 2) / w ^ 2)

/-- The generalized Laguerre polynomial `L_p^k(t) = Σ (-1)^i binom(p+k, p-i) t^i / i!`. -/
def laguerre (p k : ℕ) (t : ℝ) : ℝ :=
  ∑ i ∈ Finset.range (p + 1), (-1) ^ i * ((p + k).choose (p - i) : ℝ) / (i.factorial : ℝ) * t ^ i

/-- The Laguerre-Gaussian beam `a (√2 r/w)^|l| L_p^|l|(2r²/w²) exp(-r²/w²) exp(-ilφ)` in its focus, where `r`, `φ` are
the polar coordinates around `(x0, y0)`. -/
def laguerreGauss (x0 y0 a w : ℝ) (l : ℤ) (p : ℕ) (x y : ℝ) : ℂ :=
  let r2 := (x - x0) ^ 2 + (y - y0) ^ 2
  let φ := Complex.arg ⟨x - x0, y - y0⟩
  ((a * (√2 * √r2 / w) ^ l.natAbs * laguerre p l.natAbs (2 * r2 / w ^ 2) * Real.exp (-r2 / w ^ 2) : ℝ) : ℂ) *
    Complex.exp (-Complex.I * l * φ)

end PySLM2.Spec
