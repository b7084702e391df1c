import Mathlib.Analysis.SpecialFunctions.Complex.Arg
import Mathlib.Data.Nat.Factorial.Basic
import Mathlib.Analysis.SpecialFunctions.Sqrt

/-!
# Zernike modes

The textbook definition (Born & Wolf), independent of the code.
-/

noncomputable section

open Nat Real

namespace PySLM2.Spec

/-- `(n, m)` is the index pair of a Zernike mode. -/
def ZernikeIndex (n m : ℤ) : Prop := |m| ≤ n ∧ Even (n - m)

/-- The radial polynomial `R_n^m`, for `m ≤ n`, `n - m` even. -/
def radial (n m : ℕ) (ρ : ℝ) : ℝ :=
  ∑ k ∈ Finset.range ((n - m) / 2 + 1),
    (-1) ^ k * ((n - k)! : ℝ) / ((k ! : ℝ) * (((n + m) / 2 - k)! : ℝ) * (((n - m) / 2 - k)! : ℝ)) * ρ ^ (n - 2 * k)

/-- The azimuthal factor. -/
def angular (m : ℤ) (t : ℝ) : ℝ := if 0 ≤ m then Real.cos (m * t) else Real.sin (m.natAbs * t)

/-- The factor that makes the mean square over the disc one. -/
def zernikeNorm (n m : ℤ) : ℝ := if m = 0 then √(n + 1) else √(2 * (n + 1))

/-- The mode on the disc of radius `R`, at the point `(x, y)`. -/
def zernikeMode (n m : ℤ) (R x y : ℝ) : ℝ :=
  radial n.toNat m.natAbs (√(x ^ 2 + y ^ 2) / R) * angular m (Complex.arg (x + y * Complex.I))

end PySLM2.Spec
