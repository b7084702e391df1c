import Verif.Spec.Zernike
import Mathlib.Algebra.BigOperators.Group.Finset.Basic
import Mathlib.Data.Finset.Prod
import Mathlib.Order.Monotone.Defs

/-!
# Phase maps on a pixel array, and floating point numbers
-/

noncomputable section

namespace PySLM2.Spec

open Classical

/-- Column `j` of an array with `N` columns, in pixels from the centre, increasing to the right. -/
def pixelX (N j : ℕ) : ℝ := j - ((N : ℝ) - 1) / 2

/-- Row `i` of an array with `M` rows, in pixels from the centre; row 0 is at the top. -/
def pixelY (M i : ℕ) : ℝ := ((M : ℝ) - 1) / 2 - i

/-- The pixels of an `M x N` array whose centres lie inside the circle of radius `R` around the centre of the array. -/
def disc (M N : ℕ) (R : ℝ) : Finset (ℕ × ℕ) :=
  (Finset.range M ×ˢ Finset.range N).filter fun ij => pixelX N ij.2 ^ 2 + pixelY M ij.1 ^ 2 < R ^ 2

/-- The average of a phase map over those pixels. -/
def discMean (M N : ℕ) (R : ℝ) (f : ℕ → ℕ → ℝ) : ℝ :=
  (∑ ij ∈ disc M N R, f ij.1 ij.2) / (disc M N R).card

/-- The normalised Zernike mode sampled on the array. -/
def sampledMode (M N : ℕ) (R : ℝ) (n m : ℤ) (i j : ℕ) : ℝ :=
  zernikeNorm n m * zernikeMode n m R (pixelX N j) (pixelY M i)

/-- A double precision number: a significand of at most 53 bits times a power of two (exponent range of normal
numbers). -/
def IsDouble (x : ℝ) : Prop := ∃ k e : ℤ, |k| ≤ 2 ^ 53 ∧ -1022 ≤ e ∧ e ≤ 970 ∧ x = k * (2 : ℝ) ^ e

/-- A faithful, monotone way of rounding (to nearest with any tie rule, up, down, towards zero). -/
structure Rounding (rnd : ℝ → ℝ) : Prop where
  mono : Monotone rnd
  exact : ∀ x, IsDouble x → rnd x = x

end PySLM2.Spec
