import Verif.Model.Float
import Mathlib.Algebra.Order.Archimedean.Real.Basic
import Mathlib.Data.Int.Log
import Mathlib.Algebra.Order.Round

/-!
# Floating point numbers with `t` significant bits

`t = 24` is `float32`, `t = 53` is `float64`.  The range of the exponent is not bounded: overflow and underflow are
left out.
-/

noncomputable section

namespace PySLM2.Spec

/-- A number with a significand of at most `t` bits. -/
def IsFloat (t : ℕ) (x : ℝ) : Prop := ∃ k e : ℤ, |k| ≤ 2 ^ t ∧ x = k * (2 : ℝ) ^ e

/-- A way of rounding to `t` significant bits: representable numbers are kept, and the relative error is at most
`2 ^ -t` (rounding to nearest, any tie rule). -/
structure RoundsTo (t : ℕ) (rnd : ℝ → ℝ) : Prop where
  exact : ∀ x, IsFloat t x → rnd x = x
  err : ∀ x, |rnd x - x| ≤ |x| / 2 ^ t

/-- `g` computes `f` with an absolute error of at most `v`. -/
def Accurate (v : ℝ) (f g : ℝ → ℝ) : Prop := ∀ x, |g x - f x| ≤ v

/-- Rounding to the nearest number with `t` significant bits. -/
def nearest (t : ℕ) (x : ℝ) : ℝ :=
  round (x / (2 : ℝ) ^ (Int.log 2 |x| - t + 1)) * (2 : ℝ) ^ (Int.log 2 |x| - t + 1)

/-- Arithmetic with `t` significant bits whose library functions are within `v` of the exact ones; the cosine stays in
`[-1, 1]`. -/
structure Precise (t : ℕ) (v : ℝ) (F : Arith) : Prop where
  rnd : RoundsTo t F.rnd
  cos : Accurate v Real.cos F.cos
  cos_range : ∀ x, |F.cos x| ≤ 1
  sin : Accurate v Real.sin F.sin
  acos : ∀ x, |x| ≤ 1 → |F.acos x - Real.arccos x| ≤ v
  asin : ∀ x, |x| ≤ 1 → |F.asin x - Real.arcsin x| ≤ v
  tanh : Accurate v Real.tanh F.tanh

end PySLM2.Spec

/-! ## The gratings -/

namespace PySLM2.Rounded

open Lib

/-- The pixel arguments computed in the arithmetic `F`, and the exact ones: only the coordinates differ. -/
def pixR (F : Arith) (s : SLM) (a φin φout : ℝ) (i j : ℕ) : Pix :=
  ⟨.fin a, φin, φout, (s.indexToCoordR F.rnd i j).1, (s.indexToCoordR F.rnd i j).2⟩

/-- The exact pixel arguments. -/
def pix (s : SLM) (a φin φout : ℝ) (i j : ℕ) : Pix :=
  ⟨.fin a, φin, φout, (j - (s.Nx : ℝ) / 2) * s.ps, ((s.Ny : ℝ) / 2 - i) * s.ps⟩

/-- The phase of the carrier minus the requested phase, at pixel `(i, j)`. -/
def detuning (s : SLM) (p θ : ℝ) (neg : Bool) (φin φout : ℝ) (i j : ℕ) : ℝ :=
  2 * Real.pi / p * (Real.cos θ * ((j - (s.Nx : ℝ) / 2) * s.ps) + Real.sin θ * (((s.Ny : ℝ) / 2 - i) * s.ps)) -
    (if neg then -(φout - φin) else φout - φin)

/-- The grey value of the ideal grating. -/
def grey (s : SLM) (p θ : ℝ) (neg : Bool) (a φin φout : ℝ) (i j : ℕ) : ℝ :=
  a * (Real.cos (detuning s p θ neg φin φout i j) / 2 + 1 / 2)

/-- The probability with which the random method turns the pixel on. -/
def duty (s : SLM) (p θ r : ℝ) (neg : Bool) (a φin φout : ℝ) (i j : ℕ) : ℝ :=
  (Real.tanh (r * (Real.arccos (Real.cos (detuning s p θ neg φin φout i j)) + Real.arcsin a)) -
    Real.tanh (r * (Real.arccos (Real.cos (detuning s p θ neg φin φout i j)) - Real.arcsin a))) / 2

/-- The number of radians of the carrier between the centre and the pixel, along the two axes. -/
def carrier (s : SLM) (p : ℝ) (i j : ℕ) : ℝ :=
  |2 * Real.pi / p| * (|(j - (s.Nx : ℝ) / 2) * s.ps| + |((s.Ny : ℝ) / 2 - i) * s.ps|)

end PySLM2.Rounded
