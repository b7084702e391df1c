import Verif.Spec.Lcos

/-!
# Specification vocabulary for signal windows
-/

noncomputable section

open Complex Finset

namespace PySLM2.LCOS

/-- The signal window with the pixels `S`: 1 there and 0 elsewhere. -/
def indicator (S : ℕ → ℕ → Bool) (k l : ℕ) : ℂ := if S k l then 1 else 0

/-- Squared error between the modulus of the predicted image of the phases `φ` and the target `T`, over the pixels `S` of the
image only. -/
def windowError (s : SLM) (A : ℕ → ℕ → ℂ) (T : ℕ → ℕ → ℝ) (S : ℕ → ℕ → Bool) (φ : ℕ → ℕ → ℝ) : ℝ :=
  ∑ k ∈ range s.Ny, ∑ l ∈ range s.Nx, if S k l then (‖predicted s (modulated A φ) k l‖ - T k l) ^ 2 else 0

end PySLM2.LCOS
