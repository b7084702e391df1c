import Verif.Spec.Dmd

/-!
# The lines of a grating
-/

noncomputable section

namespace PySLM2.DMD

/-- Pixel `(i, j)` is less than `w` (in units of carrier phase) away from the centre of a grating line. -/
def NearLine (d : DMD) (φin φout : ℕ → ℕ → ℝ) (w : ℝ) (i j : ℕ) : Prop :=
  ∃ n : ℤ, |d.detuning φin φout i j - 2 * Real.pi * n| < w

end PySLM2.DMD
