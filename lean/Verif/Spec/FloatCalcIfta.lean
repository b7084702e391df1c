import Verif.Model.FloatCalcIfta
import Verif.Spec.FloatCalc
import Verif.Spec.FloatIfta

/-!
# Vocabulary for rounding in `calculate_dmd_state` with method `ifta`
-/

noncomputable section

namespace PySLM2.DMD

/-- The exact holograms of method `ifta` (property C87), started from `s` times the grey values `grey` of method `ideal`. -/
structure IftaRunFrom (d : DMD) (grey : Tensor XR) (s : ℝ) (u W : ℕ → ℕ → ℂ) (N : ℕ) (g : ℕ → ℕ → ℕ → ℝ) : Prop where
  start : ∀ i < d.slm.Ny, ∀ j < d.slm.Nx, ∃ x : ℝ, grey.get i j = .fin x ∧ g 0 i j = s * x
  step : ∀ n < N, IftaStep d.slm u W (g 0) (((n : ℕ) + 1) / (2 * (N : ℕ))) (g n) (g (n + 1))

end PySLM2.DMD
