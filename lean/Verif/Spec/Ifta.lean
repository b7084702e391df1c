import Verif.Spec.Lcos

/-!
# Specification of the iterative Fourier transform algorithm (method `ifta`)
-/

noncomputable section

open Complex Finset

namespace PySLM2.DMD

open LCOS (predicted backPropagated)

/-- Values below `t` become 0, values above `1 - t` become 1, the rest stays. -/
def clip (t x : ℝ) : ℝ := if x < t then 0 else if 1 - t < x then 1 else x

/-- One iteration with threshold `t`, from the hologram `g` to `g'`.  `u` is the input field, `g₀` the hologram that has
the wanted image.  The image of the clipped hologram is replaced by the wanted image to the extent given by the signal
window `W` (in image plane pixels); the field on the SLM belonging to the result is divided by the input field. -/
def IftaStep (s : SLM) (u W : ℕ → ℕ → ℂ) (g₀ : ℕ → ℕ → ℝ) (t : ℝ) (g g' : ℕ → ℕ → ℝ) : Prop :=
  ∀ i < s.Ny, ∀ j < s.Nx, (u i j = 0 → g' i j = 0) ∧ (u i j ≠ 0 → g' i j =
    (backPropagated s (fun k l => W k l * predicted s (fun i j => u i j * g₀ i j) k l +
      (1 - W k l) * predicted s (fun i j => u i j * clip t (g i j)) k l) i j / u i j).re)

/-- The values of mirrors that are off and on. -/
def onOff (t : ℕ → ℕ → Bool) (i j : ℕ) : ℝ := if t i j then 1 else 0

/-- Squared error of the image of the hologram `g` against the image of the hologram `g₀` over the pixels `S` of the image
plane; `u` is the input field. -/
def signalError (s : SLM) (u : ℕ → ℕ → ℂ) (S : ℕ → ℕ → Bool) (g g₀ : ℕ → ℕ → ℝ) : ℝ :=
  ∑ k ∈ range s.Ny, ∑ l ∈ range s.Nx, if S k l then
    ‖predicted s (fun i j => u i j * g i j) k l - predicted s (fun i j => u i j * g₀ i j) k l‖ ^ 2 else 0

end PySLM2.DMD
