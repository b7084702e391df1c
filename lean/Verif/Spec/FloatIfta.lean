import Verif.Model.FloatIfta
import Verif.Spec.Float
import Verif.Spec.Ifta

/-!
# What is assumed of the arithmetic of method `ifta`, and how errors are measured
-/

noncomputable section

open Complex Finset

namespace PySLM2.Spec

/-- For arrays of shape `M x N`: arithmetic with `t` significant bits, library functions within `v` of the exact ones, complex quotients with
relative error `v`, transforms within `τ` of the exact ones, relative to the root of the sum of squares. -/
structure IftaPrecise (t : ℕ) (v τ : ℝ) (M N : ℕ) (F : IftaArith) : Prop where
  arith : Precise t v F.toArith
  div : ∀ z w, w ≠ 0 → ‖F.div z w - z / w‖ ≤ v * ‖z / w‖
  fft : ∀ f, ∑ i ∈ range M, ∑ j ∈ range N, ‖F.fft M N f i j - Lib.dft2 M N f i j‖ ^ 2 ≤
    τ ^ 2 * ∑ i ∈ range M, ∑ j ∈ range N, ‖Lib.dft2 M N f i j‖ ^ 2
  ifft : ∀ f, ∑ i ∈ range M, ∑ j ∈ range N, ‖F.ifft M N f i j - Lib.idft2 M N f i j‖ ^ 2 ≤
    τ ^ 2 * ∑ i ∈ range M, ∑ j ∈ range N, ‖Lib.idft2 M N f i j‖ ^ 2

/-- Exact arithmetic. -/
def exactIfta : IftaArith := ⟨⟨id, Real.cos, Real.sin, Real.arccos, Real.arcsin, Real.tanh⟩, (· / ·), Lib.dft2, Lib.idft2⟩

end PySLM2.Spec

namespace PySLM2.DMD

/-- Root of the power of the field `u` on the device. -/
def beam (s : SLM) (u : ℕ → ℕ → ℂ) : ℝ := √(∑ i ∈ range s.Ny, ∑ j ∈ range s.Nx, ‖u i j‖ ^ 2)

/-- Root of the power of the difference of what two holograms make of the input field `u`. -/
def beamError (s : SLM) (u : ℕ → ℕ → ℂ) (g g' : ℕ → ℕ → ℝ) : ℝ :=
  √(∑ i ∈ range s.Ny, ∑ j ∈ range s.Nx, (‖u i j‖ * |g' i j - g i j|) ^ 2)

/-- A mirror of value `x` under the field `z` that an error of power `e ^ 2` may carry across one of the clipping levels `t` and `1 - t`, these
being known up to `ε`. -/
def Unsure (t e ε x : ℝ) (z : ℂ) : Prop := z ≠ 0 ∧ (|x - t| ≤ e / ‖z‖ + ε ∨ |x - (1 - t)| ≤ e / ‖z‖ + ε)

open Classical in
/-- Root of the power of the input field on the mirrors that are unsure in this sense. -/
def unsureBeam (s : SLM) (u : ℕ → ℕ → ℂ) (t e ε : ℝ) (g : ℕ → ℕ → ℝ) : ℝ :=
  √(∑ i ∈ range s.Ny, ∑ j ∈ range s.Nx, if Unsure t e ε (g i j) (u i j) then ‖u i j‖ ^ 2 else 0)

/-- The exact holograms of method `ifta` (property C87): `g 0` is `s` times the grey values, each of the `N` following ones comes from the one
before. -/
structure IftaRun (d : DMD) (A φin φout : ℕ → ℕ → ℝ) (s : ℝ) (u W : ℕ → ℕ → ℂ) (N : ℕ) (g : ℕ → ℕ → ℕ → ℝ) : Prop where
  start : ∀ i < d.slm.Ny, ∀ j < d.slm.Nx, g 0 i j = s * Rounded.grey d.slm d.p d.theta d.neg (A i j) (φin i j) (φout i j) i j
  step : ∀ n < N, IftaStep d.slm u W (g 0) (((n : ℕ) + 1) / (2 * (N : ℕ))) (g n) (g (n + 1))

end PySLM2.DMD
