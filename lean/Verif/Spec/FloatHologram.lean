import Verif.Model.FloatHologram
import Verif.Spec.Mraf
import Verif.Spec.FloatSim

/-!
# What is assumed of the arithmetic of `calculate_hologram`
-/

noncomputable section

open Complex Finset

namespace PySLM2.Spec

/-- For arrays of shape `M x N`: arithmetic with relative error at most `u` per operation, complex exponentials of phases and angles (up to
multiples of `2 pi`) within `v` of the exact ones, transforms within `τ` of the exact ones, relative to the root of the sum of squares. -/
structure HoloPrecise (u v τ : ℝ) (M N : ℕ) (F : HoloArith) : Prop where
  rnd : RelErr u F.rnd
  py : RelErr u F.py
  exp : ∀ x : ℝ, |x| ≤ 7 → ‖F.exp (I * x) - cexp (I * x)‖ ≤ v
  angle : ∀ z ≠ 0, ∃ k : ℤ, |F.angle z - (arg z + k * (2 * Real.pi))| ≤ v
  angle_range : ∀ z, |F.angle z| ≤ 4
  fft : ∀ f, ∑ i ∈ range M, ∑ j ∈ range N, ‖F.fft M N f i j - Lib.dft2 M N f i j‖ ^ 2 ≤
    τ ^ 2 * ∑ i ∈ range M, ∑ j ∈ range N, ‖Lib.dft2 M N f i j‖ ^ 2
  ifft : ∀ f, ∑ i ∈ range M, ∑ j ∈ range N, ‖F.ifft M N f i j - Lib.idft2 M N f i j‖ ^ 2 ≤
    τ ^ 2 * ∑ i ∈ range M, ∑ j ∈ range N, ‖Lib.idft2 M N f i j‖ ^ 2

/-- Exact arithmetic. -/
def exactHolo : HoloArith := ⟨id, id, cexp, arg, Lib.dft2, Lib.idft2⟩

end PySLM2.Spec

namespace PySLM2.LCOS

/-- The root of the sum of the squares of an array of the shape of the device. -/
def rss (s : SLM) (T : ℕ → ℕ → ℝ) : ℝ := √(∑ k ∈ range s.Ny, ∑ l ∈ range s.Nx, T k l ^ 2)

/-- The same over the pixels `S` only. -/
def rssOn (s : SLM) (S : ℕ → ℕ → Bool) (T : ℕ → ℕ → ℝ) : ℝ :=
  √(∑ k ∈ range s.Ny, ∑ l ∈ range s.Nx, if S k l then T k l ^ 2 else 0)

end PySLM2.LCOS
