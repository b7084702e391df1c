import Verif.Model.FloatSim

/-!
# What is assumed of the arithmetic of a simulation
-/

noncomputable section

open Complex Finset

namespace PySLM2.Spec

/-- Every number is kept up to a relative error `u`. -/
def RelErr (u : ℝ) (rnd : ℝ → ℝ) : Prop := ∀ x, |rnd x - x| ≤ u * |x|

/-- For arrays of shape `M x N`: arithmetic with relative error at most `u` per operation, an inverse FFT whose result is within `τ` of the
exact one, relative to the root of the sum of squares, and sums in which no entry goes through more than `k` additions. -/
structure SimPrecise (u τ : ℝ) (k M N : ℕ) (F : SimArith) : Prop where
  rnd : RelErr u F.rnd
  py : RelErr u F.py
  out : RelErr u F.out
  ifft : ∀ f, ∑ i ∈ range M, ∑ j ∈ range N, ‖F.ifft M N f i j - Lib.idft2 M N f i j‖ ^ 2 ≤
    τ ^ 2 * ∑ i ∈ range M, ∑ j ∈ range N, ‖Lib.idft2 M N f i j‖ ^ 2
  leaves : (F.order M N).leaves = (range M ×ˢ range N).val
  depth : (F.order M N).depth ≤ k

end PySLM2.Spec
