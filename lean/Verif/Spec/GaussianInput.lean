import Verif.Spec.RandomOrders
import Verif.Spec.Dmd
import Verif.Spec.Simulation

/-!
# Specification vocabulary for holograms of a Gaussian beam (C123)
-/

noncomputable section

open Complex Finset MeasureTheory Filter Topology

namespace PySLM2.DMD

open Lib Sim

/-- The Gaussian beam `a exp(-((x-x0)² + (y-y0)²)/w²)` on the pixels of the device. -/
def gaussianBeam (s : SLM) (x0 y0 a w : ℝ) (i j : ℕ) : ℂ :=
  ((a * Real.exp (-(((s.fourierGrid.1.get i j - x0) ^ 2 + (s.fourierGrid.2.get i j - y0) ^ 2) / w ^ 2)) : ℝ) : ℂ)

/-- The pixel at `(x, y)` is nearer to the first order than half its distance from the axis. -/
def NearFirstOrder (d : DMD) (o : ℝ × ℝ) (x y : ℝ) : Prop :=
  √((x - (if d.neg then -o.1 else o.1)) ^ 2 + (y - (if d.neg then -o.2 else o.2)) ^ 2) ≤ √(o.1 ^ 2 + o.2 ^ 2) / 2

/-- The first order of the hologram `calculate_dmd_state(inp, target, method="random", r=r)` shows the field `T` of the
target on average: mode matching succeeds with a finite non-zero `eta` that does not depend on the draws; a new
`DMDSimulation` with any non-negative paddings propagates the input `inp` (the field `u`) and blocks the zeroth order
without an error; near the first order the mean over the draws of the field in the image plane is the sum of the
diffraction orders, displaced by the multiples of `± first_order_origin`; and for sharp edges (`r → ∞`) the field of
order 1 is `eta / π` times the (interpolated) target. -/
def ShowsOnAverage (d : DMD) (h : Profile.Heap) (inp target : ProfArg) (u T : ℕ → ℕ → ℂ) : Prop :=
  ∃ (eta : ℝ) (A : ℕ → ℕ → ℝ) (o : ℝ × ℝ) (κ : ℤ → ℂ), eta ≠ 0 ∧ d.firstOrderOrigin = .ok o ∧
    (∀ n, ‖κ n‖ = 1) ∧ (Even d.slm.Nx → Even d.slm.Ny → ∀ n, κ n = 1) ∧
    (∀ (kw : CalcKwargs) (r : ℝ), 0 < r → kw.r.getD 10 = r →
      ∀ (Ω : Type) [MeasurableSpace Ω] (μ : Measure Ω) [IsProbabilityMeasure μ] (draw : Ω → ℕ → ℕ → ℝ),
      (∀ i < d.slm.Ny, ∀ j < d.slm.Nx, Measurable fun ω => draw ω i j) →
      (∀ i < d.slm.Ny, ∀ j < d.slm.Nx, μ.map (fun ω => draw ω i j) = volume.restrict (Set.Ico 0 1)) →
      ∀ px py : ℕ, ∃ (t : Ω → Tensor Bool) (sim : Ω → Sim) (img : Ω → Tensor ℂ) (g : Tensor ℝ × Tensor ℝ),
        (∀ ω, d.calculateDmdState h inp target "random" none kw (draw ω) = ⟨.rebind (.bool (t ω)), .ok (.fin eta)⟩ ∧
          newDMD (.dev (.dmd d (.bool (t ω)))) (.int px) (.int py) = .ok (sim ω) ∧
          (sim ω).imagePaddedGrid = .ok g ∧ ((sim ω).propagate h inp).2 = .ok () ∧
          (((sim ω).propagate h inp).1.blockZerothOrder none).2 = .ok () ∧
          (((sim ω).propagate h inp).1.blockZerothOrder none).1.imageField = some (img ω)) ∧
        ∀ k < d.slm.Ny + 2 * py, ∀ l < d.slm.Nx + 2 * px, NearFirstOrder d o (g.1.get k l) (g.2.get k l) →
          HasSum (fun n : ℤ => fieldAt d.slm (orderField u (spectrum d.slm T) A r n)
              (g.1.get k l - n * (if d.neg then -o.1 else o.1)) (g.2.get k l - n * (if d.neg then -o.2 else o.2)) * κ n)
            (∫ ω, (img ω).get k l ∂μ)) ∧
    ∀ x y : ℝ, Tendsto (fun r => fieldAt d.slm (orderField u (spectrum d.slm T) A r 1) x y) atTop
      (𝓝 (eta / Real.pi * interp d.slm T x y))

end PySLM2.DMD
