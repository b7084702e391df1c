import Verif.Spec.GaussianInput
import Verif.Spec.Lcos
import Verif.Spec.Aberration

/-!
# Specification vocabulary for the example scripts (C125)
-/

noncomputable section

open Complex Finset MeasureTheory Filter Topology

namespace PySLM2

/-- Primary spherical aberration of root-mean-square `a` on the disc of radius `R`. -/
def Spec.spherical (a R x y : ℝ) : ℝ :=
  if R < √(x ^ 2 + y ^ 2) then 0 else a * √5 * (6 * (√(x ^ 2 + y ^ 2) / R) ^ 4 - 6 * (√(x ^ 2 + y ^ 2) / R) ^ 2 + 1)

namespace DMD

open Lib Sim

/-- As `ShowsOnAverage`, when the hologram is calculated for the input `inp` (the field `u`) but the device is illuminated
with `inp'` (the field `u` times the screen `φ`): for sharp edges the field of order 1 is `eta / π` times the target, blurred
by the point spread function of the screen.  `gi` is the grid of the image plane. -/
def BlurredOnAverage (d : DMD) (h : Profile.Heap) (inp inp' target : ProfArg) (u φ T : ℕ → ℕ → ℂ) (gi : Tensor ℝ × Tensor ℝ) :
    Prop :=
  ∃ (eta : ℝ) (A : ℕ → ℕ → ℝ) (o : ℝ × ℝ) (κ : ℤ → ℂ), eta ≠ 0 ∧ d.firstOrderOrigin = .ok o ∧
    (∀ n, ‖κ n‖ = 1) ∧ (Even d.slm.Nx → Even d.slm.Ny → ∀ n, κ n = 1) ∧
    (∀ (kw : CalcKwargs) (r : ℝ), 0 < r → kw.r.getD 10 = r →
      ∀ (Ω : Type) [MeasurableSpace Ω] (μ : Measure Ω) [IsProbabilityMeasure μ] (draw : Ω → ℕ → ℕ → ℝ),
      (∀ i < d.slm.Ny, ∀ j < d.slm.Nx, Measurable fun ω => draw ω i j) →
      (∀ i < d.slm.Ny, ∀ j < d.slm.Nx, μ.map (fun ω => draw ω i j) = volume.restrict (Set.Ico 0 1)) →
      ∀ px py : ℕ, ∃ (t : Ω → Tensor Bool) (sim : Ω → Sim) (img : Ω → Tensor ℂ) (g : Tensor ℝ × Tensor ℝ),
        (∀ ω, d.calculateDmdState h inp target "random" none kw (draw ω) = ⟨.rebind (.bool (t ω)), .ok (.fin eta)⟩ ∧
          newDMD (.dev (.dmd d (.bool (t ω)))) (.int px) (.int py) = .ok (sim ω) ∧
          (sim ω).imagePaddedGrid = .ok g ∧ ((sim ω).propagate h inp').2 = .ok () ∧
          (((sim ω).propagate h inp').1.blockZerothOrder none).2 = .ok () ∧
          (((sim ω).propagate h inp').1.blockZerothOrder none).1.imageField = some (img ω)) ∧
        ∀ k < d.slm.Ny + 2 * py, ∀ l < d.slm.Nx + 2 * px, NearFirstOrder d o (g.1.get k l) (g.2.get k l) →
          HasSum (fun n : ℤ => fieldAt d.slm (fun i j => orderField u (spectrum d.slm T) A r n i j * φ i j)
              (g.1.get k l - n * (if d.neg then -o.1 else o.1)) (g.2.get k l - n * (if d.neg then -o.2 else o.2)) * κ n)
            (∫ ω, (img ω).get k l ∂μ)) ∧
    ∀ x y : ℝ, Tendsto (fun r => fieldAt d.slm (fun i j => orderField u (spectrum d.slm T) A r 1 i j * φ i j) x y) atTop
      (𝓝 (eta / Real.pi * Spec.blurred d.slm gi φ T x y))

end DMD

namespace LCOS

/-- The hologram `calculate_hologram(inp, target, method, **kw)` is calculated without an error; the SLM then shows
phases, in `(-π, π]` after at least one iteration; a new `SLMSimulation` with any non-negative paddings propagates `inp`
(the field `A`) to an image of the padded shape, which holds all the power of the beam. -/
def HologramWorks (l : LCOS) (h : Profile.Heap) (inp target : ProfArg) (method : String) (kw : Kwargs) (u : ℕ → ℕ → ℝ)
    (A : ℕ → ℕ → ℂ) : Prop :=
  (l.calculateHologram h inp target method kw u).2 = .ok () ∧
  ∃ φ, Shows (after l h inp target method kw u) φ ∧
    (∀ i < l.slm.Ny, ∀ j < l.slm.Nx, 1 ≤ kw.N.getD 200 → -Real.pi < φ i j ∧ φ i j ≤ Real.pi) ∧
    ∀ px py : ℕ, ∃ (s : Sim) (img : Tensor ℂ),
      Sim.newSLM (.dev (.lcos (after l h inp target method kw u))) (.int px) (.int py) = .ok s ∧
      (s.propagate h inp).2 = .ok () ∧ (s.propagate h inp).1.imageField = some img ∧
      img.shape = .mat (l.slm.Ny + 2 * py) (l.slm.Nx + 2 * px) ∧
      (s.propagate h inp).1.imagePower = .ok (Sim.slmPower l.slm A)

end LCOS

end PySLM2
