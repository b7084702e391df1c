import Verif.Model.Benchmarks
import Verif.Spec.Lcos

/-!
# Specification vocabulary for the benchmark scripts (C149)
-/

noncomputable section

open Complex

namespace PySLM2.Benchmarks

open LCOS (Shows)

/-- Two runs on an SLM calculate the same hologram: both succeed, and the phases shown afterwards agree up to multiples of 2π. -/
def SameHologram (r r' : LCOS × Except PyErr Unit) : Prop :=
  r.2 = .ok () ∧ r'.2 = .ok () ∧ r.1.slm = r'.1.slm ∧ ∃ φ φ' : ℕ → ℕ → ℝ, Shows r.1 φ ∧ Shows r'.1 φ' ∧
    ∀ i < r.1.slm.Ny, ∀ j < r.1.slm.Nx, cexp (I * φ i j) = cexp (I * φ' i j)

/-- The CPU script and the GPU script of a benchmark calculate the same hologram from the same random numbers. -/
def Comparable (cpu gpu : (ℕ → ℕ → ℝ) → LCOS × Except PyErr Unit) : Prop :=
  ∀ u : ℕ → ℕ → ℝ, (∀ i j, 0 ≤ u i j ∧ u i j < 1) → SameHologram (cpu u) (gpu u)

/-- The calculation takes its target into account: for some random numbers the holograms for two sizes of the target differ. -/
def UsesTarget (script : ℝ → (ℕ → ℕ → ℝ) → LCOS × Except PyErr Unit) : Prop :=
  ∃ (w w' : ℝ) (u : ℕ → ℕ → ℝ), w ≠ 0 ∧ w' ≠ 0 ∧ ¬ SameHologram (script w u) (script w' u)

end PySLM2.Benchmarks
