import Verif.Model.Nan
import Verif.Spec.Dmd

/-!
# What is said about NaN
-/

noncomputable section

namespace PySLM2.Spec

/-- Some pixel of an array of `M` rows and `N` columns is NaN. -/
def HasNan {α : Type} (M N : ℕ) (f : ℕ → ℕ → Option α) : Prop := ∃ i < M, ∃ j < N, f i j = none

/-- On an array without NaN, `red` is the maximum. -/
def Maximum (M N : ℕ) (red : (ℕ → ℕ → XR) → XR) : Prop :=
  ∀ f, (∀ i < M, ∀ j < N, f i j ≠ .nan) → red f = DMD.reduceMax M N f

/-- NaN in an array makes `red` of it NaN. -/
def Propagates (M N : ℕ) (red : (ℕ → ℕ → XR) → XR) : Prop :=
  ∀ f, (∃ i < M, ∃ j < N, f i j = .nan) → red f = .nan

/-- The value of the window at a pixel; 1 if there is none. -/
def windowValue (window : Option (ℕ → ℕ → Option ℂ)) (i j : ℕ) : ℂ :=
  match window with
  | none => 1
  | some w => (w i j).getD 0

/-- The window is NaN at a pixel. -/
def WindowNan (window : Option (ℕ → ℕ → Option ℂ)) (i j : ℕ) : Prop := ∃ w, window = some w ∧ w i j = none

end PySLM2.Spec
