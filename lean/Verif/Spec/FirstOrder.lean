import Verif.Spec.Dmd
import Mathlib.MeasureTheory.Integral.IntervalIntegral.Basic

/-!
# The amplitude of the first diffraction order of a grating
-/

noncomputable section

open Complex

namespace PySLM2.DMD

open Lib

/-- The value of mirror `(i, j)` after a call that assigned a new `dmd_state`: 1 or 0 for a boolean state, the number
for a real state. -/
def mirror (e : Effect) (i j : ℕ) : ℝ :=
  match e with
  | .rebind (.bool t) => if t.get i j then 1 else 0
  | .rebind (.float t) => match t.get i j with
    | .fin x => x
    | _ => 0
  | _ => 0

/-- The amplitude of the first diffraction order at pixel `(i, j)`: the mirror value as a function `f c` of a uniform
`phase_out = c`, multiplied with the wave `exp(i (carrier phase - phase difference))` and averaged over a full turn of
`c`. -/
def firstOrder (d : DMD) (φin : ℕ → ℕ → ℝ) (i j : ℕ) (f : ℝ → ℝ) : ℂ :=
  1 / (2 * Real.pi) * ∫ c in (-Real.pi)..Real.pi, (f c : ℂ) * cexp (I * d.detuning φin (fun _ _ => c) i j)

end PySLM2.DMD
