import Verif.Model.FloatCalc
import Verif.Model.FloatIfta

/-!
# `calculate_dmd_state` with method `ifta` and every result rounded

The rounded mode matching of `Model/FloatCalc.lean` followed by the rounded method `ifta` of `Model/FloatIfta.lean`.
-/

noncomputable section

namespace PySLM2

open Classical Lib

/-- The arithmetic of mode matching and of method `ifta` (`slm.py:296-375`, `_lib.py:222-284`). -/
structure CalcIftaArith extends CalcArith where
  div : ℂ → ℂ → ℂ
  ifft : ℕ → ℕ → (ℕ → ℕ → ℂ) → ℕ → ℕ → ℂ

/-- Its part for method `ifta` (`_lib.py:222-284`) -/
def CalcIftaArith.toIfta (F : CalcIftaArith) : IftaArith := ⟨F.toArith, F.div, F.fft, F.ifft⟩

namespace DMD

/-- `amp_scaled` (`slm.py:320`) as numbers.  Simplification: an infinite amplitude or NaN counts as 0 here; none occurs under the hypotheses of the
theorems (`C144_range`). -/
def calcAmpR (F : CalcArith) (s : SLM) (u T : ℕ → ℕ → ℂ) (window : Option (ℕ → ℕ → ℂ)) (i j : ℕ) : ℝ :=
  match ampScaledR F s u T window i j with
  | .fin a => a
  | _ => 0

/-- `grating_unbinarized` (`_lib.py:260-282`) after `n` of `steps` iterations of `calculate_dmd_state(u, T, method="ifta", window=window,
signal_window=W, N=steps, s=s)` (`slm.py:354-373`) -/
def calcIftaHologramR (F : CalcIftaArith) (d : DMD) (u T : ℕ → ℕ → ℂ) (window : Option (ℕ → ℕ → ℂ)) (W : ℕ → ℕ → ℂ) (s : ℝ) (steps n : ℕ) :
    ℕ → ℕ → ℝ :=
  d.iftaHologramR F.toIfta (calcAmpR F.toCalcArith d.slm u T window) (fun i j => F.angle (u i j))
    (fun i j => phaseOutR F.toCalcArith (targetFpR F.toCalcArith d.slm.Ny d.slm.Nx T window i j)) s u W steps n

/-- The mirrors it switches on (`_lib.py:284`) -/
def calcIftaMirrorsR (F : CalcIftaArith) (d : DMD) (u T : ℕ → ℕ → ℂ) (window : Option (ℕ → ℕ → ℂ)) (W : ℕ → ℕ → ℂ) (s : ℝ) (steps : ℕ)
    (i j : ℕ) : Bool :=
  d.iftaMirrorsR F.toIfta (calcAmpR F.toCalcArith d.slm u T window) (fun i j => F.angle (u i j))
    (fun i j => phaseOutR F.toCalcArith (targetFpR F.toCalcArith d.slm.Ny d.slm.Nx T window i j)) s u W steps i j

end DMD

end PySLM2
