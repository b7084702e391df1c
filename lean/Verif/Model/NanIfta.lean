import Verif.Model.Nan

/-!
# Arrays that hold NaN, in method `ifta`

As in `Model/Nan.lean`: a number is `none` if it (or its real or its imaginary part) is NaN.  Simplification: infinite amplitudes count as NaN;
none occur here (theorem `C182_finite`).
-/

noncomputable section

namespace PySLM2

open Classical

namespace Lib

/-- A difference of two numbers (`-` at `_lib.py:213`) -/
def subN (a b : Option ℂ) : Option ℂ := a.bind fun a => b.map fun b => a - b

/-- The quotient by the input field (`/` at `_lib.py:281`).  Where the input is 0 the quotient is not a number or infinite; it is not used there
(`_lib.py:278-282`). -/
def divN (a b : Option ℂ) : Option ℂ := a.bind fun a => b.bind fun b => if b = 0 then none else some (a / b)

/-- `_ifta_correct_profile` (`_lib.py:212-213`) -/
def iftaCorrectN (profile profileIdeal window : Option ℂ) : Option ℂ := addN (mulN (subN profileIdeal profile) window) profile

/-- `_ifta_binarize_hologram` (`_lib.py:216-219`) at one pixel: comparisons with NaN are false, so that NaN is kept. -/
def iftaBinarizeN (hologram : Option ℝ) (threshold : ℝ) : Option ℝ := hologram.map fun x => iftaBinarize x threshold

/-- One iteration of `_calculate_dmd_grating_ifta` (`_lib.py:272-282`); `window` is already ifft-shifted.  NaN is not equal to 0. -/
def iftaStepN (M N : ℕ) (inp ideal window : ℕ → ℕ → Option ℂ) (t : ℝ) (g : ℕ → ℕ → Option ℝ) : ℕ → ℕ → Option ℝ :=
  let image := idftN M N fun a b => mulN (inp a b) ((iftaBinarizeN (g a b) t).map Complex.ofReal)
  let corrected := fun a b => iftaCorrectN (image a b) (ideal a b) (window a b)
  fun a b => if inp a b = some 0 then some 0 else (divN (dftN M N corrected a b) (inp a b)).map Complex.re

/-- The loop of `_calculate_dmd_grating_ifta` (`_lib.py:272-282`): the first `n` of `steps` iterations. -/
def iftaLoopN (M N : ℕ) (inp ideal window : ℕ → ℕ → Option ℂ) (steps : ℕ) (g0 : ℕ → ℕ → Option ℝ) : ℕ → (ℕ → ℕ → Option ℝ)
  | 0 => g0
  | n + 1 => iftaStepN M N inp ideal window (iftaThreshold steps n) (iftaLoopN M N inp ideal window steps g0 n)

/-- `_calculate_dmd_grating_ifta` (`_lib.py:260-284`) with `g0 = s * ideal grating`; the last comparison is false for NaN. -/
def iftaFieldN (M N : ℕ) (inp window : ℕ → ℕ → Option ℂ) (steps : ℕ) (g0 : ℕ → ℕ → Option ℝ) (i j : ℕ) : Bool :=
  let ideal := idftN M N fun a b => mulN (inp a b) ((g0 a b).map Complex.ofReal)
  match iftaLoopN M N inp ideal (ifftshift2 M N window) steps g0 steps i j with
  | some x => decide (x > 0.5)
  | none => false

/-- A float as a number or NaN (`_lib.py:260-261`) -/
def numN : XR → Option ℝ
  | .fin x => some x
  | _ => none

/-- An argument as a float (`slm.py:214-216`) -/
def floatN : Option ℝ → XR
  | some x => .fin x
  | none => .nan

end Lib

namespace DMD

open Lib

/-- `dmd_state` after `set_dmd_grating_state(amp, phase_in, phase_out, method="ifta", N=steps, s=s, input_profile=u, signal_window=W)`
(`slm.py:213-221`), for arrays of the shape of the device -/
def setIftaN (d : DMD) (A φin φout : ℕ → ℕ → Option ℝ) (u W : ℕ → ℕ → Option ℂ) (steps : ℕ) (s : ℝ) : ℕ → ℕ → Bool :=
  iftaFieldN d.slm.Ny d.slm.Nx u W steps fun i j =>
    numN ((XR.fin s).mul (idealPixelN d.p d.theta d.neg (floatN (A i j)) (φin i j) (φout i j) (d.slm.fourierX i j) (d.slm.fourierY i j)))

/-- `dmd_state` after `calculate_dmd_state(u, T, method="ifta", window=window, signal_window=W, N=steps, s=s)` (`slm.py:354-373`), for arrays
of the shape of the device -/
def calcIftaN (red : (ℕ → ℕ → XR) → XR) (d : DMD) (u T : ℕ → ℕ → Option ℂ) (window : Option (ℕ → ℕ → Option ℂ)) (W : ℕ → ℕ → Option ℂ)
    (steps : ℕ) (s : ℝ) : ℕ → ℕ → Bool :=
  iftaFieldN d.slm.Ny d.slm.Nx u W steps fun i j => numN ((XR.fin s).mul (calcIdealN red d u T window i j))

end DMD

end PySLM2
