import Verif.Model.Dmd
import Verif.Model.Float
import Verif.Model.FloatSim

/-!
# `calculate_dmd_state` with every result rounded

The same computations as in `Model/Dmd.lean`, for arrays of the shape of the device, with each elementary operation followed by a
rounding.  The elements of the input and the target are taken as they are after their conversion to the dtype.  Overflow, underflow and signed zeros are not modelled.
-/

noncomputable section

open Complex

namespace PySLM2

open Classical Lib

/-- The arithmetic of `calculate_dmd_state`: that of `BACKEND.dtype` (`_backend.py:20-47`), `py` rounds to the python `float`, `abs` and
`angle` are `tf.math.abs` and `tf.math.angle` (`slm.py:302-305`), `fft` is the FFT of the library (`_lib.py:14-29`). -/
structure CalcArith extends Arith where
  py : ℝ → ℝ
  abs : ℂ → ℝ
  angle : ℂ → ℝ
  fft : ℕ → ℕ → (ℕ → ℕ → ℂ) → ℕ → ℕ → ℂ

/-- Rounding of an element of an array (`slm.py:316, 320`); infinities and NaN stay what they are. -/
def XR.round (rnd : ℝ → ℝ) : XR → XR
  | .fin x => .fin (rnd x)
  | x => x

namespace DMD

/-- `target_profile_fp` (`slm.py:296-300`), with the window if there is one, at one pixel -/
def targetFpR (F : CalcArith) (M N : ℕ) (T : ℕ → ℕ → ℂ) (window : Option (ℕ → ℕ → ℂ)) (i j : ℕ) : ℂ :=
  let fp := fftshift2 M N (F.fft M N (ifftshift2 M N T)) i j
  match window with
  | none => fp
  | some w => cmulR F.rnd fp (w i j)

/-- `tf.where(amp_out == 0, 0, amp_out / amp_in)` (`slm.py:302-305, 313-317`) at one pixel -/
def ratioR (F : CalcArith) (inp tfp : ℂ) : XR :=
  if F.abs tfp = 0 then .fin 0 else (XR.divFin (F.abs tfp) (F.abs inp)).round F.rnd

/-- `phase_out` (`slm.py:307-311`) at one pixel -/
def phaseOutR (F : CalcArith) (tfp : ℂ) : ℝ := if tfp = 0 then 0 else F.angle tfp

/-- `one_over_eta_fft` (`slm.py:319`) for the input tensor `u` -/
def oneOverEtaR (F : CalcArith) (s : SLM) (u T : ℕ → ℕ → ℂ) (window : Option (ℕ → ℕ → ℂ)) : XR :=
  reduceMax s.Ny s.Nx fun i j => ratioR F (u i j) (targetFpR F s.Ny s.Nx T window i j)

/-- `amp_scaled` (`slm.py:320`) at one pixel -/
def ampScaledR (F : CalcArith) (s : SLM) (u T : ℕ → ℕ → ℂ) (window : Option (ℕ → ℕ → ℂ)) (i j : ℕ) : XR :=
  ((ratioR F (u i j) (targetFpR F s.Ny s.Nx T window i j)).div (oneOverEtaR F s u T window)).round F.rnd

/-- The arguments of the grating at one pixel (`slm.py:360-373`), for a finite amplitude `a` -/
def calcPixR (F : CalcArith) (d : DMD) (u T : ℕ → ℕ → ℂ) (window : Option (ℕ → ℕ → ℂ)) (a : ℝ) (i j : ℕ) : Pix :=
  ⟨.fin a, F.angle (u i j), phaseOutR F (targetFpR F d.slm.Ny d.slm.Nx T window i j), (d.slm.indexToCoordR F.rnd i j).1,
    (d.slm.indexToCoordR F.rnd i j).2⟩

/-- A mirror of the state computed by `calculate_dmd_state(..., method="simple")` (`slm.py:354-373`), for `p ≠ 0`; a mirror whose
amplitude is NaN is off. -/
def calcSimpleR (F : CalcArith) (d : DMD) (u T : ℕ → ℕ → ℂ) (window : Option (ℕ → ℕ → ℂ)) (i j : ℕ) : Bool :=
  match ampScaledR F d.slm u T window i j with
  | .fin a => simplePixelR F.toArith d.p d.theta d.neg a (calcPixR F d u T window a i j)
  | _ => false

/-- A mirror of the state computed by `calculate_dmd_state(..., method="random", r=r)` (`slm.py:354-373`), for `p ≠ 0` and the draw `x`;
`asin` of a number outside `[-1, 1]` is NaN, and then the mirror is off. -/
def calcRandomR (F : CalcArith) (d : DMD) (r : ℝ) (u T : ℕ → ℕ → ℂ) (window : Option (ℕ → ℕ → ℂ)) (x : ℝ) (i j : ℕ) : Bool :=
  match ampScaledR F d.slm u T window i j with
  | .fin a => decide (|a| ≤ 1) && randomPixelR F.toArith d.p d.theta r d.neg x a (calcPixR F d u T window a i j)
  | _ => false

/-- `eta` (`slm.py:375`) in python arithmetic, for a finite `one_over_eta_fft` other than 0 -/
def etaR (F : CalcArith) (s : SLM) (m : ℝ) : ℝ :=
  F.py (F.py (F.py (F.py (F.py (s.ps * s.ps) / F.py (s.wavelength * s.focal)) * F.py s.Nx) * F.py s.Ny) / m)

end DMD

end PySLM2
