import Verif.Model.Dmd
import Verif.Model.Lcos

/-!
# Arrays that hold NaN, in `calculate_dmd_state` and `calculate_hologram`

A complex number is `none` if its real or its imaginary part is NaN.  Every product and every sum with such a number is again one, so a Fourier
transform of an array with at least one NaN is NaN everywhere: each of its values is a sum over all pixels (a fast transform adds up the same
terms in another order).  Simplifications: exact arithmetic for the other values, no infinities in the arguments (a NaN beside an infinite part is
then impossible), arrays of the shape of the device.
-/

noncomputable section

namespace PySLM2

open Classical

namespace Lib

/-- All values of an `M x N` array are numbers (arrays that reach `_lib.py:21-38`). -/
def Clean {α : Type} (M N : ℕ) (f : ℕ → ℕ → Option α) : Prop := ∀ i < M, ∀ j < N, f i j ≠ none

/-- The values of an array, with 0 in place of NaN. -/
def values (f : ℕ → ℕ → Option ℂ) (i j : ℕ) : ℂ := (f i j).getD 0

/-- `_fourier_transform` (`_lib.py:21-28`) of an array with NaN. -/
def dftN (M N : ℕ) (f : ℕ → ℕ → Option ℂ) (k l : ℕ) : Option ℂ := if Clean M N f then some (dft2 M N (values f) k l) else none

/-- `_inverse_fourier_transform` (`_lib.py:31-38`) of an array with NaN. -/
def idftN (M N : ℕ) (f : ℕ → ℕ → Option ℂ) (k l : ℕ) : Option ℂ := if Clean M N f then some (idft2 M N (values f) k l) else none

/-- A product of two numbers (`*` at `slm.py:300`, `_lib.py:348, 352, 396-401`). -/
def mulN (a b : Option ℂ) : Option ℂ := a.bind fun a => b.map fun b => a * b

/-- A sum of two numbers (`+` at `_lib.py:400`). -/
def addN (a b : Option ℂ) : Option ℂ := a.bind fun a => b.map fun b => a + b

/-- `tf.math.angle` (`slm.py:302, 310`, `_lib.py:350, 353`). -/
def angleN (a : Option ℂ) : Option ℝ := a.map Complex.arg

/-- `tf.exp(1j * phase)` (`_lib.py:348, 352, 396, 400`). -/
def cisN (a : Option ℝ) : Option ℂ := a.map fun a : ℝ => Complex.exp (Complex.I * (a : ℂ))

/-- `_calculate_dmd_grating_ideal` (`_lib.py:145-151`) at one pixel; a phase may be NaN. -/
def idealPixelN (p theta : ℝ) (neg : Bool) (amp : XR) (phaseIn phaseOut : Option ℝ) (x y : ℝ) : XR :=
  match phaseIn, phaseOut with
  | some a, some b => idealPixel p theta neg ⟨amp, a, b, x, y⟩
  | _, _ => .nan

/-- `_calculate_dmd_grating_simple` (`_lib.py:159-161`) at one pixel -/
def simplePixelN (p theta : ℝ) (neg : Bool) (amp : XR) (phaseIn phaseOut : Option ℝ) (x y : ℝ) : Bool :=
  decide ((idealPixelN p theta neg amp phaseIn phaseOut x y).gtFin 0.5)

/-- `_calculate_dmd_grating_random` (`_lib.py:195-209`) at one pixel; `draw` is the uniform draw. -/
def randomPixelN (p theta r : ℝ) (neg : Bool) (draw : ℝ) (amp : XR) (phaseIn phaseOut : Option ℝ) (x y : ℝ) : Bool :=
  match phaseIn, phaseOut with
  | some a, some b => decide ((randomDuty p theta r neg ⟨amp, a, b, x, y⟩).gtFin draw)
  | _, _ => decide (XR.nan.gtFin draw)

/-- One Gerchberg-Saxton iteration (`_lib.py:346-353`); `target` is already ifft-shifted. -/
def gsStepN (M N : ℕ) (inp target : ℕ → ℕ → Option ℂ) (phase : ℕ → ℕ → Option ℝ) : ℕ → ℕ → Option ℝ :=
  let image := idftN M N fun a b => mulN (inp a b) (cisN (phase a b))
  let corrected := fun a b => mulN (target a b) (cisN (angleN (image a b)))
  fun a b => angleN (dftN M N corrected a b)

/-- `n` Gerchberg-Saxton iterations (`_lib.py:341-355`); the initial phases are random numbers. -/
def gsLoopN (M N : ℕ) (inp target : ℕ → ℕ → Option ℂ) (phase0 : ℕ → ℕ → ℝ) : ℕ → (ℕ → ℕ → Option ℝ)
  | 0 => fun a b => some (phase0 a b)
  | n + 1 => gsStepN M N inp target (gsLoopN M N inp target phase0 n)

/-- One MRAF iteration (`_lib.py:394-402`); `target`, `window` already ifft-shifted, `m` the mixing factor. -/
def mrafStepN (M N : ℕ) (inp target window : ℕ → ℕ → Option ℂ) (m : ℝ) (phase : ℕ → ℕ → Option ℝ) : ℕ → ℕ → Option ℝ :=
  let image := idftN M N fun a b => mulN (inp a b) (cisN (phase a b))
  let corrected := fun a b =>
    addN (mulN (mulN (mulN (some (m : ℂ)) (target a b)) (cisN (angleN (image a b)))) (window a b))
      (mulN (mulN (some ((1 - m : ℝ) : ℂ)) (image a b)) ((window a b).map fun w => 1 - w))
  fun a b => angleN (dftN M N corrected a b)

/-- `n` MRAF iterations (`_lib.py:381-404`) -/
def mrafLoopN (M N : ℕ) (inp target window : ℕ → ℕ → Option ℂ) (m : ℝ) (phase0 : ℕ → ℕ → ℝ) : ℕ → (ℕ → ℕ → Option ℝ)
  | 0 => fun a b => some (phase0 a b)
  | n + 1 => mrafStepN M N inp target window m (mrafLoopN M N inp target window m phase0 n)

end Lib

namespace DMD

open Lib

/-- `tf.math.abs` (`slm.py:303, 305`) -/
def absN : Option ℂ → XR
  | none => .nan
  | some z => .fin ‖z‖

/-- `target_profile_fp`, windowed (`slm.py:296-300`), for arrays of the shape of the device. -/
def targetFpN (s : SLM) (T : ℕ → ℕ → Option ℂ) (window : Option (ℕ → ℕ → Option ℂ)) (i j : ℕ) : Option ℂ :=
  let fp := fftshift2 s.Ny s.Nx (dftN s.Ny s.Nx (ifftshift2 s.Ny s.Nx T)) i j
  match window with
  | none => fp
  | some w => mulN fp (w i j)

/-- `tf.where(amp_out == 0, 0, amp_out / amp_in)` (`slm.py:303-305, 313-317`) at one pixel; NaN is not equal to 0. -/
def ratioN (inp tfp : Option ℂ) : XR := if absN tfp = .fin 0 then .fin 0 else (absN tfp).div (absN inp)

/-- `phase_out` (`slm.py:307-311`) at one pixel -/
def phaseOutN (tfp : Option ℂ) : Option ℝ := if tfp = some 0 then some 0 else angleN tfp

/-- `one_over_eta_fft` (`slm.py:319`); `red` is the maximum as computed by tensorflow, which does not say what it is for an array that holds NaN. -/
def oneOverEtaN (red : (ℕ → ℕ → XR) → XR) (s : SLM) (u T : ℕ → ℕ → Option ℂ) (window : Option (ℕ → ℕ → Option ℂ)) : XR :=
  red fun i j => ratioN (u i j) (targetFpN s T window i j)

/-- `amp_scaled` (`slm.py:320`) at one pixel -/
def ampScaledN (red : (ℕ → ℕ → XR) → XR) (s : SLM) (u T : ℕ → ℕ → Option ℂ) (window : Option (ℕ → ℕ → Option ℂ)) (i j : ℕ) : XR :=
  (ratioN (u i j) (targetFpN s T window i j)).div (oneOverEtaN red s u T window)

/-- `dmd_state` after `calculate_dmd_state(..., method="ideal")` (`slm.py:354-373`) at one pixel -/
def calcIdealN (red : (ℕ → ℕ → XR) → XR) (d : DMD) (u T : ℕ → ℕ → Option ℂ) (window : Option (ℕ → ℕ → Option ℂ)) (i j : ℕ) : XR :=
  idealPixelN d.p d.theta d.neg (ampScaledN red d.slm u T window i j) (angleN (u i j)) (phaseOutN (targetFpN d.slm T window i j))
    (d.slm.fourierX i j) (d.slm.fourierY i j)

/-- The same for `method="simple"` (`slm.py:354-373`) -/
def calcSimpleN (red : (ℕ → ℕ → XR) → XR) (d : DMD) (u T : ℕ → ℕ → Option ℂ) (window : Option (ℕ → ℕ → Option ℂ)) (i j : ℕ) : Bool :=
  simplePixelN d.p d.theta d.neg (ampScaledN red d.slm u T window i j) (angleN (u i j)) (phaseOutN (targetFpN d.slm T window i j))
    (d.slm.fourierX i j) (d.slm.fourierY i j)

/-- The same for `method="random"` (`slm.py:354-373`) with the keyword `r` and the uniform draws `draw` -/
def calcRandomN (red : (ℕ → ℕ → XR) → XR) (d : DMD) (r : ℝ) (draw : ℕ → ℕ → ℝ) (u T : ℕ → ℕ → Option ℂ)
    (window : Option (ℕ → ℕ → Option ℂ)) (i j : ℕ) : Bool :=
  randomPixelN d.p d.theta r d.neg (draw i j) (ampScaledN red d.slm u T window i j) (angleN (u i j))
    (phaseOutN (targetFpN d.slm T window i j)) (d.slm.fourierX i j) (d.slm.fourierY i j)

/-- What `calculate_dmd_state` returns or raises at its end (`slm.py:375-376`) -/
def calcEtaN (red : (ℕ → ℕ → XR) → XR) (d : DMD) (u T : ℕ → ℕ → Option ℂ) (window : Option (ℕ → ℕ → Option ℂ)) : Except PyErr XR :=
  etaOf d.slm (oneOverEtaN red d.slm u T window)

end DMD

namespace LCOS

/-- The hologram computed by `calculate_hologram(input, target, method="gs", N=N)` (`slm.py:487-515`) for arrays of the shape of the device -/
def gsN (s : SLM) (A : ℕ → ℕ → Option ℂ) (T : ℕ → ℕ → Option ℝ) (draw : ℕ → ℕ → ℝ) (steps : ℕ) : ℕ → ℕ → Option ℝ :=
  Lib.gsLoopN s.Ny s.Nx A (Lib.ifftshift2 s.Ny s.Nx fun i j => (T i j).map Complex.ofReal) (Lib.initialPhase draw) steps

/-- The same for `method="mraf"` with the mixing factor `m` and the signal window `w` -/
def mrafN (s : SLM) (A : ℕ → ℕ → Option ℂ) (T : ℕ → ℕ → Option ℝ) (w : ℕ → ℕ → Option ℂ) (m : ℝ) (draw : ℕ → ℕ → ℝ) (steps : ℕ) :
    ℕ → ℕ → Option ℝ :=
  Lib.mrafLoopN s.Ny s.Nx A (Lib.ifftshift2 s.Ny s.Nx fun i j => (T i j).map Complex.ofReal) (Lib.ifftshift2 s.Ny s.Nx w) m (Lib.initialPhase draw)
    steps

end LCOS

end PySLM2
