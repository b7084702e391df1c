import Verif.Model.Lcos
import Verif.Model.FloatSim

/-!
# `calculate_hologram` with every result rounded

The same computations as in `Model/Lib.lean`, for arrays of the shape of the device, with each elementary operation followed by a
rounding.  The elements of the input, the target, the signal window and the mixing factor are taken as they are after their conversion to
the dtype.  Overflow, underflow and signed zeros are not modelled.
-/

noncomputable section

open Complex

namespace PySLM2

open Lib

/-- The arithmetic of `calculate_hologram`: `rnd` rounds to `BACKEND.dtype` (`_backend.py:20-47`), `py` to the python `float`, `exp` is
`tf.exp` of complex numbers (`_lib.py:348, 352`), `angle` is `tf.math.angle` (`_lib.py:350, 353`), `fft` and `ifft` are the transforms of the
library (`_lib.py:14-38`). -/
structure HoloArith where
  rnd : ℝ → ℝ
  py : ℝ → ℝ
  exp : ℂ → ℂ
  angle : ℂ → ℝ
  fft : ℕ → ℕ → (ℕ → ℕ → ℂ) → ℕ → ℕ → ℂ
  ifft : ℕ → ℕ → (ℕ → ℕ → ℂ) → ℕ → ℕ → ℂ

/-- Sum of two complex tensors (`_lib.py:400-401`), element by element -/
def caddR (rnd : ℝ → ℝ) (a b : ℂ) : ℂ := ⟨rnd (a.re + b.re), rnd (a.im + b.im)⟩

namespace Lib

/-- The initial phases (`_lib.py:341, 381`): `2 * math.pi` is a python product, converted to the dtype of the draw `x`. -/
def initialPhaseR (F : HoloArith) (x : ℕ → ℕ → ℝ) (i j : ℕ) : ℝ := F.rnd (F.rnd (F.py (2 * F.py Real.pi)) * x i j)

/-- `input_profile * tf.exp(1j * phase_profile)` (`_lib.py:348, 396`); the product by `1j` is exact. -/
def modulateR (F : HoloArith) (inp : ℕ → ℕ → ℂ) (phase : ℕ → ℕ → ℝ) (a b : ℕ) : ℂ :=
  cmulR F.rnd (inp a b) (F.exp (I * phase a b))

/-- `image_plane_profile` (`_lib.py:348-349, 396-397`) -/
def imageR (F : HoloArith) (M N : ℕ) (inp : ℕ → ℕ → ℂ) (phase : ℕ → ℕ → ℝ) : ℕ → ℕ → ℂ := F.ifft M N (modulateR F inp phase)

/-- `profile_corrected` of the Gerchberg-Saxton loop (`_lib.py:350-352`) at one pixel -/
def gsCorrectR (F : HoloArith) (target image : ℂ) : ℂ := cmulR F.rnd target (F.exp (I * F.angle image))

/-- One Gerchberg-Saxton iteration (`_lib.py:346-353`); `target` is already ifft-shifted. -/
def gsStepR (F : HoloArith) (M N : ℕ) (inp target : ℕ → ℕ → ℂ) (phase : ℕ → ℕ → ℝ) (a b : ℕ) : ℝ :=
  F.angle (F.fft M N (fun a b => gsCorrectR F (target a b) (imageR F M N inp phase a b)) a b)

/-- `n` Gerchberg-Saxton iterations (`_lib.py:346-355`) -/
def gsLoopR (F : HoloArith) (M N : ℕ) (inp target : ℕ → ℕ → ℂ) (phase0 : ℕ → ℕ → ℝ) : ℕ → (ℕ → ℕ → ℝ)
  | 0 => phase0
  | n + 1 => gsStepR F M N inp target (gsLoopR F M N inp target phase0 n)

/-- `profile_corrected` of the MRAF loop (`_lib.py:386-401`) at one pixel, `m` the mixing factor; the products are taken from left to
right. -/
def mrafCorrectR (F : HoloArith) (m : ℝ) (target window image : ℂ) : ℂ :=
  caddR F.rnd
    (cmulR F.rnd (cmulR F.rnd (cmulR F.rnd m target) (F.exp (I * F.angle image))) window)
    (cmulR F.rnd (cmulR F.rnd (F.rnd (1 - m)) image) ⟨F.rnd (1 - window.re), F.rnd (0 - window.im)⟩)

/-- One MRAF iteration (`_lib.py:394-402`); `target`, `window` already ifft-shifted. -/
def mrafStepR (F : HoloArith) (M N : ℕ) (inp target window : ℕ → ℕ → ℂ) (m : ℝ) (phase : ℕ → ℕ → ℝ) (a b : ℕ) : ℝ :=
  F.angle (F.fft M N (fun a b => mrafCorrectR F m (target a b) (window a b) (imageR F M N inp phase a b)) a b)

/-- `n` MRAF iterations (`_lib.py:394-404`) -/
def mrafLoopR (F : HoloArith) (M N : ℕ) (inp target window : ℕ → ℕ → ℂ) (m : ℝ) (phase0 : ℕ → ℕ → ℝ) : ℕ → (ℕ → ℕ → ℝ)
  | 0 => phase0
  | n + 1 => mrafStepR F M N inp target window m (mrafLoopR F M N inp target window m phase0 n)

end Lib

namespace LCOS

/-- The phases computed by `calculate_hologram(input, target, method="gs", N=N)` (`slm.py:487-515`, `_lib.py:322-355`) for input `A`, target
amplitude `T` and random draw `x` -/
def gsPhasesR (F : HoloArith) (s : SLM) (A : ℕ → ℕ → ℂ) (T x : ℕ → ℕ → ℝ) (N : ℕ) : ℕ → ℕ → ℝ :=
  gsLoopR F s.Ny s.Nx A (fun a b => ((ifftshift2 s.Ny s.Nx T a b : ℝ) : ℂ)) (initialPhaseR F x) N

/-- The phases computed by `calculate_hologram(input, target, method="mraf", N=N, signal_window=S, mixing_factor=m)` (`slm.py:487-515`,
`_lib.py:357-404`) for input `A`, target amplitude `T` and random draw `x` -/
def mrafPhasesR (F : HoloArith) (s : SLM) (A : ℕ → ℕ → ℂ) (T : ℕ → ℕ → ℝ) (S : ℕ → ℕ → ℂ) (m : ℝ) (x : ℕ → ℕ → ℝ) (N : ℕ) : ℕ → ℕ → ℝ :=
  mrafLoopR F s.Ny s.Nx A (fun a b => ((ifftshift2 s.Ny s.Nx T a b : ℝ) : ℂ)) (ifftshift2 s.Ny s.Nx S) m (initialPhaseR F x) N

end LCOS

end PySLM2
