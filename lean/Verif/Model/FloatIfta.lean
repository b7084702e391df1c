import Verif.Model.Float
import Verif.Model.FloatHologram

/-!
# Method `ifta` with every result rounded

The same computations as in `Model/Lib.lean`, for finite arrays of the shape of the device, with each elementary operation followed by a
rounding.  The amplitudes, phases, input, signal window and `s` are taken as they are after their conversion to the dtype.  Overflow,
underflow, infinities and NaN are not modelled.
-/

noncomputable section

open Complex

namespace PySLM2

open Classical

/-- The arithmetic of method `ifta` (`_lib.py:222-284`): that of the gratings, the quotient of two complex tensors (`_lib.py:281`) and the
transforms of the library (`_lib.py:14-38`). -/
structure IftaArith extends Arith where
  div : ℂ → ℂ → ℂ
  fft : ℕ → ℕ → (ℕ → ℕ → ℂ) → ℕ → ℕ → ℂ
  ifft : ℕ → ℕ → (ℕ → ℕ → ℂ) → ℕ → ℕ → ℂ

/-- Difference of two complex tensors (`_lib.py:213`), element by element -/
def csubR (rnd : ℝ → ℝ) (a b : ℂ) : ℂ := ⟨rnd (a.re - b.re), rnd (a.im - b.im)⟩

namespace Lib

/-- `_ifta_correct_profile` (`_lib.py:212-213`) -/
def iftaCorrectR (F : IftaArith) (profile profileIdeal window : ℂ) : ℂ :=
  caddR F.rnd (cmulR F.rnd (csubR F.rnd profileIdeal profile) window) profile

/-- `_ifta_binarize_hologram` (`_lib.py:216-219`) at one pixel -/
def iftaBinarizeR (rnd : ℝ → ℝ) (hologram threshold : ℝ) : ℝ :=
  let b := if hologram > rnd (1 - threshold) then 1 else hologram
  if hologram < threshold then 0 else b

/-- Threshold of iteration `i` (`_lib.py:267, 273-274`): `(i+1) * (0.5 / N)` -/
def iftaThresholdR (rnd : ℝ → ℝ) (N i : ℕ) : ℝ := rnd (rnd (rnd i + 1) * rnd (0.5 / rnd N))

/-- One iteration of `_calculate_dmd_grating_ifta` (`_lib.py:272-282`) on an `M x N` grid; `window` is already ifft-shifted.  The real
grating is cast to the complex dtype before the product (`_lib.py:275`). -/
def iftaStepR (F : IftaArith) (M N : ℕ) (inp ideal window : ℕ → ℕ → ℂ) (t : ℝ) (g : ℕ → ℕ → ℝ) : ℕ → ℕ → ℝ :=
  let modulated := fun a b => cmulR F.rnd (inp a b) (iftaBinarizeR F.rnd (g a b) t : ℂ)
  let image := F.ifft M N modulated
  let corrected := fun a b => iftaCorrectR F (image a b) (ideal a b) (window a b)
  fun a b => if inp a b = 0 then 0 else (F.div (F.fft M N corrected a b) (inp a b)).re

/-- The first `n` of `steps` iterations (`_lib.py:272-282`) -/
def iftaLoopR (F : IftaArith) (M N : ℕ) (inp ideal window : ℕ → ℕ → ℂ) (steps : ℕ) (g0 : ℕ → ℕ → ℝ) : ℕ → (ℕ → ℕ → ℝ)
  | 0 => g0
  | n + 1 => iftaStepR F M N inp ideal window (iftaThresholdR F.rnd steps n) (iftaLoopR F M N inp ideal window steps g0 n)

/-- `profile_ideal` (`_lib.py:265`) -/
def iftaIdealR (F : IftaArith) (M N : ℕ) (inp : ℕ → ℕ → ℂ) (g0 : ℕ → ℕ → ℝ) : ℕ → ℕ → ℂ :=
  F.ifft M N fun a b => cmulR F.rnd (inp a b) (g0 a b : ℂ)

/-- `grating_ideal` (`_lib.py:260-261`) for amplitudes `A` and pixel arguments `q` -/
def iftaStartR (F : IftaArith) (p theta : ℝ) (neg : Bool) (s : ℝ) (A : ℕ → ℕ → ℝ) (q : ℕ → ℕ → Pix) (a b : ℕ) : ℝ :=
  F.rnd (s * idealPixelR F.toArith p theta neg (A a b) (q a b))

end Lib

namespace DMD

open Lib

/-- The arguments of the pixels of `set_dmd_grating_state` (`slm.py:213-221`) for amplitudes `A` and phases `φin`, `φout`; the
coordinates are those of the Fourier plane grid. -/
def pixelsR (F : Arith) (d : DMD) (A φin φout : ℕ → ℕ → ℝ) (i j : ℕ) : Pix :=
  ⟨.fin (A i j), φin i j, φout i j, (d.slm.indexToCoordR F.rnd i j).1, (d.slm.indexToCoordR F.rnd i j).2⟩

/-- `grating_unbinarized` after `n` of `steps` iterations of method `ifta` of `set_dmd_grating_state` (`slm.py:213-221`,
`_lib.py:260-282`) for input `u` and signal window `W` -/
def iftaHologramR (F : IftaArith) (d : DMD) (A φin φout : ℕ → ℕ → ℝ) (s : ℝ) (u W : ℕ → ℕ → ℂ) (steps n : ℕ) : ℕ → ℕ → ℝ :=
  let g0 := iftaStartR F d.p d.theta d.neg s A (d.pixelsR F.toArith A φin φout)
  iftaLoopR F d.slm.Ny d.slm.Nx u (iftaIdealR F d.slm.Ny d.slm.Nx u g0) (ifftshift2 d.slm.Ny d.slm.Nx W) steps g0 n

/-- The mirrors method `ifta` switches on (`_lib.py:284`) -/
def iftaMirrorsR (F : IftaArith) (d : DMD) (A φin φout : ℕ → ℕ → ℝ) (s : ℝ) (u W : ℕ → ℕ → ℂ) (steps : ℕ) (i j : ℕ) : Bool :=
  decide (0.5 < d.iftaHologramR F A φin φout s u W steps steps i j)

end DMD

end PySLM2
