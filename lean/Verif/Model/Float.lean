import Verif.Model.Slm

/-!
# The same functions with every result rounded

The definitions in the other files are over the reals.  Here some of them are repeated with each elementary operation
followed by a rounding `rnd` to `BACKEND.dtype`, and with library functions `cosR`, ... in place of the exact ones.
Python numbers are rounded when they meet a tensor.  Overflow and underflow are not modelled.
-/

noncomputable section

namespace PySLM2

open Classical

namespace SLM

/-- `_convert_pixel_index_to_dmd_coordinate` (`slm.py:83-87`) in the arithmetic `rnd`. -/
def indexToCoordR (rnd : ℝ → ℝ) (s : SLM) (i j : ℝ) : ℝ × ℝ :=
  let i := rnd (rnd s.Ny - i)
  let j := rnd (j - rnd ((s.Nx : ℝ) / 2))
  let i := rnd (i - rnd ((s.Ny : ℝ) / 2))
  (rnd (j * rnd s.ps), rnd (i * rnd s.ps))

/-- `_convert_slm_coordinate_to_pixel_index` (`slm.py:90-96`) in the arithmetic `rnd`. -/
def coordToIndexR (rnd : ℝ → ℝ) (s : SLM) (x y : ℝ) : ℝ × ℝ :=
  let x := rnd (x / rnd s.ps)
  let y := rnd (y / rnd s.ps)
  let i := rnd (y + rnd ((s.Ny : ℝ) / 2))
  let j := rnd (x + rnd ((s.Nx : ℝ) / 2))
  let i := rnd (rnd s.Ny - i)
  (i, j)

end SLM

/-- The arithmetic of `BACKEND.dtype`: rounding of the elementary operations, and the library functions
(`_backend.py:20-47`, used in `slm.py:83-96` and `_lib.py:93-210`). -/
structure Arith where
  rnd : ℝ → ℝ
  cos : ℝ → ℝ
  sin : ℝ → ℝ
  acos : ℝ → ℝ
  asin : ℝ → ℝ
  tanh : ℝ → ℝ

namespace Lib

/-- `_grating_phase` (`_lib.py:113`) in the arithmetic `F`. -/
def gratingPhaseR (F : Arith) (x y theta p : ℝ) : ℝ :=
  F.rnd (F.rnd (F.rnd (2 * Real.pi) / p) * F.rnd (F.rnd (F.cos theta * x) + F.rnd (F.sin theta * y)))

/-- `grating_phase - (phase_out - phase_in)` (`_lib.py:145-150`, `_lib.py:195-200`) in the arithmetic `F`. -/
def detuningR (F : Arith) (p theta : ℝ) (neg : Bool) (q : Pix) : ℝ :=
  let ph := signedPhases neg q
  F.rnd (gratingPhaseR F q.x q.y theta p - F.rnd (ph.2 - ph.1))

/-- `_calculate_dmd_grating_ideal` (`_lib.py:145-151`) at one pixel in the arithmetic `F`, for a finite amplitude `a`
(in place of `q.amp`) and `p ≠ 0`. -/
def idealPixelR (F : Arith) (p theta : ℝ) (neg : Bool) (a : ℝ) (q : Pix) : ℝ :=
  F.rnd (a * F.rnd (F.rnd (F.cos (detuningR F p theta neg q) / 2) + 0.5))

/-- `_calculate_dmd_grating_simple` (`_lib.py:159-161`) at one pixel in the arithmetic `F`. -/
def simplePixelR (F : Arith) (p theta : ℝ) (neg : Bool) (a : ℝ) (q : Pix) : Bool :=
  decide (0.5 < idealPixelR F p theta neg a q)

/-- The duty value of `_calculate_dmd_grating_random` (`_lib.py:195-205`) at one pixel in the arithmetic `F`, for an
amplitude `a` in `[-1, 1]` (in place of `q.amp`) and `p ≠ 0`. -/
def randomDutyR (F : Arith) (p theta r : ℝ) (neg : Bool) (a : ℝ) (q : Pix) : ℝ :=
  let pp := F.acos (F.cos (detuningR F p theta neg q))
  let w := F.asin a
  F.rnd (0.5 * F.rnd (F.tanh (F.rnd (r * F.rnd (pp + w))) - F.tanh (F.rnd (r * F.rnd (pp - w)))))

/-- `_calculate_dmd_grating_random` (`_lib.py:206-209`) at one pixel in the arithmetic `F`; `u` is the uniform draw. -/
def randomPixelR (F : Arith) (p theta r : ℝ) (neg : Bool) (u a : ℝ) (q : Pix) : Bool :=
  decide (u < randomDutyR F p theta r neg a q)

end Lib

end PySLM2
