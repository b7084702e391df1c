import Verif.Model.FloatRange
import Verif.Model.NanIfta

/-!
# Vortex beams as targets, computed in a floating point format

`profile_to_tensor` samples a `LaguerreGaussian` at every pixel (`slm.py:131-165`, `profile.py:287-299`); the array that results is
what `calculate_dmd_state` transforms.
-/

noncomputable section

namespace PySLM2.Profile

/-- A computed complex number as an entry of an array of the NaN model.  Simplification: an infinite part counts as NaN, as it makes every value of the
discrete Fourier transform (`slm.py:296`) infinite or NaN. -/
def entryN : XR × XR → Option ℂ
  | (.fin p, .fin q) => some ⟨p, q⟩
  | _ => none

/-- `LaguerreGaussian(x0, y0, a, w, l, p)` sampled on a computed grid (`slm.py:131-165`, `profile.py:287-299`); `cl` are the coefficients of the radial
polynomial, highest power first -/
def vortexN (F : RangeArith) (x0 y0 a w : ℝ) (l : ℤ) (cl : List ℝ) (X Y : ℕ → ℕ → ℝ) (i j : ℕ) : Option ℂ :=
  entryN (lgFuncX F x0 y0 a w l cl (X i j) (Y i j))

/-- The same as the target of an LCOS SLM (`slm.py:505`): the cast to a real dtype (`slm.py:163-164`) keeps the real part -/
def vortexRealN (F : RangeArith) (x0 y0 a w : ℝ) (l : ℤ) (cl : List ℝ) (X Y : ℕ → ℕ → ℝ) (i j : ℕ) : Option ℝ :=
  (vortexN F x0 y0 a w l cl X Y i j).map Complex.re

end PySLM2.Profile
