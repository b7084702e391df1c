import Verif.Model.VortexTarget

/-!
# Super-Gaussian profiles with the limited range of floating point numbers

As in `Model/FloatRange.lean`.
-/

noncomputable section

namespace PySLM2

open Classical

/-- `** self._p` (`profile.py:333`) of a number that is not negative; `pw` is the library function for finite arguments -/
def RangeArith.rpowX (pw : ℝ → ℝ → XR) (p : ℝ) : XR → XR
  | .fin x => pw x p
  | .nan => if p = 0 then .fin 1 else .nan
  | _ => if p = 0 then .fin 1 else if 0 < p then .pinf else .fin 0

/-- `SuperGaussian._func` (`profile.py:330-333`), for `w ≠ 0` -/
def Profile.sgFuncX (F : RangeArith) (pw : ℝ → ℝ → XR) (x0 y0 a w p x y : ℝ) : XR :=
  let xNorm := F.div (F.rnd (x - x0)) (.fin w)
  let yNorm := F.div (F.rnd (y - y0)) (.fin w)
  F.mul (.fin a) (F.expX (RangeArith.neg (RangeArith.rpowX pw p (F.add (F.mul xNorm xNorm) (F.mul yNorm yNorm)))))

/-- One entry of a real profile as the code that follows sees it (`slm.py:284-289`, conversion to a complex number): NaN or a number.  An infinity is not a number
either; theorems that use this show that there is none. -/
def realEntryN : XR → Option ℂ
  | .fin a => some a
  | _ => none

/-- A `SuperGaussian` evaluated at the computed coordinates `X`, `Y` of the pixels of the image plane (`slm.py:284-289`, `profile.py:330-333`) -/
def superN (F : RangeArith) (pw : ℝ → ℝ → XR) (x0 y0 a w p : ℝ) (X Y : ℕ → ℕ → ℝ) (i j : ℕ) : Option ℂ :=
  realEntryN (Profile.sgFuncX F pw x0 y0 a w p (X i j) (Y i j))

/-- The same as the target of an LCOS SLM (`slm.py:505`), a real array (`slm.py:163-164`) -/
def superRealN (F : RangeArith) (pw : ℝ → ℝ → XR) (x0 y0 a w p : ℝ) (X Y : ℕ → ℕ → ℝ) (i j : ℕ) : Option ℝ :=
  (superN F pw x0 y0 a w p X Y i j).map Complex.re

end PySLM2
