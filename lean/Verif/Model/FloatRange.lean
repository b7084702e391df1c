import Verif.Model.FloatProfile
import Verif.Model.FloatCalc

/-!
# Profiles with the limited range of floating point numbers

The same computations as in `Model/FloatProfile.lean`, where results that are too large become infinite and results that are too small become 0.
The parameters and the coordinates are finite numbers of `BACKEND.dtype`; signed zeros are not modelled.
-/

noncomputable section

open Complex

namespace PySLM2

open Classical

/-- The arithmetic of `BACKEND.dtype` (`_backend.py:20-47`) with its range: `rnd` rounds an exact result, `py` is the rounding of the python `float`;
`exp`, `pow`, `sqrt`, `atan2` and `expC` are the library functions (`profile.py:226-232, 287-299`) for finite arguments. -/
structure RangeArith where
  rnd : ℝ → XR
  py : ℝ → ℝ
  exp : ℝ → XR
  pow : ℝ → ℕ → XR
  sqrt : ℝ → ℝ
  atan2 : XR → XR → ℝ
  expC : ℂ → ℂ

namespace RangeArith

variable (F : RangeArith)

/-- `+` of two floats (`profile.py:230-232, 289`) -/
def add : XR → XR → XR
  | .fin a, .fin b => F.rnd (a + b)
  | .nan, _ => .nan
  | _, .nan => .nan
  | .pinf, .ninf => .nan
  | .ninf, .pinf => .nan
  | .pinf, _ => .pinf
  | _, .pinf => .pinf
  | .ninf, _ => .ninf
  | _, .ninf => .ninf

/-- `*` of two floats (`profile.py:230-232, 292-299`) -/
def mul : XR → XR → XR
  | .fin a, .fin b => F.rnd (a * b)
  | a, b => XR.mul a b

/-- `/` of two floats (`profile.py:228-229, 292-295`), the divisor finite and not 0, or `+0` after underflow, or infinite -/
def div : XR → XR → XR
  | .fin a, .fin b => if b = 0 then XR.divFin a b else F.rnd (a / b)
  | a, b => XR.div a b

/-- Unary `-` (`profile.py:232, 295`) -/
def neg : XR → XR
  | .fin a => .fin (-a)
  | .pinf => .ninf
  | .ninf => .pinf
  | .nan => .nan

/-- `tf.exp` (`profile.py:232, 294`) -/
def expX : XR → XR
  | .fin x => F.exp x
  | .pinf => .pinf
  | .ninf => .fin 0
  | .nan => .nan

/-- `** abs(self._l)` (`profile.py:294`) of a number that is not negative -/
def powX (n : ℕ) : XR → XR
  | .fin x => F.pow x n
  | .nan => if n = 0 then .fin 1 else .nan
  | _ => if n = 0 then .fin 1 else .pinf

/-- `tf.sqrt` (`profile.py:290`) of a number that is not negative -/
def sqrtX : XR → XR
  | .fin x => .fin (F.sqrt x)
  | x => x

/-- `tf.math.polyval` (`profile.py:230-231, 292`): Horner's rule -/
def polyvalX (coeffs : List ℝ) (x : XR) : XR :=
  match coeffs with
  | [] => .fin 0
  | c :: cs => cs.foldl (fun p c => F.add (.fin c) (F.mul p x)) (.fin c)

end RangeArith

namespace Profile



/-- `HermiteGaussian._func` (`profile.py:226-232`) with the coefficients `cn`, `cm`, for `w ≠ 0` -/
def hgFuncX (F : RangeArith) (x0 y0 a w : ℝ) (cn cm : List ℝ) (x y : ℝ) : XR :=
  let xNorm := F.div (F.rnd (x - x0)) (.fin w)
  let yNorm := F.div (F.rnd (y - y0)) (.fin w)
  let s := F.rnd (F.py (Real.sqrt 2))
  let hn := F.polyvalX cn (F.mul s xNorm)
  let hm := F.polyvalX cm (F.mul s yNorm)
  F.mul (F.mul (F.mul (.fin a) hn) hm) (F.expX (RangeArith.neg (F.add (F.mul xNorm xNorm) (F.mul yNorm yNorm))))

/-- `amplitude` of `LaguerreGaussian._func` (`profile.py:289-295`) with the coefficients `cl`, for `w ≠ 0` -/
def lgAmplitudeX (F : RangeArith) (x0 y0 a w : ℝ) (l : ℤ) (cl : List ℝ) (x y : ℝ) : XR :=
  let dx := F.rnd (x - x0)
  let dy := F.rnd (y - y0)
  let r2 := F.add (F.mul dx dx) (F.mul dy dy)
  let r := F.sqrtX r2
  let w2 := F.rnd (w ^ 2)
  let lpl := F.polyvalX cl (F.div (F.mul (.fin 2) r2) w2)
  let s := F.rnd (F.py (Real.sqrt 2))
  F.mul (F.mul (F.mul (.fin a) (F.powX l.natAbs (F.div (F.mul s r) (.fin w)))) (F.expX (F.div (RangeArith.neg r2) w2))) lpl

/-- `LaguerreGaussian._func` (`profile.py:287-299`), real and imaginary part: the amplitude, converted to a complex number, times the phase factor -/
def lgFuncX (F : RangeArith) (x0 y0 a w : ℝ) (l : ℤ) (cl : List ℝ) (x y : ℝ) : XR × XR :=
  let amplitude := lgAmplitudeX F x0 y0 a w l cl x y
  let phase := F.expC (-I * (l * F.atan2 (F.rnd (y - y0)) (F.rnd (x - x0))))
  (F.add (F.mul amplitude (.fin phase.re)) (RangeArith.neg (F.mul (.fin 0) (.fin phase.im))),
    F.add (F.mul amplitude (.fin phase.im)) (F.mul (.fin 0) (.fin phase.re)))

end Profile

end PySLM2
