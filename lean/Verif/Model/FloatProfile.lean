import Verif.Model.Profile
import Verif.Model.FloatSim

/-!
# `profile.py` and `window.py` with every result rounded

The same computations as in `Model/Profile.lean`, with each elementary operation followed by a rounding and with library functions in
place of the exact ones.  The parameters of a profile and the coordinates are taken as they are in `BACKEND.dtype`; so are the
coefficients of the polynomials, which scipy computes in floating point.  Overflow and underflow are not modelled.
-/

noncomputable section

open Complex

namespace PySLM2.Profile

open Classical

/-- The arithmetic of a profile: `rnd` rounds to `BACKEND.dtype` (`_backend.py:20-47`), `py` to the python `float`; the functions are
`tf.exp`, `**`, `tf.sqrt`, `tf.math.atan2`, `tf.cos`, `tf.sin` (`profile.py:226-232, 286-299, 330-337, 407-430`), and `expC` is `tf.exp` of
a complex number. -/
structure ProfArith where
  rnd : ℝ → ℝ
  py : ℝ → ℝ
  exp : ℝ → ℝ
  pow : ℝ → ℝ → ℝ
  sqrt : ℝ → ℝ
  atan2 : ℝ → ℝ → ℝ
  cos : ℝ → ℝ
  sin : ℝ → ℝ
  expC : ℂ → ℂ

/-- `tf.math.polyval(coeffs, x)` (`profile.py:230-231, 292, 416`): Horner's rule. -/
def polyvalR (rnd : ℝ → ℝ) (coeffs : List ℝ) (x : ℝ) : ℝ :=
  match coeffs with
  | [] => 0
  | c :: cs => cs.foldl (fun p c => rnd (c + rnd (p * x))) c

/-- `HermiteGaussian._func` (`profile.py:226-232`) with the coefficients `cn`, `cm`, for `w ≠ 0`; `** 2` is the rounded square. -/
def hgFuncR (F : ProfArith) (x0 y0 a w : ℝ) (cn cm : List ℝ) (x y : ℝ) : ℝ :=
  let xNorm := F.rnd (F.rnd (x - x0) / w)
  let yNorm := F.rnd (F.rnd (y - y0) / w)
  let s := F.rnd (F.py (Real.sqrt 2))
  let hn := polyvalR F.rnd cn (F.rnd (s * xNorm))
  let hm := polyvalR F.rnd cm (F.rnd (s * yNorm))
  F.rnd (F.rnd (F.rnd (a * hn) * hm) * F.exp (-F.rnd (F.rnd (xNorm ^ 2) + F.rnd (yNorm ^ 2))))

/-- `LaguerreGaussian._func` (`profile.py:287-299`) with the coefficients `cl`, for `w ≠ 0`. -/
def lgFuncR (F : ProfArith) (x0 y0 a w : ℝ) (l : ℤ) (cl : List ℝ) (x y : ℝ) : ℂ :=
  let dx := F.rnd (x - x0)
  let dy := F.rnd (y - y0)
  let r2 := F.rnd (F.rnd (dx ^ 2) + F.rnd (dy ^ 2))
  let r := F.sqrt r2
  let phi := F.atan2 dy dx
  let lpl := polyvalR F.rnd cl (F.rnd (F.rnd (2 * r2) / F.rnd (w ^ 2)))
  let s := F.rnd (F.py (Real.sqrt 2))
  let amplitude := F.rnd (F.rnd (F.rnd (a * F.pow (F.rnd (F.rnd (s * r) / w)) l.natAbs) *
    F.exp (F.rnd (-r2 / F.rnd (w ^ 2)))) * lpl)
  let phase := F.expC (-I * F.rnd (l * phi))
  cmulR F.rnd amplitude phase

/-- `SuperGaussian._func` (`profile.py:330-337`), for `w ≠ 0`. -/
def sgFuncR (F : ProfArith) (x0 y0 a w p : ℝ) (x y : ℝ) : ℝ :=
  let xNorm := F.rnd (F.rnd (x - x0) / w)
  let yNorm := F.rnd (F.rnd (y - y0) / w)
  F.rnd (a * F.exp (-F.pow (F.rnd (F.rnd (xNorm ^ 2) + F.rnd (yNorm ^ 2))) p))

/-- `rho` of `Zernike._func` (`profile.py:408-409`), for `radius ≠ 0`. -/
def zernikeRhoR (F : ProfArith) (radius x y : ℝ) : ℝ :=
  F.rnd (F.sqrt (F.rnd (F.rnd (x ^ 2) + F.rnd (y ^ 2))) / radius)

/-- `Zernike._func` (`profile.py:407-430`), for `radius ≠ 0`; `norm` is the python number `_normalization`. -/
def zernikeFuncR (F : ProfArith) (a radius : ℝ) (n m : ℤ) (coef : List ℝ) (norm : Option ℝ) (extrapolate : Bool) (x y : ℝ) : ℝ :=
  let rho := zernikeRhoR F radius x y
  let zUn :=
    if n = 0 ∧ m = 0 then a
    else
      let phi := F.atan2 y x
      let R := polyvalR F.rnd coef rho
      if m = 0 then F.rnd (a * R)
      else if m > 0 then F.rnd (F.rnd (a * R) * F.cos (F.rnd (m * phi)))
      else F.rnd (F.rnd (a * R) * F.sin (F.rnd (-m * phi)))
  let z := match norm with
    | some c => F.rnd (F.rnd c * zUn)
    | none => zUn
  if extrapolate then z else if rho > 1 then 0 else z

/-- `RectangularWindowRectangle._func` (`window.py:15-18`); the product of two numbers 0 or 1 is exact. -/
def rectFuncR (F : ProfArith) (x0 y0 wx wy : ℝ) (x y : ℝ) : ℝ :=
  (if |F.rnd (x - x0)| < F.rnd (wx / 2) then 1 else 0) * (if |F.rnd (y - y0)| < F.rnd (wy / 2) then 1 else 0)

/-- `RectangularWindowCircular._func` (`window.py:58-60`) -/
def circFuncR (F : ProfArith) (x0 y0 r : ℝ) (x y : ℝ) : ℝ :=
  if F.rnd (F.rnd (F.rnd (x - x0) ^ 2) + F.rnd (F.rnd (y - y0) ^ 2)) ≤ F.rnd (r ^ 2) then 1 else 0

end PySLM2.Profile
