import Verif.Model.FloatSuper

/-!
# Hermite-Gaussian targets with the limited range of floating point numbers
-/

noncomputable section

namespace PySLM2

/-- A `HermiteGaussian` with the coefficients `cn`, `cm` evaluated at the computed coordinates `X`, `Y` of the pixels of the image plane
(`slm.py:284-289`, `profile.py:226-232`) -/
def hermiteN (F : RangeArith) (x0 y0 a w : ℝ) (cn cm : List ℝ) (X Y : ℕ → ℕ → ℝ) (i j : ℕ) : Option ℂ :=
  realEntryN (Profile.hgFuncX F x0 y0 a w cn cm (X i j) (Y i j))

/-- The same as the target of an LCOS SLM (`slm.py:505`), a real array (`slm.py:163-164`) -/
def hermiteRealN (F : RangeArith) (x0 y0 a w : ℝ) (cn cm : List ℝ) (X Y : ℕ → ℕ → ℝ) (i j : ℕ) : Option ℝ :=
  (hermiteN F x0 y0 a w cn cm X Y i j).map Complex.re

end PySLM2
