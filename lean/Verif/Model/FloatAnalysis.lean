import Verif.Model.Analysis
import Verif.Model.FloatProfile

/-!
# `analysis.py` with every result rounded

The same computations as in `Model/Analysis.lean`, with each elementary operation followed by a rounding.  The modes are evaluated in
`BACKEND.dtype`, the coordinates in python's `float`, and the phase map in the dtype that numpy chooses for it and the modes.  Overflow and
underflow are not modelled.
-/

noncomputable section

open Finset

namespace PySLM2.Analysis

open Classical Profile

/-- The arithmetic of `analysis.py`: `prof` is that of profiles (`profile.py:407-430`), `grid` rounds to the dtype of the coordinates
(`analysis.py:28, 34, 79, 81`), `np` to that of the phase map (`analysis.py:38-41, 90-96`), `coef n m` are the coefficients that `Zernike.__init__` computes (`profile.py:399-405`), highest power first, `order` is the order in which `np.mean`
(`analysis.py:38, 90`) adds up the pixels of an aperture. -/
structure AnalysisArith where
  prof : ProfArith
  grid : ℝ → ℝ
  np : ℝ → ℝ
  coef : ℤ → ℤ → List ℝ
  order : Finset (ℕ × ℕ) → SumTree

/-- x coordinates (`analysis.py:28, 79`) -/
def gridXR (A : AnalysisArith) (N j : ℕ) : ℝ := A.grid ((j : ℝ) - A.grid (((N : ℝ) - 1) / 2))
/-- y coordinates (`analysis.py:28, 79`) -/
def gridYR (A : AnalysisArith) (M i : ℕ) : ℝ := A.grid (((M : ℝ) - i) - A.grid (((M : ℝ) + 1) / 2))

/-- `aperture` (`analysis.py:34, 81`) -/
def inApertureR (A : AnalysisArith) (M N : ℕ) (radius : ℝ) (i j : ℕ) : Prop :=
  A.grid (A.grid (gridXR A N j ^ 2) + A.grid (gridYR A M i ^ 2)) < A.grid (radius ^ 2)

/-- The pixels of the aperture (`analysis.py:34, 81`). -/
def apertureR (A : AnalysisArith) (M N : ℕ) (radius : ℝ) : Finset (ℕ × ℕ) :=
  (range M ×ˢ range N).filter fun ij => inApertureR A M N radius ij.1 ij.2

/-- `Zernike(1, radius, n, m, extrapolate=...)(xx, yy)` at pixel `(i, j)` (`analysis.py:37, 89`, `profile.py:14-17`): radius and coordinates are
converted to `BACKEND.dtype`. -/
def modeR (A : AnalysisArith) (M N : ℕ) (radius : ℝ) (n m : ℤ) (extrapolate : Bool) (i j : ℕ) : ℝ :=
  match zernikeData n m true with
  | .ok d => zernikeFuncR A.prof 1 (A.prof.rnd radius) n m (A.coef n m) (d.2.map A.prof.py) extrapolate (A.prof.rnd (gridXR A N j))
    (A.prof.rnd (gridYR A M i))
  | .error _ => 0

/-- `np.mean(profile[aperture] * z[aperture])` (`analysis.py:38, 90`), for a non-empty aperture; the number of pixels is an exact integer. -/
def projectR (A : AnalysisArith) (M N : ℕ) (radius : ℝ) (f z : ℕ → ℕ → ℝ) : ℝ :=
  A.np ((A.order (apertureR A M N radius)).eval A.np (fun i j => A.np (f i j * z i j)) / (apertureR A M N radius).card)

/-- One iteration of the loop of `remove_trivial_phase` (`analysis.py:36-41`) -/
def removeModeR (A : AnalysisArith) (M N : ℕ) (radius : ℝ) (nm : ℤ × ℤ) (f : ℕ → ℕ → ℝ) : ℕ → ℕ → ℝ :=
  let z := modeR A M N radius nm.1 nm.2 false
  let c := projectR A M N radius f z
  fun i j => A.np (f i j - A.np (c * z i j))

/-- `remove_trivial_phase` (`analysis.py:5-42`) -/
def removeTrivialPhaseR (A : AnalysisArith) (M N : ℕ) (radius : ℝ) (defocus : Bool) (f : ℕ → ℕ → ℝ) : Option (ℕ → ℕ → ℝ) :=
  if A.prof.rnd radius = 0 ∨ apertureR A M N radius = ∅ then none
  else some ((trivialTerms defocus).foldl (fun f nm => removeModeR A M N radius nm f) f)

/-- The coefficient of term `idx` (`analysis.py:87-90`); the indices are computed exactly (C67). -/
def coefficientR (A : AnalysisArith) (M N : ℕ) (radius : ℝ) (extrapolate : Bool) (f : ℕ → ℕ → ℝ) (idx : ℕ) : ℝ :=
  projectR A M N radius f (modeR A M N radius (ansi idx).1 (ansi idx).2 extrapolate)

/-- The loop of `zernike_decomposition` (`analysis.py:83-96`) -/
def decomposeLoopR (A : AnalysisArith) (M N : ℕ) (radius : ℝ) (extrapolate : Bool) (f : ℕ → ℕ → ℝ) : ℕ → List ℝ × (ℕ → ℕ → ℝ)
  | 0 => ([], fun _ _ => 0)
  | k + 1 =>
    let r := decomposeLoopR A M N radius extrapolate f k
    let c := coefficientR A M N radius extrapolate f k
    (r.1 ++ [c], fun i j => A.np (r.2 i j + A.np (c * modeR A M N radius (ansi k).1 (ansi k).2 extrapolate i j)))

/-- `zernike_decomposition` (`analysis.py:59-102`) -/
def zernikeDecompositionR (A : AnalysisArith) (M N : ℕ) (radius : ℝ) (numTerms : ℕ) (extrapolate : Bool) (f : ℕ → ℕ → ℝ) :
    Option (List ℝ × (ℕ → ℕ → ℝ)) :=
  if numTerms = 0 then some ([], fun _ _ => 0)
  else if A.prof.rnd radius = 0 ∨ apertureR A M N radius = ∅ then none
  else some (decomposeLoopR A M N radius extrapolate f numTerms)

end PySLM2.Analysis
