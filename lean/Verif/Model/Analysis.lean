import Verif.Model.Profile
import Mathlib.Algebra.Order.Floor.Ring

/-!
# `/repo/pySLM2/analysis.py`

Phase maps are real `M x N` arrays.  A result is `none` where the code returns `nan` (mean over an
empty aperture, zero radius).
-/

noncomputable section

open Finset

namespace PySLM2.Analysis

open Classical Profile

/-- x coordinates (`analysis.py:28, 79`) of column `j` in an array with `N` columns -/
def gridX (N j : ℕ) : ℝ := (j : ℝ) - ((N : ℝ) - 1) / 2
/-- y coordinates (`analysis.py:28, 79`) of row `i` in an array with `M` rows: `np.arange(Ny, 0, -1)` -/
def gridY (M i : ℕ) : ℝ := ((M : ℝ) - i) - ((M : ℝ) + 1) / 2

/-- `aperture` (`analysis.py:34, 81`) -/
def inAperture (M N : ℕ) (radius : ℝ) (i j : ℕ) : Prop :=
  gridX N j ^ 2 + gridY M i ^ 2 < radius ^ 2

/-- The pixels of the aperture (`analysis.py:34, 81`). -/
def aperture (M N : ℕ) (radius : ℝ) : Finset (ℕ × ℕ) :=
  (range M ×ˢ range N).filter fun ij => inAperture M N radius ij.1 ij.2

/-- `Zernike(1, radius, n, m, extrapolate=...)(xx, yy)` at pixel `(i, j)` (`analysis.py:37, 89`), for
`radius ≠ 0` and indices the constructor accepts (all those used are, see C66). -/
def mode (M N : ℕ) (radius : ℝ) (n m : ℤ) (extrapolate : Bool) (i j : ℕ) : ℝ :=
  match zernikeData n m true with
  | .ok d => (zernikeFunc 1 radius n m d.1 d.2 extrapolate (gridX N j) (gridY M i)).getD 0
  | .error _ => 0

/-- `np.mean(profile[aperture] * z[aperture])` (`analysis.py:38, 90`), for a non-empty aperture -/
def project (M N : ℕ) (radius : ℝ) (f z : ℕ → ℕ → ℝ) : ℝ :=
  (∑ ij ∈ aperture M N radius, f ij.1 ij.2 * z ij.1 ij.2) / (aperture M N radius).card

/-- One iteration of the loop of `remove_trivial_phase` (`analysis.py:36-41`) -/
def removeMode (M N : ℕ) (radius : ℝ) (nm : ℤ × ℤ) (f : ℕ → ℕ → ℝ) : ℕ → ℕ → ℝ :=
  let z := mode M N radius nm.1 nm.2 false
  let c := project M N radius f z
  fun i j => f i j - c * z i j

/-- `trivial_terms` (`analysis.py:29-32`) -/
def trivialTerms (defocus : Bool) : List (ℤ × ℤ) :=
  [(0, 0), (1, -1), (1, 1)] ++ if defocus then [(2, 0)] else []

/-- `remove_trivial_phase` (`analysis.py:5-42`) on an `M x N` phase map -/
def removeTrivialPhase (M N : ℕ) (radius : ℝ) (defocus : Bool) (f : ℕ → ℕ → ℝ) :
    Option (ℕ → ℕ → ℝ) :=
  if radius = 0 ∨ aperture M N radius = ∅ then none
  else some ((trivialTerms defocus).foldl (fun f nm => removeMode M N radius nm f) f)

/-- `ansi_j_to_n_m` (`analysis.py:45-56`) with an arbitrary rounding `rnd` after every floating point
operation: the conversion of the integer `9 + 8*idx`, the square root, the addition and the halving;
exact arithmetic is `rnd = id`.  (`9 + 8*idx`, `n` and `m` are python integers.) -/
def ansiWith (rnd : ℝ → ℝ) (idx : ℕ) : ℤ × ℤ :=
  let n := ⌈rnd (rnd (-3 + rnd (Real.sqrt (rnd (9 + 8 * (idx : ℝ))))) / 2)⌉
  (n, 2 * idx - n * (n + 2))

/-- `ansi_j_to_n_m` in exact arithmetic (`analysis.py:45-56`) -/
def ansi (idx : ℕ) : ℤ × ℤ := ansiWith id idx

/-- The coefficient of term `idx` (`analysis.py:88-90`) -/
def coefficient (M N : ℕ) (radius : ℝ) (extrapolate : Bool) (f : ℕ → ℕ → ℝ) (idx : ℕ) : ℝ :=
  project M N radius f (mode M N radius (ansi idx).1 (ansi idx).2 extrapolate)

/-- The loop of `zernike_decomposition` (`analysis.py:83-96`): coefficients in order and the
reconstructed profile. -/
def decomposeLoop (M N : ℕ) (radius : ℝ) (extrapolate : Bool) (f : ℕ → ℕ → ℝ) :
    ℕ → List ℝ × (ℕ → ℕ → ℝ)
  | 0 => ([], fun _ _ => 0)
  | k + 1 =>
    let r := decomposeLoop M N radius extrapolate f k
    let c := coefficient M N radius extrapolate f k
    (r.1 ++ [c],
      fun i j => r.2 i j + c * mode M N radius (ansi k).1 (ansi k).2 extrapolate i j)

/-- `zernike_decomposition` (`analysis.py:59-102`); without `reconstruct` only the first component is
returned. -/
def zernikeDecomposition (M N : ℕ) (radius : ℝ) (numTerms : ℕ) (extrapolate : Bool)
    (f : ℕ → ℕ → ℝ) : Option (List ℝ × (ℕ → ℕ → ℝ)) :=
  if numTerms = 0 then some ([], fun _ _ => 0)
  else if radius = 0 ∨ aperture M N radius = ∅ then none
  else some (decomposeLoop M N radius extrapolate f numTerms)

end PySLM2.Analysis
