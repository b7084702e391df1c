import Verif.Model.Dmd
import Verif.Model.Float

/-!
# `circular_patch` with every result rounded

Python numbers are rounded when they meet a tensor; overflow and underflow are not modelled.  The pattern inside the disc is that of
`Model/Dmd.lean`.
-/

noncomputable section

namespace PySLM2.DMD

open Classical Lib Profile

/-- `_circular_mask` (`slm.py:225-228`) at pixel `(a, b)`: `rnd` rounds to `BACKEND.dtype`, `py` to the python `float`, in which `(d / 2) ** 2` is
computed; the indices are the entries of `_fourier_plane_pixel_grid` (`slm.py:98-102`). -/
def circularMaskR (rnd py : ℝ → ℝ) (i j dia : ℝ) (a b : ℕ) : Prop :=
  rnd (rnd (rnd (rnd b - rnd j) ^ 2) + rnd (rnd (rnd a - rnd i) ^ 2)) < rnd (py (py (dia / 2) ^ 2))

/-- `circular_patch` (`slm.py:230-268`) with the rounded mask -/
def circularPatchR (rnd py : ℝ → ℝ) (d : DMD) (h : Heap) (cur : StateArr) (i j : ℝ) (amp phaseIn phaseOut : ProfArg)
    (dia : ℝ) (method : String) (kw : Kwargs) (draw : ℕ → ℕ → ℝ) : Outcome Unit :=
  match d.gratingOfArgs h amp phaseIn phaseOut method kw draw with
  | .error e => fail e
  | .ok g =>
    if g.shape = .mat d.slm.Ny d.slm.Nx ∧ cur.shape = .mat d.slm.Ny d.slm.Nx then
      ⟨.inplace (assignMasked (circularMaskR rnd py i j dia) cur g), .ok ()⟩
    else fail .indexError

end PySLM2.DMD
