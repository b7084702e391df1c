import Verif.Model.Simulation

/-!
# `simulation.py` with every result rounded

The same computations as in `Model/Simulation.lean`, for arrays of the shape of the device, with each elementary operation followed by a
rounding.  Overflow, underflow, infinities and NaN are not modelled.
-/

noncomputable section

open Complex Finset

namespace PySLM2

open Classical Lib

/-- Order of the additions of `np.sum` (`simulation.py:203`, `simulation.py:214`, `simulation.py:225`): a binary tree over the entries of
the array.  numpy sums in blocks and pairs; every order of additions is such a tree. -/
inductive SumTree
  | leaf (i j : ℕ)
  | node (a b : SumTree)

namespace SumTree

/-- The entries that are added (`simulation.py:203`, `simulation.py:214`, `simulation.py:225`). -/
def leaves : SumTree → Multiset (ℕ × ℕ)
  | .leaf i j => {(i, j)}
  | .node a b => a.leaves + b.leaves

/-- The length of the longest chain of additions (`simulation.py:203`, `simulation.py:214`, `simulation.py:225`). -/
def depth : SumTree → ℕ
  | .leaf _ _ => 0
  | .node a b => max a.depth b.depth + 1

/-- The computed sum (`simulation.py:203`, `simulation.py:214`, `simulation.py:225`). -/
def eval (rnd : ℝ → ℝ) (f : ℕ → ℕ → ℝ) : SumTree → ℝ
  | .leaf i j => f i j
  | .node a b => rnd (a.eval rnd f + b.eval rnd f)

end SumTree

/-- The arithmetic a simulation runs in: `rnd` rounds to `BACKEND.dtype` (`_backend.py:20-47`), `py` to the python `float`, `out` to the dtype
in which numpy multiplies the sum of an array by a python `float` (`simulation.py:203`; it depends on the numpy version), `ifft` is the
inverse FFT of the library (`_lib.py:14-18, 31-38`), `order` the order in which `np.sum` adds up an `M x N` array. -/
structure SimArith where
  rnd : ℝ → ℝ
  py : ℝ → ℝ
  out : ℝ → ℝ
  ifft : ℕ → ℕ → (ℕ → ℕ → ℂ) → ℕ → ℕ → ℂ
  order : ℕ → ℕ → SumTree

/-- Product of two complex tensors (`simulation.py:137`, `simulation.py:146`), element by element: four products, a difference and a sum. -/
def cmulR (rnd : ℝ → ℝ) (a b : ℂ) : ℂ :=
  ⟨rnd (rnd (a.re * b.re) - rnd (a.im * b.im)), rnd (rnd (a.re * b.im) + rnd (a.im * b.re))⟩

namespace Sim

/-- `scaling_factor` (`slm.py:55`), a python product -/
def scalingR (F : SimArith) (s : Sim) : ℝ := F.py (s.dev.slm.wavelength * s.dev.slm.focal)

/-- `fourier_plane_pixel_area` (`simulation.py:69-72`), a python power; the power of two is taken as one rounded product. -/
def fourierPixelAreaR (F : SimArith) (s : Sim) : ℝ := F.py (s.dev.slm.ps * s.dev.slm.ps)

/-- `image_plane_pixel_area` (`simulation.py:74-76`) in python arithmetic; `Nx * Ny` is an exact integer, converted when divided by. -/
def imagePixelAreaR (F : SimArith) (s : Sim) : ℝ :=
  F.py (F.py (F.py (s.scalingR F * s.scalingR F) / F.py (s.Nx * s.Ny : ℕ)) / s.fourierPixelAreaR F)

/-- `self.Nx * self.Ny * self.fourier_plane_pixel_area / self.scaling_factor` (`simulation.py:146`): computed in python and converted to the
dtype of the tensor. -/
def gainR (F : SimArith) (s : Sim) : ℝ :=
  F.rnd (F.py (F.py (F.py (s.Nx * s.Ny : ℕ) * s.fourierPixelAreaR F) / s.scalingR F))

/-- `input_field` (`simulation.py:132-135`) for an input tensor `u`: padding only -/
def inputFieldR (s : Sim) (u : ℕ → ℕ → ℂ) : ℕ → ℕ → ℂ :=
  pad2 s.dev.slm.Ny s.dev.slm.Nx s.py.toNat s.px.toNat u

/-- `output_field` (`simulation.py:137-140`) for input tensor `u` and state tensor `m` -/
def outputFieldR (F : SimArith) (s : Sim) (u m : ℕ → ℕ → ℂ) : ℕ → ℕ → ℂ :=
  pad2 s.dev.slm.Ny s.dev.slm.Nx s.py.toNat s.px.toNat fun i j => cmulR F.rnd (u i j) (m i j)

/-- `image_plane_field` (`simulation.py:142-146`) -/
def imageFieldR (F : SimArith) (s : Sim) (u m : ℕ → ℕ → ℂ) (k l : ℕ) : ℂ :=
  cmulR F.rnd (fftshift2 s.Ny s.Nx (F.ifft s.Ny s.Nx (ifftshift2 s.Ny s.Nx (s.outputFieldR F u m))) k l) (s.gainR F : ℂ)

/-- `_field_to_intensity` (`simulation.py:148-150`) at one pixel -/
def intensityPixelR (rnd : ℝ → ℝ) (z : ℂ) : ℝ := rnd (rnd (z.re * z.re) + rnd (z.im * z.im))

/-- `np.sum(intensity) * area` (`simulation.py:203, 214, 225`) for the field `f` -/
def powerR (F : SimArith) (s : Sim) (f : ℕ → ℕ → ℂ) (area : ℝ) : ℝ :=
  F.out ((F.order s.Ny s.Nx).eval F.rnd (fun i j => intensityPixelR F.rnd (f i j)) * F.out area)

/-- `get_input_power` (`simulation.py:195-203`) -/
def inputPowerR (F : SimArith) (s : Sim) (u : ℕ → ℕ → ℂ) : ℝ := s.powerR F (s.inputFieldR u) (s.fourierPixelAreaR F)

/-- `get_output_power` (`simulation.py:205-214`) -/
def outputPowerR (F : SimArith) (s : Sim) (u m : ℕ → ℕ → ℂ) : ℝ := s.powerR F (s.outputFieldR F u m) (s.fourierPixelAreaR F)

/-- `get_image_plane_power` (`simulation.py:216-225`) -/
def imagePowerR (F : SimArith) (s : Sim) (u m : ℕ → ℕ → ℂ) : ℝ := s.powerR F (s.imageFieldR F u m) (s.imagePixelAreaR F)

/-- `np.fft.fftfreq(n, d)` (`simulation.py:96-99`) at index `i`: the integer times the rounded `1 / (n * d)` -/
def fftfreqR (F : SimArith) (n : ℕ) (d : ℝ) (i : ℕ) : ℝ :=
  let val := F.py (1 / F.py (n * d))
  if i < (n + 1) / 2 then F.py (i * val) else F.py (((i : ℝ) - n) * val)

/-- x coordinates of `_image_plane_padded_grid` (`simulation.py:95-104`) -/
def imageXR (F : SimArith) (s : Sim) (j : ℕ) : ℝ :=
  F.rnd (F.rnd (fftfreqR F s.Nx s.dev.slm.ps (fftshiftIdx s.Nx j)) * F.rnd (s.scalingR F))

/-- y coordinates of `_image_plane_padded_grid` (`simulation.py:95-104`) -/
def imageYR (F : SimArith) (s : Sim) (i : ℕ) : ℝ :=
  F.rnd (F.rnd (-fftfreqR F s.Ny s.dev.slm.ps (fftshiftIdx s.Ny i)) * F.rnd (s.scalingR F))

/-- The right-hand side `r ** 2` of the comparison in `block_zeroth_order` (`simulation.py:261-266`): of a python number, or by default of
the tensor `scaling_factor / p / 2`, `p` being the stored periodicity in metres. -/
def blockRadiusSqR (F : SimArith) (s : Sim) (p : ℝ) (r : Option ℝ) : ℝ :=
  match r with
  | some r => F.rnd (F.py (r * r))
  | none =>
    let q := F.rnd (F.rnd (F.rnd (s.scalingR F) / p) / 2)
    F.rnd (q * q)

/-- `block_zeroth_order` (`simulation.py:264-269`): the pixels set to zero -/
def blockedR (F : SimArith) (s : Sim) (p : ℝ) (r : Option ℝ) (i j : ℕ) : Prop :=
  F.rnd (F.rnd (s.imageXR F j * s.imageXR F j) + F.rnd (s.imageYR F i * s.imageYR F i)) < s.blockRadiusSqR F p r

end Sim

end PySLM2
