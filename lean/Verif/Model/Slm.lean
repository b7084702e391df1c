import Verif.Model.Lib
import Verif.Model.Profile

/-!
# `/repo/pySLM2/slm.py`, class `SLM`
-/

noncomputable section

open Complex

namespace PySLM2

open Classical Profile

/-- The read-only attributes of an `SLM` (`slm.py:49-56`). -/
structure SLM where
  wavelength : ℝ
  focal : ℝ
  Nx : ℕ
  Ny : ℕ
  ps : ℝ

namespace SLM

/-- `scaling_factor` (`slm.py:55, 58-60`) -/
def scaling (s : SLM) : ℝ := s.wavelength * s.focal

/-- `_convert_pixel_index_to_dmd_coordinate` (`slm.py:83-87`): returns `(x, y)`. -/
def indexToCoord (s : SLM) (i j : ℝ) : ℝ × ℝ :=
  let i := s.Ny - i
  let j := j - (s.Nx : ℝ) / 2
  let i := i - (s.Ny : ℝ) / 2
  (j * s.ps, i * s.ps)

/-- `_convert_slm_coordinate_to_pixel_index` (`slm.py:90-96`): returns `(i, j)`, for `ps ≠ 0`. -/
def coordToIndex (s : SLM) (x y : ℝ) : ℝ × ℝ :=
  let x := x / s.ps
  let y := y / s.ps
  let i := y + (s.Ny : ℝ) / 2
  let j := x + (s.Nx : ℝ) / 2
  let i := s.Ny - i
  (i, j)

/-- x coordinates of `_fourier_plane_grid` (`slm.py:99-107`): entry `(i, j)` of the `ij` meshgrid is the
pixel index `(i, j)`. -/
def fourierX (s : SLM) (i j : ℕ) : ℝ := (s.indexToCoord i j).1
/-- y coordinates of `_fourier_plane_grid` (`slm.py:99-107`) -/
def fourierY (s : SLM) (i j : ℕ) : ℝ := (s.indexToCoord i j).2

/-- `fourier_plane_grid` (`slm.py:109-113`) -/
def fourierGrid (s : SLM) : Tensor ℝ × Tensor ℝ :=
  (⟨.mat s.Ny s.Nx, s.fourierX⟩, ⟨.mat s.Ny s.Nx, s.fourierY⟩)

end SLM

/-- `np.fft.fftfreq(n, d)` at index `i`, for `n * d ≠ 0`: `[0, 1, ..., (n-1)//2, -(n//2), ..., -1] / (n*d)`
(used at `slm.py:117-118`, `simulation.py:96-99`). -/
def fftfreq (n : ℕ) (d : ℝ) (i : ℕ) : ℝ :=
  if i < (n + 1) / 2 then (i : ℝ) / (n * d) else ((i : ℝ) - n) / (n * d)

/-- x coordinates of the image plane grid for a Fourier plane of `n` columns (`slm.py:116-123`,
`simulation.py:95-104`); `meshgrid` with its default `xy` indexing: depends on the column. -/
def imageX (n : ℕ) (ps scaling : ℝ) (_i j : ℕ) : ℝ := fftfreq n ps (Lib.fftshiftIdx n j) * scaling
/-- y coordinates of the image plane grid for a Fourier plane of `n` rows (`slm.py:116-124`). -/
def imageY (n : ℕ) (ps scaling : ℝ) (i _j : ℕ) : ℝ := -fftfreq n ps (Lib.fftshiftIdx n i) * scaling

/-- The image plane grid of an `Ny x Nx` Fourier plane; `np.fft.fftfreq` divides by `n * d` in python
arithmetic. (`slm.py:116-129`, `simulation.py:95-109`) -/
def imageGridOf (Nx Ny : ℕ) (ps scaling : ℝ) : Except PyErr (Tensor ℝ × Tensor ℝ) :=
  if (Nx : ℝ) * ps = 0 ∨ (Ny : ℝ) * ps = 0 then .error .zeroDivisionError
  else .ok (⟨.mat Ny Nx, imageX Nx ps scaling⟩, ⟨.mat Ny Nx, imageY Ny ps scaling⟩)

namespace SLM

/-- `image_plane_grid` (`slm.py:116-129`) -/
def imageGrid (s : SLM) : Except PyErr (Tensor ℝ × Tensor ℝ) := imageGridOf s.Nx s.Ny s.ps s.scaling

end SLM

/-- What can be passed where a profile is expected (`slm.py:131`): a profile object, a `tf.Tensor`, a
numpy array, or a python number.  Tensors and arrays carry their dtype kind; real ones have real
entries. -/
inductive ProfArg
  | prof (f : Prof)
  | tensor (k : Kind) (t : Tensor ℂ)
  | ndarray (k : Kind) (t : Tensor ℂ)
  | num (c : PyNum)

/-- `profile._func(*grid)` on a grid of shape `(M, N)` (`slm.py:158`).  Profiles made of constants only
return a rank-0 tensor.  If some sample is not finite the result is outside the model. -/
def sample (h : Heap) (f : Prof) (x y : Tensor ℝ) : Except PyErr (Tensor ℂ) :=
  if rankZero f then
    match eval h f 0 0 with
    | some v => .ok (.scalar v)
    | none => .error .outsideModel
  else match x.shape with
    | .scalar => .error .outsideModel
    | .mat M N =>
      if ∀ i < M, ∀ j < N, (eval h f (x.get i j) (y.get i j)).isSome then
        .ok ⟨.mat M N, fun i j => (eval h f (x.get i j) (y.get i j)).getD 0⟩
      else .error .outsideModel

/-- `tf.cast(tensor, dtype)` (`slm.py:163-164`): complex to real keeps the real part. -/
def castTo (cplx : Bool) (t : Tensor ℂ) : Tensor ℂ :=
  if cplx then t else t.map fun z => ((z.re : ℝ) : ℂ)

/-- `profile_to_tensor` (`slm.py:131-165`).  `tf.constant` of a complex numpy array with a real dtype
keeps the real part (numpy conversion); of a python `complex` it raises `TypeError`. -/
def SLM.profileToTensor (s : SLM) (h : Heap) (a : ProfArg) (atFourier cplx : Bool) :
    Except PyErr (Tensor ℂ) :=
  match a with
  | .prof f =>
    if atFourier then
      match sample h f s.fourierGrid.1 s.fourierGrid.2 with
      | .ok t => .ok (castTo cplx t)
      | .error e => .error e
    else
      match s.imageGrid with
      | .error e => .error e
      | .ok g => match sample h f g.1 g.2 with
        | .ok t => .ok (castTo cplx t)
        | .error e => .error e
  | .tensor _ t => .ok (castTo cplx t)
  | .ndarray _ t => .ok (castTo cplx t)
  | .num (.real r) => .ok (.scalar (r : ℂ))
  | .num (.cplx z) => if cplx then .ok (.scalar z) else .error .typeError

/-- Real-valued use of `profile_to_tensor` (`complex=False`): the entries as reals (`slm.py:131-165`). -/
def SLM.profileToReal (s : SLM) (h : Heap) (a : ProfArg) (atFourier : Bool) :
    Except PyErr (Tensor ℝ) :=
  match s.profileToTensor h a atFourier false with
  | .ok t => .ok (t.map Complex.re)
  | .error e => .error e

/-! ## The device models -/

/-- `DLP9500`, `DLP7000`, `DLP9000`, `PLUTO_2` (`slm.py:425-427, 447-449, 469-471, 528-529`):
`(Nx, Ny, pixel size in units of 1e-6)`. -/
inductive Model | DLP9500 | DLP7000 | DLP9000 | PLUTO_2
  deriving DecidableEq, Repr

/-- The SLM part of the constructors of the device models (`slm.py:425-450`, `slm.py:469-471`, `slm.py:528-529`). -/
def Model.slm (m : Model) (wavelength focal : ℝ) : SLM :=
  match m with
  | .DLP9500 => ⟨wavelength, focal, 1920, 1080, 10.8 * 1e-6⟩
  | .DLP7000 => ⟨wavelength, focal, 1024, 768, 13.68 * 1e-6⟩
  | .DLP9000 => ⟨wavelength, focal, 2560, 1600, 7.56 * 1e-6⟩
  | .PLUTO_2 => ⟨wavelength, focal, 1920, 1080, 8 * 1e-6⟩

end PySLM2
