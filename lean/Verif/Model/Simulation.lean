import Verif.Model.Dmd
import Verif.Model.Lcos

/-!
# `/repo/pySLM2/simulation.py`
-/

noncomputable section

open Complex Finset

namespace PySLM2

open Classical Profile Lib

/-- The SLM object a simulation refers to, with its current state (`simulation.py:44-61`). -/
inductive Device
  | base (s : SLM)
  | dmd (d : DMD) (state : StateArr)
  | lcos (l : LCOS)

namespace Device

/-- The `SLM` attributes of the object (`simulation.py:44-61`). -/
def slm : Device → SLM
  | .base s => s
  | .dmd d _ => d.slm
  | .lcos l => l.slm

/-- `_state_tensor()` (`slm.py:167-168, 390-391, 484-485`) -/
def stateTensor : Device → Except PyErr (Tensor ℂ)
  | .base _ => .error .notImplementedError
  | .dmd _ st => DMD.stateTensor st
  | .lcos l => .ok (LCOS.stateTensor l.state)

end Device

/-- An `SLMSimulation` / `DMDSimulation` object (`simulation.py:44-61`). -/
structure Sim where
  dev : Device
  px : ℤ
  py : ℤ
  inputField : Option (Tensor ℂ)
  outputField : Option (Tensor ℂ)
  imageField : Option (Tensor ℂ)

namespace Sim

/-- Constructor arguments: a python `int` (`bool` is an `int` too) or something else (`simulation.py:44-61`). -/
inductive PadArg | int (z : ℤ) | other
/-- Constructor arguments: an SLM object or something else (`simulation.py:44-61`, `simulation.py:243-249`). -/
inductive DevArg | dev (d : Device) | other

/-- `SLMSimulation.__init__` (`simulation.py:44-61`) -/
def newSLM (slm : DevArg) (px py : PadArg) : Except PyErr Sim :=
  match px with
  | .other => .error .typeError
  | .int px => match py with
    | .other => .error .typeError
    | .int py => match slm with
      | .other => .error .typeError
      | .dev d => .ok ⟨d, px, py, none, none, none⟩

/-- `DMDSimulation.__init__` (`simulation.py:243-248`) -/
def newDMD (slm : DevArg) (px py : PadArg) : Except PyErr Sim :=
  match slm with
  | .dev (.dmd _ _) => newSLM slm px py
  | _ => .error .typeError

/-- `clear` (`simulation.py:63-67`) -/
def clear (s : Sim) : Sim := { s with inputField := none, outputField := none, imageField := none }

/-- `Nx` (`simulation.py:86-88`); the constructor accepts negative paddings. -/
def NxInt (s : Sim) : ℤ := s.dev.slm.Nx + 2 * s.px
/-- `Ny` (`simulation.py:90-92`) -/
def NyInt (s : Sim) : ℤ := s.dev.slm.Ny + 2 * s.py

/-- `Nx` as the number of columns of an array (`simulation.py:86-88`), where it is not negative -/
def Nx (s : Sim) : ℕ := s.NxInt.toNat
/-- `Ny` as the number of rows of an array (`simulation.py:90-92`), where it is not negative -/
def Ny (s : Sim) : ℕ := s.NyInt.toNat

/-- `fourier_plane_pixel_area` (`simulation.py:69-72`) -/
def fourierPixelArea (s : Sim) : ℝ := s.dev.slm.ps ^ 2

/-- `image_plane_pixel_area` (`simulation.py:74-76`) -/
def imagePixelArea (s : Sim) : Except PyErr ℝ :=
  if s.NxInt * s.NyInt = 0 ∨ s.dev.slm.ps ^ 2 = 0 then .error .zeroDivisionError
  else .ok (s.dev.slm.scaling ^ 2 / (s.NxInt * s.NyInt : ℤ) / s.dev.slm.ps ^ 2)

/-- `image_plane_padded_grid` (`simulation.py:95-109`); `np.fft.fftfreq` first divides by `n * d`, then rejects a negative
`n`, and is called for the columns first. -/
def imagePaddedGrid (s : Sim) : Except PyErr (Tensor ℝ × Tensor ℝ) :=
  if s.dev.slm.ps ≠ 0 ∧ (s.NxInt < 0 ∨ s.NxInt ≠ 0 ∧ s.NyInt < 0) then .error .valueError
  else imageGridOf s.Nx s.Ny s.dev.slm.ps s.dev.slm.scaling

/-- x coordinates of `fourier_plane_padded_grid` (`simulation.py:111-123`): the pixel ranges start at
`-padding`. -/
def fourierPaddedX (s : Sim) (i j : ℕ) : ℝ :=
  (s.dev.slm.indexToCoord ((i : ℝ) - s.py) ((j : ℝ) - s.px)).1
/-- y coordinates of `fourier_plane_padded_grid` (`simulation.py:111-123`) -/
def fourierPaddedY (s : Sim) (i j : ℕ) : ℝ :=
  (s.dev.slm.indexToCoord ((i : ℝ) - s.py) ((j : ℝ) - s.px)).2

/-- `fourier_plane_padded_grid` (`simulation.py:111-123`); `tf.range` rejects a negative size. -/
def fourierPaddedGrid (s : Sim) : Except PyErr (Tensor ℝ × Tensor ℝ) :=
  if s.NxInt < 0 ∨ s.NyInt < 0 then .error .tensorflow
  else .ok (⟨.mat s.Ny s.Nx, s.fourierPaddedX⟩, ⟨.mat s.Ny s.Nx, s.fourierPaddedY⟩)

/-- `tf.pad(t, [[py, py], [px, px]])` of an `M x N` array: zeros around (`simulation.py:134-141`). -/
def pad2 (M N py px : ℕ) (f : ℕ → ℕ → ℂ) (i j : ℕ) : ℂ :=
  if py ≤ i ∧ i < py + M ∧ px ≤ j ∧ j < px + N then f (i - py) (j - px) else 0

/-- `tf.pad` (`simulation.py:134-135, 139-140`): fails for rank 0 and for negative paddings. -/
def pad (t : Tensor ℂ) (py px : ℤ) : Except PyErr (Tensor ℂ) :=
  match t.shape with
  | .scalar => .error .tensorflow
  | .mat M N =>
    if py < 0 ∨ px < 0 then .error .tensorflow
    else .ok ⟨.mat (M + 2 * py.toNat) (N + 2 * px.toNat), pad2 M N py.toNat px.toNat t.get⟩

/-- `fftshift(ifft2(ifftshift(field)))` (`simulation.py:142-143`) on an `M x N` array -/
def centredIdft (M N : ℕ) (f : ℕ → ℕ → ℂ) : ℕ → ℕ → ℂ :=
  fftshift2 M N (idft2 M N (ifftshift2 M N f))

/-- `simulation.py:142-146`: the image plane field for a given output field. -/
def imageOf (s : Sim) (out : Tensor ℂ) : Except PyErr (Tensor ℂ) :=
  match out.shape with
  | .scalar => .error .tensorflow
  | .mat M N =>
    if M = 0 ∨ N = 0 then .error .tensorflow
    else if s.dev.slm.scaling = 0 then .error .zeroDivisionError
    else .ok ⟨.mat M N, fun i j => centredIdft M N out.get i j *
      (((s.Nx * s.Ny : ℕ) * s.fourierPixelArea / s.dev.slm.scaling : ℝ) : ℂ)⟩

/-- `propagate_to_image` (`simulation.py:125-146`): the object afterwards (attributes are assigned one
after the other) and the exception, if any. -/
def propagate (s : Sim) (h : Heap) (input : ProfArg) : Sim × Except PyErr Unit :=
  match s.dev.slm.profileToTensor h input true true with
  | .error e => (s, .error e)
  | .ok inp => match pad inp s.py s.px with
    | .error e => (s, .error e)
    | .ok padded =>
      let s := { s with inputField := some padded }
      match s.dev.stateTensor with
      | .error e => (s, .error e)
      | .ok st => match Tensor.map2 (fun a b => a * b) inp st with
        | .error e => (s, .error e)
        | .ok out => match pad out s.py s.px with
          | .error e => (s, .error e)
          | .ok outPadded =>
            let s := { s with outputField := some outPadded }
            match s.imageOf outPadded with
            | .error e => (s, .error e)
            | .ok img => ({ s with imageField := some img }, .ok ())

/-- `_field_to_intensity` (`simulation.py:148-150`) at one pixel -/
def intensityPixel (z : ℂ) : ℝ := z.re ^ 2 + z.im ^ 2

/-- `input_intensity`, `output_intensity`, `image_plane_intensity` (`simulation.py:152-193`) -/
def intensity (f : Option (Tensor ℂ)) : Option (Tensor ℝ) := f.map fun t => t.map intensityPixel

/-- `np.sum` of an array (`simulation.py:203`, `simulation.py:214`, `simulation.py:225`) -/
def sumTensor (t : Tensor ℝ) : ℝ :=
  match t.shape with
  | .scalar => t.get 0 0
  | .mat M N => ∑ i ∈ range M, ∑ j ∈ range N, t.get i j

/-- `get_input_power` (`simulation.py:195-203`); `np.sum(None) * float` is a `TypeError`. -/
def inputPower (s : Sim) : Except PyErr ℝ :=
  match intensity s.inputField with
  | none => .error .typeError
  | some t => .ok (sumTensor t * s.fourierPixelArea)

/-- `get_output_power` (`simulation.py:205-214`) -/
def outputPower (s : Sim) : Except PyErr ℝ :=
  match intensity s.outputField with
  | none => .error .typeError
  | some t => .ok (sumTensor t * s.fourierPixelArea)

/-- `get_image_plane_power` (`simulation.py:216-225`); the pixel area is computed before the
multiplication. -/
def imagePower (s : Sim) : Except PyErr ℝ :=
  match s.imagePixelArea with
  | .error e => .error e
  | .ok area => match intensity s.imageField with
    | none => .error .typeError
    | some t => .ok (sumTensor t * area)

/-- Square of the default blocking radius `scaling_factor / p / 2` (`simulation.py:261-262, 266`), a
tensorflow division: `inf` or `nan` for `p = 0`. -/
def defaultR2 (scaling p : ℝ) : XR :=
  if p = 0 then (if scaling = 0 then .nan else .pinf) else .fin ((scaling / p / 2) ^ 2)

/-- `r2 < r ** 2` (`simulation.py:265-266`) at a pixel -/
def blocked (x y : ℝ) (rSq : XR) : Prop := rSq.gtFin (x ^ 2 + y ^ 2)

/-- `block_zeroth_order` (`simulation.py:255-269`), a method of `DMDSimulation` only. -/
def blockZerothOrder (s : Sim) (r : Option ℝ) : Sim × Except PyErr Unit :=
  match s.dev with
  | .dmd d _ =>
    match s.outputField with
    | none => (s, .error .typeError)
    | some _ =>
      let rSq : XR := match r with
        | some r => .fin (r ^ 2)
        | none => defaultR2 s.dev.slm.scaling d.p
      match s.imagePaddedGrid with
      | .error e => (s, .error e)
      | .ok g => match s.imageField with
        | none => (s, .error .tensorflow)
        | some img =>
          match bcast (.mat s.Ny s.Nx) img.shape with
          | none => (s, .error .tensorflow)
          | some sh =>
            ({ s with imageField := some ⟨sh, fun i j =>
                if blocked (g.1.at_ i j) (g.2.at_ i j) rSq then 0 else img.at_ i j⟩ }, .ok ())
  | _ => (s, .error .assertionError)

/-- The calls a program makes on a simulation, and updates of the SLM object it refers to
(`simulation.py:63-68`, `simulation.py:125-147`, `simulation.py:255-269`). -/
inductive Op
  | propagate (h : Heap) (input : ProfArg)
  | block (r : Option ℝ)
  | clear
  | setState (st : StateArr)
  | setLcos (st : LcosState)

/-- One call. `setState` / `setLcos` model the user changing the state of the referenced SLM
(`simulation.py:63-68`, `simulation.py:125-147`, `simulation.py:255-269`). -/
def step (s : Sim) : Op → Sim × Except PyErr Unit
  | .propagate h a => s.propagate h a
  | .block r => s.blockZerothOrder r
  | .clear => (s.clear, .ok ())
  | .setState st => match s.dev with
    | .dmd d _ => ({ s with dev := .dmd d st }, .ok ())
    | _ => (s, .error .outsideModel)
  | .setLcos st => match s.dev with
    | .lcos l => ({ s with dev := .lcos { l with state := st } }, .ok ())
    | _ => (s, .error .outsideModel)

/-- A history of calls, exceptions being caught by the caller (any sequence of calls of
`simulation.py:63-68`, `simulation.py:125-147`, `simulation.py:255-269`). -/
def run (s : Sim) : List Op → Sim
  | [] => s
  | op :: ops => run (s.step op).1 ops

end Sim

end PySLM2
