import Verif.Model.Simulation

/-!
# Shapes of arrays of any rank

The rest of the model is about scalars and matrices.  Here every public method that takes arrays is modelled for arrays of any rank, as far
as the shapes go: which shape the result has, or that the call raises.  Shapes are lists of dimensions with the **last axis first**, so that
broadcasting aligns the heads; the shape `(Ny, Nx)` is `[Nx, Ny]`.
-/

namespace PySLM2.Ranks

/-- Shape of an array, last axis first (arrays of `slm.py:131-165`). -/
abbrev Dims := List ℕ

/-- numpy/tensorflow broadcasting for any ranks (library rule behind the elementwise operators, e.g. `_lib.py:93-210`). -/
def bcast : Dims → Dims → Option Dims
  | [], b => some b
  | a, [] => some a
  | x :: a, y :: b => match bcastDim x y, bcast a b with
    | some z, some c => some (z :: c)
    | _, _ => none

/-- Broadcasting of several shapes (`_lib.py:93-210`). -/
def bcastAll : List Dims → Option Dims
  | [] => some []
  | a :: as => match bcastAll as with
    | some b => bcast a b
    | none => none

/-- The shape `(Ny, Nx)` of the device (`slm.py:98-113`). -/
def grid (s : SLM) : Dims := [s.Nx, s.Ny]

/-- `calculate_dmd_grating` with the grid of the device (`_lib.py:41-89`): the shape of the result, from the shapes of the arguments and, for
method `ifta`, of `input_profile` and `signal_window`.  In the loop of `ifta` (`_lib.py:272-282`) the grating has to keep its shape;
`ifftshift` rejects a window of rank 0 and the FFT an empty axis. -/
def grating (s : SLM) (amp phaseIn phaseOut : Dims) (method : String) (inp window : Option Dims) : Except PyErr Dims :=
  if method = "ideal" ∨ method = "simple" ∨ method = "random" then
    match bcastAll [amp, phaseIn, phaseOut, grid s, grid s] with
    | some g => .ok g
    | none => .error .tensorflow
  else if method = "ifta" then
    match inp, window with
    | some i, some w => match bcastAll [amp, phaseIn, phaseOut, grid s, grid s] with
      | some g =>
        if 0 ∈ g.take 2 ∨ w = [] ∨ bcast i g ≠ some g ∨ bcast w g ≠ some g then .error .tensorflow else .ok g
      | none => .error .tensorflow
    | _, _ => .error .tensorflow
  else .error .valueError

/-- What remains of the shape of `a` in `a[mask]` for a mask of the shape of the device: its first two axes must be those of the mask, otherwise
`IndexError` (`slm.py:268`). -/
def masked (s : SLM) (a : Dims) : Except PyErr Dims :=
  match a.reverse with
  | m :: n :: rest => if m = s.Ny ∧ n = s.Nx then .ok rest.reverse else .error .indexError
  | _ => .error .indexError

/-- `self.dmd_state[mask] = dmd_state[mask]` (`slm.py:268`) for a mask with `k` mirrors: shape of the state afterwards. -/
def assign (s : SLM) (cur new : Dims) (k : ℕ) : Except PyErr Dims :=
  match masked s new with
  | .error e => .error e
  | .ok b => match masked s cur with
    | .error e => .error e
    | .ok a => if bcast (b ++ [k]) (a ++ [k]) = some (a ++ [k]) then .ok cur else .error .valueError

/-- `_calc_amp_phase` (`slm.py:272-322`): shapes of `amp_scaled`, `phase_in`, `phase_out`.  The FFT needs two axes, not empty. -/
def calcAmpPhase (inp target : Dims) (window : Option Dims) : Except PyErr (Dims × Dims × Dims) :=
  if target.length < 2 ∨ 0 ∈ target.take 2 then .error .tensorflow
  else match (match window with | none => some target | some w => bcast target w) with
    | none => .error .tensorflow
    | some fp => match bcast fp inp with
      | none => .error .tensorflow
      | some ratio => .ok (ratio, inp, fp)

/-- `calculate_dmd_state` (`slm.py:354-373`): shape of the new state, from the shapes of the tensors the arguments are converted to. -/
def calculate (s : SLM) (inp target : Dims) (method : String) (window signalWindow : Option Dims) : Except PyErr Dims :=
  match calcAmpPhase inp target window with
  | .error e => .error e
  | .ok (amp, phaseIn, phaseOut) =>
    if method = "ifta" then match signalWindow with
      | none => .error .keyError
      | some w => grating s amp phaseIn phaseOut method (some inp) (some w)
    else grating s amp phaseIn phaseOut method none none

/-- The calls that update `dmd_state` (`slm.py:205-376`), by the shapes of their arguments; `k` is the number of mirrors in the disc. -/
inductive Call
  | off
  | on
  | setGrating (amp phaseIn phaseOut : Dims) (method : String) (inp window : Option Dims)
  | patch (k : ℕ) (amp phaseIn phaseOut : Dims) (method : String) (inp window : Option Dims)
  | calculate (inp target : Dims) (method : String) (window signalWindow : Option Dims)

/-- Shape of `dmd_state` after one call, or the exception that left it alone (`slm.py:205-376`). -/
def call (s : SLM) (cur : Dims) : Call → Except PyErr Dims
  | .off => .ok (grid s)
  | .on => .ok (grid s)
  | .setGrating amp pin pout method inp window => grating s amp pin pout method inp window
  | .patch k amp pin pout method inp window => match grating s amp pin pout method inp window with
    | .error e => .error e
    | .ok g => assign s cur g k
  | .calculate inp target method window sw => calculate s inp target method window sw

/-- Shape of `dmd_state` after a history of calls, exceptions being caught by the caller (`slm.py:205-376`). -/
def run (s : SLM) (cur : Dims) : List Call → Dims
  | [] => cur
  | c :: cs => run s (match call s cur c with | .ok g => g | .error _ => cur) cs

/-- `calculate_lcos_slm_hologram` (`_lib.py:287-404`): shape of the hologram.  In the loops of `gs` and `mraf` the phases have to keep the shape
of the input, also if the number of iterations is 0, because the body is traced in any case. -/
def hologram (inp target : Dims) (method : String) (steps : ℕ) (window : Option Dims) : Except PyErr Dims :=
  let shapes (w : List Dims) : Except PyErr Dims :=
    if [] ∈ target :: w ∨ inp.length < 2 ∨ steps ≠ 0 ∧ 0 ∈ inp.take 2 ∨ ∃ a ∈ target :: w, bcast a inp ≠ some inp then .error .tensorflow
    else .ok inp
  if method = "gs" then shapes []
  else if method = "mraf" then match window with
    | none => .error .tensorflow
    | some w => shapes [w]
  else .error .valueError

/-- `tf.pad` with two pairs of paddings: rank 2 only (`simulation.py:134-140`). -/
def pad (px py : ℕ) : Dims → Except PyErr Dims
  | [n, m] => .ok [n + 2 * px, m + 2 * py]
  | _ => .error .tensorflow

/-- Shapes of the fields of a simulation: `input_field`, `output_field`, `image_plane_field` (`simulation.py:59-61`). -/
structure Fields where
  input : Option Dims
  output : Option Dims
  image : Option Dims

/-- `propagate_to_image` (`simulation.py:125-146`): the fields afterwards and the exception, if any; `state` is the shape of the state of the
SLM. -/
def propagate (px py : ℕ) (f : Fields) (inp state : Dims) : Fields × Except PyErr Unit :=
  match pad px py inp with
  | .error e => (f, .error e)
  | .ok i =>
    let f := { f with input := some i }
    match bcast inp state with
    | none => (f, .error .tensorflow)
    | some o => match pad px py o with
      | .error e => (f, .error e)
      | .ok o =>
        let f := { f with output := some o }
        if 0 ∈ o then (f, .error .tensorflow) else ({ f with image := some o }, .ok ())

end PySLM2.Ranks
