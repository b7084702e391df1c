import Mathlib.Analysis.SpecialFunctions.Complex.Arg
import Mathlib.Analysis.SpecialFunctions.Trigonometric.Inverse
import Mathlib.Algebra.BigOperators.Intervals

/-!
# Shared vocabulary of the model

Python exceptions as values, tensor shapes with numpy/tensorflow broadcasting, and real numbers
extended with the IEEE special values.  Nothing here is specific to pySLM2; it models the parts of
the python/numpy/tensorflow runtime that `/repo/pySLM2` relies on.
-/

noncomputable section

namespace PySLM2

/-- The exceptions the modelled code can raise. `tensorflow` stands for any error raised by
tensorflow/numpy for ill-shaped or ill-typed operands (`InvalidArgumentError`, `ValueError`, ...).
`outsideModel` marks inputs whose behaviour is deliberately not modelled (raised at `_backend.py:30, 33`,
`_lib.py:88-89`, `simulation.py:45-54`, `slm.py:401-402`, `controller.py:20-28` and by the libraries). -/
inductive PyErr
  | typeError | valueError | keyError | assertionError | notImplementedError
  | zeroDivisionError | indexError | attributeError | exception | tensorflow | outsideModel
  deriving DecidableEq, Repr

/-- Shapes of the tensors used by pySLM2: python/tensorflow scalars (rank 0) and matrices
`(rows, columns)`.  Other ranks are not modelled (used by every array of `slm.py`, `simulation.py`,
`_lib.py:41-404`, e.g. `slm.py:131-165`). -/
inductive Shape
  | scalar
  | mat (rows cols : ℕ)
  deriving DecidableEq, Repr

/-- One dimension of numpy/tensorflow broadcasting: equal, or one of them is 1 (library rule behind the
elementwise operators, e.g. `_lib.py:93-210`). -/
def bcastDim (a b : ℕ) : Option ℕ :=
  if a = b then some a else if a = 1 then some b else if b = 1 then some a else none

/-- numpy/tensorflow broadcasting of two shapes (rank 0 and rank 2 only) (library rule behind the elementwise
operators, e.g. `_lib.py:93-210`). -/
def bcast : Shape → Shape → Option Shape
  | .scalar, s => some s
  | s, .scalar => some s
  | .mat r c, .mat r' c' =>
    match bcastDim r r', bcastDim c c' with
    | some r'', some c'' => some (.mat r'' c'')
    | _, _ => none

/-- A tensor: its shape and its entries.  Only entries inside the shape are meaningful (used by every array
of `slm.py`, `simulation.py`, `_lib.py:41-404`, e.g. `slm.py:131-165`). -/
structure Tensor (α : Type) where
  shape : Shape
  get : ℕ → ℕ → α

namespace Tensor
variable {α β γ : Type}

/-- Entry `(i, j)` of the tensor once broadcast to a larger shape (numpy/tensorflow rule) (library rule
behind the elementwise operators, e.g. `_lib.py:93-210`). -/
def at_ (t : Tensor α) (i j : ℕ) : α :=
  match t.shape with
  | .scalar => t.get 0 0
  | .mat r c => t.get (if r = 1 then 0 else i) (if c = 1 then 0 else j)

/-- A rank-0 tensor (e.g. `slm.py:161-164`). -/
def scalar (a : α) : Tensor α := ⟨.scalar, fun _ _ => a⟩

/-- Elementwise function (elementwise operators, e.g. `_lib.py:93-210`, `slm.py:485`). -/
def map (f : α → β) (t : Tensor α) : Tensor β := ⟨t.shape, fun i j => f (t.get i j)⟩

/-- Elementwise binary operation with broadcasting; incompatible shapes raise (elementwise operators, e.g.
`_lib.py:93-210`, `simulation.py:137`). -/
def map2 (f : α → β → γ) (a : Tensor α) (b : Tensor β) : Except PyErr (Tensor γ) :=
  match bcast a.shape b.shape with
  | some s => .ok ⟨s, fun i j => f (a.at_ i j) (b.at_ i j)⟩
  | none => .error .tensorflow

/-- Two tensors with the same shape and the same entries inside that shape (what a caller sees of the arrays
of `slm.py` and `simulation.py`, e.g. `simulation.py:164-192`). -/
def Same (a b : Tensor α) : Prop :=
  a.shape = b.shape ∧
    match a.shape with
    | .scalar => a.get 0 0 = b.get 0 0
    | .mat r c => ∀ i < r, ∀ j < c, a.get i j = b.get i j

end Tensor

/-- Broadcasting of a list of shapes (`none` if some pair is incompatible) (library rule behind the
elementwise operators, e.g. `_lib.py:93-210`). -/
def bcastAll : List Shape → Option Shape
  | [] => some .scalar
  | s :: ss => match bcastAll ss with
    | some t => bcast s t
    | none => none

/-! ## IEEE special values -/

/-- A float with exact finite values: finite, `+inf`, `-inf`, `nan`.
Simplification: signed zeros, rounding, overflow and underflow are not modelled (the floats of
`_lib.py:117-210` and `slm.py:272-322`, where a division by zero can occur). -/
inductive XR
  | fin (x : ℝ)
  | pinf
  | ninf
  | nan

namespace XR
open Classical

/-- IEEE division of a finite number by a finite number that is `+0` or positive (the only use in
the code divides by a modulus) (`/` at `slm.py:316, 320`). -/
def divFin (a b : ℝ) : XR :=
  if b = 0 then (if a = 0 then nan else if 0 < a then pinf else ninf) else fin (a / b)

/-- IEEE division (divisor zero is `+0`) (`/` at `slm.py:316, 320`). -/
def div : XR → XR → XR
  | fin a, fin b => divFin a b
  | fin _, pinf => fin 0
  | fin _, ninf => fin 0
  | pinf, fin b => if 0 ≤ b then pinf else ninf
  | ninf, fin b => if 0 ≤ b then ninf else pinf
  | _, _ => nan

/-- IEEE multiplication (`*` at `_lib.py:150, 260`). -/
def mul : XR → XR → XR
  | fin a, fin b => fin (a * b)
  | fin a, pinf => if a = 0 then nan else if 0 < a then pinf else ninf
  | fin a, ninf => if a = 0 then nan else if 0 < a then ninf else pinf
  | pinf, fin b => if b = 0 then nan else if 0 < b then pinf else ninf
  | ninf, fin b => if b = 0 then nan else if 0 < b then ninf else pinf
  | pinf, pinf => pinf
  | ninf, ninf => pinf
  | pinf, ninf => ninf
  | ninf, pinf => ninf
  | nan, _ => nan
  | _, nan => nan

/-- IEEE `a > b` with `b` finite: false for `nan` (`>` at `_lib.py:161, 207, 284`). -/
def gtFin (a : XR) (b : ℝ) : Prop :=
  match a with
  | fin x => b < x
  | pinf => True
  | ninf => False
  | nan => False

/-- Maximum as computed by `tf.reduce_max` (`slm.py:319`).  Simplification: `nan` propagates here, which
tensorflow does not promise; no theorem depends on the maximum of an array that holds a `nan`. -/
def max : XR → XR → XR
  | nan, _ => nan
  | _, nan => nan
  | fin a, fin b => fin (Max.max a b)
  | pinf, _ => pinf
  | _, pinf => pinf
  | ninf, x => x
  | x, ninf => x

/-- The finite value, if any (values that reach `_lib.py:223-284`). -/
def toReal? : XR → Option ℝ
  | fin x => some x
  | _ => none

/-- Is the float different from zero (numpy's conversion float -> bool: `nan` counts as true) (`slm.py:268`). -/
def truthy : XR → Prop
  | fin x => x ≠ 0
  | _ => True

end XR

end PySLM2
