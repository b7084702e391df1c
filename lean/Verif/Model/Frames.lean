import Verif.Model.Controller

/-!
# Arrays handed to the controllers

`/repo/pySLM2/util/controller.py` and `/repo/pySLM2/util/sample.py` at the level of numpy arrays; `Model/Controller` works with
the row-major lists of mirrors.
-/

namespace PySLM2.Controller

/-- The elements of a two-dimensional array in row-major order, as the vendor libraries read them (`controller.py:149, 183,
262, 283`). -/
def ravel {α : Type} (t : Tensor α) : List α :=
  match t.shape with
  | .scalar => [t.get 0 0]
  | .mat r c => (List.range r).flatMap fun i => (List.range c).map fun j => t.get i j

/-- Two arrays on top of each other (`controller.py:183`) -/
def stack {α : Type} (a b : Tensor α) : Except PyErr (Tensor α) :=
  match a.shape, b.shape with
  | .mat r c, .mat r' c' =>
    if c = c' then .ok ⟨.mat (r + r') c, fun i j => if i < r then a.get i j else b.get (i - r) j⟩ else .error .valueError
  | _, _ => .error .valueError

/-- `np.concatenate(arrays)` (`controller.py:183`): along the first axis; no arrays, arrays without axes and arrays of different
widths are refused. -/
def concatenate {α : Type} : List (Tensor α) → Except PyErr (Tensor α)
  | [] => .error .valueError
  | [t] => match t.shape with
    | .scalar => .error .valueError
    | .mat _ _ => .ok t
  | t :: ts => match concatenate ts with
    | .ok b => stack t b
    | .error e => .error e

/-- `number_image(i, Nx, Ny)` (`sample.py:10-32`): an image of `Ny` rows and `Nx` columns with the number written in a font of
size `Ny//2` from row `Ny//4` on.  What the font paints is the parameter `glyphs n size row column`, relative to the corner given to
`draw.text` (the imaging library is not modelled); a font of size 0 is refused. -/
def numberImage (glyphs : ℤ → ℕ → ℤ → ℤ → Bool) (n : ℤ) (Nx Ny : ℕ) : Except PyErr (Tensor Bool) :=
  if Ny / 2 = 0 then .error .valueError
  else .ok ⟨.mat Ny Nx, fun i j => glyphs n (Ny / 2) ((i : ℤ) - (Ny / 4 : ℕ)) j⟩

namespace Alp

/-- `load_single(dmd_state)` (`controller.py:130-153`) -/
def loadArray (fault : ℕ → Bool) (c : Ctl) (t : Tensor Bool) : Ctl × Except PyErr Unit :=
  step fault c (.loadSingle (ravel t))

/-- `load_multiple(dmd_states)` (`controller.py:156-188`): the arrays are put together after the first vendor calls. -/
def loadArrays (fault : ℕ → Bool) (c : Ctl) (ts : List (Tensor Bool)) : Ctl × Except PyErr Unit :=
  guarded c <|
    let r := sendAll fault c [.halt, .projSlave, .triggerRising, .seqAlloc ts.length, .seqControl]
    match r.2 with
    | .error e => (r.1, .error e)
    | .ok _ => match concatenate ts with
      | .error e => (r.1, .error e)
      | .ok t => sendAll fault r.1 [.seqPut (toBytes (ravel t)), .seqInquire, .setTiming, .run]

/-- `controller.number_image(i)` (`controller.py:78-80, 118-128`) of a device with `w` columns and `h` rows -/
def numberImageOf (glyphs : ℤ → ℕ → ℤ → ℤ → Bool) (w h : ℕ) (fault : ℕ → Bool) (c : Ctl) (n : ℤ) :
    Ctl × Except PyErr (Tensor Bool) :=
  if c.initialized then
    let r := sendAll fault c [.inquireWidth, .inquireHeight]
    match r.2 with
    | .error e => (r.1, .error e)
    | .ok _ => (r.1, numberImage glyphs n w h)
  else (c, .error .exception)

end Alp

namespace Lux

/-- `load_single(dmd_state)` (`controller.py:247-263`) -/
def loadArray (fault : ℕ → Bool) (delay : ℕ → ℕ) (c : Ctl) (t : Tensor Bool) : Ctl × Except PyErr Unit :=
  step fault delay c (.loadSingle (ravel t))

/-- `load_multiple(dmd_states)` (`controller.py:265-285`) -/
def loadArrays (fault : ℕ → Bool) (delay : ℕ → ℕ) (c : Ctl) (ts : List (Tensor Bool)) : Ctl × Except PyErr Unit :=
  step fault delay c (.loadMultiple (ts.map ravel))

/-- `controller.number_image(i)` (`controller.py:78-80, 288-296`): the size is an attribute of the vendor object -/
def numberImageOf (glyphs : ℤ → ℕ → ℤ → ℤ → Bool) (w h : ℕ) (c : Ctl) (n : ℤ) : Except PyErr (Tensor Bool) :=
  if c.initialized then numberImage glyphs n w h else .error .exception

end Lux

end PySLM2.Controller
