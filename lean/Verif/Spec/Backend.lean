import Verif.Model.Backend

/-!
# Specification of the backend configuration

Written over the *history* of attribute accesses only: what was assigned, what was read, in which
order.  No reference to the state kept by `_backend.py`.
-/

namespace PySLM2.Backend.Spec

/-- Does this access read a precision? -/
def isRead : Op → Bool
  | .readDtype | .readComplex | .readInt => true
  | _ => false

/-- A precision was read at some point of the history. -/
def locked (hist : List Op) : Bool := hist.any isRead

/-- Single precision, in any spelling. -/
def single (v : DType) : Prop := v = .float32 ∨ ∃ name, v = .alias32 name

/-- Double precision, in any spelling. -/
def double (v : DType) : Prop := v = .float64 ∨ ∃ name, v = .alias64 name

/-- The accepted values. -/
def valid : DType → Bool
  | .other _ => false
  | _ => true

/-- A valid assignment to `BACKEND.dtype`. -/
def acceptedSet : Op → Option DType
  | .setDtype v => if valid v then some v else none
  | _ => none

/-- The precision in force after a history: the last valid assignment made before the first read,
`float32` if there was none. -/
def chosen (hist : List Op) : DType :=
  (((hist.takeWhile fun op => !isRead op).filterMap acceptedSet).getLast?).getD .float32

/-- Complex dtype of the same width. -/
def complexOf : DType → CDType
  | .float32 | .alias32 _ => .complex64
  | _ => .complex128

/-- Integer dtype of the same width. -/
def intOf : DType → IDType
  | .float32 | .alias32 _ => .int32
  | _ => .int64

/-- The value last assigned to `BACKEND.fft_backend`, else the start-up choice (tensorflow on a GPU
machine, numpy otherwise). -/
def chosenFft (gpu : Bool) (hist : List Op) : Int :=
  ((hist.filterMap fun op => match op with | .setFft v => some v | _ => none).getLast?).getD
    (if gpu then 0 else 1)

/-- What access `op` must show after the history `hist`. -/
def observe (gpu : Bool) (hist : List Op) : Op → Out
  | .readDtype => .dtype (chosen hist)
  | .readComplex => .cdtype (complexOf (chosen hist))
  | .readInt => .idtype (intOf (chosen hist))
  | .readFft => .fft (chosenFft gpu hist)
  | .setFft _ => .done
  | .setDtype v =>
    if locked hist then .raised .assertionError
    else if valid v then .done else .raised .valueError

/-- All observations of a history, each computed from the accesses before it. -/
def observations (gpu : Bool) (pre : List Op) : List Op → List Out
  | [] => []
  | op :: ops => observe gpu pre op :: observations gpu (pre ++ [op]) ops

end PySLM2.Backend.Spec
