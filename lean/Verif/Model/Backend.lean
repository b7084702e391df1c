import Verif.Model.Basic

/-!
# `/repo/pySLM2/_backend.py`
-/

namespace PySLM2.Backend

/-- What a caller may assign to `BACKEND.dtype` (`_backend.py:8-9`, `_backend.py:32`): `tf.float32`, `tf.float64`; another
spelling of one of them (`"float64"`, `np.float32`, ...), which tensorflow's `DType.__eq__` considers equal to it; or
any other value. -/
inductive DType
  | float32 | float64
  | alias32 (name : String) | alias64 (name : String)
  | other (name : String)
  deriving DecidableEq, Repr

/-- `value == tf.float32` (`_backend.py:32, 40, 46`) -/
def DType.eq32 : DType → Bool
  | .float32 | .alias32 _ => true
  | _ => false

/-- `value == tf.float64` (`_backend.py:32`) -/
def DType.eq64 : DType → Bool
  | .float64 | .alias64 _ => true
  | _ => false

/-- `tf.complex64`, `tf.complex128` (`_backend.py:40`) -/
inductive CDType | complex64 | complex128
  deriving DecidableEq, Repr

/-- `tf.int32`, `tf.int64` (`_backend.py:46`) -/
inductive IDType | int32 | int64
  deriving DecidableEq, Repr

/-- The attributes of the singleton `BACKEND` (`_backend.py:11-18`). -/
structure State where
  dtype : DType
  fftBackend : Int
  initialized : Bool
  deriving DecidableEq, Repr

/-- `_backend.py:5-6` -/
def FFT_BACKEND_TENSORFLOW : Int := 0
/-- `_backend.py:5-6` -/
def FFT_BACKEND_NUMPY : Int := 1

/-- `_BackEnd.__init__` (`_backend.py:11-18`); `gpu` is `bool(tf.config.list_logical_devices("GPU"))`. -/
def init (gpu : Bool) : State :=
  { dtype := .float32
    fftBackend := if gpu then FFT_BACKEND_TENSORFLOW else FFT_BACKEND_NUMPY
    initialized := false }

/-- getter `dtype` (`_backend.py:20-23`) -/
def getDtype (s : State) : State × DType := ({ s with initialized := true }, s.dtype)

/-- setter `dtype` (`_backend.py:25-35`); it stores the value it was given. -/
def setDtype (s : State) (v : DType) : Except PyErr State :=
  if s.initialized then .error .assertionError
  else if v.eq32 || v.eq64 then .ok { s with dtype := v }
  else .error .valueError

/-- getter `dtype_complex` (`_backend.py:37-41`) -/
def getDtypeComplex (s : State) : State × CDType :=
  ({ s with initialized := true }, if s.dtype.eq32 then .complex64 else .complex128)

/-- getter `dtype_int` (`_backend.py:43-47`) -/
def getDtypeInt (s : State) : State × IDType :=
  ({ s with initialized := true }, if s.dtype.eq32 then .int32 else .int64)

/-- getter `fft_backend` (`_backend.py:49-51`); it does not set `_initialized`. -/
def getFftBackend (s : State) : Int := s.fftBackend

/-- setter `fft_backend` (`_backend.py:53-55`). Simplification: only integers that fit the `tf.Variable` (int32); tensorflow rejects
other values. -/
def setFftBackend (s : State) (v : Int) : State := { s with fftBackend := v }

/-- Which library computes the transforms: the test `BACKEND._fft_backend == FFT_BACKEND_NUMPY` at
`_lib.py:23` and `_lib.py:33`. -/
inductive FftLib | numpy | tensorflow
  deriving DecidableEq, Repr

/-- `_lib.py:23-28`, `_lib.py:33-38` -/
def selectFft (s : State) : FftLib :=
  if s.fftBackend = FFT_BACKEND_NUMPY then .numpy else .tensorflow

/-- A program's interaction with `BACKEND` (`_backend.py:20-55`). -/
inductive Op
  | readDtype | readComplex | readInt | readFft
  | setDtype (v : DType)
  | setFft (v : Int)
  deriving DecidableEq, Repr

/-- What the program observes (`_backend.py:20-55`). -/
inductive Out
  | dtype (d : DType) | cdtype (d : CDType) | idtype (d : IDType) | fft (v : Int)
  | done | raised (e : PyErr)
  deriving DecidableEq, Repr

/-- One attribute access on `BACKEND`. A raising setter leaves the state as it was (`_backend.py:20-55`). -/
def step (s : State) : Op → State × Out
  | .readDtype => let r := getDtype s; (r.1, .dtype r.2)
  | .readComplex => let r := getDtypeComplex s; (r.1, .cdtype r.2)
  | .readInt => let r := getDtypeInt s; (r.1, .idtype r.2)
  | .readFft => (s, .fft (getFftBackend s))
  | .setDtype v => match setDtype s v with
    | .ok s' => (s', .done)
    | .error e => (s, .raised e)
  | .setFft v => (setFftBackend s v, .done)

/-- A whole history: final state and the observations in order (any sequence of accesses to `_backend.py:20-55`). -/
def run (s : State) : List Op → State × List Out
  | [] => (s, [])
  | op :: ops =>
    let r := step s op
    let rest := run r.1 ops
    (rest.1, r.2 :: rest.2)

end PySLM2.Backend
