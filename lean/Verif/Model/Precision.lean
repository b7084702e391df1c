import Verif.Model.Backend

/-!
# The dtypes of profiles (`/repo/pySLM2/profile.py`, `/repo/pySLM2/window.py`)

The other profile model (`Model/Profile`) has the values; this one has the dtypes of the variables, constants and results, which
depend on when `BACKEND.dtype` was read.
-/

namespace PySLM2.Precision

open Backend

/-- The dtype of a tensor (`profile.py:15-16`, `profile.py:24-27`). -/
inductive Ty | f32 | f64 | c64 | c128
  deriving DecidableEq, Repr

/-- The dtype of a tensor made with `dtype=BACKEND.dtype` (`profile.py:15`, `profile.py:174`). -/
def realTy (b : State) : Ty := if b.dtype.eq32 then .f32 else .f64

/-- The dtype of a tensor made with `dtype=BACKEND.dtype_complex` (`profile.py:25`, `profile.py:174`). -/
def cplxTy (b : State) : Ty :=
  match (getDtypeComplex b).2 with
  | .complex64 => .c64
  | .complex128 => .c128

/-- `tensor.dtype is BACKEND.dtype` (`profile.py:24`, `profile.py:26`): the identical object, so false whenever another spelling of the
precision was assigned. -/
def isDtype (b : State) (t : Ty) : Bool :=
  match b.dtype with
  | .float32 => t == .f32
  | .float64 => t == .f64
  | _ => false

/-- `tensor.dtype is BACKEND.dtype_complex` (`profile.py:24`, `profile.py:26`) -/
def isDtypeComplex (b : State) (t : Ty) : Bool := t == cplxTy b

/-- A tensorflow operation with two tensors: both must have the same dtype (`profile.py:28`). -/
def same (t u : Ty) : Except PyErr Ty := if t = u then .ok t else .error .tensorflow

/-- A `FunctionProfile`, with the dtypes of its variables and constants (`profile.py:9-458`, `window.py:8-85`). -/
inductive TProf
  /-- `FunctionProfile()` itself (`profile.py:9-12`) -/
  | base
  /-- `HermiteGaussian`, `SuperGaussian` (`profile.py:215-232`, `profile.py:323-337`) -/
  | gauss (v : Ty)
  /-- `LaguerreGaussian` (`profile.py:276-300`) -/
  | laguerre (v : Ty)
  /-- `Zernike` (`profile.py:381-430`) -/
  | zernike (v : Ty) (extrapolate : Bool)
  /-- the windows (`window.py:8-18`, `window.py:53-61`) -/
  | window (v : Ty)
  /-- `ConstantProfile` (`profile.py:172-178`) -/
  | const (v : Ty)
  /-- an operator with a profile as the other operand (`profile.py:20-28`) -/
  | bin (f g : TProf)
  /-- `profile ** number` (`profile.py:29-33`, `profile.py:80-83`) -/
  | powNum (f : TProf) (complex : Bool)
  /-- `rotate`, `shift` (`profile.py:88-136`) -/
  | move (v : Ty) (f : TProf)
  /-- `rescale_x` (`profile.py:138-145`) -/
  | rescaleX (v : Ty) (f : TProf)
  /-- `rescale_y` (`profile.py:147-154`) -/
  | rescaleY (v : Ty) (f : TProf)
  /-- `as_complex_profile` (`profile.py:156-170`) -/
  | asComplex (f : TProf)
  deriving DecidableEq, Repr

/-- The casts of `_make_attribute_func` (`profile.py:24-27`). -/
def castOperands (b : State) (t u : Ty) : Ty × Ty :=
  if isDtypeComplex b t && isDtype b u then (t, cplxTy b)
  else if isDtype b t && isDtypeComplex b u then (cplxTy b, u)
  else (t, u)

/-- The dtype of `_func(x, y)` for coordinates of dtypes `x`, `y` (`profile.py:10-12, 19-36, 88-170, 176-178, 226-232, 287-300, 330-337,
407-430`, `window.py:15-18, 58-60`). -/
def eval (b : State) (x y : Ty) : TProf → Except PyErr Ty
  | .base => .error .notImplementedError
  | .gauss v => do same (← same x v) (← same y v)
  | .laguerre v => do
    let _ ← same (← same x v) (← same y v)
    .ok (cplxTy b)
  | .zernike v extrapolate => do
    let r ← same x y
    let z ← same r v
    if extrapolate then .ok z else same (realTy b) z
  | .window v => do
    let _ ← same x v
    let _ ← same y v
    .ok (realTy b)
  | .const v => .ok v
  | .bin f g => do
    let t ← eval b x y f
    let u ← eval b x y g
    let r := castOperands b t u
    same r.1 r.2
  | .powNum f complex => do
    let t ← eval b x y f
    .ok (if complex then cplxTy b else t)
  | .move v f => do
    let x' ← same x v
    let y' ← same y v
    eval b x' y' f
  | .rescaleX v f => do
    let x' ← same x v
    eval b x' y f
  | .rescaleY v f => do
    let y' ← same y v
    eval b x y' f
  | .asComplex f => do
    let _ ← eval b x y f
    .ok (cplxTy b)

/-- A number: `int`/`float`, or `complex` (`profile.py:29-33`, `profile.py:174`). -/
inductive Num | real | complex
  deriving DecidableEq, Repr

/-- What a program does with profiles: access `BACKEND`, make profiles, compose them and evaluate them. A profile is named by its
place in the list of all profiles made so far (`profile.py:9-458`, `window.py:8-85`). -/
inductive Act
  | backend (op : Op)
  | newBase | newGauss | newLaguerre | newZernike (extrapolate : Bool) | newWindow | newConstant (c : Num)
  | op (i j : ℕ)
  | opNum (i : ℕ) (c : Num)
  | powNum (i : ℕ) (c : Num)
  | move (i : ℕ) | rescaleX (i : ℕ) | rescaleY (i : ℕ) | asComplex (i : ℕ)
  | call (i : ℕ)
  deriving DecidableEq, Repr

/-- The backend and the profiles made so far. -/
structure World where
  backend : State
  profiles : List TProf

/-- Read `BACKEND.dtype` (`_backend.py:20-23`). -/
def World.read (w : World) : World := { w with backend := (getDtype w.backend).1 }

/-- A new profile. -/
def World.push (w : World) (p : TProf) : World := { w with profiles := w.profiles ++ [p] }

/-- `tf.Variable(c, dtype=...)` for a number (`profile.py:174`) -/
def numTy (b : State) : Num → Ty
  | .real => realTy b
  | .complex => cplxTy b

/-- `profile(x, y)` (`profile.py:14-17`) -/
def call (b : State) (p : TProf) : Except PyErr Ty := eval b (realTy b) (realTy b) p

/-- One action. `+`, `-`, `*`, `/` with a number wrap it in a `ConstantProfile` (`profile.py:38-78`), `**` does not (`profile.py:80-83`).
A name without a profile does nothing. -/
def step (w : World) : Act → World
  | .backend o => { w with backend := (Backend.step w.backend o).1 }
  | .newBase => w.push .base
  | .newGauss => w.read.push (.gauss (realTy w.backend))
  | .newLaguerre => w.read.push (.laguerre (realTy w.backend))
  | .newZernike e => w.read.push (.zernike (realTy w.backend) e)
  | .newWindow => w.read.push (.window (realTy w.backend))
  | .newConstant c => w.read.push (.const (numTy w.backend c))
  | .op i j => match w.profiles[i]?, w.profiles[j]? with
    | some f, some g => w.push (.bin f g)
    | _, _ => w
  | .opNum i c => match w.profiles[i]? with
    | some f => w.read.push (.bin f (.const (numTy w.backend c)))
    | none => w
  | .powNum i c => match w.profiles[i]? with
    | some f => w.push (.powNum f (c == .complex))
    | none => w
  | .move i => match w.profiles[i]? with
    | some f => w.read.push (.move (realTy w.backend) f)
    | none => w
  | .rescaleX i => match w.profiles[i]? with
    | some f => w.read.push (.rescaleX (realTy w.backend) f)
    | none => w
  | .rescaleY i => match w.profiles[i]? with
    | some f => w.read.push (.rescaleY (realTy w.backend) f)
    | none => w
  | .asComplex i => match w.profiles[i]? with
    | some f => w.push (.asComplex f)
    | none => w
  | .call i => match w.profiles[i]? with
    | some _ => w.read
    | none => w

/-- A whole program, starting from the import (`_backend.py:11-18`, `_backend.py:58`). -/
def run (w : World) : List Act → World
  | [] => w
  | a :: as => run (step w a) as

/-- After the import of the package. -/
def start (gpu : Bool) : World := ⟨init gpu, []⟩

end PySLM2.Precision
