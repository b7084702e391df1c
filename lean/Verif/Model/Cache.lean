import Verif.Model.Backend

/-!
# The caches of the grid methods

`SLM._fourier_plane_pixel_grid`, `SLM._fourier_plane_grid`, `SLM._image_plane_grid`
(`slm.py:98-123`), `SLMSimulation._image_plane_padded_grid` and
`SLMSimulation._fourier_plane_padded_grid` (`simulation.py:94-120`) are wrapped in
`functools.lru_cache()`: one cache of at most 128 entries per method, shared by all objects and keyed
by object identity (these classes do not define `__eq__`, and a cache entry keeps its object alive).
The cached object is a pair of immutable tensors computed with the precision at that time; computing
it reads `BACKEND.dtype`, which locks the precision.
-/

namespace PySLM2.Cache

open Backend

variable {V : Type}

/-- The methods wrapped in `lru_cache` (`slm.py:98-124`, `simulation.py:94-119`). -/
inductive Method | pixel | fourier | image | paddedImage | paddedFourier
  deriving DecidableEq, Repr

/-- What the bodies of the methods compute for an object, as functions of the precision (the
attributes of SLM and simulation objects are read-only, `slm.py:49-56`, `simulation.py:56-57`).
* `pixel`: `slm.py:100-102`;
* `convert`: `_convert_pixel_index_to_dmd_coordinate`, applied to the pixel grid at `slm.py:107`;
* `image`: `slm.py:117-123`; `np.fft.fftfreq` may raise, before `BACKEND.dtype` is read;
* `paddedImage`: `simulation.py:96-104`, likewise;
* `paddedFourier`: `simulation.py:113-118`; `tf.range` raises if negative paddings make the size negative, after
  `BACKEND.dtype` has been read as its argument. -/
structure Bodies (V : Type) where
  pixel : ℕ → DType → V
  convert : ℕ → V → V
  image : ℕ → Except PyErr (DType → V)
  paddedImage : ℕ → Except PyErr (DType → V)
  paddedFourier : ℕ → DType → Except PyErr V

/-- A cache: entries `(object, value)`, most recently used first (`functools.lru_cache`)
(`functools.lru_cache` at `slm.py:98`, `slm.py:104`, `slm.py:115`, `simulation.py:94`, `simulation.py:111`).
-/
abbrev Lru (V : Type) := List (ℕ × V)

/-- Program state: the backend and the cache of each method (`_backend.py:58` and the caches at
`slm.py:98-124`, `simulation.py:94-119`). -/
structure State (V : Type) where
  backend : Backend.State
  cache : Method → Lru V

/-- The state after `import pySLM2` (`_backend.py:58`; the caches at `slm.py:98-124`, `simulation.py:94-119`
are empty). -/
def State.init (gpu : Bool) : State V := ⟨Backend.init gpu, fun _ => []⟩

/-- A hit moves the entry to the front (`functools.lru_cache` at `slm.py:98`, `simulation.py:94`). -/
def touch (c : Lru V) (e : ℕ × V) : Lru V := e :: c.filter (fun e' => e'.1 ≠ e.1)

/-- A miss stores the new entry and drops the least recently used one if the cache holds more than
`cap` entries (`lru_cache(maxsize=128)`) (`functools.lru_cache` at `slm.py:98`, `simulation.py:94`). -/
def store (cap : ℕ) (c : Lru V) (e : ℕ × V) : Lru V := (e :: c).take cap

/-- The `lru_cache` wrapper around a method: on a hit the body is not run; an exception is passed on
and not stored (`functools.lru_cache` at `slm.py:98`, `slm.py:104`, `slm.py:115`, `simulation.py:94`,
`simulation.py:111`). -/
def wrapped (cap : ℕ) (m : Method) (body : State V → ℕ → State V × Except PyErr V)
    (s : State V) (obj : ℕ) : State V × Except PyErr V :=
  match (s.cache m).find? (fun e => e.1 = obj) with
  | some e => ({ s with cache := Function.update s.cache m (touch (s.cache m) e) }, .ok e.2)
  | none =>
    match body s obj with
    | (s', .ok v) => ({ s' with cache := Function.update s'.cache m (store cap (s'.cache m) (obj, v)) }, .ok v)
    | (s', .error e) => (s', .error e)

/-- A body that evaluates `BACKEND.dtype` and computes with it (shape of the bodies at `slm.py:99-124`). -/
def readBody (f : ℕ → DType → Except PyErr V) (s : State V) (obj : ℕ) : State V × Except PyErr V :=
  let r := getDtype s.backend
  ({ s with backend := r.1 }, f obj r.2)

/-- A body that may raise before it evaluates `BACKEND.dtype` (shape of the bodies at `simulation.py:95-119`). -/
def readBody? (f : ℕ → Except PyErr (DType → V)) (s : State V) (obj : ℕ) : State V × Except PyErr V :=
  match f obj with
  | .error e => (s, .error e)
  | .ok g =>
    let r := getDtype s.backend
    ({ s with backend := r.1 }, .ok (g r.2))

/-- `_fourier_plane_pixel_grid` (`slm.py:98-102`) -/
def pixelGrid (cap : ℕ) (B : Bodies V) : State V → ℕ → State V × Except PyErr V :=
  wrapped cap .pixel (readBody fun obj d => .ok (B.pixel obj d))

/-- `_fourier_plane_grid` (`slm.py:104-107`): calls the cached pixel grid. -/
def fourierGrid (cap : ℕ) (B : Bodies V) : State V → ℕ → State V × Except PyErr V :=
  wrapped cap .fourier fun s obj =>
    match pixelGrid cap B s obj with
    | (s', .ok v) => (s', .ok (B.convert obj v))
    | (s', .error e) => (s', .error e)

/-- `_image_plane_grid` (`slm.py:115-123`) -/
def imageGrid (cap : ℕ) (B : Bodies V) : State V → ℕ → State V × Except PyErr V :=
  wrapped cap .image (readBody? B.image)

/-- `_image_plane_padded_grid` (`simulation.py:94-104`) -/
def paddedImageGrid (cap : ℕ) (B : Bodies V) : State V → ℕ → State V × Except PyErr V :=
  wrapped cap .paddedImage (readBody? B.paddedImage)

/-- `_fourier_plane_padded_grid` (`simulation.py:111-118`) -/
def paddedFourierGrid (cap : ℕ) (B : Bodies V) : State V → ℕ → State V × Except PyErr V :=
  wrapped cap .paddedFourier (readBody B.paddedFourier)

/-- Calls: any use of the backend, or a grid query on an object (`_backend.py:20-55`, `slm.py:98-129`,
`simulation.py:94-123`). -/
inductive Op
  | backend (op : Backend.Op)
  | grid (m : Method) (obj : ℕ)

/-- What a caller sees of a call (`_backend.py:20-55`, `slm.py:98-129`, `simulation.py:94-123`). -/
inductive Out (V : Type)
  | backend (o : Backend.Out)
  | grid (v : Except PyErr V)

/-- One call (`_backend.py:20-55`, `slm.py:98-129`, `simulation.py:94-123`). -/
def step (cap : ℕ) (B : Bodies V) (s : State V) : Op → State V × Out V
  | .backend op => let r := Backend.step s.backend op; ({ s with backend := r.1 }, .backend r.2)
  | .grid m obj =>
    let r := match m with
      | .pixel => pixelGrid cap B s obj
      | .fourier => fourierGrid cap B s obj
      | .image => imageGrid cap B s obj
      | .paddedImage => paddedImageGrid cap B s obj
      | .paddedFourier => paddedFourierGrid cap B s obj
    (r.1, .grid r.2)

/-- A history: the final state and everything the caller saw (any sequence of calls of `_backend.py:20-55`,
`slm.py:98-129`, `simulation.py:94-123`). -/
def run (cap : ℕ) (B : Bodies V) (s : State V) : List Op → State V × List (Out V)
  | [] => (s, [])
  | op :: ops =>
    let r := step cap B s op
    let rest := run cap B r.1 ops
    (rest.1, r.2 :: rest.2)

end PySLM2.Cache
