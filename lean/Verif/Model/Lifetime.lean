import Verif.Model.Cache
import Verif.Model.Slm

/-!
# Objects that come and go

The caches of `Model/Cache.lean` are keyed by object identity, which in CPython is the address of the object
(`SLM` and `SLMSimulation` define neither `__eq__` nor `__hash__`, `slm.py:31`, `simulation.py:15`).  An address is
used again once its object has been freed.  Here the program makes devices and simulations, binds them to variables,
rebinds and deletes the variables, and queries grids, while the interpreter frees what nothing refers to and places
new objects at any free address.
-/

noncomputable section

namespace PySLM2.Lifetime

open Classical Backend Cache

variable {V : Type}

/-- An object in memory: a device with its read-only attributes (`slm.py:49-56`), or a simulation with its
paddings and a reference to its device (`simulation.py:51-57`). -/
inductive Obj
  | slm (s : SLM)
  | sim (px py : ℤ) (dev : ℕ)

/-- The objects in memory with their addresses (`slm.py:49-56`, `simulation.py:51-57`). -/
abbrev Mem := List (ℕ × Obj)

/-- The object at an address (attribute access `self.…`, e.g. `slm.py:100`, `simulation.py:96`). -/
def lookup (M : Mem) (a : ℕ) : Option Obj := (M.find? fun c => c.1 = a).map Prod.snd

/-- What the grid methods compute (`slm.py:98-123`, `simulation.py:94-118`), as in `Cache.Bodies`: from the attributes
of the device, and of the simulation with those of its device. -/
structure Grids (V : Type) where
  pixel : SLM → DType → V
  convert : SLM → V → V
  image : SLM → Except PyErr (DType → V)
  paddedImage : SLM → ℤ → ℤ → Except PyErr (DType → V)
  paddedFourier : SLM → ℤ → ℤ → DType → Except PyErr V

/-- The device at an address, if there is one (`self` at `slm.py:98-123`). -/
def slmAt (M : Mem) (a : ℕ) : Option SLM :=
  match lookup M a with
  | some (.slm s) => some s
  | _ => none

/-- The simulation at an address with the attributes of its device (`self` and `self._slm` at
`simulation.py:94-118`). -/
def simAt (M : Mem) (a : ℕ) : Option (SLM × ℤ × ℤ) :=
  match lookup M a with
  | some (.sim px py d) => (slmAt M d).map fun s => (s, px, py)
  | _ => none

/-- The bodies of the methods in the present memory (`slm.py:98-123`, `simulation.py:94-118`).  `default` stands for
calls on an address without a suitable object, which no program makes (see `step`). -/
def bodies [Inhabited V] (G : Grids V) (M : Mem) : Bodies V where
  pixel a d := match slmAt M a with
    | some s => G.pixel s d
    | none => default
  convert a v := match slmAt M a with
    | some s => G.convert s v
    | none => default
  image a := match slmAt M a with
    | some s => G.image s
    | none => .error .outsideModel
  paddedImage a := match simAt M a with
    | some (s, px, py) => G.paddedImage s px py
    | none => .error .outsideModel
  paddedFourier a d := match simAt M a with
    | some (s, px, py) => G.paddedFourier s px py d
    | none => .error .outsideModel

/-- The program: its variables (addresses), memory, and the backend and caches (`_backend.py:58`, the caches at
`slm.py:98-124`, `simulation.py:94-119`).  `clock` counts the statements executed. -/
structure State (V : Type) where
  clock : ℕ
  vars : ℕ → Option ℕ
  mem : Mem
  grids : Cache.State V

/-- The interpreter's choices: where the object made at a given moment goes (a free address), and which of the objects
nothing refers to any more it frees at that moment (CPython; library behaviour behind every `SLM(…)`, `slm.py:49`, and
`SLMSimulation(…)`, `simulation.py:44`). -/
structure Runtime where
  place : ℕ → Mem → ℕ
  place_free : ∀ t M, ∀ c ∈ M, c.1 ≠ place t M
  reclaim : ℕ → ℕ → Bool

/-- The program has a variable for the object (`slm.py:49`, `simulation.py:44` return it). -/
def named (s : State V) (a : ℕ) : Prop := ∃ x, s.vars x = some a

/-- A cache holds the object: the key of an entry of `lru_cache` contains `self` (`slm.py:98`, `slm.py:104`,
`slm.py:115`, `simulation.py:94`, `simulation.py:111`). -/
def cached (s : State V) (a : ℕ) : Prop := ∃ m, ∃ e ∈ s.grids.cache m, e.1 = a

/-- Something refers to the object: a variable, a cache, or a simulation that one of these refers to
(`self._slm`, `simulation.py:52`). -/
def referenced (s : State V) (a : ℕ) : Prop :=
  (named s a ∨ cached s a) ∨ ∃ b px py, (named s b ∨ cached s b) ∧ lookup s.mem b = some (.sim px py a)

/-- The interpreter frees objects: any of those nothing refers to (library behaviour, as in `Runtime`). -/
def collect (R : Runtime) (s : State V) : State V :=
  { s with clock := s.clock + 1, mem := s.mem.filter fun c => referenced s c.1 ∨ R.reclaim s.clock c.1 = false }

/-- Statements of the program (`slm.py:49`, `simulation.py:44`, the grid methods `slm.py:98-129`,
`simulation.py:94-123`, the backend `_backend.py:20-55`). -/
inductive Op
  /-- `x = SLM(…)` -/
  | newSlm (x : ℕ) (s : SLM)
  /-- `x = SLMSimulation(y, px, py)` -/
  | newSim (x y : ℕ) (px py : ℤ)
  /-- `x = y` -/
  | copy (x y : ℕ)
  /-- `del x` -/
  | del (x : ℕ)
  /-- a grid of `x` -/
  | grid (m : Method) (x : ℕ)
  | backend (op : Backend.Op)

/-- What the program sees of a statement: nothing, an exception (`outsideModel` stands for `NameError` and
`AttributeError`), a grid, or the answer of the backend (`slm.py:49`, `simulation.py:44-57`, `slm.py:98-129`,
`simulation.py:94-123`). -/
inductive Out (V : Type)
  | done
  | raised (e : PyErr)
  | grid (v : Except PyErr V)
  | backend (o : Backend.Out)

/-- `x = <new object>` (`slm.py:49`, `simulation.py:44`). -/
def bindNew (R : Runtime) (s : State V) (x : ℕ) (o : Obj) : State V :=
  { s with vars := Function.update s.vars x (some (R.place s.clock s.mem)), mem := (R.place s.clock s.mem, o) :: s.mem }

/-- A grid query on the object at address `a` (`slm.py:98-129`, `simulation.py:94-123`). -/
def gridCall [Inhabited V] (cap : ℕ) (G : Grids V) (s : State V) (m : Method) (a : ℕ) : State V × Out V :=
  let r := Cache.step cap (bodies G s.mem) s.grids (.grid m a)
  ({ s with grids := r.1 }, match r.2 with
    | .grid v => .grid v
    | .backend o => .backend o)

/-- One statement, before the interpreter frees objects (`slm.py:49`, `simulation.py:44-57`, `slm.py:98-129`,
`simulation.py:94-123`, `_backend.py:20-55`). -/
def exec [Inhabited V] (cap : ℕ) (G : Grids V) (R : Runtime) (s : State V) : Op → State V × Out V
  | .newSlm x o => (bindNew R s x (.slm o), .done)
  | .newSim x y px py =>
    match s.vars y with
    | none => (s, .raised .outsideModel)
    | some d =>
      match slmAt s.mem d with
      | some _ => (bindNew R s x (.sim px py d), .done)
      | none => (s, .raised .typeError)
  | .copy x y =>
    match s.vars y with
    | none => (s, .raised .outsideModel)
    | some a => ({ s with vars := Function.update s.vars x (some a) }, .done)
  | .del x =>
    match s.vars x with
    | none => (s, .raised .outsideModel)
    | some _ => ({ s with vars := Function.update s.vars x none }, .done)
  | .grid m x =>
    match s.vars x with
    | none => (s, .raised .outsideModel)
    | some a =>
      match m with
      | .pixel | .fourier | .image =>
        match slmAt s.mem a with
        | some _ => gridCall cap G s m a
        | none => (s, .raised .outsideModel)
      | .paddedImage | .paddedFourier =>
        match simAt s.mem a with
        | some _ => gridCall cap G s m a
        | none => (s, .raised .outsideModel)
  | .backend op =>
    let r := Backend.step s.grids.backend op
    ({ s with grids := { s.grids with backend := r.1 } }, .backend r.2)

/-- One statement followed by the interpreter freeing objects (`slm.py:49`, `simulation.py:44-57`, `slm.py:98-129`,
`simulation.py:94-123`, `_backend.py:20-55`). -/
def step [Inhabited V] (cap : ℕ) (G : Grids V) (R : Runtime) (s : State V) (op : Op) : State V × Out V :=
  let r := exec cap G R s op
  (collect R r.1, r.2)

/-- The start of the program: no objects (`_backend.py:58`, empty caches at `slm.py:98-124`,
`simulation.py:94-119`). -/
def State.init (gpu : Bool) : State V := ⟨0, fun _ => none, [], Cache.State.init gpu⟩

/-- A program: the final state and everything it saw (any sequence of the statements above, `slm.py:49-129`,
`simulation.py:44-123`). -/
def run [Inhabited V] (cap : ℕ) (G : Grids V) (R : Runtime) (s : State V) : List Op → State V × List (Out V)
  | [] => (s, [])
  | op :: ops =>
    let r := step cap G R s op
    let rest := run cap G R r.1 ops
    (rest.1, r.2 :: rest.2)

end PySLM2.Lifetime
