import Verif.Model.Cache

/-!
# Several threads

The only state that objects of the library share is `BACKEND` (`_backend.py:58`) and the caches of the grid
methods (`slm.py:98-123`, `simulation.py:94-118`).  Here several threads use them at the same time.  A thread
is switched only between two accesses to shared attributes: the setter of `BACKEND.dtype` tests
`_initialized` and later writes `_dtype`; the getters write `_initialized` and later read `_dtype`; a cached
method looks its object up and, on a miss, later stores what its body returned.  All else a thread does
(with objects no other thread uses) is a function of the answers it got, the `Prog` below.
-/

namespace PySLM2.Threads

open Backend Cache

variable {V A : Type}

/-- The body of a cached grid method that calls no other one: a sequence of reads of `BACKEND.dtype`, each
followed by a computation that may raise (`slm.py:100-102`, `slm.py:117-123`, `simulation.py:96-104`,
`simulation.py:113-118`; each has two reads). -/
inductive Body (V : Type)
  | ret (r : Except PyErr V)
  | read (k : DType → Body V)

/-- The bodies of the grid methods for every object; the entry for `fourier` is not used, as
`_fourier_plane_grid` calls `_fourier_plane_pixel_grid` and converts the result (`slm.py:105-107`). -/
structure Code (V : Type) where
  body : Method → ℕ → Body V
  convert : ℕ → V → V

/-- What a thread does: it ends with a result, or uses the shared state once and goes on depending on the answer
(any code using `_backend.py:20-55`, `slm.py:98-129`, `simulation.py:94-123`). -/
inductive Prog (V A : Type)
  | done (a : A)
  | call (op : Cache.Op) (k : Cache.Out V → Prog V A)

/-- Where in its current call a thread is.
* `idle`: between calls, the next step begins the next call of the program (or it has ended);
* `assign v`: in the setter of `BACKEND.dtype`, past both tests, before `_backend.py:35`;
* `fetch op`: in a getter, after `_initialized = True`, before reading `_dtype` (`_backend.py:22-23`, `39-41`, `45-47`);
* `query m obj`: before the look-up of an inner cached call (`slm.py:106`);
* `body m obj b`: in the body of a cached method;
* `flagged m obj k`: in the getter of `BACKEND.dtype` called from that body, before `_backend.py:23`. -/
inductive Pc (V : Type)
  | idle
  | assign (v : DType)
  | fetch (op : Backend.Op)
  | query (m : Method) (obj : ℕ)
  | body (m : Method) (obj : ℕ) (b : Body V)
  | flagged (m : Method) (obj : ℕ) (k : DType → Body V)

/-- A thread: the rest of its program, the point reached in the current call, and whether that is a call from
the body of `_fourier_plane_grid` for some object (`slm.py:105-107`). -/
structure Thread (V A : Type) where
  prog : Prog V A
  pc : Pc V
  outer : Option ℕ

/-- The whole process: shared state (`_backend.py:58`, the caches at `slm.py:98-123`, `simulation.py:94-118`) and
the threads. -/
structure World (V A : Type) where
  shared : Cache.State V
  threads : ℕ → Thread V A

/-- The current call answers `o` and the program goes on (`_backend.py:20-55`). -/
def answer (t : Thread V A) (o : Cache.Out V) : Thread V A :=
  match t.prog with
  | .done a => ⟨.done a, .idle, none⟩
  | .call _ k => ⟨k o, .idle, none⟩

/-- A cached method returns: to `_fourier_plane_grid`, which converts the pixel grid (`slm.py:106-107`), or to the
program. -/
def returns (C : Code V) (t : Thread V A) (r : Except PyErr V) : Thread V A :=
  match t.outer with
  | none => answer t (.grid r)
  | some obj => { t with pc := .body .fourier obj (.ret (r.map (C.convert obj))), outer := none }

/-- The look-up in the `lru_cache` wrapper: a hit is returned and becomes the most recently used entry, on a miss
the body starts (`slm.py:98`, `slm.py:104`, `slm.py:115`, `simulation.py:94`, `simulation.py:111`). -/
def lookup (C : Code V) (s : Cache.State V) (t : Thread V A) (m : Method) (obj : ℕ) : Cache.State V × Thread V A :=
  match (s.cache m).find? (fun e => e.1 = obj) with
  | some e => ({ s with cache := Function.update s.cache m (touch (s.cache m) e) }, returns C t (.ok e.2))
  | none =>
    if m = .fourier then (s, { t with pc := .query .pixel obj, outer := some obj })
    else (s, { t with pc := .body m obj (C.body m obj) })

/-- The end of the `lru_cache` wrapper after a miss: an exception is passed on; a value is stored unless another
thread has stored one for this object meanwhile, and returned (the lines of `lookup`). -/
def finish (C : Code V) (cap : ℕ) (s : Cache.State V) (t : Thread V A) (m : Method) (obj : ℕ) (r : Except PyErr V) :
    Cache.State V × Thread V A :=
  match r with
  | .error e => (s, returns C t (.error e))
  | .ok v =>
    match (s.cache m).find? (fun e => e.1 = obj) with
    | some _ => (s, returns C t (.ok v))
    | none => ({ s with cache := Function.update s.cache m (store cap (s.cache m) (obj, v)) }, returns C t (.ok v))

/-- The first step of a call.  The setter of `BACKEND.dtype` tests `_initialized` and the value
(`_backend.py:27-33`), the getters set `_initialized` (`_backend.py:22`, `39`, `45`), `fft_backend` is one access
to a variable (`_backend.py:51`, `55`), a cached method looks up its object. -/
def begin (C : Code V) (s : Cache.State V) (t : Thread V A) : Cache.Op → Cache.State V × Thread V A
  | .backend (.setDtype v) =>
    if s.backend.initialized then (s, answer t (.backend (.raised .assertionError)))
    else if v.eq32 || v.eq64 then (s, { t with pc := .assign v })
    else (s, answer t (.backend (.raised .valueError)))
  | .backend .readFft => (s, answer t (.backend (.fft s.backend.fftBackend)))
  | .backend (.setFft v) => ({ s with backend := { s.backend with fftBackend := v } }, answer t (.backend .done))
  | .backend op => ({ s with backend := { s.backend with initialized := true } }, { t with pc := .fetch op })
  | .grid m obj => lookup C s t m obj

/-- One step of a thread: up to its next access to shared state (the lines cited at `Pc`). -/
def step (C : Code V) (cap : ℕ) (s : Cache.State V) (t : Thread V A) : Cache.State V × Thread V A :=
  match t.pc with
  | .idle => match t.prog with
    | .done _ => (s, t)
    | .call op _ => begin C s t op
  | .assign v => ({ s with backend := { s.backend with dtype := v } }, answer t (.backend .done))
  | .fetch op => (s, answer t (.backend (Backend.step s.backend op).2))
  | .query m obj => lookup C s t m obj
  | .body m obj (.ret r) => finish C cap s t m obj r
  | .body m obj (.read k) =>
    ({ s with backend := { s.backend with initialized := true } }, { t with pc := .flagged m obj k })
  | .flagged m obj k => (s, { t with pc := .body m obj (k s.backend.dtype) })

/-- The scheduler lets thread `i` make one step (`step`). -/
def World.step (C : Code V) (cap : ℕ) (w : World V A) (i : ℕ) : World V A :=
  let r := Threads.step C cap w.shared (w.threads i)
  ⟨r.1, Function.update w.threads i r.2⟩

/-- A schedule: which thread makes the next step (any order of the steps `step`). -/
def World.run (C : Code V) (cap : ℕ) (w : World V A) : List ℕ → World V A
  | [] => w
  | i :: sched => World.run C cap (w.step C cap i) sched

/-- After a single-threaded start-up that configures `BACKEND`, the threads are started (`_backend.py:58`; the caches at
`slm.py:98-123`, `simulation.py:94-118` are empty). -/
def World.start (gpu : Bool) (pre : List Backend.Op) (progs : ℕ → Prog V A) : World V A :=
  ⟨⟨(Backend.run (Backend.init gpu) pre).1, fun _ => []⟩, fun i => ⟨progs i, .idle, none⟩⟩

/-- What a thread has returned, if it has ended (the value of its program, see `Prog`; e.g. of `slm.py:110-113`). -/
def World.result (w : World V A) (i : ℕ) : Option A :=
  match (w.threads i).prog with
  | .done a => some a
  | .call _ _ => none

end PySLM2.Threads
