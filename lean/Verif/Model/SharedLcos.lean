import Verif.Model.Lcos

/-!
# Several threads that use one LCOS SLM (`/repo/pySLM2/slm.py`)

The methods of `LCOS_SLM` compute from their arguments and from attributes that do not change, and then assign `slm_state` in one step.  Other threads
run between any two steps, also while a call computes.  Simplification: the arguments of a call (profiles, arrays) are not changed by other threads
meanwhile (for profiles: `Model/SharedProfile`).
-/

noncomputable section

namespace PySLM2.SharedLcos

open LCOS Profile

/-- What a program does with the SLM: the methods, and reading and assigning the public attribute `slm_state` (`slm.py:479-515`). -/
inductive Req
  | reset
  | calculate (h : Heap) (inp target : ProfArg) (method : String) (kw : Kwargs) (u : ℕ → ℕ → ℝ)
  | assign (st : LcosState)
  | read

/-- What it gets back (`slm.py:479-515`). -/
inductive Resp
  | done (r : Except PyErr Unit)
  | value (st : LcosState)

/-- A program of one thread, which may use what it got back (any program that uses `slm.py:479-515`). -/
inductive Prog
  | ended
  | call (c : Req) (k : Resp → Prog)

/-- A thread: between two calls, or inside a call that has still to assign `slm_state` (`slm.py:481-515`). -/
inductive Thread
  | idle (p : Prog)
  | storing (new : LcosState) (p : Prog)

/-- The SLM and the threads (`slm.py:474-515`). -/
structure World where
  lcos : LCOS
  threads : ℕ → Thread

/-- One step of a thread.  Everything up to the assignment of `slm_state` is one step: it does not touch anything that other threads change
(`slm.py:481-515`). -/
def stepThread (l : LCOS) : Thread → LCOS × Thread
  | .idle .ended => (l, .idle .ended)
  | .idle (.call .read k) => (l, .idle (k (.value l.state)))
  | .idle (.call .reset k) => (l, .storing (zeroState l.slm) (k (.done (.ok ()))))
  | .idle (.call (.assign st) k) => (l, .storing st (k (.done (.ok ()))))
  | .idle (.call (.calculate h inp target method kw u) k) =>
    match hologram l.slm h inp target method kw u with
    | .error e => (l, .idle (k (.done (.error e))))
    | .ok t => (l, .storing ⟨.real, t.map Complex.ofReal⟩ (k (.done (.ok ()))))
  | .storing new p => ({ l with state := new }, .idle p)

/-- The scheduler lets thread `i` make a step (any interleaving of the calls of `slm.py:481-515`). -/
def World.step (w : World) (i : ℕ) : World :=
  ⟨(stepThread w.lcos (w.threads i)).1, Function.update w.threads i (stepThread w.lcos (w.threads i)).2⟩

/-- A schedule (any interleaving of the calls of `slm.py:481-515`). -/
def World.run (w : World) (sched : List ℕ) : World := sched.foldl World.step w

/-- The SLM before the threads start (`slm.py:477-479`); thread `i` will run `progs i`. -/
def World.start (l : LCOS) (progs : ℕ → Prog) : World := ⟨l, fun i => .idle (progs i)⟩

end PySLM2.SharedLcos
