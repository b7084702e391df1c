import Verif.Model.Controller

/-!
# Several threads that use one ALP controller (`/repo/pySLM2/util/controller.py`)

The controller takes no locks: the vendor calls of different threads reach the library in any order, and the library keeps one `_lastDDRseq` for all of
them.  The controller has been initialized (the threads make no calls of `initialize()` and `close()`).
-/

namespace PySLM2.Controller.SharedAlp

open Alp

/-- The calls of the threads (`controller.py:78-80, 118-189`). -/
inductive Call
  | loadSingle (img : Image)
  | loadMultiple (imgs : List Image)
  | queryNx
  | queryNy
  | numberImage

/-- The vendor calls of a call (`controller.py:78-80, 118-189`). `load_multiple([])` raises at `np.concatenate` (`controller.py:183`). -/
def Call.cmds : Call → List Cmd
  | .loadSingle img => loadSingleCmds img
  | .loadMultiple [] => [.halt, .projSlave, .triggerRising, .seqAlloc 0, .seqControl]
  | .loadMultiple (img :: imgs) => loadMultipleCmds (img :: imgs)
  | .queryNx => [.inquireWidth]
  | .queryNy => [.inquireHeight]
  | .numberImage => [.inquireWidth, .inquireHeight]

/-- A thread: the calls still to be begun, and the vendor calls still to be made of the call under way (`controller.py:118-189`). -/
structure Thread where
  todo : List Call
  doing : List Cmd

/-- The device, with the state of the vendor library, and the threads (`controller.py:83-193`). -/
structure World where
  dev : Dev
  threads : ℕ → Thread

/-- What can happen next: thread `i` begins a call or makes its next vendor call, or that vendor call raises (`controller.py:118-189`). -/
inductive Ev
  | runs (i : ℕ)
  | fails (i : ℕ)
  deriving DecidableEq

/-- One event (`controller.py:118-189`).  A call is abandoned at the first vendor call that raises. -/
def World.step (w : World) : Ev → World
  | .runs i => match (w.threads i).doing with
    | c :: cs => ⟨apply w.dev c, Function.update w.threads i ⟨(w.threads i).todo, cs⟩⟩
    | [] => match (w.threads i).todo with
      | [] => w
      | call :: rest => ⟨w.dev, Function.update w.threads i ⟨rest, call.cmds⟩⟩
  | .fails i => match (w.threads i).doing with
    | _ :: _ => ⟨w.dev, Function.update w.threads i ⟨(w.threads i).todo, []⟩⟩
    | [] => w

/-- Any interleaving of the calls (`controller.py:118-189`). -/
def World.run (w : World) (evs : List Ev) : World := evs.foldl World.step w

/-- A controller that has been initialized, before the threads start (`controller.py:106-110`); thread `i` will make the calls `progs i`. -/
def World.start (dev : Dev) (progs : ℕ → List Call) : World := ⟨dev, fun i => ⟨progs i, []⟩⟩

end PySLM2.Controller.SharedAlp
