import Verif.Model.Controller

/-!
# Several threads that use one Luxbeam controller (`/repo/pySLM2/util/controller.py`)

The controller takes no locks: requests of different threads reach the device in any order, with instructions of the sequencer and external triggers in
between.  The controller has been initialized (the threads make no calls of `initialize()`).
-/

namespace PySLM2.Controller.SharedLux

open Lux

/-- The calls of the threads (`controller.py:246-285, 298-301`). -/
inductive Call
  | loadSingle (img : Image)
  | loadMultiple (imgs : List Image)
  | fireTrigger

/-- The requests of a call (`controller.py:246-285, 298-301`). -/
def Call.cmds : Call → List Cmd
  | .loadSingle img => loadSingleCmds img
  | .loadMultiple imgs => loadMultipleCmds imgs
  | .fireTrigger => triggerCmds

/-- A thread: the calls still to be begun, and the requests still to be made of the call under way (`controller.py:246-301`). -/
structure Thread where
  todo : List Call
  doing : List Cmd

/-- The device and the threads (`controller.py:195-301`). -/
structure World where
  dev : Dev
  threads : ℕ → Thread

/-- What can happen next: thread `i` begins a call or makes its next request, its next request raises, an external trigger arrives, or the sequencer
executes an instruction (`controller.py:220-301`). -/
inductive Ev
  | runs (i : ℕ)
  | fails (i : ℕ)
  | external
  | tick
  deriving DecidableEq

/-- One event (`controller.py:220-301`).  A call is abandoned at the first request that raises. -/
def World.step (w : World) : Ev → World
  | .runs i => match (w.threads i).doing with
    | c :: cs => ⟨apply w.dev c, Function.update w.threads i ⟨(w.threads i).todo, cs⟩⟩
    | [] => match (w.threads i).todo with
      | [] => w
      | call :: rest => ⟨w.dev, Function.update w.threads i ⟨rest, call.cmds⟩⟩
  | .fails i => match (w.threads i).doing with
    | _ :: _ => ⟨w.dev, Function.update w.threads i ⟨(w.threads i).todo, []⟩⟩
    | [] => w
  | .external => ⟨trigger w.dev, w.threads⟩
  | .tick => ⟨Lux.tick w.dev, w.threads⟩

/-- Any interleaving of the calls (`controller.py:220-301`). -/
def World.run (w : World) (evs : List Ev) : World := evs.foldl World.step w

/-- A controller that has been initialized, before the threads start (`controller.py:220-242`); thread `i` will make the calls `progs i`. -/
def World.start (dev : Dev) (progs : ℕ → List Call) : World := ⟨dev, fun i => ⟨progs i, []⟩⟩

end PySLM2.Controller.SharedLux
