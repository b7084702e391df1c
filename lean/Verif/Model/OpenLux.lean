import Verif.Model.Controller

/-!
# Several threads that initialize and use one Luxbeam controller (`/repo/pySLM2/util/controller.py`)

As in `Model/OpenAlp`, each step is one request to the device, one test of `_initialized`, or one assignment to it; external triggers and instructions of the
sequencer come in between.  (`Model/SharedLux` is about threads that share a controller that has been initialized.)
-/

namespace PySLM2.Controller.OpenLux

open Lux

/-- A step of a call (`controller.py:20-28, 220-301`). -/
inductive Act
  /-- `_check_initialization` (`controller.py:24`) -/
  | check
  /-- a request to the device -/
  | vendor (c : Cmd)
  /-- `self._initialized = True` (`controller.py:38`) -/
  | setFlag
  deriving DecidableEq

/-- The steps of a call (`controller.py:78-80, 220-301`).  `close()` does nothing (`controller.py:244-245`), `Nx` and `Ny` send nothing after their check, and
`number_image` is checked itself and by them.  External triggers and the passing of time are no calls of a thread. -/
def acts : Op → List Act
  | .initialize => initCmds.map .vendor ++ [.setFlag]
  | .close => []
  | .loadSingle img => .check :: (loadSingleCmds img).map .vendor
  | .loadMultiple imgs => .check :: (loadMultipleCmds imgs).map .vendor
  | .fireTrigger => .check :: triggerCmds.map .vendor
  | .queryNx => [.check]
  | .queryNy => [.check]
  | .numberImage => [.check, .check, .check]
  | .loadSequence => [.check]
  | .extTrigger => []
  | .idle _ => []

/-- A thread: the calls still to be begun, the last call begun and its number, and the steps of it still to be made (`controller.py:220-301`). -/
structure Thread where
  todo : List Op
  op : Op
  count : ℕ
  doing : List Act

/-- What can be seen from outside (`controller.py:20-28, 220-301`): call `n` of thread `i` makes a request, which raises or not; call `n` of thread `i` raises
because the controller is not initialized; call `n` of thread `i`, an `initialize()`, returns. -/
inductive Entry
  | called (i n : ℕ) (op : Op) (c : Cmd) (ok : Bool)
  | refused (i n : ℕ) (op : Op)
  | ready (i n : ℕ)

/-- The controller, its device, the threads, and what has happened (`controller.py:195-301`). -/
structure World where
  initialized : Bool
  dev : Dev
  threads : ℕ → Thread
  log : List Entry

/-- What can happen next: thread `i` begins a call or makes its next step, that step is a request that raises, an external trigger arrives, or the sequencer
executes an instruction (`controller.py:220-301`). -/
inductive Ev
  | runs (i : ℕ)
  | fails (i : ℕ)
  | external
  | tick
  deriving DecidableEq

/-- Thread `i` goes on with the steps `as` (`controller.py:220-301`). -/
def World.goOn (w : World) (i : ℕ) (as : List Act) : ℕ → Thread := Function.update w.threads i { w.threads i with doing := as }

/-- One event (`controller.py:20-28, 220-301`).  A call is abandoned at the first request that raises. -/
def World.step (w : World) : Ev → World
  | .runs i => match (w.threads i).doing with
    | [] => match (w.threads i).todo with
      | [] => w
      | op :: rest => { w with threads := Function.update w.threads i ⟨rest, op, (w.threads i).count + 1, acts op⟩ }
    | .check :: as => if w.initialized then { w with threads := w.goOn i as }
        else { w with threads := w.goOn i [], log := w.log ++ [.refused i (w.threads i).count (w.threads i).op] }
    | .vendor c :: as => { w with dev := apply w.dev c, threads := w.goOn i as,
                                  log := w.log ++ [.called i (w.threads i).count (w.threads i).op c true] }
    | .setFlag :: as => { w with initialized := true, threads := w.goOn i as, log := w.log ++ [.ready i (w.threads i).count] }
  | .fails i => match (w.threads i).doing with
    | .vendor c :: _ => { w with threads := w.goOn i [], log := w.log ++ [.called i (w.threads i).count (w.threads i).op c false] }
    | _ => w
  | .external => { w with dev := trigger w.dev }
  | .tick => { w with dev := Lux.tick w.dev }

/-- Any interleaving (`controller.py:220-301`) -/
def World.run (w : World) (evs : List Ev) : World := evs.foldl World.step w

/-- A new controller (`controller.py:212-218`), before the threads start; thread `i` will make the calls `progs i`. -/
def World.start (dev : Dev) (progs : ℕ → List Op) : World := ⟨false, dev, fun i => ⟨progs i, .close, 0, []⟩, []⟩

end PySLM2.Controller.OpenLux
