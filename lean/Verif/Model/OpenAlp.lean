import Verif.Model.Controller

/-!
# Several threads that initialize, use and close one ALP controller (`/repo/pySLM2/util/controller.py`)

The controller takes no locks.  Each step below is one vendor call, one test of `_initialized` or `_lastDDRseq`, or one assignment to `_initialized`; the
steps of different threads come in any order.  (`Model/SharedAlp` is about threads that share a controller that stays initialized.)
-/

namespace PySLM2.Controller.OpenAlp

open Alp

/-- A step of a call (`controller.py:20-189`). -/
inductive Act
  /-- `_check_initialization` (`controller.py:24`) -/
  | check
  /-- a vendor call -/
  | vendor (c : Cmd)
  /-- `if self.alp._lastDDRseq is not None` (`controller.py:114`) -/
  | testLast
  /-- `self._initialized = True` (`controller.py:38`) -/
  | setFlag
  deriving DecidableEq

/-- The steps of a call (`controller.py:78-80, 106-189`).  `load_multiple([])` raises at `np.concatenate` (`controller.py:183`), `load_sequence` after its
check (`controller.py:60-62`), `fire_software_trigger` at once (`controller.py:74-75`); `number_image` is checked itself and by `Nx` and `Ny`. -/
def acts (invert : Bool) : Op → List Act
  | .initialize => (initCmds invert).map .vendor ++ [.setFlag]
  | .close => [.vendor .halt, .testLast, .vendor .free]
  | .loadSingle img => .check :: (loadSingleCmds img).map .vendor
  | .loadMultiple [] => .check :: [.halt, .projSlave, .triggerRising, .seqAlloc 0, .seqControl].map .vendor
  | .loadMultiple (img :: imgs) => .check :: (loadMultipleCmds (img :: imgs)).map .vendor
  | .queryNx => [.check, .vendor .inquireWidth]
  | .queryNy => [.check, .vendor .inquireHeight]
  | .numberImage => [.check, .check, .vendor .inquireWidth, .check, .vendor .inquireHeight]
  | .fireTrigger => []
  | .loadSequence => [.check]

/-- A thread: the calls still to be begun, the last call begun and its number, and the steps of it still to be made (`controller.py:106-189`). -/
structure Thread where
  todo : List Op
  op : Op
  count : ℕ
  doing : List Act

/-- What can be seen from outside (`controller.py:20-189`): call `n` of thread `i` makes a vendor call, which raises or not; call `n` of thread `i` raises
because the controller is not initialized; call `n` of thread `i`, an `initialize()`, returns. -/
inductive Entry
  | called (i n : ℕ) (op : Op) (c : Cmd) (ok : Bool)
  | refused (i n : ℕ) (op : Op)
  | ready (i n : ℕ)
  deriving DecidableEq

/-- The controller, its device, the threads, and what has happened (`controller.py:83-193`). -/
structure World where
  initialized : Bool
  invert : Bool
  dev : Dev
  threads : ℕ → Thread
  log : List Entry

/-- What can happen next: thread `i` begins a call or makes its next step, or that step is a vendor call that raises (`controller.py:106-189`). -/
inductive Ev
  | runs (i : ℕ)
  | fails (i : ℕ)
  deriving DecidableEq

/-- Thread `i` goes on with the steps `as` (`controller.py:106-189`). -/
def World.goOn (w : World) (i : ℕ) (as : List Act) : ℕ → Thread := Function.update w.threads i { w.threads i with doing := as }

/-- One event (`controller.py:20-28, 106-189`).  A call is abandoned at the first vendor call that raises. -/
def World.step (w : World) : Ev → World
  | .runs i => match (w.threads i).doing with
    | [] => match (w.threads i).todo with
      | [] => w
      | op :: rest => { w with threads := Function.update w.threads i ⟨rest, op, (w.threads i).count + 1, acts w.invert op⟩ }
    | .check :: as => if w.initialized then { w with threads := w.goOn i as }
        else { w with threads := w.goOn i [], log := w.log ++ [.refused i (w.threads i).count (w.threads i).op] }
    | .vendor c :: as => { w with dev := apply w.dev c, threads := w.goOn i as,
                                  log := w.log ++ [.called i (w.threads i).count (w.threads i).op c true] }
    | .testLast :: as => { w with threads := w.goOn i (if w.dev.last.isSome then .vendor .freeSeq :: as else as) }
    | .setFlag :: as => { w with initialized := true, threads := w.goOn i as, log := w.log ++ [.ready i (w.threads i).count] }
  | .fails i => match (w.threads i).doing with
    | .vendor c :: _ => { w with threads := w.goOn i [], log := w.log ++ [.called i (w.threads i).count (w.threads i).op c false] }
    | _ => w

/-- Any interleaving (`controller.py:106-189`) -/
def World.run (w : World) (evs : List Ev) : World := evs.foldl World.step w

/-- A new controller (`controller.py:99-104`), before the threads start; thread `i` will make the calls `progs i`. -/
def World.start (invert : Bool) (dev : Dev) (progs : ℕ → List Op) : World := ⟨false, invert, dev, fun i => ⟨progs i, .fireTrigger, 0, []⟩, []⟩

end PySLM2.Controller.OpenAlp
