import Verif.Model.SharedDmd

/-!
# Threads that read the state of a DMD while others update it (`/repo/pySLM2/slm.py`)

`pack_dmd_state` looks up `self.dmd_state` twice, for the test of the dtype and for `np.packbits`, which reads the mirrors one after the other.
-/

noncomputable section

namespace PySLM2.SharedRead

open Lib DMD SharedDmd

/-- The order in which `np.packbits` reads the entries of an array (`slm.py:404`) -/
def positions : Shape → List (ℕ × ℕ)
  | .scalar => [(0, 0)]
  | .mat M N => (List.range M).flatMap fun i => (List.range N).map fun j => (i, j)

/-- Where a thread is in `pack_dmd_state` (`slm.py:393-406`). -/
inductive Reader
  /-- before the call -/
  | ready
  /-- after the test of the dtype (`slm.py:401`) -/
  | checked
  /-- in `np.packbits` (`slm.py:404`): the array found, the bits read so far and the mirrors still to be read -/
  | reading (array : ℕ) (bits : List Bool) (left : List (ℕ × ℕ))
  /-- the call has returned or raised (`slm.py:402, 406`) -/
  | ended (result : Except PyErr (List ℕ))

/-- One step of `pack_dmd_state`: up to the next access to the state (`slm.py:401-406`); `np.packbits` raises a `TypeError` for arrays of floats. -/
def Reader.step (m : Memory) : Reader → Reader
  | .ready => match m.arrays m.cur with
    | .bool _ => .checked
    | .float _ => .ended (.error .typeError)
  | .checked => match m.arrays m.cur with
    | .bool t => .reading m.cur [] (positions t.shape)
    | .float _ => .ended (.error .typeError)
  | .reading k bits (q :: left) => match m.arrays k with
    | .bool t => .reading k (bits ++ [t.get q.1 q.2]) left
    | .float _ => .ended (.error .typeError)
  | .reading _ bits [] => .ended (.ok (packBits bits))
  | .ended r => .ended r

/-- A device with threads that update it (`slm.py:205-376`) and threads that call `pack_dmd_state` (`slm.py:393-406`) -/
structure World where
  dmd : SharedDmd.World
  readers : ℕ → Reader

/-- The thread that makes the next step (any interleaving of the calls of `slm.py:205-406`). -/
inductive Who
  | writer (i : ℕ)
  | reader (r : ℕ)

/-- One step (any interleaving of the calls of `slm.py:205-406`). -/
def World.step (d : DMD) (w : World) : Who → World
  | .writer i => { w with dmd := w.dmd.step d i }
  | .reader r => { w with readers := Function.update w.readers r ((w.readers r).step w.dmd.mem) }

/-- A schedule (any interleaving of the calls of `slm.py:205-406`). -/
def World.run (d : DMD) (w : World) (sched : List Who) : World := sched.foldl (World.step d) w

/-- A new device (`slm.py:198`), before the threads start. -/
def World.start (d : DMD) (progs : ℕ → List Call) : World := ⟨SharedDmd.World.start d progs, fun _ => .ready⟩

end PySLM2.SharedRead
