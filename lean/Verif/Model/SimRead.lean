import Verif.Model.SharedRead
import Verif.Model.Simulation

/-!
# Simulations of a DMD that other threads update (`/repo/pySLM2/simulation.py`)

`propagate_to_image` looks up `dmd_state` once, and `tf.constant` copies the mirrors of the array it found one after the other; what it computes
afterwards depends on the copy only.
-/

noncomputable section

namespace PySLM2.SimRead

open Lib DMD Profile

/-- A call of `propagate_to_image` (`simulation.py:125-146`): the simulation, the input profile, and for the copy of the state made by `tf.constant`
(`slm.py:391`) the order in which the entries of an array are copied and what the memory of the copy contains before. -/
structure Task where
  sim : Sim
  heap : Heap
  input : ProfArg
  order : Shape → List (ℕ × ℕ)
  junk : ℕ → ℕ → Bool
  junkFloat : ℕ → ℕ → XR

/-- What the caller sees after `propagate_to_image` (`simulation.py:125-146`): the three fields and the exception, if any. -/
structure Outcome where
  input : Option (Tensor ℂ)
  output : Option (Tensor ℂ)
  image : Option (Tensor ℂ)
  result : Except PyErr Unit

/-- `propagate_to_image` with a given state of the DMD (`simulation.py:125-146`). -/
def Task.outcome (t : Task) (d : DMD) (state : StateArr) : Outcome :=
  let r := { t.sim with dev := .dmd d state }.propagate t.heap t.input
  ⟨r.1.inputField, r.1.outputField, r.1.imageField, r.2⟩

/-- The memory of the copy before anything is copied: dtype and shape are those of the array (`slm.py:391`). -/
def Task.fresh (t : Task) : StateArr → StateArr
  | .bool a => .bool ⟨a.shape, t.junk⟩
  | .float a => .float ⟨a.shape, t.junkFloat⟩

/-- Where a thread is in `propagate_to_image` (`simulation.py:125-146`). -/
inductive Phase
  /-- before the state is looked up -/
  | ready
  /-- in `tf.constant` (`slm.py:391`): the array found, the copy, and the mirrors still to be copied -/
  | copying (array : ℕ) (copy : StateArr) (left : List (ℕ × ℕ))
  /-- the call has returned or raised -/
  | ended (outcome : Outcome)

/-- One step: look up the state, copy a mirror, or compute the fields from the copy (`simulation.py:125-146`, `slm.py:390-391`). -/
def Phase.step (t : Task) (d : DMD) (m : Memory) : Phase → Phase
  | .ready => .copying m.cur (t.fresh (m.arrays m.cur)) (t.order (m.arrays m.cur).shape)
  | .copying k copy (q :: left) => .copying k (SharedDmd.writeMirror copy (m.arrays k) q.1 q.2) left
  | .copying _ copy [] => .ended (t.outcome d copy)
  | .ended o => .ended o

/-- A device with threads that update it (`slm.py:205-376`) and threads that call `propagate_to_image` (`simulation.py:125-146`). -/
structure World where
  dmd : SharedDmd.World
  sims : ℕ → Phase

/-- One step; `tasks r` is what simulating thread `r` does (any interleaving of the calls of `slm.py:205-376` and `simulation.py:125-146`). -/
def World.step (d : DMD) (tasks : ℕ → Task) (w : World) : SharedRead.Who → World
  | .writer i => { w with dmd := w.dmd.step d i }
  | .reader r => { w with sims := Function.update w.sims r ((w.sims r).step (tasks r) d w.dmd.mem) }

/-- A schedule (any interleaving of the calls of `slm.py:205-376` and `simulation.py:125-146`). -/
def World.run (d : DMD) (tasks : ℕ → Task) (w : World) (sched : List SharedRead.Who) : World := sched.foldl (World.step d tasks) w

/-- A new device (`slm.py:198`), before the threads start. -/
def World.start (d : DMD) (progs : ℕ → List Call) : World := ⟨SharedDmd.World.start d progs, fun _ => .ready⟩

end PySLM2.SimRead
