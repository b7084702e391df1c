import Verif.Model.Dmd

/-!
# Several threads that update one DMD (`/repo/pySLM2/slm.py`)

The methods of `DMD` read `dmd_state` only in `circular_patch`, and assign it in one step, except that `self.dmd_state[mask] = …` writes the mirrors one
after the other into the array it found: numpy releases the interpreter lock while it copies arrays of more than 500 elements, so
that other threads run meanwhile.  Everything else a call computes from its arguments and from attributes that do not change.
-/

noncomputable section

namespace PySLM2.SharedDmd

open Lib DMD

/-- A masked assignment under way: the array found, the values to be written, and the mirrors not yet written (`slm.py:268`). -/
structure Copy where
  array : ℕ
  values : StateArr
  left : List (ℕ × ℕ)

/-- A thread: the calls still to be begun, and the assignment under way (`slm.py:205-376`). -/
structure Thread where
  todo : List Call
  copy : Option Copy

/-- The array objects (`slm.py:198`) and the threads. -/
structure World where
  mem : Memory
  threads : ℕ → Thread

open Classical in
/-- The mirrors of the mask in the order numpy visits them (`slm.py:225-228, 268`). -/
def maskMirrors (d : DMD) (i j dia : ℝ) : List (ℕ × ℕ) :=
  ((List.range d.slm.Ny).flatMap fun a => (List.range d.slm.Nx).map fun b => (a, b)).filter fun q => circularMask i j dia q.1 q.2

/-- Write one mirror (`slm.py:268`); both arrays have the dtype of the array written to. -/
def writeMirror (old values : StateArr) (a b : ℕ) : StateArr :=
  match old, values with
  | .bool o, .bool v => .bool ⟨o.shape, fun a' b' => if a' = a ∧ b' = b then v.get a b else o.get a' b'⟩
  | .float o, .float v => .float ⟨o.shape, fun a' b' => if a' = a ∧ b' = b then v.get a b else o.get a' b'⟩
  | o, _ => o

/-- Begin a call: a patch looks up the array and its mirrors, or raises; all other calls assign a new array, or raise (`slm.py:205-376`). -/
def begin (d : DMD) (m : Memory) (c : Call) : Memory × Option Copy :=
  match c with
  | .patch _ i j _ _ _ dia _ _ _ =>
    match (d.call (m.arrays m.cur) c).effect with
    | .inplace v => (m, some ⟨m.cur, v, maskMirrors d i j dia⟩)
    | _ => (m, none)
  | c => (d.callMem m c, none)

/-- One step of a thread: write the next mirror, or begin the next call (`slm.py:205-376`). -/
def stepThread (d : DMD) (m : Memory) (t : Thread) : Memory × Thread :=
  match t.copy with
  | some ⟨array, values, q :: left⟩ =>
    ({ m with arrays := Function.update m.arrays array (writeMirror (m.arrays array) values q.1 q.2) },
      ⟨t.todo, some ⟨array, values, left⟩⟩)
  | some ⟨_, _, []⟩ => (m, ⟨t.todo, none⟩)
  | none => match t.todo with
    | [] => (m, t)
    | c :: cs => ((begin d m c).1, ⟨cs, (begin d m c).2⟩)

/-- The scheduler lets thread `i` make a step (any interleaving of the calls of `slm.py:205-376`). -/
def World.step (d : DMD) (w : World) (i : ℕ) : World :=
  let r := stepThread d w.mem (w.threads i)
  ⟨r.1, Function.update w.threads i r.2⟩

/-- A schedule (any interleaving of the calls of `slm.py:205-376`). -/
def World.run (d : DMD) (w : World) (sched : List ℕ) : World := sched.foldl (World.step d) w

/-- A new device (`slm.py:198`), before the threads start; thread `i` will make the calls `progs i`. -/
def World.start (d : DMD) (progs : ℕ → List Call) : World :=
  ⟨⟨fun _ => d.initialState, 0, 1⟩, fun i => ⟨progs i, none⟩⟩

/-- `dmd_state` (`slm.py:198`) -/
def World.state (w : World) : StateArr := w.mem.arrays w.mem.cur

end PySLM2.SharedDmd
