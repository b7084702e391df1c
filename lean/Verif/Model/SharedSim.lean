import Verif.Model.Simulation

/-!
# Several threads that use one simulation (`/repo/pySLM2/simulation.py`)

The threads can be switched between any two accesses to the attributes `_input_field`, `_output_field`, `_image_plane_field` and to
the state of the SLM.  Exceptions end the call and are caught by the thread.
-/

noncomputable section

namespace PySLM2.SharedSim

open Classical Lib Sim

/-- Where a thread is in a call (`simulation.py:63-67`, `simulation.py:125-146`, `simulation.py:255-269`) -/
inductive Job
  | idle
  /-- `simulation.py:137`, the local variable `input_profile` -/
  | padded (inp : Tensor ℂ)
  /-- `simulation.py:142` -/
  | formed
  /-- about to assign `_image_plane_field` (`simulation.py:146`, `simulation.py:268`) -/
  | image (img : Tensor ℂ)
  /-- `simulation.py:261` -/
  | checked (r : Option ℝ)
  /-- `simulation.py:268-269`, after `tf.zeros_like` has read the field -/
  | zeros (r : Option ℝ) (shape : Shape)
  /-- `simulation.py:66` -/
  | cleared
  /-- `simulation.py:67` -/
  | cleared'

/-- A thread: the calls still to be begun, and where it is in the call under way (`simulation.py:63-67`, `simulation.py:125-146`,
`simulation.py:255-269`). -/
structure Thread where
  todo : List Op
  job : Job

/-- `tf.where(mask, tf.zeros_like(first), second)` (`simulation.py:261-269`), the field having been read twice; the first time only its shape
counts. -/
def maskField (s : Sim) (r : Option ℝ) (first : Shape) (second : Tensor ℂ) : Except PyErr (Tensor ℂ) :=
  match s.dev with
  | .dmd d _ =>
    let rSq : XR := match r with
      | some r => .fin (r ^ 2)
      | none => defaultR2 s.dev.slm.scaling d.p
    match s.imagePaddedGrid with
    | .error e => .error e
    | .ok g => match bcastAll [.mat s.Ny s.Nx, first, second.shape] with
      | none => .error .tensorflow
      | some sh => .ok ⟨sh, fun i j => if blocked (g.1.at_ i j) (g.2.at_ i j) rSq then 0 else second.at_ i j⟩
  | _ => .error .assertionError

/-- Begin a call, up to its first assignment or, for `block_zeroth_order`, up to the test of `_output_field`
(`simulation.py:63-65`, `simulation.py:132-135`, `simulation.py:257-259`); updates of the SLM are one step. -/
def begin (s : Sim) : Op → Sim × Job
  | .propagate h a => match s.dev.slm.profileToTensor h a true true with
    | .error _ => (s, .idle)
    | .ok inp => match pad inp s.py s.px with
      | .error _ => (s, .idle)
      | .ok padded => ({ s with inputField := some padded }, .padded inp)
  | .block r => match s.dev with
    | .dmd _ _ => match s.outputField with
      | none => (s, .idle)
      | some _ => (s, .checked r)
    | _ => (s, .idle)
  | .clear => ({ s with inputField := none }, .cleared)
  | op => ((s.step op).1, .idle)

/-- One step of a thread: up to the next access to a shared attribute (`simulation.py:63-67`, `simulation.py:125-146`,
`simulation.py:255-269`). -/
def stepThread (s : Sim) (t : Thread) : Sim × Thread :=
  match t.job with
  | .idle => match t.todo with
    | [] => (s, t)
    | op :: ops => ((begin s op).1, ⟨ops, (begin s op).2⟩)
  | .padded inp => match s.dev.stateTensor with
    | .error _ => (s, ⟨t.todo, .idle⟩)
    | .ok st => match Tensor.map2 (fun a b => a * b) inp st with
      | .error _ => (s, ⟨t.todo, .idle⟩)
      | .ok out => match pad out s.py s.px with
        | .error _ => (s, ⟨t.todo, .idle⟩)
        | .ok padded => ({ s with outputField := some padded }, ⟨t.todo, .formed⟩)
  | .formed => match s.outputField with
    | none => (s, ⟨t.todo, .idle⟩)
    | some out => match s.imageOf out with
      | .error _ => (s, ⟨t.todo, .idle⟩)
      | .ok img => (s, ⟨t.todo, .image img⟩)
  | .image img => ({ s with imageField := some img }, ⟨t.todo, .idle⟩)
  | .checked r => match s.imagePaddedGrid with
    | .error _ => (s, ⟨t.todo, .idle⟩)
    | .ok _ => match s.imageField with
      | none => (s, ⟨t.todo, .idle⟩)
      | some img => (s, ⟨t.todo, .zeros r img.shape⟩)
  | .zeros r shape => match s.imageField with
    | none => (s, ⟨t.todo, .idle⟩)
    | some img => match maskField s r shape img with
      | .error _ => (s, ⟨t.todo, .idle⟩)
      | .ok img' => (s, ⟨t.todo, .image img'⟩)
  | .cleared => ({ s with outputField := none }, ⟨t.todo, .cleared'⟩)
  | .cleared' => ({ s with imageField := none }, ⟨t.todo, .idle⟩)

/-- The simulation and the threads (`simulation.py:44-61`). -/
structure World where
  sim : Sim
  threads : ℕ → Thread

/-- The scheduler lets thread `i` make a step (any interleaving of the calls of `simulation.py:63-269`). -/
def World.step (w : World) (i : ℕ) : World :=
  let r := stepThread w.sim (w.threads i)
  ⟨r.1, Function.update w.threads i r.2⟩

/-- A schedule (any interleaving of the calls of `simulation.py:63-269`). -/
def World.run (w : World) (sched : List ℕ) : World := sched.foldl World.step w

/-- Before the threads start (`simulation.py:44-61`); thread `i` will make the calls `progs i`. -/
def World.start (s : Sim) (progs : ℕ → List Op) : World := ⟨s, fun i => ⟨progs i, .idle⟩⟩

end PySLM2.SharedSim
