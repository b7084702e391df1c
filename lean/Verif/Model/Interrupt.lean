import Verif.Model.Simulation

/-!
# Calls on a simulation that are cut short

A call can end between any two of its statements: by a `KeyboardInterrupt`, or because the memory for the next tensor cannot be
allocated.  The attributes assigned so far keep their new values.
-/

noncomputable section

namespace PySLM2.Sim

open Profile Lib

/-- The object between the assignments of `propagate_to_image` (`simulation.py:132-146`), from the call to the end of the call.  An
exception of a statement ends the list. -/
def propagateTrace (s : Sim) (h : Heap) (input : ProfArg) : List Sim :=
  match s.dev.slm.profileToTensor h input true true with
  | .error _ => [s]
  | .ok inp => match pad inp s.py s.px with
    | .error _ => [s]
    | .ok padded =>
      let s₁ := { s with inputField := some padded }
      match s.dev.stateTensor with
      | .error _ => [s, s₁]
      | .ok st => match Tensor.map2 (fun a b => a * b) inp st with
        | .error _ => [s, s₁]
        | .ok out => match pad out s.py s.px with
          | .error _ => [s, s₁]
          | .ok outPadded =>
            let s₂ := { s₁ with outputField := some outPadded }
            match s.imageOf outPadded with
            | .error _ => [s, s₁, s₂]
            | .ok img => [s, s₁, s₂, { s₂ with imageField := some img }]

/-- The object between the assignments of `clear` (`simulation.py:63-67`) -/
def clearTrace (s : Sim) : List Sim :=
  [s, { s with inputField := none }, { s with inputField := none, outputField := none },
    { s with inputField := none, outputField := none, imageField := none }]

/-- The object between the assignments of any call (`simulation.py:63-67`, `simulation.py:125-146`, `simulation.py:255-269`);
`block_zeroth_order` and the updates of the SLM assign once. -/
def trace (s : Sim) : Op → List Sim
  | .propagate h a => s.propagateTrace h a
  | .clear => s.clearTrace
  | op => [s, (s.step op).1]

/-- A call that runs to its end, or one that is cut short after `k` assignments (`simulation.py:63-67`, `simulation.py:125-146`,
`simulation.py:255-269`). -/
inductive Event
  | done (op : Op)
  | cut (op : Op) (k : ℕ)

/-- The object after an event (`simulation.py:63-67`, `simulation.py:125-146`, `simulation.py:255-269`); a call with at most `k` assignments
is not cut short. -/
def handle (s : Sim) : Event → Sim
  | .done op => (s.step op).1
  | .cut op k => (s.trace op)[k]?.getD (s.step op).1

/-- A history of events (any sequence of calls of `simulation.py:63-67`, `simulation.py:125-146`, `simulation.py:255-269`) -/
def runEvents (s : Sim) (evs : List Event) : Sim := evs.foldl handle s

end PySLM2.Sim
