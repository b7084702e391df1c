import Verif.Model.SimRead
import Verif.Spec.SharedDmd

/-!
# What a simulation of a DMD should give while other threads update the device
-/

noncomputable section

namespace PySLM2.SimRead

open Lib DMD SharedDmd SharedRead

/-- Has the call of thread `r` ended with this outcome? -/
def World.Ended (w : World) (r : ℕ) (o : Outcome) : Prop := w.sims r = .ended o

/-- A moment of the call of thread `r`: before one of its steps, the call not having ended.  `before` is the schedule up to then. -/
def Moment (d : DMD) (tasks : ℕ → Task) (start : World) (r : ℕ) (sched before : List Who) : Prop :=
  (∃ after, sched = before ++ .reader r :: after) ∧ ∀ o, ¬ (start.run d tasks before).Ended r o

/-- Is `(a, b)` an entry of an array of this shape? -/
def Inside : Shape → ℕ → ℕ → Prop
  | .scalar, a, b => a = 0 ∧ b = 0
  | .mat M N, a, b => a < M ∧ b < N

/-- Every entry is copied, in whatever order. -/
def Task.Complete (t : Task) : Prop := ∀ s a b, Inside s a b → (a, b) ∈ t.order s

end PySLM2.SimRead
