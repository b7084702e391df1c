import Verif.Model.SharedRead
import Verif.Spec.SharedDmd

/-!
# What reading the state of a DMD should give while other threads update it
-/

noncomputable section

namespace PySLM2.SharedRead

open Lib DMD SharedDmd

/-- Has the call of reader `r` ended with this result? -/
def World.Ended (w : World) (r : ℕ) (result : Except PyErr (List ℕ)) : Prop := w.readers r = .ended result

/-- A moment of the call of reader `r`: before one of its steps, the call not having ended.  `before` is the schedule up to then. -/
def Moment (d : DMD) (start : World) (r : ℕ) (sched before : List Who) : Prop :=
  (∃ after, sched = before ++ .reader r :: after) ∧ ∀ result, ¬ (start.run d before).Ended r result

/-- Bit number `n` of packed bytes, the most significant bit first. -/
def bit (bytes : List ℕ) (n : ℕ) : Bool := (bytes.getD (n / 8) 0).testBit (7 - n % 8)

end PySLM2.SharedRead
