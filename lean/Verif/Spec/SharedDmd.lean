import Verif.Model.SharedDmd
import Verif.Spec.DmdHistory

/-!
# What threads that update one DMD should do
-/

noncomputable section

namespace PySLM2.SharedDmd

open Lib DMD

/-- Is the call a patch with mirror `(a, b)` in its disc? -/
def covers (c : Call) (a b : ℕ) : Prop :=
  match c with
  | .patch _ i j _ _ _ dia _ _ _ => DMD.dist a b i j < |dia| / 2
  | _ => False

/-- The call thread `i` begins when it makes a step, if it begins one. -/
def begins (w : World) (i : ℕ) : List (ℕ × Call) :=
  match (w.threads i).copy, (w.threads i).todo with
  | none, c :: _ => [(i, c)]
  | _, _ => []

/-- The calls of all threads in the order in which they begin (for a patch: look up the array). -/
def history (d : DMD) : World → List ℕ → List (ℕ × Call)
  | _, [] => []
  | w, i :: sched => begins w i ++ history d (w.step d i) sched

/-- The calls made by thread `i` in a history of calls of several threads. -/
def callsOf (i : ℕ) (l : List (ℕ × Call)) : List Call := l.filterMap fun q => if q.1 = i then some q.2 else none

/-- Is mirror `(a, b)` still to be written by a patch under way in the array that the device shows? -/
def World.Pending (w : World) (a b : ℕ) : Prop :=
  ∃ i c, (w.threads i).copy = some c ∧ c.array = w.mem.cur ∧ (a, b) ∈ c.left

/-- All threads have ended. -/
def World.Ended (w : World) : Prop := ∀ i, (w.threads i).todo = [] ∧ (w.threads i).copy = none

/-- Patches of different threads have no mirror of the device in common. -/
def Separate (d : DMD) (progs : ℕ → List Call) : Prop :=
  ∀ i j, i ≠ j → ∀ c ∈ progs i, ∀ c' ∈ progs j, ∀ a < d.slm.Ny, ∀ b < d.slm.Nx, ¬(covers c a b ∧ covers c' a b)

end PySLM2.SharedDmd
