import Verif.Model.SharedLux

/-!
# Specification vocabulary for threads that share a Luxbeam controller
-/

namespace PySLM2.Controller.SharedLux

open Lux

/-- The thread is not inside a load: it is idle, or only has requests of a software trigger to make. -/
def Thread.NotLoading (t : Thread) : Prop := ∀ c ∈ t.doing, ∃ level, c = .softwareSync level

/-- While the events happen, no thread, except possibly `k`, is inside a load. -/
def Exclusive (w : World) (k : ℕ) (evs : List Ev) : Prop := ∀ past, past <+: evs → ∀ i, i ≠ k → ((w.run past).threads i).NotLoading

/-- While the events happen, no thread is inside a load. -/
def NoLoads (w : World) (evs : List Ev) : Prop := ∀ past, past <+: evs → ∀ i, ((w.run past).threads i).NotLoading

/-- The event is a trigger: an external one, or a thread raising the software sync line. -/
def IsTrigger (w : World) : Ev → Prop
  | .external => True
  | .runs i => ∃ cs, (w.threads i).doing = .softwareSync true :: cs
  | _ => False

open Classical in
/-- The number of triggers among the events. -/
noncomputable def triggers (w : World) : List Ev → ℕ
  | [] => 0
  | ev :: evs => (if IsTrigger w ev then 1 else 0) + triggers (w.step ev) evs

/-- The call loads these images. -/
def Call.Loads (call : Call) (imgs : List Image) : Prop := call = .loadMultiple imgs ∨ ∃ img, imgs = [img] ∧ call = .loadSingle img

end PySLM2.Controller.SharedLux
