import Verif.Model.SharedAlp
import Verif.Spec.Controller

/-!
# Specification vocabulary for threads that share an ALP controller
-/

namespace PySLM2.Controller.SharedAlp

open Alp

/-- The thread is not inside a load: it is idle, or only asks for the size of the device. -/
def Thread.NotLoading (t : Thread) : Prop := ∀ c ∈ t.doing, c = .inquireWidth ∨ c = .inquireHeight

/-- While the events happen, no thread, except possibly `k`, is inside a load. -/
def Exclusive (w : World) (k : ℕ) (evs : List Ev) : Prop := ∀ past, past <+: evs → ∀ i, i ≠ k → ((w.run past).threads i).NotLoading

/-- While the events happen, no thread is inside a load. -/
def NoLoads (w : World) (evs : List Ev) : Prop := ∀ past, past <+: evs → ∀ i, ((w.run past).threads i).NotLoading

/-- The call loads these images. -/
def Call.Loads (call : Call) (imgs : List Image) : Prop := call = .loadMultiple imgs ∨ ∃ img, imgs = [img] ∧ call = .loadSingle img

/-- The pictures as they are stored on the device: one byte per mirror, 255 for on. -/
def stored (imgs : List Image) : List ℕ := imgs.flatten.map fun b => if b then 255 else 0

/-- Every thread has made all its calls. -/
def World.Finished (w : World) : Prop := ∀ i, w.threads i = ⟨[], []⟩

end PySLM2.Controller.SharedAlp
