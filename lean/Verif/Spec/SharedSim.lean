import Verif.Model.SharedSim

/-!
# What threads that use one simulation should do
-/

noncomputable section

namespace PySLM2.SharedSim

open Lib Sim

/-- The state tensor of the SLM, if it has one, has the size of the SLM. -/
def Sized (dev : Device) : Prop := ∀ st, dev.stateTensor = .ok st → st.shape = .mat dev.slm.Ny dev.slm.Nx

/-- The SLM with any of the states that the program of some thread assigns to it. -/
inductive Seen (s : Sim) (progs : ℕ → List Op) : Device → Prop
  | start : Seen s progs s.dev
  | dmd {d : DMD} {old st : StateArr} {i : ℕ} (h : s.dev = .dmd d old) (hm : .setState st ∈ progs i) : Seen s progs (.dmd d st)
  | lcos {l : LCOS} {st : LcosState} {i : ℕ} (h : s.dev = .lcos l) (hm : .setLcos st ∈ progs i) :
      Seen s progs (.lcos { l with state := st })

/-- Does the program of some thread contain the call? -/
def Made (progs : ℕ → List Op) (op : Op) : Prop := ∃ i, op ∈ progs i

/-- All threads have ended. -/
def World.Ended (w : World) : Prop := ∀ i, (w.threads i).todo = [] ∧ (w.threads i).job = .idle

/-- The calls made by thread `i` in a history of calls of several threads. -/
def callsOf (i : ℕ) (l : List (ℕ × Op)) : List Op := l.filterMap fun q => if q.1 = i then some q.2 else none

/-- Is it an update of the SLM, not a call on the simulation? -/
def isUpdate : Op → Prop
  | .setState _ => True
  | .setLcos _ => True
  | _ => False

end PySLM2.SharedSim
