import Verif.Spec.Simulation

/-!
# Devices without a hologram
-/

noncomputable section

namespace PySLM2.Sim

/-- The device shows nothing: a new or reset LCOS SLM, or a DMD after `set_dmd_state_on`. -/
def Blank : Device → Prop
  | .base _ => False
  | .dmd d st => ∃ cur : Lib.StateArr, st = d.runCalls cur [.on]
  | .lcos l => (∃ s, l = LCOS.new s) ∨ ∃ l', l = LCOS.reset l'

/-- The device is dark: a new DMD, or a DMD after `set_dmd_state_off`. -/
def Dark : Device → Prop
  | .dmd d st => st = d.initialState ∨ ∃ cur : Lib.StateArr, st = d.runCalls cur [.off]
  | _ => False

end PySLM2.Sim
