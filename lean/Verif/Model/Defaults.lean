import Verif.Model.Simulation

/-!
# Calls with omitted arguments

The signatures of the public methods: what python passes for an argument that the caller omits.  Keyword arguments
collected in `**kwargs` have their defaults in `Verif/Model/Lib.lean`.
-/

noncomputable section

namespace PySLM2

open Profile Lib

/-- `set_dmd_grating_state(amp=1, phase_in=0, phase_out=0, method="random", **kwargs)` (`slm.py:213`); the python
integers 1 and 0 are converted like the floats. -/
def DMD.setDmdGratingStateCall (d : DMD) (h : Heap) (amp phaseIn phaseOut : Option ProfArg) (method : Option String)
    (kw : Kwargs) (draw : ℕ → ℕ → ℝ) : DMD.Outcome Unit :=
  d.setDmdGratingState h (amp.getD (.num (.real 1))) (phaseIn.getD (.num (.real 0))) (phaseOut.getD (.num (.real 0)))
    (method.getD "random") kw draw

/-- `circular_patch(i, j, amp, phase_in, phase_out, d, method="random", **kwargs)` (`slm.py:230`) -/
def DMD.circularPatchCall (d : DMD) (h : Heap) (cur : StateArr) (i j : ℝ) (amp phaseIn phaseOut : ProfArg)
    (dia : ℝ) (method : Option String) (kw : Kwargs) (draw : ℕ → ℕ → ℝ) : DMD.Outcome Unit :=
  d.circularPatch h cur i j amp phaseIn phaseOut dia (method.getD "random") kw draw

/-- `calculate_dmd_state(input_profile, target_profile, method="random", window=None, **kwargs)` (`slm.py:324-326`);
an omitted `window` is `None`, as in `calculateDmdState`. -/
def DMD.calculateDmdStateCall (d : DMD) (h : Heap) (inp target : ProfArg) (method : Option String)
    (window : Option ProfArg) (kw : DMD.CalcKwargs) (draw : ℕ → ℕ → ℝ) : DMD.Outcome XR :=
  d.calculateDmdState h inp target (method.getD "random") window kw draw

/-- `calculate_hologram(input_profile, target_amp_profile, method="gs", **kwargs)` (`slm.py:487`) -/
def LCOS.calculateHologramCall (l : LCOS) (h : Heap) (inp target : ProfArg) (method : Option String)
    (kw : LCOS.Kwargs) (u : ℕ → ℕ → ℝ) : LCOS × Except PyErr Unit :=
  l.calculateHologram h inp target (method.getD "gs") kw u

/-- `DMD(..., negative_order=False)` (`slm.py:194-203`) -/
def DMD.newCall (s : SLM) (periodicity theta : ℝ) (neg : Option Bool) : DMD := DMD.new s periodicity theta (neg.getD false)

/-- `SLMSimulation(slm, padding_x=0, padding_y=0)` (`simulation.py:44`) -/
def Sim.newSLMCall (slm : Sim.DevArg) (px py : Option Sim.PadArg) : Except PyErr Sim :=
  Sim.newSLM slm (px.getD (.int 0)) (py.getD (.int 0))

/-- `DMDSimulation(dmd, padding_x=0, padding_y=0)` (`simulation.py:243`) -/
def Sim.newDMDCall (slm : Sim.DevArg) (px py : Option Sim.PadArg) : Except PyErr Sim :=
  Sim.newDMD slm (px.getD (.int 0)) (py.getD (.int 0))

end PySLM2
