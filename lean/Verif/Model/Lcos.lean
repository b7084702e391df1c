import Verif.Model.Slm

/-!
# `/repo/pySLM2/slm.py`, class `LCOS_SLM`
-/

noncomputable section

open Complex

namespace PySLM2

open Profile Lib

/-- The array `slm_state` with its dtype kind (`slm.py:481-485`). -/
structure LcosState where
  kind : Kind
  arr : Tensor ℂ

/-- An `LCOS_SLM` (`slm.py:474-479`): the SLM data and `slm_state`. -/
structure LCOS where
  slm : SLM
  state : LcosState

namespace LCOS

/-- `np.zeros(shape=(Ny, Nx), dtype=complex)` (`slm.py:479, 482`) -/
def zeroState (s : SLM) : LcosState := ⟨.cplx, ⟨.mat s.Ny s.Nx, fun _ _ => 0⟩⟩

/-- `LCOS_SLM.__init__` (`slm.py:477-479`) -/
def new (s : SLM) : LCOS := ⟨s, zeroState s⟩

/-- `reset_slm_state` (`slm.py:481-482`) -/
def reset (l : LCOS) : LCOS := { l with state := zeroState l.slm }

/-- `_state_tensor` (`slm.py:484-485`): `exp(-1j * slm_state)` -/
def stateTensor (st : LcosState) : Tensor ℂ := st.arr.map fun z => cexp (-I * z)

/-- Keyword arguments of `calculate_hologram`; `signal_window` is converted by `profile_to_tensor`
(`slm.py:487-515`). -/
structure Kwargs where
  N : Option ℕ := none
  signalWindow : Option ProfArg := none
  mixingFactor : Option ℝ := none

/-- The keyword arguments forwarded to `_lib` (`slm.py:507-512`); for other methods `signal_window` is
forwarded unconverted and ignored. -/
def forwardKwargs (s : SLM) (h : Heap) (method : String) (kw : Kwargs) : Except PyErr HoloKwargs :=
  if method = "mraf" then
    match kw.signalWindow with
    | none => .error .keyError
    | some w => match s.profileToTensor h w false true with
      | .error e => .error e
      | .ok w => .ok { N := kw.N, signalWindow := some w, mixingFactor := kw.mixingFactor }
  else .ok { N := kw.N, mixingFactor := kw.mixingFactor }

/-- The hologram computed by `calculate_hologram` (`slm.py:504-515`) -/
def hologram (s : SLM) (h : Heap) (inp target : ProfArg) (method : String) (kw : Kwargs)
    (u : ℕ → ℕ → ℝ) : Except PyErr (Tensor ℝ) :=
  match s.profileToTensor h inp true true with
  | .error e => .error e
  | .ok inp => match s.profileToReal h target false with
    | .error e => .error e
    | .ok target => match forwardKwargs s h method kw with
      | .error e => .error e
      | .ok kw => calculateLcosSlmHologram inp target method kw u

/-- `calculate_hologram` (`slm.py:487-515`): the object afterwards and the exception, if any. -/
def calculateHologram (l : LCOS) (h : Heap) (inp target : ProfArg) (method : String) (kw : Kwargs)
    (u : ℕ → ℕ → ℝ) : LCOS × Except PyErr Unit :=
  match hologram l.slm h inp target method kw u with
  | .error e => (l, .error e)
  | .ok t => ({ l with state := ⟨.real, t.map Complex.ofReal⟩ }, .ok ())

end LCOS

end PySLM2
