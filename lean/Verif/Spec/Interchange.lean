import Verif.Spec.Dmd
import Verif.Model.Simulation

/-!
# Calls that differ only in how their profile arguments are given
-/

noncomputable section

namespace PySLM2

open Lib Profile

/-- A relation between profile arguments; the first argument says whether they are used in the Fourier plane. -/
abbrev ArgRel := Bool → Heap → ProfArg → ProfArg → Prop

/-- Both omitted, or both given and related. -/
def OptRel (R : ProfArg → ProfArg → Prop) : Option ProfArg → Option ProfArg → Prop
  | none, none => True
  | some a, some a' => R a a'
  | _, _ => False

/-- The same call of a method of a `DMD`, up to the relation between profile arguments.  The input, the window and the
arguments of gratings are in the Fourier plane, the target and the signal window in the image plane. -/
inductive DMD.SameCall (R : ArgRel) : DMD.Call → DMD.Call → Prop
  | off : SameCall R .off .off
  | on : SameCall R .on .on
  | setGrating {h a b c a' b' c'} (method kw draw) (ha : R true h a a') (hb : R true h b b') (hc : R true h c c') :
      SameCall R (.setGrating h a b c method kw draw) (.setGrating h a' b' c' method kw draw)
  | patch {h a b c a' b' c'} (i j dia method kw draw) (ha : R true h a a') (hb : R true h b b') (hc : R true h c c') :
      SameCall R (.patch h i j a b c dia method kw draw) (.patch h i j a' b' c' dia method kw draw)
  | calculate {h a b a' b' w w' s s'} (method : String) (r : Option ℝ) (N : Option ℕ) (sc : Option ℝ) (draw)
      (ha : R true h a a') (hb : R false h b b') (hw : OptRel (R true h) w w') (hs : OptRel (R false h) s s') :
      SameCall R (.calculate h a b method w ⟨r, N, sc, s⟩ draw) (.calculate h a' b' method w' ⟨r, N, sc, s'⟩ draw)

/-- What a call of a method of a `DMD` returns: `eta` for `calculate_dmd_state`. -/
def DMD.returns (d : DMD) (cur : StateArr) : DMD.Call → Except PyErr (Option XR)
  | .calculate h a b method w kw draw => (d.calculateDmdState h a b method w kw draw).result.map some
  | c => (d.call cur c).result.map fun _ => none

/-- `a'` is `a`, or `a` is a profile and `a'` is a tensor or numpy array with the samples of it that
`profile_to_tensor(a, complex=True)` takes in that plane. -/
inductive SampledAs (s : SLM) : ArgRel
  | same (p h a) : SampledAs s p h a a
  | tensor {p h f t} (k) (ht : s.profileToTensor h (.prof f) p true = .ok t) : SampledAs s p h (.prof f) (.tensor k t)
  | ndarray {p h f t} (k) (ht : s.profileToTensor h (.prof f) p true = .ok t) : SampledAs s p h (.prof f) (.ndarray k t)

/-- The argument in other units: profiles are magnified by `c` in both directions, arrays and numbers are the same. -/
inductive Rescaled (c : ℝ) : ArgRel
  | prof (p h f) : Rescaled c p h (.prof f) (.prof (.rescaleY (.rescaleX f c) c))
  | tensor (p h k t) : Rescaled c p h (.tensor k t) (.tensor k t)
  | ndarray (p h k t) : Rescaled c p h (.ndarray k t) (.ndarray k t)
  | num (p h z) : Rescaled c p h (.num z) (.num z)

/-- The same device with its lengths in other units, `c` of which make up an old one. -/
def SLM.inUnits (s : SLM) (c : ℝ) : SLM := ⟨c * s.wavelength, c * s.focal, s.Nx, s.Ny, c * s.ps⟩

/-- The same simulation (of a DMD or LCOS SLM) with the lengths of the device in other units; `periodicity` is in pixels
and stays, the states are the same arrays. -/
inductive Sim.SameIn (c : ℝ) : Device → Device → Prop
  | dmd (s : SLM) (periodicity theta neg st) :
      SameIn c (.dmd (DMD.new s periodicity theta neg) st) (.dmd (DMD.new (s.inUnits c) periodicity theta neg) st)
  | lcos (s st) : SameIn c (.lcos ⟨s, st⟩) (.lcos ⟨s.inUnits c, st⟩)

end PySLM2
