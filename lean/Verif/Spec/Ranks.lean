import Verif.Model.Ranks

/-!
# Shapes of arrays of any rank: specification
-/

namespace PySLM2.Spec

open Ranks (Dims)

/-- An array of shape `a` can be used, by repeating it along axes, where an array of shape `b` is expected: it has at most as many axes, and
each of its axes, counted from the last, has length 1 or the length of that axis of `b`.  (Shapes are given last axis first.) -/
def Fits (a b : Dims) : Prop := a.length ≤ b.length ∧ ∀ k < a.length, a.getD k 1 = 1 ∨ a.getD k 1 = b.getD k 1

/-- `c` is the smallest shape that every shape of the list fits. -/
def Least (as : List Dims) (c : Dims) : Prop := (∀ a ∈ as, Fits a c) ∧ ∀ c', (∀ a ∈ as, Fits a c') → Fits c c'

/-- The shapes of the arrays that a call combines with the grid of the device (`signal_window` and, for `set_dmd_grating_state` and
`circular_patch`, `input_profile` of method `ifta` not included). -/
def args : Ranks.Call → List Dims
  | .off => []
  | .on => []
  | .setGrating amp pin pout _ _ _ => [amp, pin, pout]
  | .patch _ amp pin pout _ _ _ => [amp, pin, pout]
  | .calculate inp target _ window _ => inp :: target :: window.toList

/-- Does the call replace the whole array if it succeeds? -/
def Replaces : Ranks.Call → Prop
  | .patch .. => False
  | _ => True

/-- The shape of a scalar or a matrix, last axis first. -/
def dims : Shape → Dims
  | .scalar => []
  | .mat m n => [n, m]

/-- The shapes of the arguments of a call with scalars, matrices and profiles, after their conversion to tensors (which must succeed). -/
inductive Abstracts (d : DMD) : DMD.Call → Ranks.Call → Prop
  | off : Abstracts d .off .off
  | on : Abstracts d .on .on
  | setGrating {h : Profile.Heap} {amp pin pout : ProfArg} {A P Q : Tensor ℝ} (hA : d.slm.profileToReal h amp true = .ok A)
      (hP : d.slm.profileToReal h pin true = .ok P) (hQ : d.slm.profileToReal h pout true = .ok Q) (method : String) (kw : Lib.Kwargs)
      (draw : ℕ → ℕ → ℝ) :
      Abstracts d (.setGrating h amp pin pout method kw draw) (.setGrating (dims A.shape) (dims P.shape) (dims Q.shape) method
        (kw.inputProfile.map fun t => dims t.shape) (kw.signalWindow.map fun t => dims t.shape))
  | patch {h : Profile.Heap} {amp pin pout : ProfArg} {A P Q : Tensor ℝ} (hA : d.slm.profileToReal h amp true = .ok A)
      (hP : d.slm.profileToReal h pin true = .ok P) (hQ : d.slm.profileToReal h pout true = .ok Q) (i j dia : ℝ) (k : ℕ) (method : String)
      (kw : Lib.Kwargs) (draw : ℕ → ℕ → ℝ) :
      Abstracts d (.patch h i j amp pin pout dia method kw draw) (.patch k (dims A.shape) (dims P.shape) (dims Q.shape) method
        (kw.inputProfile.map fun t => dims t.shape) (kw.signalWindow.map fun t => dims t.shape))
  | calculate {h : Profile.Heap} {inp target : ProfArg} {window : Option ProfArg} {I T : Tensor ℂ} {W S : Option (Tensor ℂ)}
      (hI : d.slm.profileToTensor h inp true true = .ok I) (hT : d.slm.profileToTensor h target false true = .ok T)
      (hW : d.windowTensor h window = .ok W) (kw : DMD.CalcKwargs)
      (hS : match kw.signalWindow, S with
        | none, none => True
        | some a, some t => d.slm.profileToTensor h a false true = .ok t
        | _, _ => False) (method : String) (draw : ℕ → ℕ → ℝ) :
      Abstracts d (.calculate h inp target method window kw draw) (.calculate (dims I.shape) (dims T.shape) method
        (W.map fun t => dims t.shape) (S.map fun t => dims t.shape))

end PySLM2.Spec
