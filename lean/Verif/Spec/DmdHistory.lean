import Verif.Spec.Dmd

/-!
# Specification vocabulary for histories of DMD updates
-/

noncomputable section

namespace PySLM2

open Lib

/-- Does the array have a float dtype? -/
def Lib.StateArr.isFloat : StateArr → Bool
  | .bool _ => false
  | .float _ => true

/-- An entry of a state array with its dtype. -/
def Lib.StateArr.entry : StateArr → ℕ → ℕ → Bool ⊕ XR
  | .bool t, a, b => .inl (t.get a b)
  | .float t, a, b => .inr (t.get a b)

namespace DMD

/-- For the calls that assign the whole array: is it the grey-scale method? -/
def wholeUpdate : Call → Option Bool
  | .off => some false
  | .on => some false
  | .setGrating _ _ _ _ method _ _ => some (method = "ideal")
  | .calculate _ _ _ method _ _ _ => some (method = "ideal")
  | .patch .. => none

/-- The calls of the history all return normally. -/
def Succeeds (d : DMD) : StateArr → List Call → Prop
  | _, [] => True
  | cur, c :: cs => (d.call cur c).result = .ok () ∧ Succeeds d ((d.call cur c).state cur) cs

/-- Euclidean distance between two points given in pixel indices. -/
def dist (i j i' j' : ℝ) : ℝ := Real.sqrt ((i - i') ^ 2 + (j - j') ^ 2)

/-- One of the four documented methods. -/
def Known (method : String) : Prop :=
  method = "ideal" ∨ method = "simple" ∨ method = "random" ∨ method = "ifta"

/-- The arguments of a `circular_patch` call. -/
structure PatchArgs where
  h : Profile.Heap
  i : ℝ
  j : ℝ
  amp : ProfArg
  phaseIn : ProfArg
  phaseOut : ProfArg
  diameter : ℝ
  method : String
  kw : Kwargs
  draw : ℕ → ℕ → ℝ

/-- The call. -/
def PatchArgs.call (P : PatchArgs) : Call :=
  .patch P.h P.i P.j P.amp P.phaseIn P.phaseOut P.diameter P.method P.kw P.draw

/-- Is mirror `(a, b)` in the disc of the patch? -/
def PatchArgs.covers (P : PatchArgs) (a b : ℕ) : Prop := dist a b P.i P.j < |P.diameter| / 2

/-- Is the call a `circular_patch`? -/
def Call.isPatch : Call → Prop
  | .patch .. => True
  | _ => False

/-- The call does not use the grey-scale method. -/
def Call.binary : Call → Prop
  | .off => True
  | .on => True
  | .setGrating _ _ _ _ method _ _ => method ≠ "ideal"
  | .patch _ _ _ _ _ _ _ method _ _ => method ≠ "ideal"
  | .calculate _ _ _ method _ _ _ => method ≠ "ideal"

/-- What mirror `(a, b)` of a new DMD shows after the call, if the call wrote a boolean array. -/
def shows (d : DMD) (c : Call) (a b : ℕ) : Option Bool :=
  match (d.call d.initialState c).effect with
  | .none => none
  | .rebind (.bool t) => some (t.get a b)
  | .rebind (.float _) => none
  | .inplace (.bool t) => some (t.get a b)
  | .inplace (.float _) => none

/-- What a call writes to mirror `(a, b)`: the switches write off and on, a patch writes the grating with the same arguments, in its disc; the other
calls write the whole array; calls that fail write nothing. -/
def writes (d : DMD) (a b : ℕ) : Call → Option Bool
  | .off => some false
  | .on => some true
  | .patch h i j amp pin pout dia method kw draw =>
    open Classical in
    if dist a b i j < |dia| / 2 then d.shows (.setGrating h amp pin pout method kw draw) a b else none
  | c => d.shows c a b

end DMD

end PySLM2
