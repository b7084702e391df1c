import Verif.Model.Precision

/-!
# What the dtype of a profile should be
-/

namespace PySLM2.Precision

/-- The plain `FunctionProfile`, which has no values, occurs in it. -/
def TProf.hasBase : TProf → Bool
  | .base => true
  | .bin f g => f.hasBase || g.hasBase
  | .powNum f _ | .move _ f | .rescaleX _ f | .rescaleY _ f | .asComplex f => f.hasBase
  | _ => false

/-- The values of the profile are complex numbers: a complex constituent occurs in it. -/
def TProf.complexValued : TProf → Bool
  | .laguerre _ | .asComplex _ => true
  | .const v => v == .c64 || v == .c128
  | .bin f g => f.complexValued || g.complexValued
  | .powNum f c => c || f.complexValued
  | .move _ f | .rescaleX _ f | .rescaleY _ f => f.complexValued
  | _ => false

/-- No operator in it has one real and one complex operand. -/
def TProf.unmixed : TProf → Bool
  | .bin f g => f.unmixed && g.unmixed && (f.complexValued == g.complexValued)
  | .powNum f _ | .move _ f | .rescaleX _ f | .rescaleY _ f | .asComplex f => f.unmixed
  | _ => true

/-- The precision was assigned as `tf.float32` or `tf.float64` (or not at all). -/
def Proper (b : Backend.State) : Prop := b.dtype = .float32 ∨ b.dtype = .float64

/-- Every assignment of a precision in the program uses `tf.float32` or `tf.float64`. -/
def ProperActs (acts : List Act) : Prop :=
  ∀ v, Act.backend (.setDtype v) ∈ acts → ∀ name, v ≠ .alias32 name ∧ v ≠ .alias64 name

end PySLM2.Precision
