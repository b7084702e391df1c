import Verif.Model.Threads
import Verif.Spec.Backend

/-!
# What threads are meant to see

No shared state, no caches, no schedule: one precision for all, grids computed anew each time.
-/

namespace PySLM2.Threads.Spec

open Backend Cache

variable {V A : Type}

/-- The result of the body of a grid method when every read of the precision gives `d`. -/
def bodyValue (d : DType) : Body V → Except PyErr V
  | .ret r => r
  | .read k => bodyValue d (k d)

/-- The grid of an object at precision `d`. -/
def gridValue (C : Code V) (d : DType) (m : Method) (obj : ℕ) : Except PyErr V :=
  if m = .fourier then (bodyValue d (C.body .pixel obj)).map (C.convert obj) else bodyValue d (C.body m obj)

/-- The acceptable answers of a call when the precision is `d` and can no longer be assigned, and `S` are the values
`fft_backend` may have. -/
def Answers (C : Code V) (d : DType) (S : Set ℤ) : Cache.Op → Cache.Out V → Prop
  | .backend .readDtype, o => o = .backend (.dtype d)
  | .backend .readComplex, o => o = .backend (.cdtype (Backend.Spec.complexOf d))
  | .backend .readInt, o => o = .backend (.idtype (Backend.Spec.intOf d))
  | .backend .readFft, o => ∃ v ∈ S, o = .backend (.fft v)
  | .backend (.setDtype _), o => o = .backend (.raised .assertionError)
  | .backend (.setFft _), o => o = .backend .done
  | .grid m obj, o => o = .grid (gridValue C d m obj)

/-- The program can end with `a` when it gets acceptable answers. -/
inductive Gives (C : Code V) (d : DType) (S : Set ℤ) : Prog V A → A → Prop
  | done (a : A) : Gives C d S (.done a) a
  | call {op : Cache.Op} {k : Cache.Out V → Prog V A} {o : Cache.Out V} {a : A} :
      Answers C d S op o → Gives C d S (k o) a → Gives C d S (.call op k) a

/-- All calls the program may make, whatever the answers, have the property `P`. -/
def Makes (P : Cache.Op → Prop) : Prog V A → Prop
  | .done _ => True
  | .call op k => P op ∧ ∀ o, Makes P (k o)

/-- The call does not assign the precision. -/
def KeepsPrecision (op : Cache.Op) : Prop := ∀ v, op ≠ .backend (.setDtype v)

/-- The call assigns no value outside `S` to `fft_backend`. -/
def Selects (S : Set ℤ) (op : Cache.Op) : Prop := ∀ v, op = .backend (.setFft v) → v ∈ S

end PySLM2.Threads.Spec
