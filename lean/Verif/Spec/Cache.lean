import Verif.Model.Cache

/-!
# The grid methods without caches

The program with every `@lru_cache()` line deleted.
-/

namespace PySLM2.Spec

open Cache

variable {V : Type}

/-- What the method returns for this object at this precision: it may raise before the precision is read (outer `error`)
or afterwards (inner `error`). -/
def gridValue (B : Bodies V) (m : Method) (obj : ℕ) : Except PyErr (Backend.DType → Except PyErr V) :=
  match m with
  | .pixel => .ok fun d => .ok (B.pixel obj d)
  | .fourier => .ok fun d => .ok (B.convert obj (B.pixel obj d))
  | .image => (B.image obj).map fun f d => .ok (f d)
  | .paddedImage => (B.paddedImage obj).map fun f d => .ok (f d)
  | .paddedFourier => .ok (B.paddedFourier obj)

/-- One call of the program without caches: a grid query always computes, reading the precision. -/
def stepUncached (B : Bodies V) (b : Backend.State) : Cache.Op → Backend.State × Out V
  | .backend op => let r := Backend.step b op; (r.1, .backend r.2)
  | .grid m obj =>
    match gridValue B m obj with
    | .error e => (b, .grid (.error e))
    | .ok f => ((Backend.getDtype b).1, .grid (f (Backend.getDtype b).2))

/-- A history of the program without caches. -/
def runUncached (B : Bodies V) (b : Backend.State) : List Cache.Op → Backend.State × List (Out V)
  | [] => (b, [])
  | op :: ops =>
    let r := stepUncached B b op
    let rest := runUncached B r.1 ops
    (rest.1, r.2 :: rest.2)

end PySLM2.Spec
