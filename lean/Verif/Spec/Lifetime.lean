import Verif.Model.Lifetime

/-!
# Variables that hold devices and simulations directly

A program as its author thinks of it: a variable holds a device or a simulation (not an address), nothing is freed,
and a grid is computed from the attributes whenever it is asked for.
-/

noncomputable section

namespace PySLM2.Spec

open Backend Cache Lifetime

variable {V : Type}

/-- What a variable holds. -/
inductive Val
  | slm (s : SLM)
  | sim (s : SLM) (px py : ℤ)

/-- The grid of a device or simulation, as a function of the precision, or an exception before the precision is read. -/
def gridOf (G : Grids V) : Method → Val → Option (Except PyErr (DType → Except PyErr V))
  | .pixel, .slm s => some (.ok fun d => .ok (G.pixel s d))
  | .fourier, .slm s => some (.ok fun d => .ok (G.convert s (G.pixel s d)))
  | .image, .slm s => some ((G.image s).map fun f d => .ok (f d))
  | .paddedImage, .sim s px py => some ((G.paddedImage s px py).map fun f d => .ok (f d))
  | .paddedFourier, .sim s px py => some (.ok (G.paddedFourier s px py))
  | _, _ => none

/-- One statement. -/
def ideal (G : Grids V) (b : Backend.State) (vars : ℕ → Option Val) :
    Lifetime.Op → (Backend.State × (ℕ → Option Val)) × Lifetime.Out V
  | .newSlm x s => ((b, Function.update vars x (some (.slm s))), .done)
  | .newSim x y px py =>
    match vars y with
    | some (.slm s) => ((b, Function.update vars x (some (.sim s px py))), .done)
    | some (.sim _ _ _) => ((b, vars), .raised .typeError)
    | none => ((b, vars), .raised .outsideModel)
  | .copy x y =>
    match vars y with
    | some v => ((b, Function.update vars x (some v)), .done)
    | none => ((b, vars), .raised .outsideModel)
  | .del x =>
    match vars x with
    | some _ => ((b, Function.update vars x none), .done)
    | none => ((b, vars), .raised .outsideModel)
  | .grid m x =>
    match (vars x).bind (gridOf G m) with
    | none => ((b, vars), .raised .outsideModel)
    | some (.error e) => ((b, vars), .grid (.error e))
    | some (.ok f) => (((getDtype b).1, vars), .grid (f (getDtype b).2))
  | .backend op => (((Backend.step b op).1, vars), .backend (Backend.step b op).2)

/-- A program: what it sees. -/
def idealRun (G : Grids V) (b : Backend.State) (vars : ℕ → Option Val) : List Lifetime.Op → List (Lifetime.Out V)
  | [] => []
  | op :: ops => (ideal G b vars op).2 :: idealRun G (ideal G b vars op).1.1 (ideal G b vars op).1.2 ops

end PySLM2.Spec
