import Verif.Model.Traced
import Verif.Spec.Attributes

/-!
# Programs with compiled profiles
-/

noncomputable section

namespace PySLM2.Traced

open Profile

/-- What a program does: make profiles and assign attributes, or call a profile. -/
inductive Act
  | act (a : Profile.Act)
  | call (k : ℕ) (x y : Tensor ℝ)

/-- The profiles with their variables, and the graphs kept so far. -/
structure World where
  prof : AWorld
  table : Table

/-- One statement. -/
def World.step (w : World) : Act → World
  | .act a => { w with prof := w.prof.step a }
  | .call k x y => match w.prof.objs[k]? with
    | some f => { w with table := (Traced.call w.table w.prof.heap f x y).2 }
    | none => w

/-- A program. -/
def World.run (w : World) (as : List Act) : World := as.foldl World.step w

/-- The start of a program: no profiles, no graphs. -/
def World.start (h : Heap) : World := ⟨.start h, fun _ _ => none⟩

/-- What calling object `k` gives now. -/
def World.result (w : World) (k : ℕ) (x y : Tensor ℝ) : Except PyErr (Tensor (Option ℂ)) :=
  match w.prof.objs[k]? with
  | some f => (Traced.call w.table w.prof.heap f x y).1
  | none => .error .outsideModel

end PySLM2.Traced
