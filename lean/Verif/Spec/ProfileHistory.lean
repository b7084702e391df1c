import Verif.Spec.Profile

/-!
# Histories of profile objects

Programs that construct profiles, compose and transform them, assign their parameters and sample them.
-/

noncomputable section

open Complex

namespace PySLM2.Profile

/-- Constructor calls. -/
inductive New
  | const (c : PyNum)
  | hg (x0 y0 a w : ℝ) (n m : ℕ)
  | lg (x0 y0 a w : ℝ) (l : ℤ) (p : ℕ)
  | sg (x0 y0 a w p : ℝ)
  | zernike (a radius : ℝ) (n m : ℤ) (normalize extrapolate : Bool)
  | rect (x0 y0 wx wy : ℝ)
  | circ (x0 y0 r : ℝ)

/-- The constructor of the class. -/
def New.run (h : Heap) : New → Except PyErr (Heap × Prof)
  | .const c => .ok (newConstant h c)
  | .hg x0 y0 a w n m => .ok (newHermiteGaussian h x0 y0 a w n m)
  | .lg x0 y0 a w l p => .ok (newLaguerreGaussian h x0 y0 a w l p)
  | .sg x0 y0 a w p => .ok (newSuperGaussian h x0 y0 a w p)
  | .zernike a radius n m nrm ex => newZernike h a radius n m nrm ex
  | .rect x0 y0 wx wy => .ok (newRect h x0 y0 wx wy)
  | .circ x0 y0 r => .ok (newCirc h x0 y0 r)

/-- An operand: an object created earlier, or a number. -/
inductive Operand
  | obj (k : ℕ)
  | num (c : PyNum)

/-- The geometric transformations. -/
inductive Transform
  | rotate (t : ℝ) | shift (dx dy : ℝ) | rescaleX (m : ℝ) | rescaleY (m : ℝ)

/-- The transformed profile. -/
def Transform.apply (f : Prof) : Transform → Prof
  | .rotate t => .rotate f t
  | .shift dx dy => .shift f dx dy
  | .rescaleX m => .rescaleX f m
  | .rescaleY m => .rescaleY f m

/-- Statements of a program; objects are numbered in the order of their creation. -/
inductive Cmd
  /-- construct a profile -/
  | new (n : New)
  /-- `a op b` -/
  | binary (op : PyOp) (a b : Operand)
  /-- `-f` -/
  | neg (k : ℕ)
  /-- `f.rotate(...)`, ... -/
  | transform (tr : Transform) (k : ℕ)
  /-- `f.as_complex_profile()` -/
  | asComplex (k : ℕ)
  /-- assign parameter number `param` of object `k` -/
  | set (k param : ℕ) (v : PyNum)
  /-- evaluate object `k` and keep the values -/
  | sample (k : ℕ)

/-- The variables, the objects created so far, the values sampled so far. -/
structure World where
  heap : Heap
  objs : List Prof
  samples : List (ℝ → ℝ → Option ℂ)

/-- The operand as a python value; objects that do not exist are not modelled. -/
def World.operand (w : World) : Operand → Option PyVal
  | .obj k => w.objs[k]?.map PyVal.prof
  | .num c => some (.num c)

/-- Add a new object unless there was an exception. -/
def World.push (w : World) : Except PyErr Prof → World
  | .ok f => { w with objs := w.objs ++ [f] }
  | .error _ => w

/-- Execute one statement.  Exceptions are caught by the program and leave everything as it was. -/
def World.exec (w : World) : Cmd → World
  | .new n => match n.run w.heap with
    | .ok r => { w with heap := r.1, objs := w.objs ++ [r.2] }
    | .error _ => w
  | .binary op a b => match w.operand a, w.operand b with
    | some a, some b => w.push (pyBinary op a b)
    | _, _ => w
  | .neg k => match w.objs[k]? with
    | some f => w.push (Profile.neg f)
    | none => w
  | .transform tr k => match w.objs[k]? with
    | some f => w.push (.ok (tr.apply f))
    | none => w
  | .asComplex k => match w.objs[k]? with
    | some f => w.push (.ok (.asComplex f))
    | none => w
  | .set k param v => match w.objs[k]? with
    | some f => match (params f)[param]? with
      | some p => match assign w.heap p v with
        | .ok h => { w with heap := h }
        | .error _ => w
      | none => w
    | none => w
  | .sample k => match w.objs[k]? with
    | some f => { w with samples := w.samples ++ [eval w.heap f] }
    | none => w

/-- Execute a program. -/
def World.run (w : World) (cs : List Cmd) : World := cs.foldl World.exec w

/-- The value of object `r` at a point. -/
def World.value (w : World) (r : ℕ) (x y : ℝ) : Option ℂ := (w.objs[r]?).bind fun f => eval w.heap f x y

/-- The objects an operand refers to. -/
def Operand.deps (d : List (Set ℕ)) : Operand → Set ℕ
  | .obj k => d.getD k ∅
  | .num _ => ∅

/-- The objects the object created by a statement contains: itself, if it is constructed; what its operands
contain, if it is composed.  `d` lists this for the objects created before. -/
def Cmd.deps (d : List (Set ℕ)) : Cmd → Set ℕ
  | .new _ => {d.length}
  | .binary _ a b => a.deps d ∪ b.deps d
  | .neg k | .transform _ k | .asComplex k => d.getD k ∅
  | .set _ _ _ | .sample _ => ∅

/-- Keep the list up to date: a statement that created an object adds an entry. -/
def World.depsStep (s : World × List (Set ℕ)) (c : Cmd) : World × List (Set ℕ) :=
  (s.1.exec c, if (s.1.exec c).objs.length = s.1.objs.length then s.2 else s.2 ++ [c.deps s.2])

/-- The world after a program and, for each object, the constructed objects it contains. -/
def World.runDeps (h : Heap) (cs : List Cmd) : World × List (Set ℕ) :=
  cs.foldl World.depsStep (⟨h, [], []⟩, [])

/-- The current value of parameter number `param` of object `r`, as the property `f.x0`, ... returns it. -/
def World.param (w : World) (r param : ℕ) : Option ℂ :=
  (w.objs[r]?).bind fun f => ((params f)[param]?).map (getParam w.heap)

/-- The statement is not an assignment of this parameter. -/
def Cmd.Independent (k param : ℕ) : Cmd → Prop
  | .set k' param' _ => (k', param') ≠ (k, param)
  | _ => True

end PySLM2.Profile
