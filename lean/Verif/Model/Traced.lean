import Verif.Model.Profile

/-!
# Compiled profiles (`/repo/pySLM2/profile.py`, `/repo/pySLM2/window.py`)

`_func` of every profile is a `tf.function`: the first call with arguments of given shapes runs the python code once with symbolic tensors and
keeps the graph it built; later calls with arguments of these shapes run the graph only.  Variables are captured by
reference, python numbers and the data of the object (orders, coefficients) are part of the graph.

Simplifications: the dtype is left out of the key of the graphs (it is fixed before the first call, C143); an object is identified with its expression
tree, so that two objects composed in the same way from the same parts share their graphs, which would be equal anyway;
the branches on the indices of `Zernike` are taken when the graph is built.
-/

noncomputable section

namespace PySLM2.Traced

open Profile

/-- The shapes of the arguments `x`, `y` (`profile.py:14-17`). -/
structure Sig where
  x : Shape
  y : Shape
  deriving DecidableEq

/-- The operations of a graph, with values `none` where a result is not finite (`profile.py:19-36, 104-170, 176-178, 226-232, 287-300,
330-337, 407-430`, `window.py:15-18, 58-60`). -/
inductive Graph
  /-- the arguments -/
  | argX | argY
  /-- read a variable, captured by reference -/
  | readRe (cell : ℕ) | readCx (cell : ℕ)
  /-- a constant -/
  | const (c : ℂ)
  | neg (g : Graph) | sqrt (g : Graph) | exp (g : Graph) | cos (g : Graph) | sin (g : Graph) | abs (g : Graph)
  | npow (g : Graph) (n : ℕ)
  | add (a b : Graph) | sub (a b : Graph) | mul (a b : Graph) | div (a b : Graph) | pow (k : Kind) (a b : Graph)
  | atan2 (a b : Graph)
  /-- comparisons, as 0 or 1 -/
  | lt (a b : Graph) | le (a b : Graph)
  /-- `tf.where(c, a, b)` -/
  | select (c a b : Graph)
  | polyval (coef : List ℝ) (g : Graph)
  /-- call the graph of another `tf.function` -/
  | call (inner x y : Graph)

/-- A real function of one argument. -/
def un (f : ℝ → ℝ) (a : Option ℂ) : Option ℂ := a.map fun v => ((f v.re : ℝ) : ℂ)

/-- A function of two arguments. -/
def bin (f : ℂ → ℂ → Option ℂ) (a b : Option ℂ) : Option ℂ := a.bind fun v => b.bind fun w => f v w

open Classical in
/-- Run a graph at one point, with the variables as they are now (`profile.py:17`, `slm.py:158`). -/
def Graph.run (h : Heap) : Graph → ℝ → ℝ → Option ℂ
  | .argX, x, _ => some (x : ℂ)
  | .argY, _, y => some (y : ℂ)
  | .readRe i, _, _ => some (h.re i : ℂ)
  | .readCx i, _, _ => some (h.cx i)
  | .const c, _, _ => some c
  | .neg g, x, y => (g.run h x y).map fun v => -v
  | .sqrt g, x, y => un Real.sqrt (g.run h x y)
  | .exp g, x, y => (g.run h x y).map Complex.exp
  | .cos g, x, y => un Real.cos (g.run h x y)
  | .sin g, x, y => un Real.sin (g.run h x y)
  | .abs g, x, y => un (fun v => |v|) (g.run h x y)
  | .npow g n, x, y => (g.run h x y).map fun v => v ^ n
  | .add a b, x, y => bin (fun v w => some (v + w)) (a.run h x y) (b.run h x y)
  | .sub a b, x, y => bin (fun v w => some (v - w)) (a.run h x y) (b.run h x y)
  | .mul a b, x, y => bin (fun v w => some (v * w)) (a.run h x y) (b.run h x y)
  | .div a b, x, y => bin (fun v w => if w = 0 then none else some (v / w)) (a.run h x y) (b.run h x y)
  | .pow k a b, x, y => bin (fun v w => applyAttr .pow k v w) (a.run h x y) (b.run h x y)
  | .atan2 a b, x, y => bin (fun v w => some ((Profile.atan2 v.re w.re : ℝ) : ℂ)) (a.run h x y) (b.run h x y)
  | .lt a b, x, y => bin (fun v w => some (if v.re < w.re then 1 else 0)) (a.run h x y) (b.run h x y)
  | .le a b, x, y => bin (fun v w => some (if v.re ≤ w.re then 1 else 0)) (a.run h x y) (b.run h x y)
  | .select c a b, x, y => (c.run h x y).bind fun v => if v = 1 then a.run h x y else b.run h x y
  | .polyval coef g, x, y => un (Profile.polyval coef) (g.run h x y)
  | .call inner gx gy, x, y => (gx.run h x y).bind fun v => (gy.run h x y).bind fun w => inner.run h v.re w.re

/-- `HermiteGaussian._func` with symbolic arguments (`profile.py:226-232`) -/
def hgGraph (x0 y0 a w n m : ℕ) : Graph :=
  let xNorm := Graph.div (.sub .argX (.readRe x0)) (.readRe w)
  let yNorm := Graph.div (.sub .argY (.readRe y0)) (.readRe w)
  let hn := Graph.polyval (hermiteCoef n) (.mul (.const (Real.sqrt 2)) xNorm)
  let hm := Graph.polyval (hermiteCoef m) (.mul (.const (Real.sqrt 2)) yNorm)
  .mul (.mul (.mul (.readRe a) hn) hm) (.exp (.neg (.add (.npow xNorm 2) (.npow yNorm 2))))

/-- `LaguerreGaussian._func` with symbolic arguments (`profile.py:286-300`) -/
def lgGraph (x0 y0 a w : ℕ) (l : ℤ) (p : ℕ) : Graph :=
  let dx := Graph.sub .argX (.readRe x0)
  let dy := Graph.sub .argY (.readRe y0)
  let r2 := Graph.add (.npow dx 2) (.npow dy 2)
  let r := Graph.sqrt r2
  let phi := Graph.atan2 dy dx
  let lpl := Graph.polyval (genlaguerreCoef p l.natAbs) (.div (.mul (.const 2) r2) (.npow (.readRe w) 2))
  let amplitude := Graph.mul (.mul (.mul (.readRe a) (.npow (.div (.mul (.const (Real.sqrt 2)) r) (.readRe w)) l.natAbs))
    (.exp (.div (.neg r2) (.npow (.readRe w) 2)))) lpl
  let phase := Graph.exp (.mul (.const (-Complex.I * l)) phi)
  .mul amplitude phase

/-- `SuperGaussian._func` with symbolic arguments (`profile.py:330-337`) -/
def sgGraph (x0 y0 a w p : ℕ) : Graph :=
  let xNorm := Graph.div (.sub .argX (.readRe x0)) (.readRe w)
  let yNorm := Graph.div (.sub .argY (.readRe y0)) (.readRe w)
  .mul (.readRe a) (.exp (.neg (.pow .real (.add (.npow xNorm 2) (.npow yNorm 2)) (.readRe p))))

/-- `Zernike._func` with symbolic arguments (`profile.py:407-430`) -/
def zernikeGraph (a : ℕ) (radius : ℝ) (n m : ℤ) (coef : List ℝ) (norm : Option ℝ) (extrapolate : Bool) : Graph :=
  let r := Graph.sqrt (.add (.npow .argX 2) (.npow .argY 2))
  let rho := Graph.div r (.const radius)
  let zUn :=
    if n = 0 ∧ m = 0 then Graph.mul (.readRe a) (.const 1)
    else
      let phi := Graph.atan2 .argY .argX
      let R := Graph.polyval coef rho
      if m = 0 then .mul (.readRe a) R
      else if m > 0 then .mul (.mul (.readRe a) R) (.cos (.mul (.const m) phi))
      else .mul (.mul (.readRe a) R) (.sin (.mul (.const (-m)) phi))
  let z := match norm with
    | some c => Graph.mul (.const c) zUn
    | none => zUn
  if extrapolate then z else .select (.lt (.const 1) rho) (.const 0) z

/-- `RectangularWindowRectangle._func` with symbolic arguments (`window.py:15-18`) -/
def rectGraph (x0 y0 wx wy : ℕ) : Graph :=
  .mul (.lt (.abs (.sub .argX (.readRe x0))) (.div (.readRe wx) (.const 2)))
    (.lt (.abs (.sub .argY (.readRe y0))) (.div (.readRe wy) (.const 2)))

/-- `RectangularWindowCircular._func` with symbolic arguments (`window.py:58-60`) -/
def circGraph (x0 y0 r : ℕ) : Graph :=
  .le (.add (.npow (.sub .argX (.readRe x0)) 2) (.npow (.sub .argY (.readRe y0)) 2)) (.npow (.readRe r) 2)

/-- The tensor method in a graph (`profile.py:28-33`). -/
def attrGraph (attr : Attr) (k : Kind) (a b : Graph) : Graph :=
  match attr with
  | .add => .add a b
  | .radd => .add b a
  | .sub => .sub a b
  | .mul => .mul a b
  | .rmul => .mul b a
  | .truediv => .div a b
  | .pow => .pow k a b

/-- The graphs kept so far, with the shapes of their results (tensorflow; `profile.py:10, 36, 106, 132, 141, 150, 168, 176, 226, 286, 330, 407`,
`window.py:15, 58`). -/
abbrev Table := Prof → Sig → Option (Graph × Shape)

open Classical in
/-- Keep a graph (tensorflow; `profile.py:36`). -/
def Table.set (t : Table) (f : Prof) (s : Sig) (e : Graph × Shape) : Table :=
  fun f' s' => if f' = f ∧ s' = s then some e else t f' s'

/-- A call of a `tf.function`: look up the graph for these shapes; without one, run the python code with symbolic tensors and keep the
graph, unless this raised (tensorflow; `profile.py:36`). -/
def lookupOr (t : Table) (f : Prof) (s : Sig) (mk : Table → Except PyErr (Graph × Shape) × Table) :
    Except PyErr (Graph × Shape) × Table :=
  match t f s with
  | some e => (.ok e, t)
  | none => match mk t with
    | (.ok e, t') => (.ok e, t'.set f s e)
    | (.error e, t') => (.error e, t')

/-- The python code of a profile whose values depend on both coordinates: incompatible shapes raise (`profile.py:226-232, 287-300, 330-337,
407-430`, `window.py:15-18, 58-60`). -/
def leaf (s : Sig) (g : Graph) (t : Table) : Except PyErr (Graph × Shape) × Table :=
  match bcast s.x s.y with
  | some sh => (.ok (g, sh), t)
  | none => (.error .tensorflow, t)

/-- The graph of `profile._func` for arguments of these shapes, made now or earlier (`profile.py:19-36, 104-170, 176-178, 226-232,
286-300, 330-337, 407-430`, `window.py:15-18, 58-60`).  Composed profiles call `_func` of their parts, which keep graphs too. -/
def concrete : Prof → Sig → Table → Except PyErr (Graph × Shape) × Table
  | .const c isC, s, t => lookupOr t (.const c isC) s fun t => (.ok (if isC then .readCx c else .readRe c, .scalar), t)
  | .lit c, s, t => lookupOr t (.lit c) s fun t => (.ok (.const c.val, .scalar), t)
  | .hg x0 y0 a w n m, s, t => lookupOr t (.hg x0 y0 a w n m) s (leaf s (hgGraph x0 y0 a w n m))
  | .lg x0 y0 a w l p, s, t => lookupOr t (.lg x0 y0 a w l p) s (leaf s (lgGraph x0 y0 a w l p))
  | .sg x0 y0 a w p, s, t => lookupOr t (.sg x0 y0 a w p) s (leaf s (sgGraph x0 y0 a w p))
  | .zernike a radius n m coef norm ex, s, t =>
    lookupOr t (.zernike a radius n m coef norm ex) s (leaf s (zernikeGraph a radius n m coef norm ex))
  | .rect x0 y0 wx wy, s, t => lookupOr t (.rect x0 y0 wx wy) s (leaf s (rectGraph x0 y0 wx wy))
  | .circ x0 y0 r, s, t => lookupOr t (.circ x0 y0 r) s (leaf s (circGraph x0 y0 r))
  | .bin attr f g, s, t => lookupOr t (.bin attr f g) s fun t =>
    match concrete f s t with
    | (.error e, t1) => (.error e, t1)
    | (.ok (g1, s1), t1) => match concrete g s t1 with
      | (.error e, t2) => (.error e, t2)
      | (.ok (g2, s2), t2) => match bcast s1 s2 with
        | some sh => (.ok (attrGraph attr ((kind f).join (kind g)) (.call g1 .argX .argY) (.call g2 .argX .argY), sh), t2)
        | none => (.error .tensorflow, t2)
  | .binNum attr f c, s, t => lookupOr t (.binNum attr f c) s fun t =>
    match concrete f s t with
    | (.error e, t1) => (.error e, t1)
    | (.ok (g1, s1), t1) =>
      (.ok (attrGraph attr ((kind f).join c.kind) (.call g1 .argX .argY) (.const c.val), s1), t1)
  | .rotate f th, s, t => lookupOr t (.rotate f th) s fun t =>
    match bcast s.x s.y with
    | none => (.error .tensorflow, t)
    | some sh => match concrete f ⟨sh, sh⟩ t with
      | (.error e, t1) => (.error e, t1)
      | (.ok (g1, s1), t1) =>
        (.ok (.call g1 (.sub (.mul (.cos (.const th)) .argX) (.mul (.sin (.const th)) .argY))
          (.add (.mul (.sin (.const th)) .argX) (.mul (.cos (.const th)) .argY)), s1), t1)
  | .shift f dx dy, s, t => lookupOr t (.shift f dx dy) s fun t =>
    match concrete f s t with
    | (.error e, t1) => (.error e, t1)
    | (.ok (g1, s1), t1) => (.ok (.call g1 (.sub .argX (.const dx)) (.sub .argY (.const dy)), s1), t1)
  | .rescaleX f m, s, t => lookupOr t (.rescaleX f m) s fun t =>
    match concrete f s t with
    | (.error e, t1) => (.error e, t1)
    | (.ok (g1, s1), t1) => (.ok (.call g1 (.div .argX (.const m)) .argY, s1), t1)
  | .rescaleY f m, s, t => lookupOr t (.rescaleY f m) s fun t =>
    match concrete f s t with
    | (.error e, t1) => (.error e, t1)
    | (.ok (g1, s1), t1) => (.ok (.call g1 .argX (.div .argY (.const m)), s1), t1)
  | .asComplex f, s, t => lookupOr t (.asComplex f) s fun t =>
    match concrete f s t with
    | (.error e, t1) => (.error e, t1)
    | (.ok (g1, s1), t1) => (.ok (.exp (.mul (.const Complex.I) (.call g1 .argX .argY)), s1), t1)

/-- `profile(x, y)`, `profile._func(x, y)` (`profile.py:14-17`, `slm.py:158`): run the kept or new graph at every point. -/
def call (t : Table) (h : Heap) (f : Prof) (x y : Tensor ℝ) : Except PyErr (Tensor (Option ℂ)) × Table :=
  match concrete f ⟨x.shape, y.shape⟩ t with
  | (.error e, t') => (.error e, t')
  | (.ok (g, sh), t') => (.ok ⟨sh, fun i j => g.run h (x.at_ i j) (y.at_ i j)⟩, t')

end PySLM2.Traced
