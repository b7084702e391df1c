import Verif.Model.Profile

/-!
# Profiles that are evaluated while other threads set their parameters (`/repo/pySLM2/profile.py`, `/repo/pySLM2/window.py`)

Every occurrence of a `tf.Variable` in a `_func` reads the variable once per evaluation, for all points at once.  The reads of one evaluation happen at
different moments, in an order that tensorflow chooses; `assign` is one step.  `moment k` is the contents of all variables at the `k`th read,
in the order of the program text; nothing is said about the order in time.  Reads of one variable are not merged.
-/

noncomputable section

open Complex

namespace PySLM2.Profile

/-- The variables read by an evaluation, in the order of the text (`profile.py:19-36, 176-178, 226-232, 287-299, 330-337, 407-430`,
`window.py:15-18, 58-60`) -/
def readList : Prof → List (ℕ × Kind)
  | .const c i => [(c, if i then .cplx else .real)]
  | .lit _ => []
  | .hg x0 y0 a w _ _ => [(x0, .real), (w, .real), (y0, .real), (w, .real), (a, .real)]
  | .lg x0 y0 a w _ _ => [(x0, .real), (y0, .real), (y0, .real), (x0, .real), (w, .real), (a, .real), (w, .real), (w, .real)]
  | .sg x0 y0 a w p => [(x0, .real), (w, .real), (y0, .real), (w, .real), (a, .real), (p, .real)]
  | .zernike a _ _ _ _ _ _ => [(a, .real)]
  | .rect x0 y0 wx wy => [(x0, .real), (wx, .real), (y0, .real), (wy, .real)]
  | .circ x0 y0 r => [(x0, .real), (y0, .real), (r, .real)]
  | .bin _ f g => readList f ++ readList g
  | .binNum _ f _ | .rotate f _ | .shift f _ _ | .rescaleX f _ | .rescaleY f _ | .asComplex f => readList f

/-- `HermiteGaussian._func` (`profile.py:226-232`) with the two values read for `_w` -/
def hgFuncAt (x0 w y0 w' a : ℝ) (n m : ℕ) (x y : ℝ) : Option ℝ :=
  if w = 0 ∨ w' = 0 then none
  else
    let xNorm := (x - x0) / w
    let yNorm := (y - y0) / w'
    let hn := polyval (hermiteCoef n) (Real.sqrt 2 * xNorm)
    let hm := polyval (hermiteCoef m) (Real.sqrt 2 * yNorm)
    some (a * hn * hm * Real.exp (-(xNorm ^ 2 + yNorm ^ 2)))

/-- `LaguerreGaussian._func` (`profile.py:287-299`) with the values read for each variable -/
def lgFuncAt (x0 y0 y0' x0' w a w' w'' : ℝ) (l : ℤ) (p : ℕ) (x y : ℝ) : Option ℂ :=
  if w = 0 ∨ w' = 0 ∨ w'' = 0 then none
  else
    let r2 := (x - x0) ^ 2 + (y - y0) ^ 2
    let r := Real.sqrt r2
    let phi := atan2 (y - y0') (x - x0')
    let lpl := polyval (genlaguerreCoef p l.natAbs) (2 * r2 / w ^ 2)
    let amplitude := a * (Real.sqrt 2 * r / w') ^ l.natAbs * Real.exp (-r2 / w'' ^ 2) * lpl
    let phase := Complex.exp (-Complex.I * l * phi)
    some (amplitude * phase)

/-- `SuperGaussian._func` (`profile.py:330-337`) with the two values read for `_w` -/
def sgFuncAt (x0 w y0 w' a p : ℝ) (x y : ℝ) : Option ℝ :=
  if w = 0 ∨ w' = 0 then none
  else
    let xNorm := (x - x0) / w
    let yNorm := (y - y0) / w'
    (powReal (xNorm ^ 2 + yNorm ^ 2) p).map fun e => a * Real.exp (-e)

/-- `profile._func(x, y)` (`profile.py:14-17`) at one point, where the reads of the text, counted from `k`, happen at the moments
`moment k`, `moment (k + 1)`, ... -/
def evalAt (moment : ℕ → Heap) : Prof → ℕ → ℝ → ℝ → Option ℂ
  | .const c isC, k, _, _ => some (if isC then (moment k).cx c else ((moment k).re c : ℂ))
  | .lit c, _, _, _ => some c.val
  | .hg x0 y0 a w n m, k, x, y => (hgFuncAt ((moment k).re x0) ((moment (k + 1)).re w) ((moment (k + 2)).re y0) ((moment (k + 3)).re w)
      ((moment (k + 4)).re a) n m x y).map Complex.ofReal
  | .lg x0 y0 a w l p, k, x, y => lgFuncAt ((moment k).re x0) ((moment (k + 1)).re y0) ((moment (k + 2)).re y0) ((moment (k + 3)).re x0)
      ((moment (k + 4)).re w) ((moment (k + 5)).re a) ((moment (k + 6)).re w) ((moment (k + 7)).re w) l p x y
  | .sg x0 y0 a w p, k, x, y => (sgFuncAt ((moment k).re x0) ((moment (k + 1)).re w) ((moment (k + 2)).re y0) ((moment (k + 3)).re w)
      ((moment (k + 4)).re a) ((moment (k + 5)).re p) x y).map Complex.ofReal
  | .zernike a radius n m coef norm ex, k, x, y => (zernikeFunc ((moment k).re a) radius n m coef norm ex x y).map Complex.ofReal
  | .rect x0 y0 wx wy, k, x, y => some ((rectFunc ((moment k).re x0) ((moment (k + 2)).re y0) ((moment (k + 1)).re wx)
      ((moment (k + 3)).re wy) x y : ℝ) : ℂ)
  | .circ x0 y0 r, k, x, y => some ((circFunc ((moment k).re x0) ((moment (k + 1)).re y0) ((moment (k + 2)).re r) x y : ℝ) : ℂ)
  | .bin attr f g, k, x, y =>
    match evalAt moment f k x y, evalAt moment g (k + (readList f).length) x y with
    | some a, some b => applyAttr attr ((kind f).join (kind g)) a b
    | _, _ => none
  | .binNum attr f c, k, x, y =>
    match evalAt moment f k x y with
    | some a => applyAttr attr ((kind f).join c.kind) a c.val
    | none => none
  | .rotate f t, k, x, y => evalAt moment f k (Real.cos t * x - Real.sin t * y) (Real.sin t * x + Real.cos t * y)
  | .shift f dx dy, k, x, y => evalAt moment f k (x - dx) (y - dy)
  | .rescaleX f m, k, x, y => if m = 0 then none else evalAt moment f k (x / m) y
  | .rescaleY f m, k, x, y => if m = 0 then none else evalAt moment f k x (y / m)
  | .asComplex f, k, x, y => (evalAt moment f k x y).map fun v => Complex.exp (Complex.I * v)

end PySLM2.Profile
