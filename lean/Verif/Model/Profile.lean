import Verif.Model.Basic
import Mathlib.Analysis.SpecialFunctions.Pow.Real
import Mathlib.Analysis.SpecialFunctions.Sqrt
import Mathlib.Algebra.Polynomial.Eval.Defs
import Mathlib.Data.Nat.Choose.Basic

/-!
# `/repo/pySLM2/profile.py` and `/repo/pySLM2/window.py`

A profile object is modelled by an expression tree.  The leaves refer to `tf.Variable`s by
identity (a cell number); the current contents of all variables are the `Heap`.  This is what makes
composed profiles live views of their parts: `_make_attribute_func`, `rotate`, `shift`, ... build
closures that call `self._func` when they are evaluated (`profile.py:19-36, 106-109, ...`), and
`_func` reads the variables when it runs.

A value is `none` when the code would produce a non-finite float there (division by zero, a
negative number to a fractional power, ...); such values are not modelled further.
-/

noncomputable section

open Complex

namespace PySLM2.Profile

open Classical

/-- dtype of a profile value: `BACKEND.dtype` or `BACKEND.dtype_complex` (`profile.py:19-36`, `profile.py:174`). -/
inductive Kind | real | cplx
  deriving DecidableEq, Repr

/-- Contents of the `tf.Variable`s: real ones, complex ones, and the next unused identity (`profile.py:174`,
`profile.py:216-219`, `profile.py:277-280`, `profile.py:324-328`, `profile.py:392`, `window.py:10-13`,
`window.py:54-56`). -/
structure Heap where
  re : ℕ → ℝ
  cx : ℕ → ℂ
  next : ℕ

/-- Python numbers: `int`/`float` or `complex` (`profile.py:29-33`). -/
inductive PyNum
  | real (r : ℝ)
  | cplx (z : ℂ)

/-- dtype of a python number operand (`profile.py:29-33`) -/
def PyNum.kind : PyNum → Kind
  | .real _ => .real
  | .cplx _ => .cplx

/-- value of a python number operand (`profile.py:29-33`) -/
def PyNum.val : PyNum → ℂ
  | .real r => r
  | .cplx z => z

/-- Names of the tensor methods looked up by `_make_attribute_func` (`profile.py:19-36`). -/
inductive Attr | add | radd | sub | mul | rmul | truediv | pow
  deriving DecidableEq, Repr

/-- A `FunctionProfile` object (`profile.py:9-170` and the classes of `profile.py:172-458`, `window.py:8-84`). -/
inductive Prof
  /-- `ConstantProfile(c)` (`profile.py:172-186`); the flag says whether `c` was complex. -/
  | const (cell : ℕ) (isComplex : Bool)
  /-- the anonymous `ConstantProfile(other)` wrapped around a number operand
  (`profile.py:39-40, 46-47, ...`); nobody else can reach its variable. -/
  | lit (c : PyNum)
  /-- `HermiteGaussian` (`profile.py:215-224`): the four variables and the orders. -/
  | hg (x0 y0 a w : ℕ) (n m : ℕ)
  /-- `LaguerreGaussian` (`profile.py:276-284`) -/
  | lg (x0 y0 a w : ℕ) (l : ℤ) (p : ℕ)
  /-- `SuperGaussian` (`profile.py:323-328`) -/
  | sg (x0 y0 a w p : ℕ)
  /-- `Zernike` (`profile.py:381-405`): amplitude variable, radius, indices, polynomial
  coefficients (highest power first), normalization factor, extrapolate flag. -/
  | zernike (a : ℕ) (radius : ℝ) (n m : ℤ) (coef : List ℝ) (norm : Option ℝ) (extrapolate : Bool)
  /-- `RectangularWindowRectangle` (`window.py:8-13`) -/
  | rect (x0 y0 wx wy : ℕ)
  /-- `RectangularWindowCircular` (`window.py:52-56`) -/
  | circ (x0 y0 r : ℕ)
  /-- `_make_attribute_func(attr, other)` with `other` a profile (`profile.py:20-28`) -/
  | bin (attr : Attr) (f g : Prof)
  /-- `_make_attribute_func(attr, other)` with `other` a number (`profile.py:29-33`) -/
  | binNum (attr : Attr) (f : Prof) (c : PyNum)
  /-- `rotate(theta)` (`profile.py:104-110`) -/
  | rotate (f : Prof) (theta : ℝ)
  /-- `shift(dx, dy)` (`profile.py:128-136`) -/
  | shift (f : Prof) (dx dy : ℝ)
  /-- `rescale_x(m)` (`profile.py:138-145`) -/
  | rescaleX (f : Prof) (m : ℝ)
  /-- `rescale_y(m)` (`profile.py:147-154`) -/
  | rescaleY (f : Prof) (m : ℝ)
  /-- `as_complex_profile()` (`profile.py:156-170`) -/
  | asComplex (f : Prof)

/-! ## Polynomials -/

/-- `tf.math.polyval(coeffs, x)`: Horner's rule, highest power first
(used at `profile.py:230-231, 292, 416`). -/
def polyval (coeffs : List ℝ) (x : ℝ) : ℝ :=
  match coeffs with
  | [] => 0
  | c :: cs => cs.foldl (fun p c => c + p * x) c

/-- Physicists' Hermite polynomial computed by `scipy.special.hermite(n)` (used at
`profile.py:223-224`).  scipy documents it as the orthogonal polynomial for `exp(-x^2)`; modelled by
its standard three-term recurrence, with exact coefficients. -/
def physHermite : ℕ → Polynomial ℤ
  | 0 => 1
  | 1 => 2 * Polynomial.X
  | n + 2 => 2 * Polynomial.X * physHermite (n + 1) - 2 * ((n : Polynomial ℤ) + 1) * physHermite n

/-- `[c for c in hermite(n).coef]` (`profile.py:223-224`), highest power first. -/
def hermiteCoef (n : ℕ) : List ℝ :=
  (List.range (n + 1)).reverse.map fun k => ((physHermite n).coeff k : ℝ)

/-- `genlaguerre(p, alpha).coef` (`profile.py:284`), highest power first:
`L_p^alpha(x) = sum_i (-1)^i binom(p+alpha, p-i) x^i / i!`, as documented by scipy. -/
def genlaguerreCoef (p alpha : ℕ) : List ℝ :=
  (List.range (p + 1)).reverse.map fun i =>
    (-1 : ℝ) ^ i * (Nat.choose (p + alpha) (p - i) : ℝ) / (Nat.factorial i : ℝ)

/-- One entry of the Zernike coefficient table (`profile.py:401-402`); all factorial arguments are
non-negative integers for the `k` that occur. -/
def zernikeEntry (n mAbs : ℤ) (k : ℕ) : ℝ :=
  (-1 : ℝ) ^ k * (Nat.factorial (n - k).toNat : ℝ) /
    ((Nat.factorial k : ℝ) * (Nat.factorial ((n + mAbs) / 2 - k).toNat : ℝ) *
      (Nat.factorial ((n - mAbs) / 2 - k).toNat : ℝ))

/-- The coefficient list of `Zernike.__init__` before it is reversed (`profile.py:394, 399-402`):
`[0.0 for _ in range(n+1)]`, then `coef[n-2k] = ...` for `k in range(int((n-|m|)/2)+1)`.
The division is exact (both constructor checks passed), `range` of a non-positive number is empty. -/
def zernikeCoef (n m : ℤ) : List ℝ :=
  (List.range ((n - |m|) / 2 + 1).toNat).foldl
    (fun (c : List ℝ) (k : ℕ) => c.set (n - 2 * (k : ℤ)).toNat (zernikeEntry n |m| k))
    (List.replicate (n + 1).toNat 0)

/-- `math.sqrt` raises `ValueError` on negative numbers (`profile.py:396`). -/
def mathSqrt (x : ℝ) : Except PyErr ℝ := if x < 0 then .error .valueError else .ok (Real.sqrt x)

/-! ## Constructors -/

/-- Allocate one real `tf.Variable` (`profile.py:174`, `profile.py:216-219`). -/
def allocRe (h : Heap) (v : ℝ) : Heap × ℕ :=
  ({ h with re := Function.update h.re h.next v, next := h.next + 1 }, h.next)

/-- Allocate one complex `tf.Variable` (`profile.py:174`). -/
def allocCx (h : Heap) (v : ℂ) : Heap × ℕ :=
  ({ h with cx := Function.update h.cx h.next v, next := h.next + 1 }, h.next)

/-- `ConstantProfile.__init__` (`profile.py:173-174`) -/
def newConstant (h : Heap) (c : PyNum) : Heap × Prof :=
  match c with
  | .real r => let a := allocRe h r; (a.1, .const a.2 false)
  | .cplx z => let a := allocCx h z; (a.1, .const a.2 true)

/-- `HermiteGaussian.__init__` (`profile.py:215-224`) -/
def newHermiteGaussian (h : Heap) (x0 y0 a w : ℝ) (n m : ℕ) : Heap × Prof :=
  let r1 := allocRe h x0
  let r2 := allocRe r1.1 y0
  let r3 := allocRe r2.1 a
  let r4 := allocRe r3.1 w
  (r4.1, .hg r1.2 r2.2 r3.2 r4.2 n m)

/-- `LaguerreGaussian.__init__` (`profile.py:276-284`) -/
def newLaguerreGaussian (h : Heap) (x0 y0 a w : ℝ) (l : ℤ) (p : ℕ) : Heap × Prof :=
  let r1 := allocRe h x0
  let r2 := allocRe r1.1 y0
  let r3 := allocRe r2.1 a
  let r4 := allocRe r3.1 w
  (r4.1, .lg r1.2 r2.2 r3.2 r4.2 l p)

/-- `SuperGaussian.__init__` (`profile.py:323-328`) -/
def newSuperGaussian (h : Heap) (x0 y0 a w p : ℝ) : Heap × Prof :=
  let r1 := allocRe h x0
  let r2 := allocRe r1.1 y0
  let r3 := allocRe r2.1 a
  let r4 := allocRe r3.1 w
  let r5 := allocRe r4.1 p
  (r5.1, .sg r1.2 r2.2 r3.2 r4.2 r5.2)

/-- The argument checks and the derived data of `Zernike.__init__` (`profile.py:382-405`):
normalization and reversed coefficients. -/
def zernikeData (n m : ℤ) (normalize : Bool) : Except PyErr (List ℝ × Option ℝ) :=
  if ¬ (n ≥ m) then .error .valueError
  else if (n - m) % 2 ≠ 0 then .error .valueError
  else
    let norm : Except PyErr (Option ℝ) :=
      if normalize then
        (if m = 0 then mathSqrt (n + 1) else mathSqrt (2 * n + 2)).map some
      else .ok none
    norm.map fun nrm => ((zernikeCoef n m).reverse, nrm)

/-- `Zernike.__init__` (`profile.py:381-405`) -/
def newZernike (h : Heap) (a radius : ℝ) (n m : ℤ) (normalize extrapolate : Bool) :
    Except PyErr (Heap × Prof) :=
  match zernikeData n m normalize with
  | .error e => .error e
  | .ok d => let r := allocRe h a; .ok (r.1, .zernike r.2 radius n m d.1 d.2 extrapolate)

/-- `RectangularWindowRectangle.__init__` (`window.py:8-13`) -/
def newRect (h : Heap) (x0 y0 wx wy : ℝ) : Heap × Prof :=
  let r1 := allocRe h x0
  let r2 := allocRe r1.1 y0
  let r3 := allocRe r2.1 wx
  let r4 := allocRe r3.1 wy
  (r4.1, .rect r1.2 r2.2 r3.2 r4.2)

/-- `RectangularWindowCircular.__init__` (`window.py:52-56`) -/
def newCirc (h : Heap) (x0 y0 r : ℝ) : Heap × Prof :=
  let r1 := allocRe h x0
  let r2 := allocRe r1.1 y0
  let r3 := allocRe r2.1 r
  (r3.1, .circ r1.2 r2.2 r3.2)

/-- The property setters (`x0`, `y0`, `a`, `w`, `p`, `wx`, `wy`, `r`, real `c`):
`self._x0.assign(value)` etc. (`profile.py:184-186, 238-264, ...`, `window.py:23-49, 65-84`) -/
def assignRe (h : Heap) (cell : ℕ) (v : ℝ) : Heap := { h with re := Function.update h.re cell v }

/-- The setter `c` of a complex `ConstantProfile` (`profile.py:184-186`) -/
def assignCx (h : Heap) (cell : ℕ) (v : ℂ) : Heap := { h with cx := Function.update h.cx cell v }

/-- The parameters with a setter, in the order of the constructor arguments.  `LaguerreGaussian` and composed
profiles have none, `Zernike` only the amplitude (`profile.py:180-186, 234-264, 340-378, 433-440`,
`window.py:20-50, 63-85`). -/
def params : Prof → List (ℕ × Kind)
  | .const c i => [(c, if i then .cplx else .real)]
  | .hg x0 y0 a w _ _ => [(x0, .real), (y0, .real), (a, .real), (w, .real)]
  | .sg x0 y0 a w p => [(x0, .real), (y0, .real), (a, .real), (w, .real), (p, .real)]
  | .zernike a _ _ _ _ _ _ => [(a, .real)]
  | .rect x0 y0 wx wy => [(x0, .real), (y0, .real), (wx, .real), (wy, .real)]
  | .circ x0 y0 r => [(x0, .real), (y0, .real), (r, .real)]
  | _ => []

/-- `variable.assign(value)` in a setter (`profile.py:184-186`, ...); a complex number cannot be assigned to a real variable. -/
def assign (h : Heap) (p : ℕ × Kind) (v : PyNum) : Except PyErr Heap :=
  match p.2, v with
  | .real, .real r => .ok (assignRe h p.1 r)
  | .real, .cplx _ => .error .typeError
  | .cplx, v => .ok (assignCx h p.1 v.val)

/-- `variable.value()` in a getter (`profile.py:180-182, 234-236`, ...) -/
def getParam (h : Heap) (p : ℕ × Kind) : ℂ :=
  match p.2 with
  | .real => (h.re p.1 : ℂ)
  | .cplx => h.cx p.1

/-! ## Operators -/

/-- Operand of a python operator applied to a profile. `other` is anything that is neither a
profile nor an `int`/`float`/`complex` (e.g. a numpy array) (`profile.py:38-86`). -/
inductive PyVal
  | prof (f : Prof)
  | num (c : PyNum)
  | other

/-- `_make_attribute_func` together with the `FunctionProfile()` it is stored in
(`profile.py:19-36`). -/
def makeAttributeFunc (self : Prof) (attr : Attr) : PyVal → Except PyErr Prof
  | .prof g => .ok (.bin attr self g)
  | .num c => .ok (.binNum attr self c)
  | .other => .error .notImplementedError

/-- `other = ConstantProfile(other)` for numbers (`profile.py:39-40, 46-47, 53-54, ...`) -/
def wrapNum : PyVal → PyVal
  | .num c => .prof (.lit c)
  | v => v

/-- `__radd__` (`profile.py:38-43`) -/
def radd (self : Prof) (rhs : PyVal) := makeAttributeFunc self .radd (wrapNum rhs)
/-- `__add__` (`profile.py:45-50`) -/
def add (self : Prof) (rhs : PyVal) := makeAttributeFunc self .add (wrapNum rhs)
/-- `__sub__` (`profile.py:52-57`) -/
def sub (self : Prof) (rhs : PyVal) := makeAttributeFunc self .sub (wrapNum rhs)
/-- `__mul__` (`profile.py:59-64`) -/
def mul (self : Prof) (rhs : PyVal) := makeAttributeFunc self .mul (wrapNum rhs)
/-- `__rmul__` (`profile.py:66-71`) -/
def rmul (self : Prof) (rhs : PyVal) := makeAttributeFunc self .rmul (wrapNum rhs)
/-- `__truediv__` (`profile.py:73-78`) -/
def truediv (self : Prof) (rhs : PyVal) := makeAttributeFunc self .truediv (wrapNum rhs)
/-- `__pow__` (`profile.py:80-83`): numbers are not wrapped here. -/
def pow (self : Prof) (power : PyVal) := makeAttributeFunc self .pow power
/-- `__neg__` (`profile.py:85-86`): `self.__mul__(-1.0)` -/
def neg (self : Prof) := mul self (.num (.real (-1)))

/-- Python's binary operators (`profile.py:38-86`). -/
inductive PyOp | add | sub | mul | div | pow
  deriving DecidableEq, Repr

/-- Python's dispatch of `a op b` when at least one operand is a profile: the left operand's method,
else the right operand's reflected method; the class defines `__radd__` and `__rmul__` only, any
other reflected operator is a `TypeError` (`profile.py:38-86`). -/
def pyBinary (op : PyOp) (a b : PyVal) : Except PyErr Prof :=
  match a with
  | .prof f => match op with
    | .add => add f b
    | .sub => sub f b
    | .mul => mul f b
    | .div => truediv f b
    | .pow => pow f b
  | .num c => match b with
    | .prof f => match op with
      | .add => radd f (.num c)
      | .mul => rmul f (.num c)
      | _ => .error .typeError
    | _ => .error .outsideModel
  | .other => .error .outsideModel

/-! ## Evaluation -/

/-- dtype after the casts of `profile.py:24-27` -/
def Kind.join : Kind → Kind → Kind
  | .real, .real => .real
  | _, _ => .cplx

/-- dtype of `profile._func(x, y)` (`profile.py:19-36`) -/
def kind : Prof → Kind
  | .const _ c => if c then .cplx else .real
  | .lit c => c.kind
  | .hg .. | .sg .. | .zernike .. | .rect .. | .circ .. => .real
  | .lg .. => .cplx
  | .bin _ f g => (kind f).join (kind g)
  | .binNum _ f c => (kind f).join c.kind
  | .rotate f _ | .shift f _ _ | .rescaleX f _ | .rescaleY f _ => kind f
  | .asComplex _ => .cplx

/-- Does `profile._func(x, y)` return a rank-0 tensor whatever the shape of `x`, `y`?
`ConstantProfile._func` does (`profile.py:176-178`), and so does everything built only from it. -/
def rankZero : Prof → Bool
  | .const _ _ | .lit _ => true
  | .hg .. | .lg .. | .sg .. | .zernike .. | .rect .. | .circ .. => false
  | .bin _ f g => rankZero f && rankZero g
  | .binNum _ f _ => rankZero f
  | .rotate f _ | .shift f _ _ | .rescaleX f _ | .rescaleY f _ | .asComplex f => rankZero f

/-- `tf.pow` on real floats (C `pow`): defined for positive bases, for base 0 with a non-negative
exponent, and for negative bases with an integral exponent (`profile.py:80-83`). -/
def powReal (x k : ℝ) : Option ℝ :=
  if 0 < x then some (x ^ k)
  else if x = 0 then (if 0 < k then some 0 else if k = 0 then some 1 else none)
  else if (⌊k⌋ : ℝ) = k then some (x ^ ⌊k⌋) else none

/-- `tf.pow` on complex floats, `exp(k log z)`; base 0 is not modelled (`profile.py:80-83`). -/
def powCplx (z k : ℂ) : Option ℂ := if z = 0 then none else some (z ^ k)

/-- The tensor methods `__add__`, `__radd__`, ... on operands that were already cast to the common
dtype `k` (`profile.py:19-36`). -/
def applyAttr (attr : Attr) (k : Kind) (a b : ℂ) : Option ℂ :=
  match attr with
  | .add => some (a + b)
  | .radd => some (b + a)
  | .sub => some (a - b)
  | .mul => some (a * b)
  | .rmul => some (b * a)
  | .truediv => if b = 0 then none else some (a / b)
  | .pow => match k with
    | .real => (powReal a.re b.re).map Complex.ofReal
    | .cplx => powCplx a b

/-- `HermiteGaussian._func` (`profile.py:226-232`) -/
def hgFunc (x0 y0 a w : ℝ) (n m : ℕ) (x y : ℝ) : Option ℝ :=
  if w = 0 then none
  else
    let xNorm := (x - x0) / w
    let yNorm := (y - y0) / w
    let hn := polyval (hermiteCoef n) (Real.sqrt 2 * xNorm)
    let hm := polyval (hermiteCoef m) (Real.sqrt 2 * yNorm)
    some (a * hn * hm * Real.exp (-(xNorm ^ 2 + yNorm ^ 2)))

/-- `tf.math.atan2(y, x)` (`profile.py:291`, `profile.py:415`) -/
def atan2 (y x : ℝ) : ℝ := Complex.arg ⟨x, y⟩

/-- `LaguerreGaussian._func` (`profile.py:287-299`) -/
def lgFunc (x0 y0 a w : ℝ) (l : ℤ) (p : ℕ) (x y : ℝ) : Option ℂ :=
  if w = 0 then none
  else
    let r2 := (x - x0) ^ 2 + (y - y0) ^ 2
    let r := Real.sqrt r2
    let phi := atan2 (y - y0) (x - x0)
    let lpl := polyval (genlaguerreCoef p l.natAbs) (2 * r2 / w ^ 2)
    let amplitude := a * (Real.sqrt 2 * r / w) ^ l.natAbs * Real.exp (-r2 / w ^ 2) * lpl
    let phase := Complex.exp (-Complex.I * l * phi)
    some (amplitude * phase)

/-- `SuperGaussian._func` (`profile.py:330-337`) -/
def sgFunc (x0 y0 a w p : ℝ) (x y : ℝ) : Option ℝ :=
  if w = 0 then none
  else
    let xNorm := (x - x0) / w
    let yNorm := (y - y0) / w
    (powReal (xNorm ^ 2 + yNorm ^ 2) p).map fun e => a * Real.exp (-e)

/-- `Zernike._func` (`profile.py:407-430`).  A zero radius (division by zero) is not modelled. -/
def zernikeFunc (a radius : ℝ) (n m : ℤ) (coef : List ℝ) (norm : Option ℝ) (extrapolate : Bool)
    (x y : ℝ) : Option ℝ :=
  if radius = 0 then none
  else
    let r := Real.sqrt (x ^ 2 + y ^ 2)
    let rho := r / radius
    let zUn :=
      if n = 0 ∧ m = 0 then a
      else
        let phi := atan2 y x
        let R := polyval coef rho
        if m = 0 then a * R
        else if m > 0 then a * R * Real.cos (m * phi)
        else a * R * Real.sin (-m * phi)
    let z := match norm with
      | some c => c * zUn
      | none => zUn
    some (if extrapolate then z else if rho > 1 then 0 else z)

/-- `RectangularWindowRectangle._func` (`window.py:15-18`) -/
def rectFunc (x0 y0 wx wy : ℝ) (x y : ℝ) : ℝ :=
  (if |x - x0| < wx / 2 then 1 else 0) * (if |y - y0| < wy / 2 then 1 else 0)

/-- `RectangularWindowCircular._func` (`window.py:58-60`) -/
def circFunc (x0 y0 r : ℝ) (x y : ℝ) : ℝ :=
  if (x - x0) ^ 2 + (y - y0) ^ 2 ≤ r ^ 2 then 1 else 0

/-- `profile._func(x, y)`, equivalently `profile(x, y)` (`profile.py:14-17`), at one point, with the
current variable contents. -/
def eval (h : Heap) : Prof → ℝ → ℝ → Option ℂ
  | .const c isC, _, _ => some (if isC then h.cx c else (h.re c : ℂ))
  | .lit c, _, _ => some c.val
  | .hg x0 y0 a w n m, x, y =>
    (hgFunc (h.re x0) (h.re y0) (h.re a) (h.re w) n m x y).map Complex.ofReal
  | .lg x0 y0 a w l p, x, y => lgFunc (h.re x0) (h.re y0) (h.re a) (h.re w) l p x y
  | .sg x0 y0 a w p, x, y =>
    (sgFunc (h.re x0) (h.re y0) (h.re a) (h.re w) (h.re p) x y).map Complex.ofReal
  | .zernike a radius n m coef norm ex, x, y =>
    (zernikeFunc (h.re a) radius n m coef norm ex x y).map Complex.ofReal
  | .rect x0 y0 wx wy, x, y =>
    some ((rectFunc (h.re x0) (h.re y0) (h.re wx) (h.re wy) x y : ℝ) : ℂ)
  | .circ x0 y0 r, x, y => some ((circFunc (h.re x0) (h.re y0) (h.re r) x y : ℝ) : ℂ)
  | .bin attr f g, x, y =>
    match eval h f x y, eval h g x y with
    | some a, some b => applyAttr attr ((kind f).join (kind g)) a b
    | _, _ => none
  | .binNum attr f c, x, y =>
    match eval h f x y with
    | some a => applyAttr attr ((kind f).join c.kind) a c.val
    | none => none
  | .rotate f t, x, y =>
    eval h f (Real.cos t * x - Real.sin t * y) (Real.sin t * x + Real.cos t * y)
  | .shift f dx dy, x, y => eval h f (x - dx) (y - dy)
  | .rescaleX f m, x, y => if m = 0 then none else eval h f (x / m) y
  | .rescaleY f m, x, y => if m = 0 then none else eval h f x (y / m)
  | .asComplex f, x, y => (eval h f x y).map fun v => Complex.exp (Complex.I * v)

end PySLM2.Profile
