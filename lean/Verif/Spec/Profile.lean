import Verif.Model.Profile

/-!
# Specification vocabulary for profiles
-/

noncomputable section

open Complex

namespace PySLM2.Profile

/-- The value of an operand at a point: a profile evaluated there, or a number. -/
def PyVal.value (h : Heap) (x y : ℝ) : PyVal → Option ℂ
  | .prof f => eval h f x y
  | .num c => some c.val
  | .other => none

/-- The dtype of an operand is complex. -/
def PyVal.isComplex : PyVal → Prop
  | .prof f => kind f = .cplx
  | .num c => c.kind = .cplx
  | .other => False

/-- The four arithmetic operators. -/
inductive Arith | add | sub | mul | div
  deriving DecidableEq

/-- The python operator. -/
def Arith.py : Arith → PyOp
  | .add => .add
  | .sub => .sub
  | .mul => .mul
  | .div => .div

/-- Arithmetic on values; division by zero has no (finite) value. -/
def Arith.apply (op : Arith) (a b : ℂ) : Option ℂ :=
  match op with
  | .add => some (a + b)
  | .sub => some (a - b)
  | .mul => some (a * b)
  | .div => if b = 0 then none else some (a / b)

/-- Python expressions over profile objects and numbers. -/
inductive Expr
  | prof (f : Prof)
  | num (c : PyNum)
  | arith (op : Arith) (a b : Expr)
  | neg (a : Expr)

/-- The pointwise meaning of an expression. -/
def Expr.value (h : Heap) (x y : ℝ) : Expr → Option ℂ
  | .prof f => eval h f x y
  | .num c => some c.val
  | .arith op a b => (a.value h x y).bind fun a => (b.value h x y).bind fun b => op.apply a b
  | .neg a => (a.value h x y).map fun a => -a

/-- Some operand of the expression is complex. -/
def Expr.isComplex : Expr → Prop
  | .prof f => kind f = .cplx
  | .num c => c.kind = .cplx
  | .arith _ a b => a.isComplex ∨ b.isComplex
  | .neg a => a.isComplex

/-- The expression consists of numbers only. -/
def Expr.isNumber : Expr → Prop
  | .prof _ => False
  | .num _ => True
  | .arith _ a b => a.isNumber ∧ b.isNumber
  | .neg a => a.isNumber

/-- A number of this dtype kind with this value. -/
def PyNum.mk (k : Kind) (z : ℂ) : PyNum :=
  match k with
  | .real => .real z.re
  | .cplx => .cplx z

/-- What python computes for the expression: arithmetic of numbers, and the operators of the profile
classes.  (`ZeroDivisionError` for numbers is represented by `outsideModel`.) -/
def Expr.python : Expr → Except PyErr PyVal
  | .prof f => .ok (.prof f)
  | .num c => .ok (.num c)
  | .arith op a b =>
    match a.python with
    | .error e => .error e
    | .ok a => match b.python with
      | .error e => .error e
      | .ok b =>
        match a, b with
        | .num a, .num b => match op.apply a.val b.val with
          | some v => .ok (.num (.mk (a.kind.join b.kind) v))
          | none => .error .outsideModel
        | a, b => (pyBinary op.py a b).map PyVal.prof
  | .neg a =>
    match a.python with
    | .error e => .error e
    | .ok (.num c) => .ok (.num (.mk c.kind (-c.val)))
    | .ok (.prof f) => (Profile.neg f).map PyVal.prof
    | .ok .other => .error .outsideModel

/-- The expressions the profile classes support: a number minus or divided by a profile is not supported
(there is no `__rsub__` or `__rtruediv__`), and numbers must not be divided by the number zero. -/
def Expr.Supported : Expr → Prop
  | .prof _ => True
  | .num _ => True
  | .arith op a b => a.Supported ∧ b.Supported ∧
      (op = .sub ∨ op = .div → a.isNumber → b.isNumber) ∧
      ∀ h x y, a.isNumber → b.isNumber → op = .div → b.value h x y ≠ some 0
  | .neg a => a.Supported

end PySLM2.Profile
