import Verif.Model.Attributes
import Verif.Spec.ProfileHistory

/-!
# What attributes should do

Programs that make profiles and assign attributes, and the constructor call each profile should be equivalent to.
-/

noncomputable section

namespace PySLM2.Profile

/-- What a program does; objects are numbered in the order of their creation. -/
inductive Act
  | new (n : New)
  | binary (op : PyOp) (a b : Operand)
  | neg (k : ℕ)
  | transform (tr : Transform) (k : ℕ)
  | asComplex (k : ℕ)
  /-- `object_k.name = v` -/
  | setattr (k : ℕ) (nm : Name) (v : PyNum)

/-- Variables, objects, and the attributes of each object that are not properties. -/
structure AWorld where
  heap : Heap
  objs : List Prof
  dict : ℕ → Dict

/-- Make a profile; exceptions leave everything as it was. -/
def AWorld.make (w : AWorld) (c : Cmd) : AWorld :=
  let w' := World.exec ⟨w.heap, w.objs, []⟩ c
  ⟨w'.heap, w'.objs, w.dict⟩

/-- `object_k.name = v`; `none` if it raised. -/
def AWorld.set (w : AWorld) (k : ℕ) (nm : Name) (v : PyNum) : Option AWorld :=
  match w.objs[k]? with
  | none => none
  | some f => match Profile.setattr w.heap f (w.dict k) nm v with
    | .ok (h, d) => some ⟨h, w.objs, Function.update w.dict k d⟩
    | .error _ => none

/-- One statement of the program. -/
def AWorld.step (w : AWorld) : Act → AWorld
  | .new n => w.make (.new n)
  | .binary op a b => w.make (.binary op a b)
  | .neg k => w.make (.neg k)
  | .transform tr k => w.make (.transform tr k)
  | .asComplex k => w.make (.asComplex k)
  | .setattr k nm v => (w.set k nm v).getD w

/-- The start of a program. -/
def AWorld.start (h : Heap) : AWorld := ⟨h, [], fun _ _ => none⟩

/-- A program. -/
def AWorld.run (w : AWorld) (as : List Act) : AWorld := as.foldl AWorld.step w

/-- `object_k.name` -/
def AWorld.get (w : AWorld) (k : ℕ) (nm : Name) : Except PyErr AttrVal :=
  match w.objs[k]? with
  | none => .error .outsideModel
  | some f => getattr w.heap f (w.dict k) nm

/-- The argument a constructor was called with. -/
def New.arg : New → Name → Option AttrVal
  | .const c, .c => some (.num c.val)
  | .hg x0 _ _ _ _ _, .x0 | .lg x0 _ _ _ _ _, .x0 | .sg x0 _ _ _ _, .x0 | .rect x0 _ _ _, .x0 | .circ x0 _ _, .x0 => some (.num x0)
  | .hg _ y0 _ _ _ _, .y0 | .lg _ y0 _ _ _ _, .y0 | .sg _ y0 _ _ _, .y0 | .rect _ y0 _ _, .y0 | .circ _ y0 _, .y0 => some (.num y0)
  | .hg _ _ a _ _ _, .a | .lg _ _ a _ _ _, .a | .sg _ _ a _ _, .a | .zernike a _ _ _ _ _, .a => some (.num a)
  | .hg _ _ _ w _ _, .w | .lg _ _ _ w _ _, .w | .sg _ _ _ w _, .w => some (.num w)
  | .hg _ _ _ _ n _, .n => some (.num n)
  | .hg _ _ _ _ _ m, .m => some (.num m)
  | .lg _ _ _ _ l _, .l => some (.num l)
  | .lg _ _ _ _ _ p, .p => some (.num p)
  | .sg _ _ _ _ p, .p => some (.num p)
  | .zernike _ radius _ _ _ _, .radius => some (.num radius)
  | .zernike _ _ n _ _ _, .n => some (.num n)
  | .zernike _ _ _ m _ _, .m => some (.num m)
  | .zernike _ _ _ _ b _, .normalize => some (.flag b)
  | .zernike _ _ _ _ _ b, .extrapolate => some (.flag b)
  | .rect _ _ wx _, .wx => some (.num wx)
  | .rect _ _ _ wy, .wy => some (.num wy)
  | .circ _ _ r, .r => some (.num r)
  | _, _ => none

/-- The same constructor call with another argument; assignments that no argument corresponds to change nothing. -/
def New.withArg : New → Name → PyNum → New
  | .const (.real _), .c, .real v => .const (.real v)
  | .const (.cplx _), .c, v => .const (.cplx v.val)
  | .hg _ y0 a w n m, .x0, .real v => .hg v y0 a w n m
  | .hg x0 _ a w n m, .y0, .real v => .hg x0 v a w n m
  | .hg x0 y0 _ w n m, .a, .real v => .hg x0 y0 v w n m
  | .hg x0 y0 a _ n m, .w, .real v => .hg x0 y0 a v n m
  | .lg _ y0 a w l p, .x0, .real v => .lg v y0 a w l p
  | .lg x0 _ a w l p, .y0, .real v => .lg x0 v a w l p
  | .lg x0 y0 _ w l p, .a, .real v => .lg x0 y0 v w l p
  | .lg x0 y0 a _ l p, .w, .real v => .lg x0 y0 a v l p
  | .sg _ y0 a w p, .x0, .real v => .sg v y0 a w p
  | .sg x0 _ a w p, .y0, .real v => .sg x0 v a w p
  | .sg x0 y0 _ w p, .a, .real v => .sg x0 y0 v w p
  | .sg x0 y0 a _ p, .w, .real v => .sg x0 y0 a v p
  | .sg x0 y0 a w _, .p, .real v => .sg x0 y0 a w v
  | .zernike _ radius n m nrm ex, .a, .real v => .zernike v radius n m nrm ex
  | .zernike a _ n m nrm ex, .radius, .real v => .zernike a v n m nrm ex
  | .zernike a radius n m nrm _, .extrapolate, v => .zernike a radius n m nrm (open Classical in decide (v.val ≠ 0))
  | .zernike a radius n m _ ex, .normalize, v => .zernike a radius n m (open Classical in decide (v.val ≠ 0)) ex
  | .rect _ y0 wx wy, .x0, .real v => .rect v y0 wx wy
  | .rect x0 _ wx wy, .y0, .real v => .rect x0 v wx wy
  | .rect x0 y0 _ wy, .wx, .real v => .rect x0 y0 v wy
  | .rect x0 y0 wx _, .wy, .real v => .rect x0 y0 wx v
  | .circ _ y0 r, .x0, .real v => .circ v y0 r
  | .circ x0 _ r, .y0, .real v => .circ x0 v r
  | .circ x0 y0 _, .r, .real v => .circ x0 y0 v
  | n, _, _ => n

/-- The book-keeping of a reader of the program: the constructor call each object should now be equivalent to (`none` for composed
profiles).  An assignment that does not raise counts as a changed argument. -/
def AWorld.asIfStep (s : AWorld × List (Option New)) (a : Act) : AWorld × List (Option New) :=
  (s.1.step a,
    match a with
    | .setattr k nm v => if (s.1.set k nm v).isSome then s.2.modify k (Option.map fun n => n.withArg nm v) else s.2
    | a => if (s.1.step a).objs.length = s.1.objs.length then s.2
      else s.2 ++ [match a with | .new n => some n | _ => none])

/-- The program and the book-keeping. -/
def AWorld.asIf (h : Heap) (as : List Act) : AWorld × List (Option New) := as.foldl AWorld.asIfStep (.start h, [])

/-- The constructor calls as they were made, whatever is assigned afterwards. -/
def AWorld.madeStep (s : AWorld × List (Option New)) (a : Act) : AWorld × List (Option New) :=
  (s.1.step a, if (s.1.step a).objs.length = s.1.objs.length then s.2
      else s.2 ++ [match a with | .new n => some n | _ => none])

/-- The program and the constructor calls as they were made. -/
def AWorld.made (h : Heap) (as : List Act) : AWorld × List (Option New) := as.foldl AWorld.madeStep (.start h, [])

/-- The values of object `k` are those of a profile made by the constructor call `n` just now. -/
def AWorld.BehavesAs (w : AWorld) (k : ℕ) (n : New) : Prop :=
  ∃ f, w.objs[k]? = some f ∧ ∀ h0, ∃ h1 g, n.run h0 = .ok (h1, g) ∧ ∀ x y, eval w.heap f x y = eval h1 g x y

/-- A `LaguerreGaussian`. -/
def New.isLaguerre : New → Bool
  | .lg .. => true
  | _ => false

/-- A `Zernike`. -/
def New.isZernike : New → Bool
  | .zernike .. => true
  | _ => false

/-- The flags of `Zernike`. -/
def Name.isFlag : Name → Bool
  | .normalize | .extrapolate => true
  | _ => false

/-- No statement assigns `normalize` or `extrapolate`. -/
def NoFlags (as : List Act) : Prop := ∀ k nm v, Act.setattr k nm v ∈ as → nm.isFlag = false

end PySLM2.Profile
