import Verif.Model.Profile

/-!
# Public attributes of profiles (`/repo/pySLM2/profile.py`, `/repo/pySLM2/window.py`)

What `profile.name` and `profile.name = value` do for the names of constructor parameters: python looks for a property of the class
first; without one it reads or writes the attributes of the object itself.
-/

noncomputable section

namespace PySLM2.Profile

/-- The names of constructor parameters and properties (`profile.py:173, 180, 215, 234-272, 276, 323, 339-378, 381, 433-458`,
`window.py:9, 20-50, 53, 62-84`). -/
inductive Name
  | c | x0 | y0 | a | w | n | m | p | l | wx | wy | r | radius | normalization | normalize | extrapolate
  deriving DecidableEq, Repr

/-- The value of an attribute: a number, a truth value or `None` (`profile.py:181, 235, 449`). -/
inductive AttrVal
  | num (z : ℂ)
  | flag (b : Bool)
  | none

/-- A property of a class (`profile.py:180-186, 234-272, 339-378, 433-458`, `window.py:20-50, 62-84`). -/
inductive Descriptor
  /-- getter `variable.value()`, setter `variable.assign(value)` -/
  | cell (v : ℕ × Kind)
  /-- a getter, no setter -/
  | readOnly (v : AttrVal)
  /-- a getter that calls `.value()` of a constant: constants do not have this method, only variables do -/
  | broken

/-- The properties of the classes.  `LaguerreGaussian` and composed profiles have none (`profile.py:180-186, 234-272, 275-301, 339-378,
433-458`, `window.py:20-50, 62-84`). -/
def descriptor : Prof → Name → Option Descriptor
  | .const i isC, .c => some (.cell (i, if isC then .cplx else .real))
  | .hg x0 _ _ _ _ _, .x0 => some (.cell (x0, .real))
  | .hg _ y0 _ _ _ _, .y0 => some (.cell (y0, .real))
  | .hg _ _ a _ _ _, .a => some (.cell (a, .real))
  | .hg _ _ _ w _ _, .w => some (.cell (w, .real))
  | .hg _ _ _ _ n _, .n => some (.readOnly (.num n))
  | .hg _ _ _ _ _ m, .m => some (.readOnly (.num m))
  | .sg x0 _ _ _ _, .x0 => some (.cell (x0, .real))
  | .sg _ y0 _ _ _, .y0 => some (.cell (y0, .real))
  | .sg _ _ a _ _, .a => some (.cell (a, .real))
  | .sg _ _ _ w _, .w => some (.cell (w, .real))
  | .sg _ _ _ _ p, .p => some (.cell (p, .real))
  | .zernike a _ _ _ _ _ _, .a => some (.cell (a, .real))
  | .zernike _ radius _ _ _ _ _, .radius => some (.readOnly (.num radius))
  | .zernike _ _ _ _ _ norm _, .normalization => some (.readOnly (match norm with | some c => .num c | none => .none))
  | .zernike .., .n => some .broken
  | .zernike .., .m => some .broken
  | .rect x0 _ _ _, .x0 => some (.cell (x0, .real))
  | .rect _ y0 _ _, .y0 => some (.cell (y0, .real))
  | .rect _ _ wx _, .wx => some (.cell (wx, .real))
  | .rect _ _ _ wy, .wy => some (.cell (wy, .real))
  | .circ x0 _ _, .x0 => some (.cell (x0, .real))
  | .circ _ y0 _, .y0 => some (.cell (y0, .real))
  | .circ _ _ r, .r => some (.cell (r, .real))
  | _, _ => none

/-- The attributes an object got by assignment, besides its properties (python; any class of `profile.py`, `window.py`). -/
abbrev Dict := Name → Option PyNum

/-- `profile.name` (`profile.py:180-186, 234-272, 339-378, 433-458`, `window.py:20-50, 62-84`); an attribute that does not exist raises
`AttributeError`. -/
def getattr (h : Heap) (f : Prof) (d : Dict) (nm : Name) : Except PyErr AttrVal :=
  match descriptor f nm with
  | some (.cell v) => .ok (.num (getParam h v))
  | some (.readOnly v) => .ok v
  | some .broken => .error .attributeError
  | none => match d nm with
    | some v => .ok (.num v.val)
    | none => .error .attributeError

/-- `profile.name = value` (`profile.py:184-186, 238-264, 343-378, 437-439`, `window.py:24-50, 66-84`): the setter if there is one,
`AttributeError` for a property without setter, an attribute of the object otherwise. -/
def setattr (h : Heap) (f : Prof) (d : Dict) (nm : Name) (v : PyNum) : Except PyErr (Heap × Dict) :=
  match descriptor f nm with
  | some (.cell p) => match assign h p v with
    | .ok h' => .ok (h', d)
    | .error e => .error e
  | some (.readOnly _) => .error .attributeError
  | some .broken => .error .attributeError
  | none => .ok (h, Function.update d nm (some v))

end PySLM2.Profile
