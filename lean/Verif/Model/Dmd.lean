import Verif.Model.Slm

/-!
# `/repo/pySLM2/slm.py`, class `DMD`

Every method is modelled by its `Outcome`: what happens to the attribute `dmd_state` (nothing, rebound
to a new array, or the current array object modified in place) and the value returned or exception
raised.
-/

noncomputable section

open Complex

namespace PySLM2

open Classical Profile Lib

/-- Constructor data of a `DMD` (`slm.py:194-203`): `p = periodicity * pixel_size`. -/
structure DMD where
  slm : SLM
  p : ℝ
  theta : ℝ
  neg : Bool

/-- `DMD.__init__` (`slm.py:194-203`), except `dmd_state` (see `initialState`). -/
def DMD.new (s : SLM) (periodicity theta : ℝ) (neg : Bool) : DMD :=
  ⟨s, periodicity * s.ps, theta, neg⟩

namespace DMD

/-- `np.zeros((Ny, Nx), dtype=bool)` (`slm.py:198, 207`) -/
def allOff (d : DMD) : StateArr := .bool ⟨.mat d.slm.Ny d.slm.Nx, fun _ _ => false⟩
/-- `np.ones((Ny, Nx), dtype=bool)` (`slm.py:211`) -/
def allOn (d : DMD) : StateArr := .bool ⟨.mat d.slm.Ny d.slm.Nx, fun _ _ => true⟩
/-- `dmd_state` after construction (`slm.py:198`) -/
def initialState (d : DMD) : StateArr := d.allOff

/-- What a method did to `self.dmd_state` (assignments at `slm.py:207, 211, 219-221, 268, 370-373`). -/
inductive Effect
  | none
  /-- `self.dmd_state = <new array>` -/
  | rebind (a : StateArr)
  /-- `self.dmd_state[mask] = ...`: the array object keeps its identity and has these contents -/
  | inplace (a : StateArr)

/-- Result of a method call (`slm.py:205-376`). -/
structure Outcome (α : Type) where
  effect : Effect
  result : Except PyErr α

/-- A call that raised before touching the state (`slm.py:205-376`). -/
def fail {α : Type} (e : PyErr) : Outcome α := ⟨.none, .error e⟩

/-- Contents of `dmd_state` after a call (`slm.py:205-376`). -/
def Outcome.state {α : Type} (o : Outcome α) (before : StateArr) : StateArr :=
  match o.effect with
  | .none => before
  | .rebind a => a
  | .inplace a => a

/-- `_lib.calculate_dmd_grating(amp, phase_in, phase_out, x, y, self._p, self._theta, ...)` with the
Fourier plane grid (`slm.py:218-221, 262-266, 363-373`). -/
def grating (d : DMD) (amp : Tensor XR) (phaseIn phaseOut : Tensor ℝ) (method : String)
    (kw : Kwargs) (draw : ℕ → ℕ → ℝ) : Except PyErr StateArr :=
  calculateDmdGrating amp phaseIn phaseOut d.slm.fourierGrid.1 d.slm.fourierGrid.2 d.p d.theta method
    d.neg kw draw

/-- Conversion of the three arguments and the grating of `set_dmd_grating_state` and
`circular_patch` (`slm.py:214-221, 255-266`). -/
def gratingOfArgs (d : DMD) (h : Heap) (amp phaseIn phaseOut : ProfArg) (method : String)
    (kw : Kwargs) (draw : ℕ → ℕ → ℝ) : Except PyErr StateArr :=
  match d.slm.profileToReal h amp true with
  | .error e => .error e
  | .ok amp => match d.slm.profileToReal h phaseIn true with
    | .error e => .error e
    | .ok phaseIn => match d.slm.profileToReal h phaseOut true with
      | .error e => .error e
      | .ok phaseOut => d.grating (amp.map XR.fin) phaseIn phaseOut method kw draw

/-- `set_dmd_grating_state` (`slm.py:213-221`) -/
def setDmdGratingState (d : DMD) (h : Heap) (amp phaseIn phaseOut : ProfArg) (method : String)
    (kw : Kwargs) (draw : ℕ → ℕ → ℝ) : Outcome Unit :=
  match d.gratingOfArgs h amp phaseIn phaseOut method kw draw with
  | .error e => fail e
  | .ok g => ⟨.rebind g, .ok ()⟩

/-- `_circular_mask` (`slm.py:225-228`) at pixel `(a, b)` -/
def circularMask (i j dia : ℝ) (a b : ℕ) : Prop :=
  ((b : ℝ) - j) ^ 2 + ((a : ℝ) - i) ^ 2 < (dia / 2) ^ 2

/-- numpy's `float -> bool` conversion when assigning into a boolean array (`slm.py:268`) -/
def castToBool (x : XR) : Bool := decide x.truthy
/-- numpy's `bool -> float` conversion when assigning into a float array (`slm.py:268`) -/
def castToFloat (b : Bool) : XR := .fin (if b then 1 else 0)

/-- `old[mask] = new[mask]` (`slm.py:268`) for arrays of the same shape: keeps the dtype of `old`. -/
def assignMasked (mask : ℕ → ℕ → Prop) (old new : StateArr) : StateArr :=
  match old, new with
  | .bool o, .bool n => .bool ⟨o.shape, fun a b => if mask a b then n.get a b else o.get a b⟩
  | .bool o, .float n =>
    .bool ⟨o.shape, fun a b => if mask a b then castToBool (n.get a b) else o.get a b⟩
  | .float o, .bool n =>
    .float ⟨o.shape, fun a b => if mask a b then castToFloat (n.get a b) else o.get a b⟩
  | .float o, .float n => .float ⟨o.shape, fun a b => if mask a b then n.get a b else o.get a b⟩

/-- `circular_patch` (`slm.py:230-268`).  Boolean indexing requires both arrays to have the shape of the
mask, otherwise `IndexError`. -/
def circularPatch (d : DMD) (h : Heap) (cur : StateArr) (i j : ℝ) (amp phaseIn phaseOut : ProfArg)
    (dia : ℝ) (method : String) (kw : Kwargs) (draw : ℕ → ℕ → ℝ) : Outcome Unit :=
  match d.gratingOfArgs h amp phaseIn phaseOut method kw draw with
  | .error e => fail e
  | .ok g =>
    if g.shape = .mat d.slm.Ny d.slm.Nx ∧ cur.shape = .mat d.slm.Ny d.slm.Nx then
      ⟨.inplace (assignMasked (circularMask i j dia) cur g), .ok ()⟩
    else fail .indexError

/-! ## Mode matching -/

/-- `fftshift(FT(ifftshift(target)))` (`slm.py:296-297`) on an `M x N` array. -/
def targetFp (M N : ℕ) (target : ℕ → ℕ → ℂ) : ℕ → ℕ → ℂ :=
  fftshift2 M N (dft2 M N (ifftshift2 M N target))

/-- `tf.where(amp_out == 0, 0, amp_out / amp_in)` (`slm.py:302-305, 313-317`) at one pixel -/
def ratioPixel (inp tfp : ℂ) : XR :=
  if ‖tfp‖ = 0 then .fin 0 else XR.divFin ‖tfp‖ ‖inp‖

/-- `phase_out` (`slm.py:307-311`) at one pixel -/
def phaseOutPixel (tfp : ℂ) : ℝ := if tfp = 0 then 0 else arg tfp

/-- `tf.math.reduce_max` of an `M x N` array (`slm.py:319`) -/
def reduceMax (M N : ℕ) (f : ℕ → ℕ → XR) : XR :=
  ((List.range M ×ˢ List.range N).map fun ij => f ij.1 ij.2).foldr XR.max .ninf

/-- The four results of `_calc_amp_phase` (`slm.py:272-322`). -/
structure AmpPhase where
  ampScaled : Tensor XR
  phaseIn : Tensor ℝ
  phaseOut : Tensor ℝ
  oneOverEta : XR

/-- `target_profile_fp * window` if a window is given (`slm.py:299-300`) -/
def applyWindow (fp : Tensor ℂ) (window : Option (Tensor ℂ)) : Except PyErr (Tensor ℂ) :=
  match window with
  | none => .ok fp
  | some w => Tensor.map2 (fun a b => a * b) fp w

/-- `_calc_amp_phase` (`slm.py:272-322`) -/
def calcAmpPhase (inp target : Tensor ℂ) (window : Option (Tensor ℂ)) : Except PyErr AmpPhase :=
  match target.shape with
  | .scalar => .error .tensorflow
  | .mat M N =>
    if M = 0 ∨ N = 0 then .error .tensorflow
    else
      match applyWindow ⟨.mat M N, targetFp M N target.get⟩ window with
      | .error e => .error e
      | .ok fp =>
        match Tensor.map2 (fun t i => ratioPixel i t) fp inp with
        | .error e => .error e
        | .ok ratio =>
          match ratio.shape with
          | .scalar => .error .tensorflow
          | .mat M N =>
            let m := reduceMax M N ratio.get
            .ok { ampScaled := ratio.map fun a => a.div m
                  phaseIn := inp.map arg
                  phaseOut := fp.map phaseOutPixel
                  oneOverEta := m }

/-- `eta` (`slm.py:375`): `pixel_size**2 / scaling_factor * Nx * Ny / float(one_over_eta_fft)` in python
float arithmetic, where division by zero raises. -/
def etaOf (s : SLM) (oneOverEta : XR) : Except PyErr XR :=
  if s.scaling = 0 then .error .zeroDivisionError
  else match oneOverEta with
    | .fin m =>
      if m = 0 then .error .zeroDivisionError
      else .ok (.fin (s.ps ^ 2 / s.scaling * s.Nx * s.Ny / m))
    | .pinf => .ok (.fin 0)
    | .ninf => .ok (.fin 0)
    | .nan => .ok .nan

/-- Keyword arguments of `calculate_dmd_state`; `signal_window` is converted by `profile_to_tensor`
(`slm.py:324-376`). -/
structure CalcKwargs where
  r : Option ℝ := none
  N : Option ℕ := none
  s : Option ℝ := none
  signalWindow : Option ProfArg := none

/-- The optional conversion of `window` (`slm.py:357-358`) -/
def windowTensor (d : DMD) (h : Heap) (window : Option ProfArg) :
    Except PyErr (Option (Tensor ℂ)) :=
  match window with
  | none => .ok none
  | some w => match d.slm.profileToTensor h w true true with
    | .ok t => .ok (some t)
    | .error e => .error e

/-- The keyword arguments forwarded to `_lib` (`slm.py:365-368`); a missing `signal_window` with method
`ifta` is a `KeyError`.  For other methods a `signal_window` is forwarded unconverted and ignored. -/
def forwardKwargs (d : DMD) (h : Heap) (inp : Tensor ℂ) (method : String) (kw : CalcKwargs) :
    Except PyErr Kwargs :=
  if method = "ifta" then
    match kw.signalWindow with
    | none => .error .keyError
    | some w => match d.slm.profileToTensor h w false true with
      | .error e => .error e
      | .ok w => .ok { r := kw.r, N := kw.N, s := kw.s, inputProfile := some inp,
                       signalWindow := some w }
  else .ok { r := kw.r, N := kw.N, s := kw.s }

/-- Everything `calculate_dmd_state` computes before assigning `dmd_state` (`slm.py:354-373`): the new
state and `one_over_eta_fft`. -/
def calcGrating (d : DMD) (h : Heap) (inputProfile targetProfile : ProfArg) (method : String)
    (window : Option ProfArg) (kw : CalcKwargs) (draw : ℕ → ℕ → ℝ) :
    Except PyErr (StateArr × XR) :=
  match d.slm.profileToTensor h inputProfile true true with
  | .error e => .error e
  | .ok inp => match d.slm.profileToTensor h targetProfile false true with
    | .error e => .error e
    | .ok target => match d.windowTensor h window with
      | .error e => .error e
      | .ok window => match calcAmpPhase inp target window with
        | .error e => .error e
        | .ok ap => match d.forwardKwargs h inp method kw with
          | .error e => .error e
          | .ok kw => match d.grating ap.ampScaled ap.phaseIn ap.phaseOut method kw draw with
            | .error e => .error e
            | .ok g => .ok (g, ap.oneOverEta)

/-- `calculate_dmd_state` (`slm.py:324-376`): `dmd_state` is assigned before `eta` is computed. -/
def calculateDmdState (d : DMD) (h : Heap) (inputProfile targetProfile : ProfArg) (method : String)
    (window : Option ProfArg) (kw : CalcKwargs) (draw : ℕ → ℕ → ℝ) : Outcome XR :=
  match d.calcGrating h inputProfile targetProfile method window kw draw with
  | .error e => fail e
  | .ok (g, m) => ⟨.rebind g, etaOf d.slm m⟩

/-- `first_order_origin` (`slm.py:383-388`). The numerators are numpy scalars, so that a period of zero gives
infinities or NaN with a warning; such origins are outside the model. -/
def firstOrderOrigin (d : DMD) : Except PyErr (ℝ × ℝ) :=
  if d.p = 0 then .error .outsideModel
  else .ok (Real.cos d.theta * d.slm.scaling / d.p, Real.sin d.theta * d.slm.scaling / d.p)

/-- `_state_tensor` (`slm.py:390-391`); states with non-finite entries are outside the model. -/
def stateTensor (st : StateArr) : Except PyErr (Tensor ℂ) :=
  match st with
  | .bool t => .ok (t.map fun b => if b then 1 else 0)
  | .float t =>
    if (match t.shape with
        | .scalar => ∃ x, t.get 0 0 = .fin x
        | .mat M N => allFinite M N t.get)
    then .ok (t.map fun a => ((XR.val a : ℝ) : ℂ))
    else .error .outsideModel

/-! ## Packing -/

/-- Row-major list of the entries of an `M x N` array (`slm.py:404`). -/
def flatten {α : Type} (M N : ℕ) (f : ℕ → ℕ → α) : List α :=
  (List.range M).flatMap fun i => (List.range N).map fun j => f i j

/-- One byte of `np.packbits`: eight bits, most significant first, missing bits are zero (`slm.py:404`). -/
def packByte (bits : List Bool) : ℕ :=
  (List.range 8).foldl (fun acc k => 2 * acc + if bits.getD k false then 1 else 0) 0

/-- `np.packbits(...).tobytes()` (`slm.py:404-406`) -/
def packBits : List Bool → List ℕ
  | [] => []
  | b :: bs => packByte ((b :: bs).take 8) :: packBits ((b :: bs).drop 8)
  termination_by l => l.length
  decreasing_by simp

/-- `pack_dmd_state` (`slm.py:393-406`) -/
def packDmdState (st : StateArr) : Except PyErr (List ℕ) :=
  match st with
  | .float _ => .error .typeError
  | .bool t => match t.shape with
    | .scalar => .ok (packBits [t.get 0 0])
    | .mat M N => .ok (packBits (flatten M N t.get))

/-! ## Histories -/

/-- The public methods that update `dmd_state` (`slm.py:205-376`). -/
inductive Call
  | off
  | on
  | setGrating (h : Heap) (amp phaseIn phaseOut : ProfArg) (method : String) (kw : Kwargs)
      (draw : ℕ → ℕ → ℝ)
  | patch (h : Heap) (i j : ℝ) (amp phaseIn phaseOut : ProfArg) (dia : ℝ) (method : String)
      (kw : Kwargs) (draw : ℕ → ℕ → ℝ)
  | calculate (h : Heap) (inp target : ProfArg) (method : String) (window : Option ProfArg)
      (kw : CalcKwargs) (draw : ℕ → ℕ → ℝ)

/-- Effect and success/exception of one call (`slm.py:205-376`). -/
def call (d : DMD) (cur : StateArr) : Call → Outcome Unit
  | .off => ⟨.rebind d.allOff, .ok ()⟩
  | .on => ⟨.rebind d.allOn, .ok ()⟩
  | .setGrating h amp pin pout method kw draw => d.setDmdGratingState h amp pin pout method kw draw
  | .patch h i j amp pin pout dia method kw draw =>
    d.circularPatch h cur i j amp pin pout dia method kw draw
  | .calculate h inp target method window kw draw =>
    let o := d.calculateDmdState h inp target method window kw draw
    ⟨o.effect, o.result.map fun _ => ()⟩

/-- `dmd_state` after a history of calls, exceptions being caught by the caller (any sequence of calls of
`slm.py:205-376`). -/
def runCalls (d : DMD) (cur : StateArr) : List Call → StateArr
  | [] => cur
  | c :: cs => runCalls d ((d.call cur c).state cur) cs

/-- Array objects in memory and the one `dmd_state` refers to (the attribute assigned at `slm.py:207, 211,
219-221, 370-373`). -/
structure Memory where
  arrays : ℕ → StateArr
  cur : ℕ
  next : ℕ

/-- One call, tracking the identity of the array object (`slm.py:205-376`). -/
def callMem (d : DMD) (m : Memory) (c : Call) : Memory :=
  match (d.call (m.arrays m.cur) c).effect with
  | .none => m
  | .rebind a => ⟨Function.update m.arrays m.next a, m.next, m.next + 1⟩
  | .inplace a => { m with arrays := Function.update m.arrays m.cur a }

/-- What a user program can do: call a method, or assign an array it holds to the public attribute
`dmd_state` (`slm.py:198`; no setter, no copy). -/
inductive Act
  | call (c : Call)
  | assign (id : ℕ)

/-- One action, tracking the identity of the array object (`slm.py:205-376` and assignments by the caller). -/
def actMem (d : DMD) (m : Memory) : Act → Memory
  | .call c => callMem d m c
  | .assign id => { m with cur := id }

/-- A history of actions, tracking identities (any sequence of calls of `slm.py:205-376`). -/
def runMem (d : DMD) (m : Memory) : List Act → Memory
  | [] => m
  | c :: cs => runMem d (actMem d m c) cs

end DMD

end PySLM2
