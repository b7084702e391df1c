import Verif.Model.Basic
import Mathlib.Analysis.SpecialFunctions.Trigonometric.DerivHyp

/-!
# `/repo/pySLM2/_lib.py`

Elementwise code is modelled by a *pixel function* (the formula) and a tensor function (the
broadcasting and the errors).  The random draw of `tf.random.uniform` is an argument.
-/

noncomputable section

open Complex Finset

namespace PySLM2.Lib

open Classical

/-! ## Fourier transforms and shifts -/

/-- `np.fft.fft2` / `tf.signal.fft2d` on an `M x N` array (`_lib.py:7-11, 21-28`), by the sum both
libraries document. -/
def dft2 (M N : ℕ) (u : ℕ → ℕ → ℂ) (k l : ℕ) : ℂ :=
  ∑ a ∈ range M, ∑ b ∈ range N,
    u a b * cexp (-(2 * Real.pi * I) * ((k * a : ℂ) / M + (l * b : ℂ) / N))

/-- `np.fft.ifft2` / `tf.signal.ifft2d` on an `M x N` array (`_lib.py:14-18, 31-38`). -/
def idft2 (M N : ℕ) (u : ℕ → ℕ → ℂ) (k l : ℕ) : ℂ :=
  1 / ((M : ℂ) * N) * ∑ a ∈ range M, ∑ b ∈ range N,
    u a b * cexp ((2 * Real.pi * I) * ((k * a : ℂ) / M + (l * b : ℂ) / N))

/-- Source index of entry `i` of `tf.signal.fftshift` along an axis of length `n`
(`roll` by `n // 2`) (`simulation.py:101`, `simulation.py:142`, `slm.py:120`, `slm.py:297`). -/
def fftshiftIdx (n i : ℕ) : ℕ := (i + (n - n / 2)) % n

/-- Source index of entry `i` of `tf.signal.ifftshift` along an axis of length `n`
(`roll` by `-(n // 2)`) (`simulation.py:143`, `slm.py:296`, `_lib.py:266`, `_lib.py:343`). -/
def ifftshiftIdx (n i : ℕ) : ℕ := (i + n / 2) % n

/-- `tf.signal.fftshift` of an `M x N` array (`simulation.py:142`, `slm.py:297`) -/
def fftshift2 {α : Type} (M N : ℕ) (u : ℕ → ℕ → α) (i j : ℕ) : α :=
  u (fftshiftIdx M i) (fftshiftIdx N j)

/-- `tf.signal.ifftshift` of an `M x N` array (`simulation.py:143`, `slm.py:296`, `_lib.py:266`, `_lib.py:343`) -/
def ifftshift2 {α : Type} (M N : ℕ) (u : ℕ → ℕ → α) (i j : ℕ) : α :=
  u (ifftshiftIdx M i) (ifftshiftIdx N j)

/-- `_fourier_transform` (`_lib.py:21-28`): rank-0 and empty arrays are rejected by both FFT
libraries. -/
def fourierTransform (t : Tensor ℂ) : Except PyErr (Tensor ℂ) :=
  match t.shape with
  | .scalar => .error .tensorflow
  | .mat r c => if r = 0 ∨ c = 0 then .error .tensorflow else .ok ⟨.mat r c, dft2 r c t.get⟩

/-- `_inverse_fourier_transform` (`_lib.py:31-38`) -/
def inverseFourierTransform (t : Tensor ℂ) : Except PyErr (Tensor ℂ) :=
  match t.shape with
  | .scalar => .error .tensorflow
  | .mat r c => if r = 0 ∨ c = 0 then .error .tensorflow else .ok ⟨.mat r c, idft2 r c t.get⟩

/-- `tf.signal.fftshift(t)`; `tf.roll` rejects rank 0 (`simulation.py:142`, `slm.py:297`). -/
def fftshift {α : Type} (t : Tensor α) : Except PyErr (Tensor α) :=
  match t.shape with
  | .scalar => .error .tensorflow
  | .mat r c => .ok ⟨.mat r c, fftshift2 r c t.get⟩

/-- `tf.signal.ifftshift(t)`; `tf.roll` rejects rank 0 (`simulation.py:143`, `slm.py:296`, `_lib.py:266`,
`_lib.py:343`). -/
def ifftshift {α : Type} (t : Tensor α) : Except PyErr (Tensor α) :=
  match t.shape with
  | .scalar => .error .tensorflow
  | .mat r c => .ok ⟨.mat r c, ifftshift2 r c t.get⟩

/-! ## DMD gratings -/

/-- A numpy array holding a DMD state: `dtype=bool` or a float dtype (`slm.py:207, 211, 219-221`). -/
inductive StateArr
  | bool (t : Tensor Bool)
  | float (t : Tensor XR)

/-- The shape of a state array (`slm.py:207, 211, 219-221`). -/
def StateArr.shape : StateArr → Shape
  | .bool t => t.shape
  | .float t => t.shape

/-- The optional keyword arguments understood by `calculate_dmd_grating`
(`_lib.py:73-86`); further keywords are ignored by the code.  Simplification: `N` is a natural number;
calls with a negative number of iterations are not modelled. -/
structure Kwargs where
  r : Option ℝ := none
  N : Option ℕ := none
  s : Option ℝ := none
  inputProfile : Option (Tensor ℂ) := none
  signalWindow : Option (Tensor ℂ) := none

/-- `_grating_phase` (`_lib.py:92-113`) at one pixel, for `p ≠ 0`. -/
def gratingPhase (x y theta p : ℝ) : ℝ :=
  (2 * Real.pi / p) * (Real.cos theta * x + Real.sin theta * y)

/-- The arguments of one pixel of a grating (arguments of `_lib.py:117-210`). -/
structure Pix where
  amp : XR
  phaseIn : ℝ
  phaseOut : ℝ
  x : ℝ
  y : ℝ

/-- `phase_in`, `phase_out` after the `if negative_order:` block
(`_lib.py:146-148`, `_lib.py:196-198`). -/
def signedPhases (neg : Bool) (q : Pix) : ℝ × ℝ :=
  if neg then (-q.phaseIn, -q.phaseOut) else (q.phaseIn, q.phaseOut)

/-- `_calculate_dmd_grating_ideal` (`_lib.py:145-151`) at one pixel.  For `p = 0` the grating phase is
`±inf` or `nan`, whose cosine is `nan`. -/
def idealPixel (p theta : ℝ) (neg : Bool) (q : Pix) : XR :=
  if p = 0 then .nan
  else
    let ph := signedPhases neg q
    q.amp.mul (.fin (Real.cos (gratingPhase q.x q.y theta p - (ph.2 - ph.1)) / 2 + 0.5))

/-- `_calculate_dmd_grating_simple` (`_lib.py:159-161`) at one pixel. -/
def simplePixel (p theta : ℝ) (neg : Bool) (q : Pix) : Bool :=
  decide ((idealPixel p theta neg q).gtFin 0.5)

/-- `tf.math.asin`: `nan` outside `[-1, 1]` (`_lib.py:203`). -/
def asinX : XR → XR
  | .fin a => if -1 ≤ a ∧ a ≤ 1 then .fin (Real.arcsin a) else .nan
  | _ => .nan

/-- The smooth duty value of `_calculate_dmd_grating_random` before thresholding
(`_lib.py:195-205`) at one pixel; `nan` if the grating phase or `asin(amp)` is. -/
def randomDuty (p theta r : ℝ) (neg : Bool) (q : Pix) : XR :=
  if p = 0 then .nan
  else
    let ph := signedPhases neg q
    let pp := Real.arccos (Real.cos (gratingPhase q.x q.y theta p - (ph.2 - ph.1)))
    match asinX q.amp with
    | .fin w => .fin (0.5 * (Real.tanh (r * (pp + w)) - Real.tanh (r * (pp - w))))
    | _ => .nan

/-- `_calculate_dmd_grating_random` (`_lib.py:206-209`) at one pixel; `u` is the uniform draw. -/
def randomPixel (p theta r : ℝ) (neg : Bool) (u : ℝ) (q : Pix) : Bool :=
  decide ((randomDuty p theta r neg q).gtFin u)

/-- The pixel arguments at `(i, j)` after broadcasting (arguments of `_lib.py:117-210`). -/
def pixAt (amp : Tensor XR) (phaseIn phaseOut x y : Tensor ℝ) (i j : ℕ) : Pix :=
  ⟨amp.at_ i j, phaseIn.at_ i j, phaseOut.at_ i j, x.at_ i j, y.at_ i j⟩

/-- Shape of the grating (broadcast of all operands, `_lib.py:113, 150, 200-205`). -/
def gratingShape (amp : Tensor XR) (phaseIn phaseOut x y : Tensor ℝ) : Option Shape :=
  bcastAll [amp.shape, phaseIn.shape, phaseOut.shape, x.shape, y.shape]

/-! ### IFTA -/

/-- `_ifta_correct_profile` (`_lib.py:212-213`) -/
def iftaCorrect (profile profileIdeal window : ℂ) : ℂ := (profileIdeal - profile) * window + profile

/-- `_ifta_binarize_hologram` (`_lib.py:216-219`) at one pixel -/
def iftaBinarize (hologram threshold : ℝ) : ℝ :=
  let b := if hologram > 1 - threshold then 1 else hologram
  if hologram < threshold then 0 else b

/-- Threshold of iteration `i` (`_lib.py:267, 273-274`): `(i+1) * (0.5 / N)` -/
def iftaThreshold (N i : ℕ) : ℝ := ((i : ℝ) + 1) * (0.5 / N)

/-- One iteration of `_calculate_dmd_grating_ifta` (`_lib.py:272-282`) on an `M x N` grid;
`window` is already ifft-shifted. -/
def iftaStep (M N : ℕ) (inp ideal window : ℕ → ℕ → ℂ) (t : ℝ) (g : ℕ → ℕ → ℝ) : ℕ → ℕ → ℝ :=
  let modulated := fun a b => inp a b * (iftaBinarize (g a b) t : ℂ)
  let image := idft2 M N modulated
  let corrected := fun a b => iftaCorrect (image a b) (ideal a b) (window a b)
  fun a b => if inp a b = 0 then 0 else (dft2 M N corrected a b / inp a b).re

/-- The loop of `_calculate_dmd_grating_ifta` (`_lib.py:272-282`): the first `n` of `steps`
iterations. -/
def iftaLoop (M N : ℕ) (inp ideal window : ℕ → ℕ → ℂ) (steps : ℕ) (g0 : ℕ → ℕ → ℝ) :
    ℕ → (ℕ → ℕ → ℝ)
  | 0 => g0
  | n + 1 => iftaStep M N inp ideal window (iftaThreshold steps n)
      (iftaLoop M N inp ideal window steps g0 n)

/-- `_calculate_dmd_grating_ifta` on finite data (`_lib.py:260-284`), `g0 = s * ideal grating`. -/
def iftaField (M N : ℕ) (inp window : ℕ → ℕ → ℂ) (steps : ℕ) (g0 : ℕ → ℕ → ℝ) : ℕ → ℕ → Bool :=
  let ideal := idft2 M N fun a b => inp a b * (g0 a b : ℂ)
  fun a b => decide (iftaLoop M N inp ideal (ifftshift2 M N window) steps g0 steps a b > 0.5)

/-- Real part of a float, for arrays known to be finite (`_lib.py:223-284`). -/
def XR.val : XR → ℝ
  | .fin x => x
  | _ => 0

/-- Is every entry of the `M x N` array finite? (`_lib.py:223-284`) -/
def allFinite (M N : ℕ) (g : ℕ → ℕ → XR) : Prop := ∀ i < M, ∀ j < N, ∃ x, g i j = .fin x

/-- `_calculate_dmd_grating_ifta` (`_lib.py:222-284`).  `inp`, `window` are required (`None` fails in
tensorflow).  Operands that do not broadcast to the shape of the grating raise.  A window of rank 0
is rejected by `ifftshift`; a window with a dimension of length 1 is broadcast after the shift
(shifting an axis of length 1 does nothing, so broadcasting first gives the same, except that a
broadcast axis is constant and shifting it does nothing either).
If some entry of the ideal grating is `nan`, every FFT of it is `nan` everywhere, every comparison of
the last line is false (for at least one iteration). -/
def gratingIfta (amp : Tensor XR) (phaseIn phaseOut x y : Tensor ℝ) (p theta : ℝ) (neg : Bool)
    (inp window : Option (Tensor ℂ)) (steps : ℕ) (s : ℝ) : Except PyErr StateArr :=
  match inp, window with
  | some inp, some window =>
    match gratingShape amp phaseIn phaseOut x y with
    | some (.mat M N) =>
      if M = 0 ∨ N = 0 ∨ window.shape = .scalar ∨ bcast inp.shape (.mat M N) ≠ some (.mat M N) ∨
          bcast window.shape (.mat M N) ≠ some (.mat M N) then .error .tensorflow
      else
        let g0 := fun i j =>
          (XR.fin s).mul (idealPixel p theta neg (pixAt amp phaseIn phaseOut x y i j))
        if allFinite M N g0 then
          .ok (.bool ⟨.mat M N, iftaField M N inp.at_ window.at_ steps fun i j => XR.val (g0 i j)⟩)
        else if steps = 0 then
          .ok (.bool ⟨.mat M N, fun i j => decide ((g0 i j).gtFin 0.5)⟩)
        else .ok (.bool ⟨.mat M N, fun _ _ => false⟩)
    | _ => .error .tensorflow
  | _, _ => .error .tensorflow

/-- `calculate_dmd_grating` (`_lib.py:41-89`); `draw` is the value of `tf.random.uniform`. -/
def calculateDmdGrating (amp : Tensor XR) (phaseIn phaseOut x y : Tensor ℝ) (p theta : ℝ)
    (method : String) (neg : Bool) (kw : Kwargs) (draw : ℕ → ℕ → ℝ) : Except PyErr StateArr :=
  let pix := pixAt amp phaseIn phaseOut x y
  let elementwise (f : Shape → StateArr) : Except PyErr StateArr :=
    match gratingShape amp phaseIn phaseOut x y with
    | some s => .ok (f s)
    | none => .error .tensorflow
  if method = "ideal" then
    elementwise fun s => .float ⟨s, fun i j => idealPixel p theta neg (pix i j)⟩
  else if method = "simple" then
    elementwise fun s => .bool ⟨s, fun i j => simplePixel p theta neg (pix i j)⟩
  else if method = "random" then
    let r := kw.r.getD 10
    elementwise fun s => .bool ⟨s, fun i j => randomPixel p theta r neg (draw i j) (pix i j)⟩
  else if method = "ifta" then
    gratingIfta amp phaseIn phaseOut x y p theta neg kw.inputProfile kw.signalWindow
      (kw.N.getD 200) (kw.s.getD 1)
  else .error .valueError

/-! ## LCOS holograms -/

/-- `input_profile * tf.exp(1j * phase_profile)` (`_lib.py:348, 396`) -/
def modulate (inp : ℕ → ℕ → ℂ) (phase : ℕ → ℕ → ℝ) (a b : ℕ) : ℂ := inp a b * cexp (I * phase a b)

/-- `profile_corrected` of the Gerchberg-Saxton loop (`_lib.py:350-352`) -/
def gsCorrect (target image : ℂ) : ℂ := target * cexp (I * (arg image : ℂ))

/-- One Gerchberg-Saxton iteration (`_lib.py:346-353`); `target` is already ifft-shifted. -/
def gsStep (M N : ℕ) (inp target : ℕ → ℕ → ℂ) (phase : ℕ → ℕ → ℝ) : ℕ → ℕ → ℝ :=
  let image := idft2 M N (modulate inp phase)
  let corrected := fun a b => gsCorrect (target a b) (image a b)
  fun a b => arg (dft2 M N corrected a b)

/-- `n` Gerchberg-Saxton iterations (`_lib.py:346-355`) -/
def gsLoop (M N : ℕ) (inp target : ℕ → ℕ → ℂ) (phase0 : ℕ → ℕ → ℝ) : ℕ → (ℕ → ℕ → ℝ)
  | 0 => phase0
  | n + 1 => gsStep M N inp target (gsLoop M N inp target phase0 n)

/-- `profile_corrected` of the MRAF loop (`_lib.py:398-401`), `m` the mixing factor -/
def mrafCorrect (m : ℝ) (target window image : ℂ) : ℂ :=
  (m : ℂ) * target * cexp (I * (arg image : ℂ)) * window + ((1 - m : ℝ) : ℂ) * image * (1 - window)

/-- One MRAF iteration (`_lib.py:394-402`); `target`, `window` already ifft-shifted. -/
def mrafStep (M N : ℕ) (inp target window : ℕ → ℕ → ℂ) (m : ℝ) (phase : ℕ → ℕ → ℝ) :
    ℕ → ℕ → ℝ :=
  let image := idft2 M N (modulate inp phase)
  let corrected := fun a b => mrafCorrect m (target a b) (window a b) (image a b)
  fun a b => arg (dft2 M N corrected a b)

/-- `n` MRAF iterations (`_lib.py:394-404`) -/
def mrafLoop (M N : ℕ) (inp target window : ℕ → ℕ → ℂ) (m : ℝ) (phase0 : ℕ → ℕ → ℝ) :
    ℕ → (ℕ → ℕ → ℝ)
  | 0 => phase0
  | n + 1 => mrafStep M N inp target window m (mrafLoop M N inp target window m phase0 n)

/-- The initial phases (`_lib.py:341, 381`); `u` is the uniform draw. -/
def initialPhase (u : ℕ → ℕ → ℝ) (i j : ℕ) : ℝ := 2 * Real.pi * u i j

/-- `_calculate_lcos_slm_hologram_gs` (`_lib.py:322-355`).  The input must be a matrix and the target must broadcast to its
shape: the body of the loop is traced, whatever the number of iterations is, and the loop variable has to keep its shape.  The
FFT of an empty array is only computed, and rejected, if there is an iteration. -/
def hologramGs (inp : Tensor ℂ) (target : Tensor ℝ) (steps : ℕ) (u : ℕ → ℕ → ℝ) :
    Except PyErr (Tensor ℝ) :=
  match ifftshift target with
  | .error e => .error e
  | .ok t =>
    match inp.shape with
      | .scalar => .error .tensorflow
      | .mat M N =>
        if steps ≠ 0 ∧ (M = 0 ∨ N = 0) ∨ bcast t.shape (.mat M N) ≠ some (.mat M N) then .error .tensorflow
        else .ok ⟨.mat M N,
          gsLoop M N inp.get (fun i j => (t.at_ i j : ℂ)) (initialPhase u) steps⟩

/-- `_calculate_lcos_slm_hologram_mraf` (`_lib.py:357-404`); `window = none` is python's `None`,
rejected by `ifftshift`.  Shapes as for `gs`. -/
def hologramMraf (inp : Tensor ℂ) (target : Tensor ℝ) (steps : ℕ) (window : Option (Tensor ℂ))
    (m : ℝ) (u : ℕ → ℕ → ℝ) : Except PyErr (Tensor ℝ) :=
  match ifftshift target, window with
  | .error e, _ => .error e
  | .ok _, none => .error .tensorflow
  | .ok t, some w =>
    match ifftshift w with
    | .error e => .error e
    | .ok w =>
      match inp.shape with
        | .scalar => .error .tensorflow
        | .mat M N =>
          if steps ≠ 0 ∧ (M = 0 ∨ N = 0) ∨ bcast t.shape (.mat M N) ≠ some (.mat M N) ∨
              bcast w.shape (.mat M N) ≠ some (.mat M N) then .error .tensorflow
          else .ok ⟨.mat M N,
            mrafLoop M N inp.get (fun i j => (t.at_ i j : ℂ)) w.at_ m (initialPhase u) steps⟩

/-- Keyword arguments of `calculate_lcos_slm_hologram` (`_lib.py:307-317`). -/
structure HoloKwargs where
  N : Option ℕ := none
  signalWindow : Option (Tensor ℂ) := none
  mixingFactor : Option ℝ := none

/-- `calculate_lcos_slm_hologram` (`_lib.py:287-319`) -/
def calculateLcosSlmHologram (inp : Tensor ℂ) (target : Tensor ℝ) (method : String)
    (kw : HoloKwargs) (u : ℕ → ℕ → ℝ) : Except PyErr (Tensor ℝ) :=
  if method = "gs" then hologramGs inp target (kw.N.getD 200) u
  else if method = "mraf" then
    hologramMraf inp target (kw.N.getD 200) kw.signalWindow (kw.mixingFactor.getD 0.4) u
  else .error .valueError

end PySLM2.Lib
