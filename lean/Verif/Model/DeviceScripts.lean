import Verif.Model.Frames

/-!
# The scripts that drive a device

`/repo/examples/load_images_luxbeam.py` and `/repo/pySLM2/util/master_example.py`.
-/

namespace PySLM2.Controller

namespace Lux

/-- `load_images_luxbeam.py:3-10` on a device of `w` columns and `h` rows: the controller is created and initialized, the images of
the numbers 1 and 2 are made and loaded. -/
def scriptLoad (glyphs : ℤ → ℕ → ℤ → ℤ → Bool) (w h : ℕ) (fault : ℕ → Bool) (delay : ℕ → ℕ) : Ctl × Except PyErr Unit :=
  let r := step fault delay Ctl.new .initialize
  match r.2 with
  | .error e => (r.1, .error e)
  | .ok _ => match numberImageOf glyphs w h r.1 1 with
    | .error e => (r.1, .error e)
    | .ok image1 => match numberImageOf glyphs w h r.1 2 with
      | .error e => (r.1, .error e)
      | .ok image2 => loadArrays fault delay r.1 [image1, image2]

/-- `load_images_luxbeam.py:12-15`: the script after Enter has been pressed `k` times.  Before the first press the sequencer executes
`pause 0` instructions, after press `i` it executes `pause i`. -/
def script (glyphs : ℤ → ℕ → ℤ → ℤ → Bool) (w h : ℕ) (fault : ℕ → Bool) (delay pause : ℕ → ℕ) : ℕ → Ctl × Except PyErr Unit
  | 0 =>
    let r := scriptLoad glyphs w h fault delay
    match r.2 with
    | .error e => (r.1, .error e)
    | .ok _ => step fault delay r.1 (.idle (pause 0))
  | k + 1 =>
    let r := script glyphs w h fault delay pause k
    match r.2 with
    | .error e => (r.1, .error e)
    | .ok _ =>
      let t := step fault delay r.1 .fireTrigger
      match t.2 with
      | .error e => (t.1, .error e)
      | .ok _ => step fault delay t.1 (.idle (pause (k + 1)))

end Lux

namespace Alp

/-- `master_example.py:6-42`, up to the prompt.  `number_image(i, 2560, 1600)` is called directly; `ProjControl(ALP_PROJ_MODE,
ALP_MASTER)` has no effect on a device that is in master mode since `Initialize` and is left out, `DMD` is a fresh vendor object (the
fields `initialized` and `invert` of the controller are not used). -/
def masterStart (glyphs : ℤ → ℕ → ℤ → ℤ → Bool) (fault : ℕ → Bool) : Ctl × Except PyErr Unit :=
  match numberImage glyphs 1 2560 1600 with
  | .error e => (Ctl.new false, .error e)
  | .ok one => match numberImage glyphs 2 2560 1600 with
    | .error e => (Ctl.new false, .error e)
    | .ok two => sendAll fault (Ctl.new false) [.initialize, .seqAlloc 2, .seqPut (toBytes (ravel one ++ ravel two)), .seqInquire,
        .setTiming, .seqInquire, .run]

/-- `master_example.py:45-54`, after the prompt -/
def masterStop (fault : ℕ → Bool) (c : Ctl) : Ctl × Except PyErr Unit := sendAll fault c [.halt, .freeSeq, .free]

end Alp

end PySLM2.Controller
