import Verif.Model.Basic

/-!
# `/repo/pySLM2/util/controller.py`

Every call to the vendor library is recorded in a log; any of them may raise (fault injection by an
arbitrary predicate on the call number).  The effect of the vendor calls on the device is modelled by
`Alp.apply` and by the Luxbeam sequencer below; these are assumptions about the vendor libraries
(their documented behaviour), not part of `/repo`.
-/

namespace PySLM2.Controller

/-- A binary image, as the row-major list of mirror states (argument of `controller.py:131-189`,
`controller.py:248-287`). -/
abbrev Image := List Bool

/-! ## ALP (`ALPController`) -/

namespace Alp

/-- Calls into `ALP4lib` (`controller.py:107-188`). -/
inductive Cmd
  | initialize
  | projInversion
  | halt
  | seqAlloc (nbImg : ℕ)
  | seqControl
  | seqPut (data : List ℕ)
  | seqInquire
  | setTiming
  | run
  | projSlave
  | triggerRising
  | freeSeq
  | free
  | inquireWidth
  | inquireHeight
  deriving DecidableEq, Repr

/-- Device state: allocated sequences `(id, number of pictures, data)`, next id, the library's
`_lastDDRseq`, slave mode, mirror inversion, running sequence, device allocated (the device behind the vendor
calls of `controller.py:106-189`). -/
structure Dev where
  seqs : List (ℕ × ℕ × List ℕ)
  next : ℕ
  last : Option ℕ
  slave : Bool
  inverted : Bool
  running : Option ℕ
  allocated : Bool
  deriving DecidableEq, Repr

/-- A device right after power-up (the device before `controller.py:106-110`). -/
def Dev.init : Dev := ⟨[], 0, none, false, false, none, false⟩

/-- Assumed effect of a successful vendor call.  `SeqPut`, `Run`, `FreeSeq` without a sequence id act on
`_lastDDRseq`; `FreeSeq` clears it; `Initialize` starts from a free device in master mode; `Free`
releases the device (the vendor calls of `controller.py:106-189`). -/
def apply (d : Dev) : Cmd → Dev
  | .initialize => { Dev.init with next := d.next, last := d.last, allocated := true }
  | .projInversion => { d with inverted := true }
  | .halt => { d with running := none }
  | .seqAlloc n => { d with seqs := d.seqs ++ [(d.next, n, [])], next := d.next + 1,
                            last := some d.next }
  | .seqControl => d
  | .seqPut data =>
    { d with seqs := d.seqs.map fun s => if some s.1 = d.last then (s.1, s.2.1, data) else s }
  | .seqInquire => d
  | .setTiming => d
  | .run => { d with running := d.last }
  | .projSlave => { d with slave := true }
  | .triggerRising => d
  | .freeSeq => { d with seqs := d.seqs.filter fun s => some s.1 ≠ d.last, last := none }
  | .free => { d with running := none, allocated := false }
  | .inquireWidth => d
  | .inquireHeight => d

/-- An `ALPController` with its device and the log of vendor calls made so far (oldest first)
(`controller.py:83-104`). -/
structure Ctl where
  initialized : Bool
  invert : Bool
  dev : Dev
  log : List Cmd
  deriving DecidableEq, Repr

/-- `ALPController.__init__` (`controller.py:99-104`) -/
def Ctl.new (invert : Bool) : Ctl := ⟨false, invert, Dev.init, []⟩

/-- One vendor call; `fault k` says that the `k`-th vendor call ever made raises (the vendor calls of
`controller.py:106-189`). -/
def send (fault : ℕ → Bool) (c : Ctl) (cmd : Cmd) : Ctl × Bool :=
  if fault c.log.length then ({ c with log := c.log ++ [cmd] }, false)
  else ({ c with log := c.log ++ [cmd], dev := apply c.dev cmd }, true)

/-- A sequence of vendor calls, abandoned at the first one that raises (the vendor calls of
`controller.py:106-189`). -/
def sendAll (fault : ℕ → Bool) (c : Ctl) : List Cmd → Ctl × Except PyErr Unit
  | [] => (c, .ok ())
  | cmd :: cmds =>
    let r := send fault c cmd
    if r.2 then sendAll fault r.1 cmds else (r.1, .error .exception)

/-- `dmd_state * self.MAX_UINT8` (`controller.py:84, 149, 183`) -/
def toBytes (img : Image) : List ℕ := img.map fun b => if b then 255 else 0

/-- The vendor calls of `initialize` (`controller.py:106-110`) -/
def initCmds (invert : Bool) : List Cmd := .initialize :: if invert then [.projInversion] else []

/-- The vendor calls of `load_single` (`controller.py:139-153`) -/
def loadSingleCmds (img : Image) : List Cmd :=
  [.halt, .seqAlloc 1, .seqControl, .seqPut (toBytes img), .setTiming, .run]

/-- The vendor calls of `load_multiple` (`controller.py:167-188`) -/
def loadMultipleCmds (imgs : List Image) : List Cmd :=
  [.halt, .projSlave, .triggerRising, .seqAlloc imgs.length, .seqControl,
    .seqPut (toBytes imgs.flatten), .seqInquire, .setTiming, .run]

/-- The vendor calls of `close` (`controller.py:112-116`) -/
def closeCmds (last : Option ℕ) : List Cmd :=
  [.halt] ++ (if last.isSome then [.freeSeq] else []) ++ [.free]

/-- Public calls.  `number_image` (`controller.py:78-80`) queries `Nx` and `Ny`. -/
inductive Op
  | initialize
  | close
  | loadSingle (img : Image)
  | loadMultiple (imgs : List Image)
  | queryNx
  | queryNy
  | numberImage
  | fireTrigger
  | loadSequence
  deriving DecidableEq, Repr

/-- `_check_initialization` (`controller.py:20-28`) around a method body -/
def guarded (c : Ctl) (body : Ctl × Except PyErr Unit) : Ctl × Except PyErr Unit :=
  if c.initialized then body else (c, .error .exception)

/-- One public call. `np.concatenate([])` raises `ValueError` after the first vendor calls
(`controller.py:183`); `SeqAlloc(0)` is assumed to be accepted. -/
def step (fault : ℕ → Bool) (c : Ctl) : Op → Ctl × Except PyErr Unit
  | .initialize =>
    let r := sendAll fault c (initCmds c.invert)
    match r.2 with
    | .ok _ => ({ r.1 with initialized := true }, .ok ())
    | .error e => (r.1, .error e)
  | .close => sendAll fault c (closeCmds c.dev.last)
  | .loadSingle img => guarded c (sendAll fault c (loadSingleCmds img))
  | .loadMultiple imgs => guarded c
      (if imgs = [] then
        let r := sendAll fault c [.halt, .projSlave, .triggerRising, .seqAlloc 0, .seqControl]
        match r.2 with
        | .ok _ => (r.1, .error .valueError)
        | .error e => (r.1, .error e)
      else sendAll fault c (loadMultipleCmds imgs))
  | .queryNx => guarded c (sendAll fault c [.inquireWidth])
  | .queryNy => guarded c (sendAll fault c [.inquireHeight])
  | .numberImage => guarded c (sendAll fault c [.inquireWidth, .inquireHeight])
  | .fireTrigger => (c, .error .notImplementedError)
  | .loadSequence => guarded c (c, .error .notImplementedError)

/-- A history of public calls, exceptions being caught by the caller (any sequence of calls of
`controller.py:106-193`). -/
def run (fault : ℕ → Bool) (c : Ctl) : List Op → Ctl
  | [] => c
  | op :: ops => run fault (step fault c op).1 ops

end Alp

/-! ## Luxbeam (`LuxbeamController`) -/

namespace Lux

/-- Vendor calls (`controller.py:236-301`) -/
inductive Cmd
  | seqRun (on : Bool)
  | seqReset (on : Bool)
  | loadSequence
  | setReg (v : ℕ)
  | loadImage (slot : ℕ) (img : Image)
  | softwareSync (level : Bool)
  deriving DecidableEq, Repr

/-- Program counter of the sequencer program of `controller.py:221-234`. -/
inductive Pc
  /-- `load_global(0)` -/
  | loadFirst
  /-- `reset_global` -/
  | show
  /-- `load_global(inum + 1)` -/
  | loadNext
  /-- `trig`: waiting -/
  | wait
  /-- end of the loop body: increment, compare with `reg0` -/
  | next
  deriving DecidableEq, Repr

/-- Device: image slots, sequencer register 0, whether the sequencer is enabled / held in reset /
programmed, its program counter and loop variable, DMD memory, the displayed image and the level of the
software sync line.  `none` is "never loaded" (the device behind the vendor calls of `controller.py:220-302`). -/
structure Dev where
  slots : ℕ → Option Image
  reg0 : ℕ
  enabled : Bool
  held : Bool
  programmed : Bool
  pc : Pc
  inum : ℕ
  memory : Option Image
  shown : Option Image
  sync : Bool

/-- A device right after power-up (the device before `controller.py:220-242`). -/
def Dev.init : Dev :=
  ⟨fun _ => none, 0, false, false, false, .loadFirst, 0, none, none, false⟩

/-- One instruction of the sequencer.  Held, disabled or waiting: nothing happens (the sequencer program of
`controller.py:222-234`). -/
def tick (d : Dev) : Dev :=
  if d.enabled ∧ ¬ d.held ∧ d.programmed then
    match d.pc with
    | .loadFirst => { d with memory := d.slots 0, inum := 0, pc := .show }
    | .show => { d with shown := d.memory, pc := .loadNext }
    | .loadNext => { d with memory := d.slots (d.inum + 1), pc := .wait }
    | .wait => d
    | .next =>
      if d.inum + 1 < d.reg0 then { d with inum := d.inum + 1, pc := .show }
      else { d with pc := .loadFirst }
  else d

/-- `n` instructions (the sequencer program of `controller.py:222-234`). -/
def ticks : ℕ → Dev → Dev
  | 0, d => d
  | n + 1, d => ticks n (tick d)

/-- A trigger edge: releases a waiting sequencer, otherwise it is lost (`seq.trig` of `controller.py:230-234`). -/
def trigger (d : Dev) : Dev :=
  if d.enabled ∧ ¬ d.held ∧ d.programmed ∧ d.pc = .wait then { d with pc := .next } else d

/-- Assumed effect of a vendor call.  Holding the sequencer in reset restarts its program; a rising
edge of the software sync is a trigger (`TRIG_MODE_POSITIVE_EDGE`, `controller.py:230`). -/
def apply (d : Dev) : Cmd → Dev
  | .seqRun on => { d with enabled := on }
  | .seqReset true => { d with held := true, pc := .loadFirst, inum := 0 }
  | .seqReset false => { d with held := false }
  | .loadSequence => { d with programmed := true, pc := .loadFirst, inum := 0 }
  | .setReg v => { d with reg0 := v }
  | .loadImage k img => { d with slots := Function.update d.slots k (some img) }
  | .softwareSync true => if d.sync then d else trigger { d with sync := true }
  | .softwareSync false => { d with sync := false }

/-- A `LuxbeamController` with its device and call log (`controller.py:195-218`). -/
structure Ctl where
  initialized : Bool
  dev : Dev
  log : List Cmd

/-- `LuxbeamController.__init__` (`controller.py:212-218`) -/
def Ctl.new : Ctl := ⟨false, Dev.init, []⟩

/-- One vendor call; `fault k` says that the `k`-th vendor call ever made raises; `delay k` is the
number of instructions the sequencer executes after it (the vendor calls of `controller.py:220-302`). -/
def send (fault : ℕ → Bool) (delay : ℕ → ℕ) (c : Ctl) (cmd : Cmd) : Ctl × Bool :=
  let k := c.log.length
  if fault k then ({ c with log := c.log ++ [cmd], dev := ticks (delay k) c.dev }, false)
  else ({ c with log := c.log ++ [cmd], dev := ticks (delay k) (apply c.dev cmd) }, true)

/-- A sequence of vendor calls, abandoned at the first one that raises (the vendor calls of
`controller.py:220-302`). -/
def sendAll (fault : ℕ → Bool) (delay : ℕ → ℕ) (c : Ctl) : List Cmd → Ctl × Except PyErr Unit
  | [] => (c, .ok ())
  | cmd :: cmds =>
    let r := send fault delay c cmd
    if r.2 then sendAll fault delay r.1 cmds else (r.1, .error .exception)

/-- The vendor calls of `initialize` (`controller.py:236-240`) -/
def initCmds : List Cmd :=
  [.seqRun false, .seqReset true, .loadSequence, .setReg 1, .seqReset false]

/-- The vendor calls of `load_single` (`controller.py:256-263`) -/
def loadSingleCmds (img : Image) : List Cmd :=
  [.seqRun false, .seqReset true, .setReg 1, .seqReset false, .loadImage 0 img, .seqRun true]

/-- The `load_image` calls for a list of images starting at slot `k` (`controller.py:282-283`) -/
def loadImages (k : ℕ) : List Image → List Cmd
  | [] => []
  | img :: imgs => .loadImage k img :: loadImages (k + 1) imgs

/-- The vendor calls of `load_multiple` (`controller.py:275-285`) -/
def loadMultipleCmds (imgs : List Image) : List Cmd :=
  [.seqRun false, .seqReset true, .setReg imgs.length, .seqReset false] ++ loadImages 0 imgs ++
    [.seqRun true]

/-- The vendor calls of `fire_software_trigger` (`controller.py:298-301`) -/
def triggerCmds : List Cmd := [.softwareSync true, .softwareSync false]

/-- Public calls; `extTrigger` is an electrical/optical trigger and `idle n` lets the sequencer run
(`controller.py:220-302`; trigger sources of `controller.py:230-234`). -/
inductive Op
  | initialize
  | close
  | loadSingle (img : Image)
  | loadMultiple (imgs : List Image)
  | fireTrigger
  | queryNx
  | queryNy
  | numberImage
  | loadSequence
  | extTrigger
  | idle (n : ℕ)

/-- `_check_initialization` (`controller.py:20-28`) -/
def guarded (c : Ctl) (body : Ctl × Except PyErr Unit) : Ctl × Except PyErr Unit :=
  if c.initialized then body else (c, .error .exception)

/-- One public call. `Nx`, `Ny` read attributes of the vendor object and send nothing
(`controller.py:288-296`). -/
def step (fault : ℕ → Bool) (delay : ℕ → ℕ) (c : Ctl) : Op → Ctl × Except PyErr Unit
  | .initialize =>
    let r := sendAll fault delay c initCmds
    match r.2 with
    | .ok _ => ({ r.1 with initialized := true }, .ok ())
    | .error e => (r.1, .error e)
  | .close => (c, .ok ())
  | .loadSingle img => guarded c (sendAll fault delay c (loadSingleCmds img))
  | .loadMultiple imgs => guarded c (sendAll fault delay c (loadMultipleCmds imgs))
  | .fireTrigger => guarded c (sendAll fault delay c triggerCmds)
  | .queryNx => guarded c (c, .ok ())
  | .queryNy => guarded c (c, .ok ())
  | .numberImage => guarded c (c, .ok ())
  | .loadSequence => guarded c (c, .error .notImplementedError)
  | .extTrigger => ({ c with dev := trigger c.dev }, .ok ())
  | .idle n => ({ c with dev := ticks n c.dev }, .ok ())

/-- A history of calls, exceptions being caught by the caller (any sequence of calls of `controller.py:220-302`). -/
def run (fault : ℕ → Bool) (delay : ℕ → ℕ) (c : Ctl) : List Op → Ctl
  | [] => c
  | op :: ops => run fault delay (step fault delay c op).1 ops

end Lux

end PySLM2.Controller
