import Verif.Model.Controller

/-!
# `/repo/pySLM2/util/controller.py` when a vendor call fails half-way, and when the program dies

In `Model/Controller.lean` a vendor call that raises has had no effect.  Here it may also have had its full effect with only
the reply missing (a network timeout, a `KeyboardInterrupt` delivered as the call returns), or have been cut off during the
transfer.  The public methods are the same; only the meaning of "raises" is richer.  What the vendor calls do to the device
remains an assumption about the vendor libraries.
-/

namespace PySLM2.Controller

/-- How a vendor call ends (any of the vendor calls of `controller.py:106-301`, none of which is inside a `try`): it returns; it
raises without any effect; it takes effect and raises all the same; it raises after a transfer was cut off, leaving `data`
where the picture should be. -/
inductive Fate (Data : Type)
  | returns
  | refused
  | lost
  | torn (data : Data)

/-- Did the call return? (`controller.py:106-301`) -/
def Fate.ok {Data : Type} : Fate Data → Bool
  | .returns => true
  | _ => false

namespace Alp

/-- What an ALP call does to the device (the vendor calls of `controller.py:106-189`).  When `SeqAlloc` or `FreeSeq` take effect
without returning, the library's note of the last sequence (`_lastDDRseq`) is not updated. -/
def effect (d : Dev) (cmd : Cmd) : Fate (List ℕ) → Dev
  | .returns => apply d cmd
  | .refused => d
  | .lost => match cmd with
    | .seqAlloc _ => { apply d cmd with last := d.last }
    | .freeSeq => { apply d cmd with last := d.last }
    | _ => apply d cmd
  | .torn data => match cmd with
    | .seqPut _ => apply d (.seqPut data)
    | _ => d

/-- A sequence of vendor calls, abandoned at the first one that does not return (`controller.py:106-189`); `fate k` is what
becomes of the `k`-th vendor call ever made. -/
def sendAllT (fate : ℕ → Fate (List ℕ)) (c : Ctl) : List Cmd → Ctl × Except PyErr Unit
  | [] => (c, .ok ())
  | cmd :: cmds =>
    let c' := { c with log := c.log ++ [cmd], dev := effect c.dev cmd (fate c.log.length) }
    if (fate c.log.length).ok then sendAllT fate c' cmds else (c', .error .exception)

/-- One public call (`controller.py:106-193`, as in `Alp.step`). -/
def stepT (fate : ℕ → Fate (List ℕ)) (c : Ctl) : Op → Ctl × Except PyErr Unit
  | .initialize =>
    let r := sendAllT fate c (initCmds c.invert)
    match r.2 with
    | .ok _ => ({ r.1 with initialized := true }, .ok ())
    | .error e => (r.1, .error e)
  | .close => sendAllT fate c (closeCmds c.dev.last)
  | .loadSingle img => guarded c (sendAllT fate c (loadSingleCmds img))
  | .loadMultiple imgs => guarded c
      (if imgs = [] then
        let r := sendAllT fate c [.halt, .projSlave, .triggerRising, .seqAlloc 0, .seqControl]
        match r.2 with
        | .ok _ => (r.1, .error .valueError)
        | .error e => (r.1, .error e)
      else sendAllT fate c (loadMultipleCmds imgs))
  | .queryNx => guarded c (sendAllT fate c [.inquireWidth])
  | .queryNy => guarded c (sendAllT fate c [.inquireHeight])
  | .numberImage => guarded c (sendAllT fate c [.inquireWidth, .inquireHeight])
  | .fireTrigger => (c, .error .notImplementedError)
  | .loadSequence => guarded c (c, .error .notImplementedError)

/-- A history of public calls, exceptions being caught by the caller (any sequence of calls of `controller.py:106-193`). -/
def runT (fate : ℕ → Fate (List ℕ)) (c : Ctl) : List Op → Ctl
  | [] => c
  | op :: ops => runT fate (stepT fate c op).1 ops

end Alp

namespace Lux

/-- What a Luxbeam call does to the device (the vendor calls of `controller.py:236-301`).  A sequencer program cut off in transfer is
no program. -/
def effect (d : Dev) (cmd : Cmd) : Fate Image → Dev
  | .returns => apply d cmd
  | .refused => d
  | .lost => apply d cmd
  | .torn img => match cmd with
    | .loadImage k _ => apply d (.loadImage k img)
    | .loadSequence => { d with programmed := false }
    | _ => d

/-- A sequence of vendor calls, abandoned at the first one that does not return (`controller.py:220-302`); `fate k` is what
becomes of the `k`-th vendor call ever made, `delay k` the number of instructions the sequencer executes after it. -/
def sendAllT (fate : ℕ → Fate Image) (delay : ℕ → ℕ) (c : Ctl) : List Cmd → Ctl × Except PyErr Unit
  | [] => (c, .ok ())
  | cmd :: cmds =>
    let k := c.log.length
    let c' := { c with log := c.log ++ [cmd], dev := ticks (delay k) (effect c.dev cmd (fate k)) }
    if (fate k).ok then sendAllT fate delay c' cmds else (c', .error .exception)

/-- One public call (`controller.py:220-302`, as in `Lux.step`). -/
def stepT (fate : ℕ → Fate Image) (delay : ℕ → ℕ) (c : Ctl) : Op → Ctl × Except PyErr Unit
  | .initialize =>
    let r := sendAllT fate delay c initCmds
    match r.2 with
    | .ok _ => ({ r.1 with initialized := true }, .ok ())
    | .error e => (r.1, .error e)
  | .close => (c, .ok ())
  | .loadSingle img => guarded c (sendAllT fate delay c (loadSingleCmds img))
  | .loadMultiple imgs => guarded c (sendAllT fate delay c (loadMultipleCmds imgs))
  | .fireTrigger => guarded c (sendAllT fate delay c triggerCmds)
  | .queryNx => guarded c (c, .ok ())
  | .queryNy => guarded c (c, .ok ())
  | .numberImage => guarded c (c, .ok ())
  | .loadSequence => guarded c (c, .error .notImplementedError)
  | .extTrigger => ({ c with dev := trigger c.dev }, .ok ())
  | .idle n => ({ c with dev := ticks n c.dev }, .ok ())

/-- What happens around a Luxbeam: a public call, or the program ends (anywhere, a call cut off by it being a call that did
not return) and a new one builds a `LuxbeamController` for the same device, which has kept its state
(`controller.py:212-218`). -/
inductive Ev
  | call (op : Op)
  | restart

/-- One event (`controller.py:212-302`). -/
def stepE (fate : ℕ → Fate Image) (delay : ℕ → ℕ) (c : Ctl) : Ev → Ctl × Except PyErr Unit
  | .call op => stepT fate delay c op
  | .restart => ({ Ctl.new with dev := c.dev, log := c.log }, .ok ())

/-- A history of events, exceptions being caught by the caller (`controller.py:212-302`). -/
def runE (fate : ℕ → Fate Image) (delay : ℕ → ℕ) (c : Ctl) : List Ev → Ctl
  | [] => c
  | ev :: evs => runE fate delay (stepE fate delay c ev).1 evs

end Lux

end PySLM2.Controller
