import Verif.Model.Controller

/-!
# What a user sees of a DMD controller
-/

namespace PySLM2.Controller

namespace Alp

/-- Some `initialize()` of the history returned without an exception. -/
def InitCompleted (fault : ℕ → Bool) : Ctl → List Op → Prop
  | _, [] => False
  | c, op :: ops =>
    (op = .initialize ∧ (step fault c op).2 = .ok ()) ∨ InitCompleted fault (step fault c op).1 ops

/-- The calls that need the device. -/
def Op.NeedsDevice : Op → Prop
  | .loadSingle _ | .loadMultiple _ | .queryNx | .queryNy | .numberImage | .loadSequence => True
  | .initialize | .close | .fireTrigger => False

/-- What the device holds for the sequence it is running: number of pictures and picture data. -/
def Dev.projecting (d : Dev) : Option (ℕ × List ℕ) :=
  d.running.bind fun id => (d.seqs.find? fun s => s.1 = id).map fun s => s.2

/-- The device shows this image now, without waiting for a trigger. -/
def Dev.ShowsNow (d : Dev) (img : Image) : Prop :=
  d.slave = false ∧ d.projecting = some (1, toBytes img)

/-- Is this vendor call an allocation of a sequence? -/
def Cmd.isAlloc : Cmd → Bool
  | .seqAlloc _ => true
  | _ => false

/-- How many of the vendor calls number `start`, `start + 1`, … in the log were allocations of a sequence that did not raise. -/
def allocations (fault : ℕ → Bool) (start : ℕ) (log : List Cmd) : ℕ :=
  ((List.range log.length).filter fun k => decide (start ≤ k) && !fault k && (log[k]?.map Cmd.isAlloc).getD false).length

end Alp

namespace Lux

/-- Some `initialize()` of the history returned without an exception. -/
def InitCompleted (fault : ℕ → Bool) (delay : ℕ → ℕ) : Ctl → List Op → Prop
  | _, [] => False
  | c, op :: ops =>
    (op = .initialize ∧ (step fault delay c op).2 = .ok ()) ∨ InitCompleted fault delay (step fault delay c op).1 ops

/-- The calls that need the device. -/
def Op.NeedsDevice : Op → Prop
  | .loadSingle _ | .loadMultiple _ | .queryNx | .queryNy | .numberImage | .loadSequence | .fireTrigger => True
  | .initialize | .close | .extTrigger | .idle _ => False

/-- What can happen after a load without changing the loaded images: triggers of either kind, queries, time passing. -/
def Op.Passive : Op → Prop
  | .fireTrigger | .extTrigger | .idle _ | .queryNx | .queryNy | .numberImage | .loadSequence | .close => True
  | .initialize | .loadSingle _ | .loadMultiple _ => False

/-- No `fire_software_trigger()` of the history that passed the initialization guard raised. -/
def TriggersComplete (fault : ℕ → Bool) (delay : ℕ → ℕ) : Ctl → List Op → Prop
  | _, [] => True
  | c, op :: ops =>
    (op = .fireTrigger → c.initialized = true → (step fault delay c op).2 = .ok ()) ∧
      TriggersComplete fault delay (step fault delay c op).1 ops

/-- `k` triggers, each a successful software trigger or an external one, and each followed by enough time for the
sequencer (at least four instructions). -/
inductive Triggered (fault : ℕ → Bool) (delay : ℕ → ℕ) : ℕ → Ctl → Ctl → Prop
  | none (c : Ctl) : Triggered fault delay 0 c c
  | more {k : ℕ} {c c' : Ctl} (h : Triggered fault delay k c c') (op : Op) (hop : op = .fireTrigger ∨ op = .extTrigger)
      (hok : (step fault delay c' op).2 = .ok ()) (n : ℕ) (hn : 4 ≤ n) :
      Triggered fault delay (k + 1) c (step fault delay (step fault delay c' op).1 (.idle n)).1

end Lux

end PySLM2.Controller
