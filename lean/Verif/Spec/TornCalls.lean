import Verif.Model.TornCalls
import Verif.Spec.Controller

/-!
# What a user sees of a controller whose vendor calls may fail half-way
-/

namespace PySLM2.Controller

namespace Lux

/-- Events that load nothing: passive calls, and a restart of the program. -/
def Ev.Passive : Ev → Prop
  | .call op => op.Passive
  | .restart => True

/-- Trigger edges among the first `k` events. -/
def edgesIn (later : List Ev) (k : ℕ) : ℕ :=
  (later.take k).countP fun ev => match ev with | .call .fireTrigger | .call .extTrigger => true | _ => false

/-- From here on the display goes through exactly these images in order: whatever passive events follow (the first one being
a pause of three instructions), `J k` numbers the image displayed after `k` of them; it starts at 0, grows by at most one per
event, and never exceeds the number of trigger edges so far. -/
def GoesThrough (fate : ℕ → Fate Image) (delay : ℕ → ℕ) (c : Ctl) (imgs : List Image) : Prop :=
  ∀ (n : ℕ), 3 ≤ n → ∀ later : List Ev, (∀ ev ∈ later, ev.Passive) →
    ∃ J : ℕ → ℕ, J 0 = 0 ∧ (∀ k < later.length, J k ≤ J (k + 1) ∧ J (k + 1) ≤ J k + 1) ∧
      ∀ k ≤ later.length, J k ≤ edgesIn later k ∧
        (runE fate delay c (.call (.idle n) :: later.take k)).dev.shown = imgs[J k % imgs.length]? ∧
        (runE fate delay c (.call (.idle n) :: later.take k)).dev.shown.isSome

/-- From here on the display stays as it is, whatever passive events follow. -/
def Frozen (fate : ℕ → Fate Image) (delay : ℕ → ℕ) (c : Ctl) (s : Option Image) : Prop :=
  ∀ later : List Ev, (∀ ev ∈ later, ev.Passive) → (runE fate delay c later).dev.shown = s

end Lux

end PySLM2.Controller
