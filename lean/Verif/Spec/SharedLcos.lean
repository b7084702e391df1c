import Verif.Model.SharedLcos

/-!
# Specification of threads that share an LCOS SLM: one call after the other
-/

noncomputable section

namespace PySLM2.SharedLcos

open LCOS

/-- A whole call: the SLM afterwards and what the caller gets back. -/
def perform (l : LCOS) : Req → LCOS × Resp
  | .reset => (l.reset, .done (.ok ()))
  | .calculate h inp target method kw u =>
    ((l.calculateHologram h inp target method kw u).1, .done (l.calculateHologram h inp target method kw u).2)
  | .assign st => ({ l with state := st }, .done (.ok ()))
  | .read => (l, .value l.state)

/-- The SLM, and what each thread has still to do, if calls are never interrupted. -/
structure Atomic where
  lcos : LCOS
  progs : ℕ → Prog

/-- Thread `i` makes its next call, without interruption. -/
def Atomic.call (a : Atomic) (i : ℕ) : Atomic :=
  match a.progs i with
  | .ended => a
  | .call c k => ⟨(perform a.lcos c).1, Function.update a.progs i (k (perform a.lcos c).2)⟩

/-- One call after the other, in the order of the threads in the list. -/
def Atomic.calls (a : Atomic) (order : List ℕ) : Atomic := order.foldl Atomic.call a

/-- All threads have ended. -/
def World.Ended (w : World) : Prop := ∀ i, w.threads i = .idle .ended

/-- Every call that the program can make satisfies `Q`. -/
def Prog.Only (Q : Req → Prop) : Prog → Prop
  | .ended => True
  | .call c k => Q c ∧ ∀ r, (k r).Only Q

end PySLM2.SharedLcos
