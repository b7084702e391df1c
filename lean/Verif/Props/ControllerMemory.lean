import Verif.Lemmas.ControllerMemory
import Verif.Props.Controller

/-!
# C77, exactly: how much memory of an ALP device a `close()` leaves allocated
-/

namespace PySLM2.Controller

/-- **C77, exactly.** Take any history with any vendor calls raising, then an `initialize()` that completes, then any calls other than
`initialize()` and `close()`, again with any vendor calls raising, then a `close()` that returns.  If `n` allocations of a sequence went
through since the `initialize()`, then `n - 1` sequences are left allocated (none if `n = 0`). -/
theorem C77_exact (fault : ℕ → Bool) (invert : Bool) (before after : List Alp.Op)
    (hinit : (Alp.step fault (Alp.run fault (Alp.Ctl.new invert) before) .initialize).2 = .ok ())
    (h1 : .initialize ∉ after) (h2 : .close ∉ after)
    (hok : (Alp.step fault (Alp.run fault (Alp.Ctl.new invert) (before ++ .initialize :: after)) .close).2 = .ok ()) :
    (Alp.step fault (Alp.run fault (Alp.Ctl.new invert) (before ++ .initialize :: after)) .close).1.dev.seqs.length =
      Alp.allocations fault (Alp.run fault (Alp.Ctl.new invert) (before ++ [.initialize])).log.length
        (Alp.run fault (Alp.Ctl.new invert) (before ++ .initialize :: after)).log - 1 := by
  have key := Alp.counts_run fault after (Alp.counts_initialize hinit) h1 h2
  have e1 : Alp.run fault (Alp.Ctl.new invert) (before ++ .initialize :: after) =
      Alp.run fault (Alp.step fault (Alp.run fault (Alp.Ctl.new invert) before) .initialize).1 after := by
    rw [Alp.run_append]
    rfl
  have e2 : Alp.run fault (Alp.Ctl.new invert) (before ++ [.initialize]) =
      (Alp.step fault (Alp.run fault (Alp.Ctl.new invert) before) .initialize).1 := by
    rw [Alp.run_append]
    rfl
  rw [e1] at hok ⊢
  rw [e2]
  exact Alp.close_counts hok key.2

/-- A load that raised after its allocation counts, one that raised before it does not: the third load fails in `SeqPut`, the second in `Halt`. -/
example : (Alp.step (fun k => k == 7 || k == 11)
    (Alp.run (fun k => k == 7 || k == 11) (Alp.Ctl.new false) ([] ++ .initialize :: [.loadSingle [true], .loadSingle [false], .loadSingle [true]]))
      .close).1.dev.seqs.length = 1 := rfl

end PySLM2.Controller
