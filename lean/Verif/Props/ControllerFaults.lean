import Verif.Lemmas.ControllerFaults

/-!
# C79–C83: controllers, failed calls and trigger timing

As in `Props/Controller.lean`, `fault` decides which vendor calls raise and `delay` how fast the sequencer runs.
-/

namespace PySLM2.Controller

/-! ## C79 -/

/-- **C79, the part that holds.** In any history, with any failures: if the last `initialize()` returned, the mirrors
are inverted exactly when the controller was built with `invert=True`, whatever is loaded or closed afterwards.
*Missing: a last `initialize()` that raised.* -/
theorem C79_partial (fault : ℕ → Bool) (invert : Bool) (before after : List Alp.Op)
    (hinit : (Alp.step fault (Alp.run fault (Alp.Ctl.new invert) before) .initialize).2 = .ok ())
    (hlast : Alp.Op.initialize ∉ after) :
    (Alp.run fault (Alp.Ctl.new invert) (before ++ .initialize :: after)).dev.inverted = invert := by
  rw [Alp.run_append]
  show (Alp.run fault (Alp.step fault _ .initialize).1 after).dev.inverted = invert
  rw [Alp.inverted_run fault after hlast, (Alp.initialize_ok hinit).2]
  have hi : (Alp.run fault (Alp.Ctl.new invert) before).invert = invert := Alp.invert_run fault before
  rw [hi]
  cases invert <;> rfl

/-- Inversion survives loads and a close. -/
example : (Alp.run (fun _ => false) (Alp.Ctl.new true) ([.queryNx] ++ .initialize :: [.loadSingle [true], .close])).dev.inverted = true :=
  rfl

/-- **C79 is false in general**: an `initialize()` of an inverting controller that raises in its second vendor call leaves
a device without inversion and a controller that still counts as initialized, so the next `load_single` returns with
the image shown un-inverted. -/
theorem C79_refuted (ops : List Alp.Op) (img : Image) (fault : ℕ → Bool)
    (hinit : Alp.InitCompleted fault (Alp.Ctl.new true) ops)
    (hfault : ∀ k, fault k = true ↔ k = (Alp.run fault (Alp.Ctl.new true) ops).log.length + 1) :
    (Alp.step fault (Alp.run fault (Alp.Ctl.new true) ops) .initialize).2 ≠ .ok () ∧
    (Alp.step fault (Alp.run fault (Alp.Ctl.new true) (ops ++ [.initialize])) (.loadSingle img)).2 = .ok () ∧
    (Alp.step fault (Alp.run fault (Alp.Ctl.new true) (ops ++ [.initialize])) (.loadSingle img)).1.dev.inverted = false := by
  have h1 : (Alp.run fault (Alp.Ctl.new true) ops).initialized = true := (Alp.initialized_iff _ _ _).2 (.inr hinit)
  have h2 : (Alp.run fault (Alp.Ctl.new true) ops).invert = true := Alp.invert_run fault ops
  rw [Alp.run_append]
  generalize hc : Alp.run fault (Alp.Ctl.new true) ops = c at *
  have hf : ∀ k, k ≠ c.log.length + 1 → fault k = false := fun k hk => by
    rw [← Bool.not_eq_true, hfault k]; exact hk
  have ht : fault (c.log.length + 1) = true := (hfault _).2 rfl
  have e : Alp.step fault c .initialize =
      ({ c with dev := Alp.apply c.dev .initialize, log := c.log ++ [.initialize, .projInversion] }, .error .exception) := by
    simp [Alp.step, Alp.initCmds, h2, Alp.sendAll, Alp.send, hf c.log.length (by omega), ht]
  refine ⟨by rw [e]; simp, ?_⟩
  simp only [Alp.run, e]
  simp [Alp.step, Alp.guarded, h1, Alp.loadSingleCmds, Alp.sendAll, Alp.send, hf, Alp.apply, Alp.Dev.init]

/-- Such a failure: the second `initialize()` of a controller, third vendor call being the failing one. -/
example : Alp.InitCompleted (fun k => k == 3) (Alp.Ctl.new true) [.initialize] ∧
    ∀ k, (k == 3) = true ↔ k = (Alp.run (fun k => k == 3) (Alp.Ctl.new true) [.initialize]).log.length + 1 := by
  constructor
  · simp [Alp.InitCompleted, Alp.step, Alp.sendAll, Alp.send, Alp.Ctl.new, Alp.initCmds]
  · intro k
    simp [Alp.run, Alp.step, Alp.sendAll, Alp.send, Alp.Ctl.new, Alp.initCmds]

/-! ## C80 -/

/-- **C80.** After any history, a Luxbeam load that raises (at whatever vendor call) either had its very first request, to
stop the sequencer, refused, and then the device has merely run on; or the display keeps showing what it showed before
the load, whatever triggers arrive and however long one waits, until the next `initialize()` or load. -/
theorem C80_failed_load (fault : ℕ → Bool) (delay : ℕ → ℕ) (ops : List Lux.Op) (load : Lux.Op)
    (hload : (∃ imgs, load = .loadMultiple imgs) ∨ ∃ img, load = .loadSingle img)
    (hraise : (Lux.step fault delay (Lux.run fault delay Lux.Ctl.new ops) load).2 ≠ .ok ())
    (hinit : Lux.InitCompleted fault delay Lux.Ctl.new ops) :
    (∃ n, (Lux.step fault delay (Lux.run fault delay Lux.Ctl.new ops) load).1.dev =
        (Lux.step fault delay (Lux.run fault delay Lux.Ctl.new ops) (.idle n)).1.dev ∧
      (Lux.step fault delay (Lux.run fault delay Lux.Ctl.new ops) load).1.log =
        (Lux.run fault delay Lux.Ctl.new ops).log ++ [.seqRun false]) ∨
    ∀ later : List Lux.Op, (∀ op ∈ later, op.Passive) →
      (Lux.run fault delay (Lux.step fault delay (Lux.run fault delay Lux.Ctl.new ops) load).1 later).dev.shown =
        (Lux.run fault delay Lux.Ctl.new ops).dev.shown := by
  have h1 : (Lux.run fault delay Lux.Ctl.new ops).initialized = true := (Lux.initialized_iff _ _ _ _).2 (.inr hinit)
  generalize Lux.run fault delay Lux.Ctl.new ops = c at *
  have hl : ∀ (imgs : List Image) (k : ℕ), Lux.Cmd.seqRun true ∉ Lux.loadImages k imgs := by
    intro imgs
    induction imgs with
    | nil => intro k; simp [Lux.loadImages]
    | cons img imgs ih => intro k; simp [Lux.loadImages, ih]
  obtain ⟨mid, hmid, e⟩ : ∃ mid, Lux.Cmd.seqRun true ∉ mid ∧
      Lux.step fault delay c load = Lux.sendAll fault delay c (.seqRun false :: mid ++ [.seqRun true]) := by
    rcases hload with ⟨imgs, rfl⟩ | ⟨img, rfl⟩
    · exact ⟨[.seqReset true, .setReg imgs.length, .seqReset false] ++ Lux.loadImages 0 imgs, by simp [hl], by
        simp [Lux.step, Lux.guarded, h1, Lux.loadMultipleCmds]⟩
    · exact ⟨[.seqReset true, .setReg 1, .seqReset false, .loadImage 0 img], by simp, by
        simp [Lux.step, Lux.guarded, h1, Lux.loadSingleCmds]⟩
  rw [e] at hraise ⊢
  rcases Lux.sendAll_stop mid hmid c hraise with ⟨n, h2, h3⟩ | h2
  · exact .inl ⟨n, h2, h3⟩
  · exact .inr fun later hlater => (Lux.frozen_run fault delay c.dev.shown later h2 hlater).2

/-- A `load_multiple` of three images interrupted after the second image, then triggers: the old image stays. -/
example : (Lux.run (fun k => k == 17) (fun _ => 5) Lux.Ctl.new [.initialize, .loadSingle [true], .idle 5,
    .loadMultiple [[false], [false], [false]], .idle 9, .extTrigger, .idle 9, .fireTrigger, .idle 9]).dev.shown = some [true] ∧
    (Lux.step (fun k => k == 17) (fun _ => 5) (Lux.run (fun k => k == 17) (fun _ => 5) Lux.Ctl.new
      [.initialize, .loadSingle [true], .idle 5]) (.loadMultiple [[false], [false], [false]])).2 ≠ .ok () := by
  constructor
  · simp [Lux.run, Lux.step, Lux.guarded, Lux.sendAll, Lux.send, Lux.initCmds, Lux.loadMultipleCmds, Lux.loadSingleCmds,
      Lux.loadImages, Lux.triggerCmds, Lux.apply, Lux.ticks, Lux.tick, Lux.trigger, Lux.Ctl.new, Lux.Dev.init, Function.update]
  · simp [Lux.run, Lux.step, Lux.guarded, Lux.sendAll, Lux.send, Lux.initCmds, Lux.loadMultipleCmds, Lux.loadSingleCmds,
      Lux.loadImages, Lux.Ctl.new]

/-! ## C81 -/

/-- Triggers among the first `k` calls. -/
def Lux.triggersIn (later : List Lux.Op) (k : ℕ) : ℕ :=
  (later.take k).countP fun op => match op with | .fireTrigger | .extTrigger => true | _ => false

/-- **C81.** Triggers arriving at any time, also while the sequencer is busy, and failing calls: after the load (and three
instructions) the display goes through the images in order without skipping any.  `J k` numbers the image displayed
after `k` further calls: it starts at 0, each call advances it by at most one, and it never exceeds the number of
triggers so far. -/
theorem C81_in_order (fault : ℕ → Bool) (delay : ℕ → ℕ) (ops : List Lux.Op) (imgs : List Image) (hn : imgs ≠ [])
    (load : Lux.Op) (hload : load = .loadMultiple imgs ∨ ∃ img, imgs = [img] ∧ load = .loadSingle img)
    (hok : (Lux.step fault delay (Lux.run fault delay Lux.Ctl.new ops) load).2 = .ok ()) (n : ℕ) (h3 : 3 ≤ n)
    (later : List Lux.Op) (hlater : ∀ op ∈ later, op.Passive) :
    ∃ J : ℕ → ℕ, J 0 = 0 ∧ (∀ k < later.length, J k ≤ J (k + 1) ∧ J (k + 1) ≤ J k + 1) ∧
      ∀ k ≤ later.length, J k ≤ Lux.triggersIn later k ∧
        (Lux.run fault delay (Lux.step fault delay (Lux.run fault delay Lux.Ctl.new ops) load).1
          (.idle n :: later.take k)).dev.shown =
          some (imgs[J k % imgs.length]'(Nat.mod_lt _ (List.length_pos_iff.2 hn))) := by
  obtain ⟨d, m, h1, h2, h4⟩ := Lux.load_playing
    (Lux.run_programmed fault delay ops Lux.Ctl.new (by simp [Lux.Ctl.new])) hload hn hok
  have hw : Lux.Waiting imgs 0
      (Lux.step fault delay (Lux.step fault delay (Lux.run fault delay Lux.Ctl.new ops) load).1 (.idle n)).1.dev := by
    show Lux.Waiting imgs 0 (Lux.ticks n _)
    rw [h1, Lux.ticks_add]
    exact Lux.waiting_start (h2.mono fun _ _ => trivial) hn h4 (by omega)
  have hpos : 0 < imgs.length := List.length_pos_iff.2 hn
  have hc := hw.cyc hpos
  have key : ∀ (later : List Lux.Op), (∀ op ∈ later, op.Passive) → ∀ (c : Lux.Ctl) (j : ℕ) (p : Bool), Lux.Cyc imgs j p c.dev →
      ∃ J : ℕ → ℕ, J 0 = j ∧ (∀ k < later.length, J k ≤ J (k + 1) ∧ J (k + 1) ≤ J k + 1) ∧
        ∀ k ≤ later.length, J k ≤ j + p.toNat + Lux.triggersIn later k ∧
          (Lux.run fault delay c (later.take k)).dev.shown = imgs[J k % imgs.length]? := by
    intro later
    induction later with
    | nil =>
      intro _ c j p h
      refine ⟨fun _ => j, rfl, fun k hk => by simp at hk, fun k hk => ⟨by simp only; omega, ?_⟩⟩
      rw [List.take_nil]
      exact h.shown
    | cons op later ih =>
      intro hp c j p h
      obtain ⟨j', p', h5, h6, h7, h8⟩ := h.step hn fault delay op (hp op (by simp))
      obtain ⟨J, hJ0, hJ1, hJ2⟩ := ih (fun o ho => hp o (by simp [ho])) _ j' p' h5
      refine ⟨fun k => if k = 0 then j else J (k - 1), by simp, ?_, ?_⟩
      · intro k hk
        cases k with
        | zero => simpa [hJ0] using ⟨h6, h7⟩
        | succ k => simpa using hJ1 k (by simpa using hk)
      · intro k hk
        cases k with
        | zero => exact ⟨by simp only [if_true]; omega, by simpa [Lux.run] using h.shown⟩
        | succ k =>
          obtain ⟨h9, h10⟩ := hJ2 k (by simpa using hk)
          refine ⟨?_, by simpa [Lux.run] using h10⟩
          have e : Lux.triggersIn (op :: later) (k + 1) = Lux.triggersIn later k + op.edges := by
            unfold Lux.triggersIn
            rw [List.take_succ_cons, List.countP_cons]
            cases op <;> simp [Lux.Op.edges]
          simp only [Nat.add_eq_zero_iff, one_ne_zero, and_false, if_false, Nat.add_sub_cancel]
          rw [e]
          omega
  obtain ⟨J, hJ0, hJ1, hJ2⟩ := key later hlater _ 0 false hc
  refine ⟨J, hJ0, hJ1, fun k hk => ?_⟩
  obtain ⟨h5, h6⟩ := hJ2 k hk
  refine ⟨by simpa using h5, ?_⟩
  rw [← List.getElem?_eq_getElem]
  exact h6

/-- Three triggers in quick succession: two are lost, and the display is one image further, not three. -/
example : (Lux.run (fun _ => false) (fun _ => 0) Lux.Ctl.new [.initialize, .loadMultiple [[true], [false], [true, true]],
    .idle 3, .extTrigger, .extTrigger, .extTrigger, .idle 10]).dev.shown = some [false] := by
  simp [Lux.run, Lux.step, Lux.guarded, Lux.sendAll, Lux.send, Lux.initCmds, Lux.loadMultipleCmds, Lux.loadImages,
    Lux.apply, Lux.ticks, Lux.tick, Lux.trigger, Lux.Ctl.new, Lux.Dev.init, Function.update]

/-! ## C82 -/

/-- **C82.** An ALP load that raises, at whatever vendor call, never leaves a wrong image: either its first request (to
halt) was refused and the device is exactly as before, or nothing is being projected. -/
theorem C82_failed_load (fault : ℕ → Bool) (invert : Bool) (ops : List Alp.Op) (load : Alp.Op)
    (hload : (∃ imgs, load = .loadMultiple imgs) ∨ ∃ img, load = .loadSingle img)
    (hraise : (Alp.step fault (Alp.run fault (Alp.Ctl.new invert) ops) load).2 ≠ .ok ()) :
    (Alp.step fault (Alp.run fault (Alp.Ctl.new invert) ops) load).1.dev = (Alp.run fault (Alp.Ctl.new invert) ops).dev ∧
      (∀ x ∈ (Alp.step fault (Alp.run fault (Alp.Ctl.new invert) ops) load).1.log.drop
        (Alp.run fault (Alp.Ctl.new invert) ops).log.length, x = Alp.Cmd.halt) ∨
    (Alp.step fault (Alp.run fault (Alp.Ctl.new invert) ops) load).1.dev.projecting = none := by
  generalize Alp.run fault (Alp.Ctl.new invert) ops = c at *
  have hp : ∀ d : Alp.Dev, d.running = none → d.projecting = none := fun d h => by simp [Alp.Dev.projecting, h]
  by_cases hi : c.initialized = true
  swap
  · left
    have e : Alp.step fault c load = (c, .error .exception) := by
      rcases hload with ⟨imgs, rfl⟩ | ⟨img, rfl⟩ <;> simp [Alp.step, Alp.guarded, hi]
    rw [e]
    simp
  have fin : ∀ (mid last : List Alp.Cmd), Alp.Cmd.run ∉ mid → (last = [] ∨ last = [.run]) →
      (Alp.sendAll fault c (.halt :: mid ++ last)).2 ≠ .ok () →
      (Alp.sendAll fault c (.halt :: mid ++ last)).1.dev = c.dev ∧
        (∀ x ∈ (Alp.sendAll fault c (.halt :: mid ++ last)).1.log.drop c.log.length, x = Alp.Cmd.halt) ∨
      (Alp.sendAll fault c (.halt :: mid ++ last)).1.dev.projecting = none := by
    intro mid last h1 h2 h3
    rcases Alp.sendAll_dark h1 h2 h3 with ⟨h4, h5⟩ | h4
    · exact .inl ⟨h4, by rw [h5]; simp⟩
    · exact .inr (hp _ h4)
  rcases hload with ⟨imgs, rfl⟩ | ⟨img, rfl⟩
  · by_cases hm : imgs = []
    · subst hm
      simp only [Alp.step, Alp.guarded, hi, if_true] at hraise ⊢
      rcases Alp.sendAll_result (fault := fault) [.halt, .projSlave, .triggerRising, .seqAlloc 0, .seqControl] c with h1 | h1
      · right
        simp only [h1]
        rw [Alp.sendAll_ok _ _ h1]
        exact hp _ rfl
      · have := fin [.projSlave, .triggerRising, .seqAlloc 0, .seqControl] [] (by simp) (.inl rfl)
          (by rw [List.append_nil, h1]; simp)
        simp only [h1]
        simpa using this
    · simp only [Alp.step, Alp.guarded, hi, hm, if_true, if_false] at hraise ⊢
      exact fin [.projSlave, .triggerRising, .seqAlloc imgs.length, .seqControl, .seqPut (Alp.toBytes imgs.flatten),
        .seqInquire, .setTiming] [.run] (by simp) (.inr rfl) hraise
  · simp only [Alp.step, Alp.guarded, hi, if_true] at hraise ⊢
    exact fin [.seqAlloc 1, .seqControl, .seqPut (Alp.toBytes img), .setTiming] [.run] (by simp) (.inr rfl) hraise

/-- An image is showing; the next load fails while sending the data: nothing is projected any more. -/
example : (Alp.run (fun k => k == 10) (Alp.Ctl.new false) [.initialize, .loadSingle [true], .loadSingle [false]]).dev.projecting = none ∧
    (Alp.run (fun k => k == 10) (Alp.Ctl.new false) [.initialize, .loadSingle [true]]).dev.projecting = some (1, [255]) :=
  ⟨rfl, rfl⟩

/-! ## C83 -/

/-- **C83, the part that holds.** After any history, a load, and any triggers and calls whatsoever since: given four
instructions' time, one software trigger that returns moves the display to the next image, provided no earlier
`fire_software_trigger()` raised.  *Missing: after one that raised.* -/
theorem C83_partial (fault : ℕ → Bool) (delay : ℕ → ℕ) (ops : List Lux.Op) (imgs : List Image) (hn : imgs ≠ [])
    (load : Lux.Op) (hload : load = .loadMultiple imgs ∨ ∃ img, imgs = [img] ∧ load = .loadSingle img)
    (hok : (Lux.step fault delay (Lux.run fault delay Lux.Ctl.new ops) load).2 = .ok ())
    (later : List Lux.Op) (hlater : ∀ op ∈ later, op.Passive)
    (htrig : Lux.TriggersComplete fault delay Lux.Ctl.new (ops ++ load :: later)) (n n' : ℕ) (h4 : 4 ≤ n) (h4' : 4 ≤ n')
    (hfire : (Lux.step fault delay (Lux.run fault delay Lux.Ctl.new (ops ++ load :: later ++ [.idle n])) .fireTrigger).2 = .ok ()) :
    ∃ j, j < imgs.length ∧
      (Lux.run fault delay Lux.Ctl.new (ops ++ load :: later ++ [.idle n])).dev.shown = imgs[j]? ∧
      (Lux.run fault delay Lux.Ctl.new (ops ++ load :: later ++ [.idle n, .fireTrigger, .idle n'])).dev.shown =
        imgs[(j + 1) % imgs.length]? := by
  obtain ⟨d, m, h1, h2, _⟩ := Lux.load_playing
    (Lux.run_programmed fault delay ops Lux.Ctl.new (by simp [Lux.Ctl.new])) hload hn hok
  have hpl : Lux.Playing imgs (fun _ => True) (Lux.run fault delay Lux.Ctl.new (ops ++ load :: later)).dev := by
    rw [Lux.run_append]
    refine Lux.Playing.run (fun _ _ => trivial) hn fault delay later ?_ hlater
    show Lux.Playing imgs _ (Lux.step fault delay (Lux.run fault delay Lux.Ctl.new ops) load).1.dev
    rw [h1]
    exact Lux.ticks_inv (fun d hd => hd.tick (fun _ _ => trivial) hn) m _ (h2.mono fun _ _ => trivial)
  have hs := Lux.sync_run fault delay _ Lux.Ctl.new rfl htrig
  have e1 : Lux.run fault delay Lux.Ctl.new (ops ++ load :: later ++ [.idle n]) =
      (Lux.step fault delay (Lux.run fault delay Lux.Ctl.new (ops ++ load :: later)) (.idle n)).1 := by
    rw [Lux.run_append]; rfl
  have e2 : Lux.run fault delay Lux.Ctl.new (ops ++ load :: later ++ [.idle n, .fireTrigger, .idle n']) =
      (Lux.step fault delay (Lux.step fault delay
        (Lux.run fault delay Lux.Ctl.new (ops ++ load :: later ++ [.idle n])) .fireTrigger).1 (.idle n')).1 := by
    rw [e1, Lux.run_append]; rfl
  obtain ⟨j, hj, hw⟩ := Lux.playing_waits hpl hn h4
  have hw' : Lux.Waiting imgs j (Lux.run fault delay Lux.Ctl.new (ops ++ load :: later ++ [.idle n])).dev := by
    rw [e1]; exact hw
  have hs' : (Lux.run fault delay Lux.Ctl.new (ops ++ load :: later ++ [.idle n])).dev.sync = false := by
    rw [e1]; exact (Lux.sync_ticks n _).trans hs
  refine ⟨j, hj, hw'.shown, ?_⟩
  obtain ⟨a, ha⟩ := Lux.fireTrigger_ok hs' hfire
  rw [e2]
  show (Lux.ticks n' (Lux.step fault delay _ .fireTrigger).1.dev).shown = _
  rw [ha, Lux.ticks_add]
  exact (Lux.waiting_next hw' hn (by omega)).shown

/-- A trigger after some that came too fast. -/
example : (Lux.run (fun _ => false) (fun _ => 1) Lux.Ctl.new [.initialize, .loadMultiple [[true], [false]],
    .extTrigger, .fireTrigger, .idle 4, .fireTrigger, .idle 4]).dev.shown = some [false] := by
  simp [Lux.run, Lux.step, Lux.guarded, Lux.sendAll, Lux.send, Lux.initCmds, Lux.loadMultipleCmds, Lux.loadImages,
    Lux.triggerCmds, Lux.apply, Lux.ticks, Lux.tick, Lux.trigger, Lux.Ctl.new, Lux.Dev.init, Function.update]

/-- **C83 is false in general**: `fire_software_trigger()` raises the sync line and lowers it again; if lowering fails the
line stays up, and the next call, although it returns, produces no edge: after any history and load, and however long one
waits, the display stays where it was. -/
theorem C83_refuted (fault : ℕ → Bool) (delay : ℕ → ℕ) (ops : List Lux.Op) (imgs : List Image) (hn : imgs ≠ [])
    (load : Lux.Op) (hload : load = .loadMultiple imgs ∨ ∃ img, imgs = [img] ∧ load = .loadSingle img)
    (hok : (Lux.step fault delay (Lux.run fault delay Lux.Ctl.new ops) load).2 = .ok ())
    (later : List Lux.Op) (hlater : ∀ op ∈ later, op.Passive) (n n' : ℕ) (hn4 : 4 ≤ n) {c c₁ : Lux.Ctl}
    (hc : c = Lux.run fault delay Lux.Ctl.new (ops ++ load :: later))
    (hc₁ : c₁ = Lux.run fault delay Lux.Ctl.new (ops ++ load :: later ++ [.fireTrigger, .idle n]))
    (hi : c.initialized = true)
    (h1 : fault c.log.length = false) (h2 : fault (c.log.length + 1) = true)
    (h3 : fault (c.log.length + 2) = false) (h4 : fault (c.log.length + 3) = false) :
    (Lux.step fault delay c .fireTrigger).2 ≠ .ok () ∧ (Lux.step fault delay c₁ .fireTrigger).2 = .ok () ∧
    ∃ j, j < imgs.length ∧ c₁.dev.shown = imgs[j]? ∧
      (Lux.run fault delay c₁ [.fireTrigger, .idle n']).dev.shown = imgs[j]? := by
  obtain ⟨d, m, hd1, hd2, _⟩ := Lux.load_playing
    (Lux.run_programmed fault delay ops Lux.Ctl.new (by simp [Lux.Ctl.new])) hload hn hok
  have hpl : Lux.Playing imgs (fun _ => True) (Lux.run fault delay Lux.Ctl.new (ops ++ load :: (later ++ [.fireTrigger]))).dev := by
    rw [Lux.run_append]
    refine Lux.Playing.run (P := fun _ => True) (fun _ _ => trivial) hn fault delay (later ++ [.fireTrigger]) ?_ fun op hop => ?_
    · show Lux.Playing imgs (fun _ => True) (Lux.step fault delay (Lux.run fault delay Lux.Ctl.new ops) load).1.dev
      rw [hd1]
      exact Lux.ticks_inv (fun d hd => hd.tick (fun _ _ => trivial) hn) m _ (hd2.mono fun _ _ => trivial)
    · rcases List.mem_append.mp hop with h | h
      · exact hlater op h
      · rw [List.mem_singleton.mp h]; trivial
  obtain ⟨j, hj, hw⟩ := Lux.playing_waits hpl hn hn4
  have e0 : Lux.run fault delay Lux.Ctl.new (ops ++ load :: (later ++ [.fireTrigger])) = (Lux.step fault delay c .fireTrigger).1 := by
    rw [hc, show ops ++ load :: (later ++ [Lux.Op.fireTrigger]) = (ops ++ load :: later) ++ [.fireTrigger] by simp, Lux.run_append]
    rfl
  have e1 : c₁ = Lux.run fault delay c [.fireTrigger, .idle n] := by
    rw [hc₁, hc, Lux.run_append]
  have hw₁ : Lux.Waiting imgs j c₁.dev := by
    rw [e1]
    show Lux.Waiting imgs j (Lux.ticks n (Lux.step fault delay c .fireTrigger).1.dev)
    rw [← e0]
    exact hw
  have e : Lux.step fault delay c .fireTrigger = ({ c with
      dev := Lux.ticks (delay (c.log.length + 1)) (Lux.ticks (delay c.log.length) (Lux.apply c.dev (.softwareSync true))),
      log := c.log ++ [.softwareSync true, .softwareSync false] }, .error .exception) := by
    simp [Lux.step, Lux.guarded, hi, Lux.triggerCmds, Lux.sendAll, Lux.send, h1, h2]
  have hs : c₁.dev.sync = true := by
    rw [e1]
    show (Lux.ticks n (Lux.step fault delay c .fireTrigger).1.dev).sync = true
    rw [e]
    simp only [Lux.sync_ticks, Lux.apply]
    split_ifs with h
    · exact h
    · rw [Lux.sync_trigger]
  have hl : c₁.log = c.log ++ [.softwareSync true, .softwareSync false] := by
    rw [e1]
    show (Lux.step fault delay c .fireTrigger).1.log = _
    rw [e]
  have hi₁ : c₁.initialized = true := by
    rw [e1]
    show (Lux.step fault delay c .fireTrigger).1.initialized = _
    rw [e]
    exact hi
  refine ⟨by rw [e]; simp, ?_, j, hj, hw₁.shown, ?_⟩
  · simp [Lux.step, Lux.guarded, hi₁, Lux.triggerCmds, Lux.sendAll, Lux.send, hl, h3, h4]
  · have : (Lux.step fault delay c₁ .fireTrigger).1.dev =
        Lux.ticks (delay (c.log.length + 3)) { Lux.ticks (delay (c.log.length + 2)) c₁.dev with sync := false } := by
      simp [Lux.step, Lux.guarded, hi₁, Lux.triggerCmds, Lux.sendAll, Lux.send, hl, h3, h4, Lux.apply, hs]
    show (Lux.ticks n' (Lux.step fault delay c₁ .fireTrigger).1.dev).shown = _
    rw [this, hw₁.ticks, Lux.ticks_add, Lux.ticks_sync, hw₁.ticks]
    exact hw₁.shown

/-- Three images, three software triggers of which the first one's second vendor call fails: the last image should be
showing after two of them and the first after three, but only two edges happened. -/
example : (Lux.run (fun k => k == 14) (fun _ => 1) Lux.Ctl.new [.initialize, .loadMultiple [[true], [false], [true, true]],
    .idle 3, .fireTrigger, .idle 4, .fireTrigger, .idle 4]).dev.shown = some [false] ∧
    (Lux.run (fun k => k == 14) (fun _ => 1) Lux.Ctl.new [.initialize, .loadMultiple [[true], [false], [true, true]],
    .idle 3, .fireTrigger, .idle 4, .fireTrigger, .idle 4, .fireTrigger, .idle 4]).dev.shown = some [true, true] := by
  constructor <;> simp [Lux.run, Lux.step, Lux.guarded, Lux.sendAll, Lux.send, Lux.initCmds, Lux.loadMultipleCmds, Lux.loadImages,
    Lux.triggerCmds, Lux.apply, Lux.ticks, Lux.tick, Lux.trigger, Lux.Ctl.new, Lux.Dev.init, Function.update]

end PySLM2.Controller
