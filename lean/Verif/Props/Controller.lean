import Verif.Lemmas.Controller
import Mathlib.Tactic.Ring

/-!
# C73–C78: device controllers

`fault` decides which vendor calls raise, so every theorem covers every crash point.
-/

namespace PySLM2.Controller

/-- No vendor call raises. -/
def noFault : ℕ → Bool := fun _ => false

/-! ## C73 -/

/-- **C73** (ALP). In any history, with any vendor calls failing, as long as no `initialize()` has completed every
call that needs the device raises and neither the vendor library nor the device sees anything; and once one has
completed the guard never refuses again (`Nx` succeeds if the vendor call does). -/
theorem C73_alp (fault : ℕ → Bool) (invert : Bool) (ops : List Alp.Op) (op : Alp.Op) (hop : op.NeedsDevice) :
    (¬ Alp.InitCompleted fault (Alp.Ctl.new invert) ops →
      Alp.step fault (Alp.run fault (Alp.Ctl.new invert) ops) op =
        (Alp.run fault (Alp.Ctl.new invert) ops, .error .exception)) ∧
    (Alp.InitCompleted fault (Alp.Ctl.new invert) ops →
      fault (Alp.run fault (Alp.Ctl.new invert) ops).log.length = false →
      (Alp.step fault (Alp.run fault (Alp.Ctl.new invert) ops) .queryNx).2 = .ok ()) := by
  have hi := Alp.initialized_iff fault ops (Alp.Ctl.new invert)
  constructor
  · intro h
    have h1 : (Alp.run fault (Alp.Ctl.new invert) ops).initialized = false := by
      rw [← Bool.not_eq_true, hi]
      simpa [Alp.Ctl.new] using h
    cases op <;> first | (simp [Alp.step, Alp.guarded, h1]; done) | exact hop.elim
  · intro h hf
    have h1 : (Alp.run fault (Alp.Ctl.new invert) ops).initialized = true := hi.2 (.inr h)
    simp [Alp.step, Alp.guarded, h1, Alp.sendAll, Alp.send, hf]

/-- **C73** (Luxbeam). -/
theorem C73_luxbeam (fault : ℕ → Bool) (delay : ℕ → ℕ) (ops : List Lux.Op) (op : Lux.Op) (hop : op.NeedsDevice) :
    (¬ Lux.InitCompleted fault delay Lux.Ctl.new ops →
      Lux.step fault delay (Lux.run fault delay Lux.Ctl.new ops) op =
        (Lux.run fault delay Lux.Ctl.new ops, .error .exception)) ∧
    (Lux.InitCompleted fault delay Lux.Ctl.new ops →
      (Lux.step fault delay (Lux.run fault delay Lux.Ctl.new ops) .queryNx).2 = .ok ()) := by
  have hi := Lux.initialized_iff fault delay ops Lux.Ctl.new
  constructor
  · intro h
    have h1 : (Lux.run fault delay Lux.Ctl.new ops).initialized = false := by
      rw [← Bool.not_eq_true, hi]
      simpa [Lux.Ctl.new] using h
    cases op <;> first | (simp [Lux.step, Lux.guarded, h1]; done) | exact hop.elim
  · intro h
    have h1 : (Lux.run fault delay Lux.Ctl.new ops).initialized = true := hi.2 (.inr h)
    simp [Lux.step, Lux.guarded, h1]

/-- An `initialize()` that fails half way (the inversion call raises) does not count. -/
example : ¬ Alp.InitCompleted (fun k => k == 1) (Alp.Ctl.new true) [.initialize] ∧
    Alp.InitCompleted (fun k => k == 1) (Alp.Ctl.new true) [.initialize, .initialize] := by
  simp [Alp.InitCompleted, Alp.step, Alp.sendAll, Alp.send, Alp.Ctl.new, Alp.initCmds]

/-! ## C74 -/

/-- **C74 is false.** Whatever happened before, once an `initialize()` has completed, `load_single` after `close()` is
not refused: it goes through with six vendor calls on the device that was just released.  The Luxbeam controller
likewise. -/
theorem C74_refuted :
    (∀ (invert : Bool) (ops : List Alp.Op) (img : Image), Alp.InitCompleted noFault (Alp.Ctl.new invert) ops →
      let c := Alp.run noFault (Alp.Ctl.new invert) (ops ++ [.close])
      (Alp.step noFault c (.loadSingle img)).2 = .ok () ∧ c.dev.allocated = false ∧
      (Alp.step noFault c (.loadSingle img)).1.log.length = c.log.length + 6) ∧
    (∀ (delay : ℕ → ℕ) (ops : List Lux.Op) (img : Image), Lux.InitCompleted noFault delay Lux.Ctl.new ops →
      let c := Lux.run noFault delay Lux.Ctl.new (ops ++ [.close])
      (Lux.step noFault delay c (.loadSingle img)).2 = .ok ()) := by
  constructor
  · intro invert ops img h c
    have hf : ∀ k, noFault k = false := fun _ => rfl
    have h1 : (Alp.run noFault (Alp.Ctl.new invert) ops).initialized = true := (Alp.initialized_iff _ _ _).2 (.inr h)
    have hc : c = (Alp.step noFault (Alp.run noFault (Alp.Ctl.new invert) ops) .close).1 := by
      show Alp.run _ _ _ = _
      rw [Alp.run_append]
      rfl
    have hci : c.initialized = true := by
      rw [hc]
      simp [Alp.step, Alp.sendAll_clean hf, h1]
    refine ⟨?_, ?_, ?_⟩
    · simp [Alp.step, Alp.guarded, hci, Alp.sendAll_clean hf]
    · rw [hc]
      simp only [Alp.step, Alp.sendAll_clean hf, Alp.closeCmds]
      split_ifs <;> simp [Alp.apply]
    · simp [Alp.step, Alp.guarded, hci, Alp.sendAll_clean hf, Alp.loadSingleCmds]
  · intro delay ops img h c
    have h1 : c.initialized = true := by
      refine (Lux.initialized_iff _ _ _ _).2 (.inr ?_)
      clear c
      revert h
      generalize Lux.Ctl.new = c
      induction ops generalizing c with
      | nil => intro h; exact absurd h (by simp [Lux.InitCompleted])
      | cons op ops ih =>
        intro h
        rcases h with h | h
        · exact .inl h
        · exact .inr (ih _ h)
    have hs : ∀ (cmds : List Lux.Cmd) (c : Lux.Ctl), (Lux.sendAll noFault delay c cmds).2 = .ok () := by
      intro cmds
      induction cmds with
      | nil => intro c; rfl
      | cons cmd cmds ih => intro c; simp only [Lux.sendAll, Lux.send, noFault]; exact ih _
    simp only [Lux.step, Lux.guarded, h1, if_true]
    exact hs _ _

/-- **C74, the part that holds** (ALP). A `close()` that returns has stopped the projection and released the device,
the release being the last thing the vendor library is asked to do.  *Missing: later loads are not refused.* -/
theorem C74_partial (fault : ℕ → Bool) (c : Alp.Ctl) (h : (Alp.step fault c .close).2 = .ok ()) :
    (Alp.step fault c .close).1.dev.running = none ∧ (Alp.step fault c .close).1.dev.allocated = false ∧
    (Alp.step fault c .close).1.log.getLast? = some .free := by
  simp only [Alp.step] at h ⊢
  rw [Alp.sendAll_ok _ _ h]
  simp only [Alp.closeCmds]
  split_ifs <;> simp [Alp.apply]

/-- Load, then close, on a real history. -/
example : (Alp.step noFault (Alp.run noFault (Alp.Ctl.new true) [.initialize, .loadSingle [true, false]]) .close).2 = .ok () :=
  rfl

/-! ## C75 -/

/-- **C75, the part that holds.** After any history (any failures included), if the last completed `initialize()` has
not been followed by a `load_multiple` call, a `load_single` that returns leaves the device free-running and showing
exactly that image.  *Missing: the case with a `load_multiple` in between, where the claim is false.* -/
theorem C75_partial (fault : ℕ → Bool) (invert : Bool) (before after : List Alp.Op) (img : Image)
    (hinit : (Alp.step fault (Alp.run fault (Alp.Ctl.new invert) before) .initialize).2 = .ok ())
    (hno : ∀ imgs, Alp.Op.loadMultiple imgs ∉ after)
    (hok : (Alp.step fault (Alp.run fault (Alp.Ctl.new invert) (before ++ .initialize :: after)) (.loadSingle img)).2 = .ok ()) :
    (Alp.step fault (Alp.run fault (Alp.Ctl.new invert) (before ++ .initialize :: after)) (.loadSingle img)).1.dev.ShowsNow img := by
  have hfresh := Alp.fresh_run fault (before ++ .initialize :: after) (Alp.fresh_new invert)
  have hslave : (Alp.run fault (Alp.Ctl.new invert) (before ++ .initialize :: after)).dev.slave = false := by
    rw [Alp.run_append]
    exact Alp.slave_run_false fault after (Alp.initialize_dev hinit).1 hno
  rw [(Alp.loadSingle_ok hok).2]
  refine ⟨?_, Alp.projecting_single hfresh img⟩
  exact Alp.slave_foldl_false _ hslave (by simp [Alp.loadSingleCmds])

/-- Two images in a row after an initialization: the second is showing. -/
example : (Alp.run noFault (Alp.Ctl.new false) [.initialize, .loadSingle [true], .loadSingle [false]]).dev.ShowsNow [false] :=
  ⟨rfl, rfl⟩

/-- **C75 is false in general**: after a `load_multiple` that returned, and any further calls without `initialize()`, a
`load_single` that returns leaves the device in slave mode, waiting for a trigger. -/
theorem C75_refuted :
    (∀ (fault : ℕ → Bool) (c : Alp.Ctl) (imgs : List Image) (after : List Alp.Op) (img : Image),
      (Alp.step fault c (.loadMultiple imgs)).2 = .ok () → Alp.Op.initialize ∉ after →
      let c' := Alp.run fault (Alp.step fault c (.loadMultiple imgs)).1 after
      (Alp.step fault c' (.loadSingle img)).1.dev.slave = true ∧
      ¬ (Alp.step fault c' (.loadSingle img)).1.dev.ShowsNow img) ∧
    (Alp.step noFault (Alp.run noFault (Alp.Ctl.new false) [.initialize, .loadMultiple [[true]]]) (.loadSingle [true])).2 = .ok () := by
  refine ⟨?_, rfl⟩
  intro fault c imgs after img hok hno c'
  have h1 : (Alp.step fault c (.loadMultiple imgs)).1.dev.slave = true := by
    rw [(Alp.loadMultiple_ok hok).2.2]
    rfl
  have h2 : (Alp.step fault c' (.loadSingle img)).1.dev.slave = true :=
    Alp.slave_step_true fault (Alp.slave_run_true fault after h1 hno) (by simp)
  exact ⟨h2, fun h => by rw [h.1] at h2; exact absurd h2 (by simp)⟩

/-! ## C76 -/

/-- **C76** (`load_single`). After any history with any failures, a `load_single` that returns has made exactly six vendor
calls, and the sequence the device runs has one picture, whose data is the image mirror by mirror, 255 for on and 0 for
off. -/
theorem C76_single (fault : ℕ → Bool) (invert : Bool) (ops : List Alp.Op) (img : Image)
    (hok : (Alp.step fault (Alp.run fault (Alp.Ctl.new invert) ops) (.loadSingle img)).2 = .ok ()) :
    ∃ data, (Alp.step fault (Alp.run fault (Alp.Ctl.new invert) ops) (.loadSingle img)).1.dev.projecting = some (1, data) ∧
      (Alp.step fault (Alp.run fault (Alp.Ctl.new invert) ops) (.loadSingle img)).1.log =
        (Alp.run fault (Alp.Ctl.new invert) ops).log ++ [.halt, .seqAlloc 1, .seqControl, .seqPut data, .setTiming, .run] ∧
      data.length = img.length ∧ ∀ p (hp : p < img.length), data[p]? = some (if img[p] then 255 else 0) := by
  rw [(Alp.loadSingle_ok hok).2]
  refine ⟨Alp.toBytes img, Alp.projecting_single (Alp.fresh_run fault ops (Alp.fresh_new invert)) img, rfl, ?_, ?_⟩
  · simp [Alp.toBytes]
  · intro p hp
    simp [Alp.toBytes, hp]

/-- Reading image `k` of a concatenation of images of equal size. -/
theorem flatten_get {s : ℕ} : ∀ (imgs : List Image), (∀ img ∈ imgs, img.length = s) → ∀ k (hk : k < imgs.length) p, p < s →
    imgs.flatten[k * s + p]? = (imgs[k])[p]? := by
  intro imgs
  induction imgs with
  | nil => intro _ k hk; simp at hk
  | cons img imgs ih =>
    intro h k hk p hp
    have hl : img.length = s := h img (by simp)
    cases k with
    | zero =>
      simp only [List.flatten_cons, zero_mul, zero_add, List.getElem_cons_zero]
      rw [List.getElem?_append_left (by omega)]
    | succ k =>
      simp only [List.flatten_cons, List.getElem_cons_succ]
      rw [List.getElem?_append_right (by rw [hl, Nat.succ_mul]; omega)]
      rw [show (k + 1) * s + p - img.length = k * s + p by rw [hl, Nat.succ_mul]; omega]
      exact ih (fun i hi => h i (by simp [hi])) k (by simpa using hk) p hp

/-- **C76** (`load_multiple`). For images of one size `s`, a `load_multiple` that returns leaves the device running a
sequence allocated for exactly that many pictures, picture `k` occupying bytes `k·s … k·s+s−1` and being image `k`; and
an empty list never returns normally. -/
theorem C76_multiple (fault : ℕ → Bool) (invert : Bool) (ops : List Alp.Op) (imgs : List Image) (s : ℕ)
    (hs : ∀ img ∈ imgs, img.length = s)
    (hok : (Alp.step fault (Alp.run fault (Alp.Ctl.new invert) ops) (.loadMultiple imgs)).2 = .ok ()) :
    imgs ≠ [] ∧
    ∃ data, (Alp.step fault (Alp.run fault (Alp.Ctl.new invert) ops) (.loadMultiple imgs)).1.dev.projecting =
        some (imgs.length, data) ∧
      (Alp.step fault (Alp.run fault (Alp.Ctl.new invert) ops) (.loadMultiple imgs)).1.log =
        (Alp.run fault (Alp.Ctl.new invert) ops).log ++ [.halt, .projSlave, .triggerRising, .seqAlloc imgs.length,
          .seqControl, .seqPut data, .seqInquire, .setTiming, .run] ∧
      data.length = imgs.length * s ∧
      ∀ k (hk : k < imgs.length) p (hp : p < s),
        data[k * s + p]? = some (if (imgs[k])[p]'(by rw [hs _ (List.getElem_mem hk)]; exact hp) then 255 else 0) := by
  obtain ⟨_, hn, he⟩ := Alp.loadMultiple_ok hok
  rw [he]
  refine ⟨hn, Alp.toBytes imgs.flatten,
    Alp.projecting_multiple (Alp.fresh_run fault ops (Alp.fresh_new invert)) imgs, rfl, ?_, ?_⟩
  · clear he hok hn
    simp only [Alp.toBytes, List.length_map]
    induction imgs with
    | nil => simp
    | cons img imgs ih =>
      rw [List.flatten_cons, List.length_append, ih (fun i hi => hs i (by simp [hi])), hs img (by simp),
        List.length_cons]
      ring
  · intro k hk p hp
    have := flatten_get imgs hs k hk p hp
    rw [Alp.toBytes, List.getElem?_map, this, List.getElem?_eq_getElem (by rw [hs _ (List.getElem_mem hk)]; exact hp)]
    rfl

/-- Three pictures of two mirrors. -/
example : (Alp.step noFault (Alp.run noFault (Alp.Ctl.new false) [.initialize, .loadSingle [true, true]])
    (.loadMultiple [[true, false], [false, false], [false, true]])).1.dev.projecting = some (3, [255, 0, 0, 0, 0, 255]) := rfl

/-! ## C77 -/

/-- **C77, the part that holds.** With at most one load (completed or not) since the last completed `initialize()`, a
`close()` that returns leaves nothing allocated.  *Missing: more than one load.* -/
theorem C77_partial (fault : ℕ → Bool) (invert : Bool) (before after : List Alp.Op)
    (hinit : (Alp.step fault (Alp.run fault (Alp.Ctl.new invert) before) .initialize).2 = .ok ())
    (hone : after.countP Alp.Op.isLoad ≤ 1)
    (hok : (Alp.step fault (Alp.run fault (Alp.Ctl.new invert) (before ++ .initialize :: after)) .close).2 = .ok ()) :
    (Alp.step fault (Alp.run fault (Alp.Ctl.new invert) (before ++ .initialize :: after)) .close).1.dev.seqs = [] := by
  refine Alp.close_frees hok ?_
  rw [Alp.run_append]
  exact Alp.run_oneLoad fault after hone (Alp.initialize_dev hinit).2

/-- The hypotheses on a history with one load. -/
example : (Alp.step noFault (Alp.run noFault (Alp.Ctl.new false) ([] ++ .initialize :: [.loadSingle [true], .queryNx])) .close).1.dev.seqs = [] :=
  rfl

/-- **C77 is false in general**: every load allocates a sequence and `close()` frees one, so after `initialize()`, loads of
any `n + 1` images one after the other and `close()`, exactly `n` sequences are still allocated. -/
theorem C77_refuted (invert : Bool) (img : Image) (imgs : List Image) :
    (Alp.run noFault (Alp.Ctl.new invert) (.initialize :: (img :: imgs).map .loadSingle ++ [.close])).dev.seqs.length =
      imgs.length := by
  have hf : ∀ k, noFault k = false := fun _ => rfl
  have hstep : ∀ (c : Alp.Ctl) (i : Image), c.initialized = true → Alp.Fresh c.dev →
      (Alp.step noFault c (.loadSingle i)).1.initialized = true ∧ Alp.Fresh (Alp.step noFault c (.loadSingle i)).1.dev ∧
      (Alp.step noFault c (.loadSingle i)).1.dev.seqs.length = c.dev.seqs.length + 1 ∧
      (Alp.step noFault c (.loadSingle i)).1.dev.last = some c.dev.next ∧
      ((Alp.step noFault c (.loadSingle i)).1.dev.seqs.filter fun s => some s.1 ≠ some c.dev.next).length = c.dev.seqs.length := by
    intro c i hi hfr
    have e : (Alp.step noFault c (.loadSingle i)).1 =
        { c with dev := (Alp.loadSingleCmds i).foldl Alp.apply c.dev, log := c.log ++ Alp.loadSingleCmds i } := by
      simp [Alp.step, Alp.guarded, hi, Alp.sendAll_clean hf]
    rw [e]
    refine ⟨hi, Alp.fresh_foldl _ hfr, ?_, rfl, ?_⟩
    · simp [Alp.loadSingleCmds, Alp.apply]
    · simp only [Alp.loadSingleCmds, List.foldl_cons, List.foldl_nil, Alp.apply]
      have : ∀ l : List (ℕ × ℕ × List ℕ), (∀ s ∈ l, s.1 < c.dev.next) →
          ((((l ++ [(c.dev.next, 1, [])]).map fun s : ℕ × ℕ × List ℕ =>
            if some s.1 = some c.dev.next then (s.1, s.2.1, Alp.toBytes i) else s)).filter
              fun s : ℕ × ℕ × List ℕ => some s.1 ≠ some c.dev.next).length = l.length := by
        intro l
        induction l with
        | nil => intro _; simp
        | cons s l ih =>
          intro h
          have h2 : s.1 ≠ c.dev.next := (h s (by simp)).ne
          have := ih (fun t ht => h t (by simp [ht]))
          simp only [List.cons_append, List.map_cons, Option.some.injEq, h2, if_false] at this ⊢
          rw [List.filter_cons_of_pos (by simp [h2])]
          simpa using this
      exact this _ hfr
  have hloads : ∀ (imgs : List Image) (i : Image) (c : Alp.Ctl), c.initialized = true → Alp.Fresh c.dev →
      (Alp.run noFault c ((i :: imgs).map .loadSingle ++ [.close])).dev.seqs.length = c.dev.seqs.length + imgs.length := by
    intro imgs
    induction imgs with
    | nil =>
      intro i c hi hfr
      obtain ⟨_, _, _, h4, h5⟩ := hstep c i hi hfr
      simp only [List.map_cons, List.map_nil, List.cons_append, List.nil_append, Alp.run]
      have e : ∀ c' : Alp.Ctl, c'.dev.last = some c.dev.next → (Alp.step noFault c' .close).1.dev.seqs =
          c'.dev.seqs.filter fun s => some s.1 ≠ some c.dev.next := by
        intro c' h
        simp [Alp.step, Alp.sendAll_clean hf, Alp.closeCmds, h, Alp.apply]
      rw [e _ h4, h5]
      simp
    | cons j imgs ih =>
      intro i c hi hfr
      obtain ⟨h1, h2, h3, _, _⟩ := hstep c i hi hfr
      have := ih j _ h1 h2
      rw [h3] at this
      simp only [List.map_cons, List.cons_append, Alp.run, List.length_cons] at this ⊢
      rw [this]
      omega
  have h0 : (Alp.step noFault (Alp.Ctl.new invert) .initialize).2 = .ok () := by cases invert <;> rfl
  have hi := Alp.initialize_ok h0
  have := hloads imgs img _ hi.1 (by rw [hi.2]; exact Alp.fresh_foldl _ (Alp.fresh_new invert))
  rw [(Alp.initialize_dev h0).2, List.length_nil, zero_add] at this
  exact this

/-! ## C78 -/

/-- **C78.** After any history, with any failures (except of a software trigger, see C83) and any timing, once `load_multiple(images)` or `load_single(image)`
has returned with at least one image and the sequencer had time for three instructions, `k` triggers (software or
external, each followed by at least four instructions' time) leave image `k mod len(images)` displayed. -/
theorem C78_cyclic (fault : ℕ → Bool) (delay : ℕ → ℕ) (ops : List Lux.Op) (imgs : List Image) (hn : imgs ≠ [])
    (load : Lux.Op) (hload : load = .loadMultiple imgs ∨ ∃ img, imgs = [img] ∧ load = .loadSingle img)
    (hok : (Lux.step fault delay (Lux.run fault delay Lux.Ctl.new ops) load).2 = .ok ())
    (htrig : Lux.TriggersComplete fault delay Lux.Ctl.new ops) (n : ℕ) (h3 : 3 ≤ n) (k : ℕ) (c : Lux.Ctl)
    (hc : Lux.Triggered fault delay k
      (Lux.step fault delay (Lux.step fault delay (Lux.run fault delay Lux.Ctl.new ops) load).1 (.idle n)).1 c) :
    c.dev.shown = some (imgs[k % imgs.length]'(Nat.mod_lt _ (List.length_pos_iff.2 hn))) := by
  obtain ⟨d, m, h1, h2, h4⟩ := Lux.load_playing
    (Lux.run_programmed fault delay ops Lux.Ctl.new (by simp [Lux.Ctl.new])) hload hn hok
  have hw : Lux.Waiting imgs 0
      (Lux.step fault delay (Lux.step fault delay (Lux.run fault delay Lux.Ctl.new ops) load).1 (.idle n)).1.dev := by
    show Lux.Waiting imgs 0 (Lux.ticks n _)
    rw [h1, Lux.ticks_add]
    exact Lux.waiting_start (h2.mono fun _ _ => trivial) hn h4 (by omega)
  have hs : (Lux.step fault delay (Lux.step fault delay (Lux.run fault delay Lux.Ctl.new ops) load).1 (.idle n)).1.dev.sync =
      false := by
    rw [Lux.sync_step _ _ _ _ (by simp), Lux.sync_step _ _ _ _ (by rcases hload with rfl | ⟨_, _, rfl⟩ <;> simp)]
    exact Lux.sync_run fault delay ops _ rfl htrig
  rw [(hc.waiting hn hw hs).1.shown, List.getElem?_eq_getElem]

/-- **C78**, nothing left over. From the moment the load returns, whatever triggers arrive and whenever (also while the
sequencer is busy), and whatever vendor calls fail, the display shows either what it showed before the load or one of
the loaded images; and once the sequencer had time for three instructions, only loaded images. -/
theorem C78_no_leftover (fault : ℕ → Bool) (delay : ℕ → ℕ) (ops : List Lux.Op) (imgs : List Image) (hn : imgs ≠ [])
    (load : Lux.Op) (hload : load = .loadMultiple imgs ∨ ∃ img, imgs = [img] ∧ load = .loadSingle img)
    (hok : (Lux.step fault delay (Lux.run fault delay Lux.Ctl.new ops) load).2 = .ok ())
    (later : List Lux.Op) (hlater : ∀ op ∈ later, op.Passive) :
    ((Lux.run fault delay (Lux.step fault delay (Lux.run fault delay Lux.Ctl.new ops) load).1 later).dev.shown =
        (Lux.run fault delay Lux.Ctl.new ops).dev.shown ∨
      ∃ img ∈ imgs, (Lux.run fault delay (Lux.step fault delay (Lux.run fault delay Lux.Ctl.new ops) load).1 later).dev.shown =
        some img) ∧
    ∀ n, 3 ≤ n → ∃ img ∈ imgs, (Lux.run fault delay (Lux.step fault delay (Lux.run fault delay Lux.Ctl.new ops) load).1
      (.idle n :: later)).dev.shown = some img := by
  obtain ⟨d, m, h1, h2, h4⟩ := Lux.load_playing
    (Lux.run_programmed fault delay ops Lux.Ctl.new (by simp [Lux.Ctl.new])) hload hn hok
  have hmem : ∀ i, i < imgs.length → ∃ img ∈ imgs, imgs[i]? = some img := fun i hi =>
    ⟨imgs[i], List.getElem_mem hi, List.getElem?_eq_getElem hi⟩
  constructor
  · refine (Lux.Playing.run (P := fun s => s = (Lux.run fault delay Lux.Ctl.new ops).dev.shown ∨ ∃ img ∈ imgs, s = some img)
      (fun i hi => .inr (hmem i hi)) hn fault delay later ?_ hlater).shown
    rw [h1]
    refine Lux.ticks_inv (fun d hd => hd.tick (fun i hi => .inr (hmem i hi)) hn) m _ (h2.mono fun s hs => .inl hs)
  · intro n h3
    refine (Lux.Playing.run (P := fun s => ∃ img ∈ imgs, s = some img) hmem hn fault delay later ?_ hlater).shown
    have hw : Lux.Waiting imgs 0
        (Lux.step fault delay (Lux.step fault delay (Lux.run fault delay Lux.Ctl.new ops) load).1 (.idle n)).1.dev := by
      show Lux.Waiting imgs 0 (Lux.ticks n _)
      rw [h1, Lux.ticks_add]
      exact Lux.waiting_start (h2.mono fun _ _ => trivial) hn h4 (by omega)
    have hp := hw.playing
    refine ⟨hp.enabled, hp.held, hp.programmed, hp.reg0, hp.slots, ?_, hp.point⟩
    rw [hw.shown]
    exact hmem 0 (List.length_pos_iff.2 hn)

/-- Three images loaded over four older ones; the fourth trigger shows the second image. -/
example : (Lux.run noFault (fun _ => 1) Lux.Ctl.new [.initialize, .loadMultiple [[true], [true], [true], [true]],
    .loadMultiple [[false, true], [true, false], [false, false]], .idle 3, .fireTrigger, .idle 4, .extTrigger, .idle 4,
    .fireTrigger, .idle 4, .extTrigger, .idle 4]).dev.shown = some [true, false] := by
  simp [Lux.run, Lux.step, Lux.guarded, Lux.sendAll, Lux.send, Lux.initCmds, Lux.loadMultipleCmds, Lux.loadImages,
    Lux.triggerCmds, Lux.apply, Lux.ticks, Lux.tick, Lux.trigger, Lux.Ctl.new, Lux.Dev.init, noFault, Function.update]

end PySLM2.Controller
