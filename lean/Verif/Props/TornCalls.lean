import Verif.Lemmas.TornCalls

/-!
# C161–C162: vendor calls that fail half-way, and programs that die

`fate` decides what becomes of every vendor call: it returns, raises without effect, takes effect and raises all the same, or
is cut off in the middle of a transfer.
-/

namespace PySLM2.Controller

/-! ## C161: Luxbeam -/

/-- **C161** (loads that return). Whatever happened before, including vendor calls that took effect without returning, pictures
cut off in transfer and programs that died at any point: if the last `initialize()` returned, then a load that returns makes the
display go through exactly its images, in order; nothing of what was left on the device is ever shown. -/
theorem C161_load (fate : ℕ → Fate Image) (delay : ℕ → ℕ) (before after : List Lux.Ev)
    (hinit : (Lux.stepE fate delay (Lux.runE fate delay Lux.Ctl.new before) (.call .initialize)).2 = .ok ())
    (hlast : Lux.Ev.call .initialize ∉ after) (imgs : List Image) (hn : imgs ≠ [])
    (load : Lux.Op) (hload : load = .loadMultiple imgs ∨ ∃ img, imgs = [img] ∧ load = .loadSingle img)
    (hok : (Lux.stepE fate delay (Lux.runE fate delay Lux.Ctl.new (before ++ .call .initialize :: after)) (.call load)).2 = .ok ()) :
    Lux.GoesThrough fate delay
      (Lux.stepE fate delay (Lux.runE fate delay Lux.Ctl.new (before ++ .call .initialize :: after)) (.call load)).1 imgs := by
  have hp : (Lux.runE fate delay Lux.Ctl.new (before ++ .call .initialize :: after)).dev.programmed = true := by
    rw [Lux.runE_append]
    exact Lux.runE_programmed fate delay after hlast (Lux.initializeT_programmed hinit)
  generalize Lux.runE fate delay Lux.Ctl.new (before ++ .call .initialize :: after) = c at *
  rw [Lux.loadT_eq c hload] at hok ⊢
  unfold Lux.guarded at hok ⊢
  split_ifs at hok ⊢ with hi
  obtain ⟨d, m, h1, h2, h3⟩ := Lux.after_load delay c.log.length imgs hn c.dev hp
  exact Lux.goesThrough_of_playing hn ((Lux.sendAllT_ok _ _ hok).trans h1) h2 h3

/-- The second picture of a first load is cut off (vendor call 10), the program dies, a new one initializes and loads two images;
its first trigger is fired, then the program dies again: the second of the two new images is on display. -/
example : (Lux.runE (fun k => if k = 10 then .torn [true, true] else .returns) (fun _ => 0) Lux.Ctl.new
    [.call .initialize, .call (.loadMultiple [[true], [true], [true]]), .restart, .call .initialize,
      .call (.loadMultiple [[true, false], [false, true]]), .call (.idle 3), .call .fireTrigger, .restart,
      .call (.idle 4)]).dev.shown = some [false, true] ∧
    (Lux.stepE (fun k => if k = 10 then .torn [true, true] else .returns) (fun _ => 0)
      (Lux.runE (fun k => if k = 10 then .torn [true, true] else .returns) (fun _ => 0) Lux.Ctl.new [.call .initialize])
      (.call (.loadMultiple [[true], [true], [true]]))).2 ≠ .ok () := by
  constructor
  · simp [Lux.runE, Lux.stepE, Lux.stepT, Lux.guarded, Lux.sendAllT, Lux.effect, Fate.ok, Lux.initCmds, Lux.loadMultipleCmds,
      Lux.loadImages, Lux.triggerCmds, Lux.apply, Lux.ticks, Lux.tick, Lux.trigger, Lux.Ctl.new, Lux.Dev.init, Function.update]
  · simp [Lux.runE, Lux.stepE, Lux.stepT, Lux.guarded, Lux.sendAllT, Fate.ok, Lux.initCmds, Lux.loadMultipleCmds,
      Lux.loadImages, Lux.Ctl.new]

/-- **C161** (loads that do not return). Under the same conditions, a load that raises or during which the program dies leaves
one of three situations: the request to stop was not carried out and the device merely runs on; or the display stays as it
was, whatever triggers arrive, until the next `initialize()` or load; or, when only the reply to the last request was lost, the
display goes through exactly the new images in order.  No mixture, and no picture cut off in transfer, is ever displayed. -/
theorem C161_failed_load (fate : ℕ → Fate Image) (delay : ℕ → ℕ) (before after : List Lux.Ev)
    (hinit : (Lux.stepE fate delay (Lux.runE fate delay Lux.Ctl.new before) (.call .initialize)).2 = .ok ())
    (hlast : Lux.Ev.call .initialize ∉ after) (imgs : List Image) (hn : imgs ≠ [])
    (load : Lux.Op) (hload : load = .loadMultiple imgs ∨ ∃ img, imgs = [img] ∧ load = .loadSingle img)
    (hi : (Lux.runE fate delay Lux.Ctl.new (before ++ .call .initialize :: after)).initialized = true) :
    (∃ n, (Lux.stepE fate delay (Lux.runE fate delay Lux.Ctl.new (before ++ .call .initialize :: after)) (.call load)).1.dev =
        (Lux.stepE fate delay (Lux.runE fate delay Lux.Ctl.new (before ++ .call .initialize :: after)) (.call (.idle n))).1.dev ∧
      (Lux.stepE fate delay (Lux.runE fate delay Lux.Ctl.new (before ++ .call .initialize :: after)) (.call load)).1.log =
        (Lux.runE fate delay Lux.Ctl.new (before ++ .call .initialize :: after)).log ++ [.seqRun false]) ∨
    Lux.Frozen fate delay (Lux.stepE fate delay (Lux.runE fate delay Lux.Ctl.new (before ++ .call .initialize :: after)) (.call load)).1
      (Lux.runE fate delay Lux.Ctl.new (before ++ .call .initialize :: after)).dev.shown ∨
    (Lux.GoesThrough fate delay
        (Lux.stepE fate delay (Lux.runE fate delay Lux.Ctl.new (before ++ .call .initialize :: after)) (.call load)).1 imgs ∧
      (Lux.stepE fate delay (Lux.runE fate delay Lux.Ctl.new (before ++ .call .initialize :: after)) (.call load)).1.log.getLast? =
        some (.seqRun true)) := by
  have hp : (Lux.runE fate delay Lux.Ctl.new (before ++ .call .initialize :: after)).dev.programmed = true := by
    rw [Lux.runE_append]
    exact Lux.runE_programmed fate delay after hlast (Lux.initializeT_programmed hinit)
  generalize Lux.runE fate delay Lux.Ctl.new (before ++ .call .initialize :: after) = c at *
  rw [Lux.loadT_eq c hload]
  unfold Lux.guarded
  rw [if_pos hi]
  have hm : Lux.Cmd.seqRun true ∉ [Lux.Cmd.seqReset true, .setReg imgs.length, .seqReset false] ++ Lux.loadImages 0 imgs := by
    intro h
    simp only [List.mem_append, List.mem_cons, reduceCtorEq, List.not_mem_nil, or_false, false_or] at h
    obtain ⟨j, img, e⟩ := Lux.loadImages_mem _ _ _ h
    cases e
  have e : Lux.loadMultipleCmds imgs = .seqRun false :: ([Lux.Cmd.seqReset true, .setReg imgs.length, .seqReset false] ++
      Lux.loadImages 0 imgs) ++ [.seqRun true] := by simp [Lux.loadMultipleCmds]
  have key := Lux.sendAllT_stop (fate := fate) (delay := delay) _ c hm
  rw [← e] at key
  rcases key with ⟨n, h1, h2⟩ | h1 | ⟨h1, h5⟩
  · exact .inl ⟨n, h1, h2⟩
  · exact .inr (.inl fun later hlater => (Lux.frozen_of_disabled later h1 hlater).2)
  · obtain ⟨d, m, h2, h3, h4⟩ := Lux.after_load delay c.log.length imgs hn c.dev hp
    exact .inr (.inr ⟨Lux.goesThrough_of_playing hn (h1.trans h2) h3 h4, h5⟩)

/-- Each of the three happens: the stop refused, a picture cut off, the reply to the start lost. -/
example : ∀ f ∈ [(5, Fate.refused), (9, .torn [true, true]), (10, .lost)],
    let fate : ℕ → Fate Image := fun k => if k = f.1 + 6 then f.2 else .returns
    let c := Lux.runE fate (fun _ => 0) Lux.Ctl.new [.call .initialize, .call (.loadSingle [true]), .call (.idle 3)]
    c.initialized = true ∧ (Lux.stepE fate (fun _ => 0) c (.call (.loadSingle [false]))).2 ≠ .ok () ∧
      (Lux.runE fate (fun _ => 0) (Lux.stepE fate (fun _ => 0) c (.call (.loadSingle [false]))).1 [.call (.idle 3)]).dev.shown =
        some [f.1 != 10] := by
  intro f hf
  simp only [List.mem_cons, List.not_mem_nil, or_false] at hf
  rcases hf with rfl | rfl | rfl <;>
  simp [Lux.runE, Lux.stepE, Lux.stepT, Lux.guarded, Lux.sendAllT, Lux.effect, Fate.ok, Lux.initCmds, Lux.loadSingleCmds,
    Lux.apply, Lux.ticks, Lux.tick, Lux.Ctl.new, Lux.Dev.init, Function.update]

/-- **C161** (a new program). Until its own `initialize()` a new controller sends nothing: loads and software triggers raise, and the
display goes on exactly as if they had not been made. -/
theorem C161_restart (fate : ℕ → Fate Image) (delay : ℕ → ℕ) (evs later : List Lux.Ev) (hlater : Lux.Ev.call .initialize ∉ later) :
    (Lux.runE fate delay Lux.Ctl.new (evs ++ .restart :: later)).log = (Lux.runE fate delay Lux.Ctl.new evs).log ∧
    (Lux.runE fate delay Lux.Ctl.new (evs ++ .restart :: later)).dev =
      (Lux.runE fate delay Lux.Ctl.new (evs ++ later.filter fun ev => match ev with
        | .call (.idle _) | .call .extTrigger => true | _ => false)).dev ∧
    ∀ op : Lux.Op, op.NeedsDevice →
      Lux.stepE fate delay (Lux.runE fate delay Lux.Ctl.new (evs ++ .restart :: later)) (.call op) =
        (Lux.runE fate delay Lux.Ctl.new (evs ++ .restart :: later), .error .exception) := by
  rw [Lux.runE_append, Lux.runE_append]
  generalize Lux.runE fate delay Lux.Ctl.new evs = c0
  have key : ∀ (later : List Lux.Ev) (c c' : Lux.Ctl), Lux.Ev.call .initialize ∉ later → c.initialized = false → c'.dev = c.dev →
      (Lux.runE fate delay c later).log = c.log ∧ (Lux.runE fate delay c later).initialized = false ∧
      (Lux.runE fate delay c later).dev = (Lux.runE fate delay c' (later.filter fun ev => match ev with
        | .call (.idle _) | .call .extTrigger => true | _ => false)).dev := by
    intro later
    induction later with
    | nil => intro c c' _ hc hd; exact ⟨rfl, hc, hd.symm⟩
    | cons ev later ih =>
      intro c c' hm hc hd
      have hm' : Lux.Ev.call .initialize ∉ later := fun h => hm (by simp [h])
      cases ev with
      | restart => simpa [Lux.runE, Lux.stepE, Lux.Ctl.new] using ih { Lux.Ctl.new with dev := c.dev, log := c.log } c' hm' rfl hd
      | call op =>
        cases op with
        | «initialize» => exact absurd (by simp) hm
        | extTrigger =>
          simpa [Lux.runE, Lux.stepE, Lux.stepT] using
            ih { c with dev := Lux.trigger c.dev } { c' with dev := Lux.trigger c'.dev } hm' hc (by simp [hd])
        | idle n =>
          simpa [Lux.runE, Lux.stepE, Lux.stepT] using
            ih { c with dev := Lux.ticks n c.dev } { c' with dev := Lux.ticks n c'.dev } hm' hc (by simp [hd])
        | _ => simpa [Lux.runE, Lux.stepE, Lux.stepT, Lux.guarded, hc] using ih c c' hm' hc hd
  obtain ⟨h1, h2, h3⟩ := key later { Lux.Ctl.new with dev := c0.dev, log := c0.log } c0 hlater rfl rfl
  refine ⟨h1, h3, fun op hop => ?_⟩
  have hi : (Lux.runE fate delay c0 (.restart :: later)).initialized = false := h2
  generalize Lux.runE fate delay c0 (.restart :: later) = c at *
  cases op <;> first | exact absurd hop id | simp [Lux.stepE, Lux.stepT, Lux.guarded, hi]

/-- A program that loads three images and dies; the next one is triggered from outside before anything else. -/
example : (Lux.runE (fun _ => .returns) (fun _ => 0) Lux.Ctl.new ([.call .initialize, .call (.loadMultiple [[true], [false], [true]]),
    .call (.idle 3)] ++ .restart :: [.call (.loadSingle [true, true]), .call .extTrigger, .call (.idle 4)])).dev.shown = some [false] := by
  simp [Lux.runE, Lux.stepE, Lux.stepT, Lux.guarded, Lux.sendAllT, Lux.effect, Fate.ok, Lux.initCmds, Lux.loadMultipleCmds,
    Lux.loadImages, Lux.apply, Lux.ticks, Lux.tick, Lux.trigger, Lux.Ctl.new, Lux.Dev.init, Function.update]

/-- The condition on the last `initialize()` is needed: when a second `initialize()` is cut off while sending the sequencer program, the
controller still counts as initialized, and a load returns without anything ever being shown. -/
theorem C161_needs_initialize (img : Image) (fate : ℕ → Fate Image) (x : Image)
    (hfate : ∀ k, fate k = if k = 7 then .torn x else .returns) (later : List Lux.Ev) (hlater : ∀ ev ∈ later, ev.Passive) :
    (Lux.stepE fate (fun _ => 0) (Lux.runE fate (fun _ => 0) Lux.Ctl.new [.call .initialize, .call .initialize])
      (.call (.loadSingle img))).2 = .ok () ∧
    (Lux.runE fate (fun _ => 0) (Lux.stepE fate (fun _ => 0) (Lux.runE fate (fun _ => 0) Lux.Ctl.new
      [.call .initialize, .call .initialize]) (.call (.loadSingle img))).1 later).dev.shown = none := by
  have e : fate = fun k => if k = 7 then .torn x else .returns := funext hfate
  have key : ∀ (later : List Lux.Ev) (c : Lux.Ctl), (∀ ev ∈ later, ev.Passive) → c.dev.programmed = false ∧ c.dev.shown = none →
      (Lux.runE fate (fun _ => 0) c later).dev.programmed = false ∧ (Lux.runE fate (fun _ => 0) c later).dev.shown = none := by
    intro later
    induction later with
    | nil => intro c _ h; exact h
    | cons ev later ih =>
      intro c hp h
      refine ih _ (fun o ho => hp o (by simp [ho])) ?_
      have ht : ∀ d : Lux.Dev, d.programmed = false ∧ d.shown = none → (Lux.tick d).programmed = false ∧ (Lux.tick d).shown = none := by
        intro d hd
        have : Lux.tick d = d := by simp [Lux.tick, hd.1]
        rw [this]; exact hd
      have htr : ∀ d : Lux.Dev, d.programmed = false ∧ d.shown = none →
          (Lux.trigger d).programmed = false ∧ (Lux.trigger d).shown = none := by
        intro d hd
        have : Lux.trigger d = d := by simp [Lux.trigger, hd.1]
        rw [this]; exact hd
      have hg : ∀ body : Lux.Ctl × Except PyErr Unit, (body.1.dev.programmed = false ∧ body.1.dev.shown = none) →
          (Lux.guarded c body).1.dev.programmed = false ∧ (Lux.guarded c body).1.dev.shown = none := by
        intro body hb
        unfold Lux.guarded
        split_ifs
        · exact hb
        · exact h
      have hev := hp ev (by simp)
      cases ev with
      | restart => exact h
      | call op =>
        cases op with
        | «initialize» => exact absurd hev (by simp [Lux.Ev.Passive, Lux.Op.Passive])
        | loadSingle img => exact absurd hev (by simp [Lux.Ev.Passive, Lux.Op.Passive])
        | loadMultiple imgs => exact absurd hev (by simp [Lux.Ev.Passive, Lux.Op.Passive])
        | close => exact h
        | fireTrigger =>
          refine hg _ (Lux.sendAllT_inv (P := fun d => d.programmed = false ∧ d.shown = none) ht _ ?_ c h)
          intro cmd hc d hd f
          simp only [Lux.triggerCmds, List.mem_cons, List.not_mem_nil, or_false] at hc
          rcases Lux.effect_cases d cmd f with e | e | ⟨_, _, _, e, _⟩ | ⟨e, _⟩
          · rw [e]
            rcases hc with rfl | rfl
            · simp only [Lux.apply]
              split_ifs
              · exact hd
              · exact htr _ hd
            · exact hd
          · rw [e]; exact hd
          · subst e; simp at hc
          · subst e; simp at hc
        | queryNx => exact hg _ h
        | queryNy => exact hg _ h
        | numberImage => exact hg _ h
        | loadSequence => exact hg _ h
        | extTrigger => exact htr _ h
        | idle n => exact Lux.ticks_inv (P := fun d => d.programmed = false ∧ d.shown = none) ht n _ h
  refine ⟨?_, (key later _ hlater ?_).2⟩
  · rw [e]
    simp [Lux.runE, Lux.stepE, Lux.stepT, Lux.guarded, Lux.sendAllT, Lux.effect, Fate.ok, Lux.initCmds, Lux.loadSingleCmds, Lux.Ctl.new]
  · rw [e]
    simp [Lux.runE, Lux.stepE, Lux.stepT, Lux.guarded, Lux.sendAllT, Lux.effect, Fate.ok, Lux.initCmds, Lux.loadSingleCmds,
      Lux.apply, Lux.ticks, Lux.Ctl.new, Lux.Dev.init]

/-! ## C162: ALP -/

/-- **C162** (loads that return). After any history, with vendor calls that take effect without returning and pictures cut off in
transfer: a `load_single` that returns leaves the device running a sequence of exactly one picture, the image itself. -/
theorem C162_single (fate : ℕ → Fate (List ℕ)) (invert : Bool) (ops : List Alp.Op) (img : Image)
    (hok : (Alp.stepT fate (Alp.runT fate (Alp.Ctl.new invert) ops) (.loadSingle img)).2 = .ok ()) :
    (Alp.stepT fate (Alp.runT fate (Alp.Ctl.new invert) ops) (.loadSingle img)).1.dev.projecting =
      some (1, img.map fun b => if b then 255 else 0) := by
  have hf := Alp.runT_fresh fate ops (Alp.fresh_new invert)
  generalize Alp.runT fate (Alp.Ctl.new invert) ops = c at *
  simp only [Alp.stepT, Alp.guarded] at hok ⊢
  split_ifs at hok ⊢
  rw [(Alp.sendAllT_ok _ _ hok).1]
  exact Alp.projecting_single hf img

/-- **C162** (`load_multiple`). … and a `load_multiple` that returns leaves it running a sequence of exactly that many pictures, the
images one after the other. -/
theorem C162_multiple (fate : ℕ → Fate (List ℕ)) (invert : Bool) (ops : List Alp.Op) (imgs : List Image)
    (hok : (Alp.stepT fate (Alp.runT fate (Alp.Ctl.new invert) ops) (.loadMultiple imgs)).2 = .ok ()) :
    (Alp.stepT fate (Alp.runT fate (Alp.Ctl.new invert) ops) (.loadMultiple imgs)).1.dev.projecting =
      some (imgs.length, imgs.flatten.map fun b => if b then 255 else 0) := by
  have hf := Alp.runT_fresh fate ops (Alp.fresh_new invert)
  generalize Alp.runT fate (Alp.Ctl.new invert) ops = c at *
  simp only [Alp.stepT, Alp.guarded] at hok ⊢
  split_ifs at hok ⊢
  · exfalso
    revert hok
    split <;> simp
  · rw [(Alp.sendAllT_ok _ _ hok).1]
    exact Alp.projecting_multiple hf imgs

/-- An allocation whose reply was lost and a picture cut off before; the third load returns and shows its image. -/
example : (Alp.stepT (fun k => if k = 2 then .lost else if k = 6 then .torn [255, 0] else .returns)
    (Alp.runT (fun k => if k = 2 then .lost else if k = 6 then .torn [255, 0] else .returns) (Alp.Ctl.new false)
      [.initialize, .loadSingle [true], .loadSingle [true]]) (.loadSingle [false])).2 = .ok () ∧
    (Alp.runT (fun k => if k = 2 then .lost else if k = 6 then .torn [255, 0] else .returns) (Alp.Ctl.new false)
      [.initialize, .loadSingle [true], .loadSingle [true]]).dev.seqs.length = 2 := by
  constructor <;> rfl

/-- **C162** (loads that do not return). After any such history, a `load_single` or `load_multiple` that raises, wherever it was cut
off, leaves one of three situations: the request to stop was not carried out and the device is exactly as before; or the device
projects nothing; or, when only the reply to the last request was lost, it projects exactly the new pictures.  A picture cut
off in transfer is never projected. -/
theorem C162_failed_load (fate : ℕ → Fate (List ℕ)) (invert : Bool) (ops : List Alp.Op) (load : Alp.Op) (imgs : List Image)
    (hload : load = .loadMultiple imgs ∨ ∃ img, imgs = [img] ∧ load = .loadSingle img)
    (hi : (Alp.runT fate (Alp.Ctl.new invert) ops).initialized = true) :
    ((Alp.stepT fate (Alp.runT fate (Alp.Ctl.new invert) ops) load).1.dev = (Alp.runT fate (Alp.Ctl.new invert) ops).dev ∧
      (Alp.stepT fate (Alp.runT fate (Alp.Ctl.new invert) ops) load).1.log = (Alp.runT fate (Alp.Ctl.new invert) ops).log ++ [.halt]) ∨
    (Alp.stepT fate (Alp.runT fate (Alp.Ctl.new invert) ops) load).1.dev.projecting = none ∨
    ((Alp.stepT fate (Alp.runT fate (Alp.Ctl.new invert) ops) load).1.dev.projecting =
        some (imgs.length, imgs.flatten.map fun b => if b then 255 else 0) ∧
      (Alp.stepT fate (Alp.runT fate (Alp.Ctl.new invert) ops) load).1.log.getLast? = some .run) := by
  have hf := Alp.runT_fresh fate ops (Alp.fresh_new invert)
  generalize Alp.runT fate (Alp.Ctl.new invert) ops = c at *
  have hdark : ∀ d : Alp.Dev, d.running = none → d.projecting = none := fun d h => by simp [Alp.Dev.projecting, h]
  have key : ∀ mid : List Alp.Cmd, Alp.Cmd.run ∉ mid → (((.halt :: mid ++ [.run]) : List Alp.Cmd).foldl Alp.apply c.dev).projecting =
        some (imgs.length, imgs.flatten.map fun b => if b then 255 else 0) →
      ((Alp.sendAllT fate c (.halt :: mid ++ [.run])).1.dev = c.dev ∧
        (Alp.sendAllT fate c (.halt :: mid ++ [.run])).1.log = c.log ++ [.halt]) ∨
      (Alp.sendAllT fate c (.halt :: mid ++ [.run])).1.dev.projecting = none ∨
      ((Alp.sendAllT fate c (.halt :: mid ++ [.run])).1.dev.projecting =
          some (imgs.length, imgs.flatten.map fun b => if b then 255 else 0) ∧
        (Alp.sendAllT fate c (.halt :: mid ++ [.run])).1.log.getLast? = some .run) := by
    intro mid hm hp
    simp only [List.cons_append] at hp ⊢
    rcases Alp.sendAllT_halt (fate := fate) (mid ++ [.run]) c with h | ⟨h, _⟩ | ⟨c', h1, h2, h3⟩
    · rw [h]; exact .inl ⟨rfl, rfl⟩
    · exact .inr (.inl (hdark _ h))
    · rw [h3]
      rcases Alp.sendAllT_mid (fate := fate) mid c' hm (by rw [h1]; rfl) with h4 | ⟨h4, h5⟩
      · exact .inr (.inl (hdark _ h4))
      · refine .inr (.inr ⟨?_, by rw [h5]; simp⟩)
        rw [h4, h1]
        exact hp
  rcases hload with rfl | ⟨img, rfl, rfl⟩
  · simp only [Alp.stepT, Alp.guarded, hi, if_true]
    split_ifs with hn
    · have h : ((Alp.sendAllT fate c [.halt, .projSlave, .triggerRising, .seqAlloc 0, .seqControl]).1.dev = c.dev ∧
          (Alp.sendAllT fate c [.halt, .projSlave, .triggerRising, .seqAlloc 0, .seqControl]).1.log = c.log ++ [.halt]) ∨
          (Alp.sendAllT fate c [.halt, .projSlave, .triggerRising, .seqAlloc 0, .seqControl]).1.dev.projecting = none := by
        rcases Alp.sendAllT_halt (fate := fate) [.projSlave, .triggerRising, .seqAlloc 0, .seqControl] c with h | ⟨h, _⟩ | ⟨c', h1, h2, h3⟩
        · rw [h]; exact .inl ⟨rfl, rfl⟩
        · exact .inr (hdark _ h)
        · rw [h3]
          exact .inr (hdark _ (Alp.sendAllT_dark _ _ (by simp) (by rw [h1]; rfl)))
      split
      · rcases h with h | h
        · exact .inl h
        · exact .inr (.inl h)
      · rcases h with h | h
        · exact .inl h
        · exact .inr (.inl h)
    · exact key [.projSlave, .triggerRising, .seqAlloc imgs.length, .seqControl, .seqPut (Alp.toBytes imgs.flatten), .seqInquire,
        .setTiming] (by simp) (Alp.projecting_multiple hf imgs)
  · simp only [Alp.stepT, Alp.guarded, hi, if_true]
    refine key [.seqAlloc 1, .seqControl, .seqPut (Alp.toBytes img), .setTiming] (by simp) ?_
    have h := Alp.projecting_single hf img
    rw [List.flatten_singleton]
    exact h

/-- Each of the three happens: `Halt` refused, the picture cut off, the reply to `Run` lost. -/
example : ∀ f ∈ [(7, Fate.refused, some (1, [255])), (10, .torn [0, 0], none), (12, .lost, some (1, [0]))],
    let fate : ℕ → Fate (List ℕ) := fun k => if k = f.1 then f.2.1 else .returns
    let c := Alp.runT fate (Alp.Ctl.new false) [.initialize, .loadSingle [true]]
    c.initialized = true ∧ (Alp.stepT fate c (.loadSingle [false])).2 ≠ .ok () ∧
      (Alp.stepT fate c (.loadSingle [false])).1.dev.projecting = f.2.2 := by
  intro f hf
  simp only [List.mem_cons, List.not_mem_nil, or_false] at hf
  rcases hf with rfl | rfl | rfl <;> refine ⟨rfl, ?_, rfl⟩ <;>
  simp [Alp.runT, Alp.stepT, Alp.guarded, Alp.sendAllT, Fate.ok, Alp.initCmds, Alp.loadSingleCmds, Alp.Ctl.new]

end PySLM2.Controller
