import Verif.Spec.TornCalls
import Verif.Lemmas.ControllerFaults

/-!
# Lemmas on controllers whose vendor calls may fail half-way
-/

namespace PySLM2.Controller

namespace Alp

theorem effect_of_ok {d : Dev} {cmd : Cmd} {f : Fate (List ℕ)} (h : f.ok = true) : effect d cmd f = apply d cmd := by
  cases f <;> first | rfl | cases h

theorem fresh_effect {d : Dev} (h : Fresh d) (cmd : Cmd) (f : Fate (List ℕ)) : Fresh (effect d cmd f) := by
  cases f with
  | returns => exact fresh_apply h cmd
  | refused => exact h
  | lost =>
    have := fresh_apply h cmd
    cases cmd <;> exact this
  | torn data =>
    cases cmd with
    | seqPut x => exact fresh_apply h _
    | _ => exact h

/-- Effects of calls other than `Run` do not start a projection. -/
theorem running_effect {d : Dev} (h : d.running = none) {cmd : Cmd} (hc : cmd ≠ .run) (f : Fate (List ℕ)) :
    (effect d cmd f).running = none := by
  cases f <;> cases cmd <;> first | exact h | rfl | exact absurd rfl hc

theorem sendAllT_fresh (fate : ℕ → Fate (List ℕ)) (cmds : List Cmd) : ∀ c : Ctl, Fresh c.dev → Fresh (sendAllT fate c cmds).1.dev := by
  induction cmds with
  | nil => intro c h; exact h
  | cons cmd cmds ih =>
    intro c h
    simp only [sendAllT]
    split_ifs
    · exact ih _ (fresh_effect h _ _)
    · exact fresh_effect h _ _

theorem stepT_fresh (fate : ℕ → Fate (List ℕ)) (c : Ctl) (op : Op) (h : Fresh c.dev) : Fresh (stepT fate c op).1.dev := by
  have hs : ∀ cmds, Fresh (sendAllT fate c cmds).1.dev := fun cmds => sendAllT_fresh fate cmds c h
  have hg : ∀ body : Ctl × Except PyErr Unit, Fresh body.1.dev → Fresh (guarded c body).1.dev := by
    intro body hb
    unfold guarded
    split_ifs
    · exact hb
    · exact h
  cases op with
  | «initialize» =>
    simp only [stepT]
    split <;> exact hs _
  | close => exact hs _
  | loadSingle img => exact hg _ (hs _)
  | loadMultiple imgs =>
    refine hg _ ?_
    split_ifs
    · simp only
      split <;> exact hs _
    · exact hs _
  | queryNx => exact hg _ (hs _)
  | queryNy => exact hg _ (hs _)
  | numberImage => exact hg _ (hs _)
  | fireTrigger => exact h
  | loadSequence => exact hg _ h

theorem runT_fresh (fate : ℕ → Fate (List ℕ)) (ops : List Op) : ∀ {c : Ctl}, Fresh c.dev → Fresh (runT fate c ops).dev := by
  induction ops with
  | nil => intro c h; exact h
  | cons op ops ih => intro c h; exact ih (stepT_fresh fate c op h)

theorem sendAllT_ok {fate : ℕ → Fate (List ℕ)} (cmds : List Cmd) : ∀ c : Ctl, (sendAllT fate c cmds).2 = .ok () →
    (sendAllT fate c cmds).1.dev = cmds.foldl apply c.dev ∧ (sendAllT fate c cmds).1.log = c.log ++ cmds := by
  induction cmds with
  | nil => intro c _; exact ⟨rfl, by simp [sendAllT]⟩
  | cons cmd cmds ih =>
    intro c h
    simp only [sendAllT] at h ⊢
    by_cases hf : (fate c.log.length).ok = true
    · simp only [hf, if_true] at h ⊢
      obtain ⟨h1, h2⟩ := ih _ h
      rw [h1, h2, effect_of_ok hf]
      exact ⟨rfl, by simp⟩
    · simp [hf] at h

/-- Dark calls, none of which is `Run`, followed by possibly one `Run`: dark, or everything took effect. -/
theorem sendAllT_mid {fate : ℕ → Fate (List ℕ)} (mid : List Cmd) : ∀ c : Ctl, Cmd.run ∉ mid → c.dev.running = none →
    (sendAllT fate c (mid ++ [.run])).1.dev.running = none ∨
      ((sendAllT fate c (mid ++ [.run])).1.dev = (mid ++ [Cmd.run]).foldl apply c.dev ∧
        (sendAllT fate c (mid ++ [.run])).1.log = c.log ++ mid ++ [.run]) := by
  induction mid with
  | nil =>
    intro c _ h
    simp only [List.nil_append, sendAllT]
    have key : (effect c.dev .run (fate c.log.length)).running = none ∨
        effect c.dev .run (fate c.log.length) = apply c.dev .run := by
      cases fate c.log.length <;> first | exact .inr rfl | exact .inl h
    split_ifs
    · rcases key with key | key
      · exact .inl key
      · exact .inr ⟨key, by simp⟩
    · rcases key with key | key
      · exact .inl key
      · exact .inr ⟨key, by simp⟩
  | cons cmd mid ih =>
    intro c hm h
    have hc : cmd ≠ .run := fun e => hm (by simp [e])
    simp only [List.cons_append, sendAllT]
    by_cases hf : (fate c.log.length).ok = true
    · simp only [hf, if_true]
      rcases ih { c with log := c.log ++ [cmd], dev := effect c.dev cmd (fate c.log.length) } (fun e => hm (by simp [e]))
        (running_effect h hc _) with h1 | ⟨h1, h2⟩
      · exact .inl h1
      · refine .inr ⟨?_, by rw [h2]; simp⟩
        rw [h1, effect_of_ok hf]
        rfl
    · simp only [hf, if_false, Bool.false_eq_true]
      exact .inl (running_effect h hc _)

/-- The same without the `Run`. -/
theorem sendAllT_dark {fate : ℕ → Fate (List ℕ)} (mid : List Cmd) : ∀ c : Ctl, Cmd.run ∉ mid → c.dev.running = none →
    (sendAllT fate c mid).1.dev.running = none := by
  induction mid with
  | nil => intro c _ h; exact h
  | cons cmd mid ih =>
    intro c hm h
    have hc : cmd ≠ .run := fun e => hm (by simp [e])
    simp only [sendAllT]
    split_ifs
    · exact ih _ (fun e => hm (by simp [e])) (running_effect h hc _)
    · exact running_effect h hc _

/-- `Halt` first: refused (or cut off) without effect, or dark. -/
theorem sendAllT_halt {fate : ℕ → Fate (List ℕ)} (cmds : List Cmd) (c : Ctl) :
    (sendAllT fate c (.halt :: cmds) = ({ c with log := c.log ++ [.halt] }, .error .exception)) ∨
    (sendAllT fate c (.halt :: cmds)).1.dev.running = none ∧ (sendAllT fate c (.halt :: cmds)).2 ≠ .ok () ∨
    ∃ c' : Ctl, c'.dev = apply c.dev .halt ∧ c'.log = c.log ++ [.halt] ∧ sendAllT fate c (.halt :: cmds) = sendAllT fate c' cmds := by
  simp only [sendAllT]
  cases hf : fate c.log.length with
  | returns => exact .inr (.inr ⟨_, rfl, rfl, rfl⟩)
  | refused => exact .inl rfl
  | lost => exact .inr (.inl ⟨rfl, by simp [Fate.ok]⟩)
  | torn x => exact .inl rfl

end Alp

namespace Lux

theorem effect_of_ok {d : Dev} {cmd : Cmd} {f : Fate Image} (h : f.ok = true) : effect d cmd f = apply d cmd := by
  cases f <;> first | rfl | cases h

/-- A call either takes effect (possibly with other picture data), or it does nothing, or it spoils the program. -/
theorem effect_cases (d : Dev) (cmd : Cmd) (f : Fate Image) :
    (effect d cmd f = apply d cmd) ∨ effect d cmd f = d ∨
    (∃ k img img', cmd = .loadImage k img ∧ effect d cmd f = apply d (.loadImage k img')) ∨
    (cmd = .loadSequence ∧ effect d cmd f = { d with programmed := false }) := by
  cases f with
  | returns => exact .inl rfl
  | refused => exact .inr (.inl rfl)
  | lost => exact .inl rfl
  | torn x =>
    cases cmd with
    | loadImage k img => exact .inr (.inr (.inl ⟨k, img, x, rfl, rfl⟩))
    | loadSequence => exact .inr (.inr (.inr ⟨rfl, rfl⟩))
    | _ => exact .inr (.inl rfl)

theorem sendAllT_ok {fate : ℕ → Fate Image} {delay : ℕ → ℕ} (cmds : List Cmd) : ∀ c : Ctl, (sendAllT fate delay c cmds).2 = .ok () →
    (sendAllT fate delay c cmds).1.dev = after delay c.log.length cmds c.dev := by
  induction cmds with
  | nil => intro c _; rfl
  | cons cmd cmds ih =>
    intro c h
    simp only [sendAllT] at h ⊢
    by_cases hf : (fate c.log.length).ok = true
    · simp only [hf, if_true] at h ⊢
      rw [ih _ h, effect_of_ok hf]
      simp [after]
    · simp [hf] at h

theorem sendAllT_inv {fate : ℕ → Fate Image} {delay : ℕ → ℕ} {P : Dev → Prop} (ht : ∀ d, P d → P (tick d)) (cmds : List Cmd)
    (hc : ∀ cmd ∈ cmds, ∀ d, P d → ∀ f, P (effect d cmd f)) : ∀ c : Ctl, P c.dev → P (sendAllT fate delay c cmds).1.dev := by
  induction cmds with
  | nil => intro c h; exact h
  | cons cmd cmds ih =>
    intro c h
    simp only [sendAllT]
    have h1 := ticks_inv ht (delay c.log.length) _ (hc cmd (by simp) _ h (fate c.log.length))
    split_ifs
    · exact ih (fun x hx => hc x (by simp [hx])) _ h1
    · exact h1

theorem sendAllT_initialized {fate : ℕ → Fate Image} {delay : ℕ → ℕ} (cmds : List Cmd) : ∀ c : Ctl,
    (sendAllT fate delay c cmds).1.initialized = c.initialized := by
  induction cmds with
  | nil => intro c; rfl
  | cons cmd cmds ih =>
    intro c
    simp only [sendAllT]
    split_ifs
    · rw [ih]
    · rfl

/-! ### The program stays loaded -/

theorem programmed_effect {cmd : Cmd} (hc : cmd ≠ .loadSequence) (d : Dev) (h : d.programmed = true) (f : Fate Image) :
    (effect d cmd f).programmed = true := by
  rcases effect_cases d cmd f with e | e | ⟨k, img, img', _, e⟩ | ⟨e, _⟩
  · rw [e]; exact programmed_apply _ _ h
  · rw [e]; exact h
  · rw [e]; exact programmed_apply _ _ h
  · exact absurd e hc

theorem loadImages_mem (imgs : List Image) : ∀ (k : ℕ) (cmd : Cmd), cmd ∈ loadImages k imgs → ∃ j img, cmd = .loadImage j img := by
  induction imgs with
  | nil => intro k cmd h; simp [loadImages] at h
  | cons img imgs ih =>
    intro k cmd h
    simp only [loadImages, List.mem_cons] at h
    rcases h with rfl | h
    · exact ⟨_, _, rfl⟩
    · exact ih _ _ h

theorem stepE_programmed (fate : ℕ → Fate Image) (delay : ℕ → ℕ) (c : Ctl) (ev : Ev) (hev : ev ≠ .call .initialize)
    (h : c.dev.programmed = true) : (stepE fate delay c ev).1.dev.programmed = true := by
  have hs : ∀ cmds : List Cmd, Cmd.loadSequence ∉ cmds → (sendAllT fate delay c cmds).1.dev.programmed = true := by
    intro cmds hm
    exact sendAllT_inv (P := fun d => d.programmed = true) programmed_tick cmds
      (fun cmd hc d hd f => programmed_effect (fun e => hm (e ▸ hc)) d hd f) c h
  have hg : ∀ body : Ctl × Except PyErr Unit, body.1.dev.programmed = true → (guarded c body).1.dev.programmed = true := by
    intro body hb
    unfold guarded
    split_ifs
    · exact hb
    · exact h
  cases ev with
  | restart => exact h
  | call op =>
    cases op with
    | «initialize» => exact absurd rfl hev
    | close => exact h
    | loadSingle img => exact hg _ (hs _ (by simp [loadSingleCmds]))
    | loadMultiple imgs =>
      refine hg _ (hs _ ?_)
      intro hm
      simp only [loadMultipleCmds, List.mem_append, List.mem_cons, reduceCtorEq, List.not_mem_nil, or_false, false_or] at hm
      obtain ⟨j, img, e⟩ := loadImages_mem _ _ _ hm
      cases e
    | fireTrigger => exact hg _ (hs _ (by simp [triggerCmds]))
    | queryNx => exact hg _ h
    | queryNy => exact hg _ h
    | numberImage => exact hg _ h
    | loadSequence => exact hg _ h
    | extTrigger => exact programmed_trigger _ h
    | idle n => exact ticks_inv programmed_tick n _ h

theorem runE_programmed (fate : ℕ → Fate Image) (delay : ℕ → ℕ) (evs : List Ev) : ∀ {c : Ctl}, Ev.call .initialize ∉ evs →
    c.dev.programmed = true → (runE fate delay c evs).dev.programmed = true := by
  induction evs with
  | nil => intro c _ h; exact h
  | cons ev evs ih =>
    intro c hi h
    exact ih (fun h1 => hi (by simp [h1])) (stepE_programmed fate delay c ev (fun h1 => hi (by simp [h1])) h)

theorem runE_append (fate : ℕ → Fate Image) (delay : ℕ → ℕ) (a : List Ev) : ∀ (c : Ctl) (b : List Ev),
    runE fate delay c (a ++ b) = runE fate delay (runE fate delay c a) b := by
  induction a with
  | nil => intro c b; rfl
  | cons ev a ih => intro c b; exact ih _ b

theorem initializeT_programmed {fate : ℕ → Fate Image} {delay : ℕ → ℕ} {c : Ctl}
    (h : (stepT fate delay c .initialize).2 = .ok ()) : (stepT fate delay c .initialize).1.dev.programmed = true := by
  simp only [stepT] at h ⊢
  split at h
  · rename_i u hu
    rw [sendAllT_ok _ _ hu]
    have t : ∀ (n : ℕ) (d : Dev), d.programmed = true → (ticks n d).programmed = true := fun n d => ticks_inv programmed_tick n d
    simp only [initCmds, after]
    exact t _ _ (programmed_apply _ _ (t _ _ (programmed_apply _ _ (t _ _ rfl))))
  · cases h

/-! ### Going through the images -/

variable {imgs : List Image}

/-- Number of trigger edges an event can cause. -/
def Ev.edges : Ev → ℕ
  | .call op => op.edges
  | .restart => 0

theorem reach_sync {j : ℕ} {p : Bool} (hn : imgs ≠ []) {d : Dev} (h : Cyc imgs j p d) (f : Fate Image) (n : ℕ) :
    Reach imgs j p 1 (ticks n (effect d (.softwareSync true) f)) := by
  rcases effect_cases d (.softwareSync true) f with e | e | ⟨_, _, _, e, _⟩ | ⟨e, _⟩
  · rw [e]
    simp only [apply]
    split_ifs
    · exact reach_ticks hn _ h 1
    · exact reach_trigger hn _ (h.sync true)
  · rw [e]; exact reach_ticks hn _ h 1
  · cases e
  · cases e

theorem reach_more {j : ℕ} {p : Bool} {e : ℕ} (hn : imgs ≠ []) {d : Dev} (h : Cyc imgs j p d) (f g : Fate Image) (a b : ℕ) (he : e = 1) :
    Reach imgs j p e (ticks b (effect (ticks a (effect d (.softwareSync true) f)) (.softwareSync false) g)) := by
  subst he
  rcases effect_cases (ticks a (effect d (.softwareSync true) f)) (.softwareSync false) g with e | e | ⟨_, _, _, e, _⟩ | ⟨e, _⟩
  · rw [e]
    show Reach imgs j p 1 (Lux.ticks b { Lux.ticks a (effect d (.softwareSync true) f) with sync := false })
    rw [ticks_sync false b, ticks_add]
    obtain ⟨j', p', h3, h4⟩ := reach_sync hn h f (a + b)
    exact ⟨j', p', h3.sync false, h4⟩
  · rw [e, ticks_add]
    exact reach_sync hn h f (a + b)
  · cases e
  · cases e

theorem Cyc.stepE {c : Ctl} {j : ℕ} {p : Bool} (h : Cyc imgs j p c.dev) (hn : imgs ≠ []) (fate : ℕ → Fate Image) (delay : ℕ → ℕ)
    (ev : Ev) (hev : ev.Passive) : Reach imgs j p ev.edges (stepE fate delay c ev).1.dev := by
  cases ev with
  | restart => exact h.reach _
  | call op =>
    have hg : ∀ body : Ctl × Except PyErr Unit, Reach imgs j p op.edges body.1.dev →
        Reach imgs j p op.edges (guarded c body).1.dev := by
      intro body hb
      unfold guarded
      split_ifs
      · exact hb
      · exact h.reach _
    cases op with
    | «initialize» => exact absurd hev (by simp [Ev.Passive, Op.Passive])
    | loadSingle img => exact absurd hev (by simp [Ev.Passive, Op.Passive])
    | loadMultiple imgs => exact absurd hev (by simp [Ev.Passive, Op.Passive])
    | close => exact h.reach _
    | fireTrigger =>
      refine hg _ ?_
      simp only [triggerCmds, sendAllT, Op.edges]
      split_ifs
      · exact reach_more hn h _ _ _ _ rfl
      · exact reach_more hn h _ _ _ _ rfl
      · exact reach_sync hn h _ _
    | queryNx => exact hg _ (h.reach _)
    | queryNy => exact hg _ (h.reach _)
    | numberImage => exact hg _ (h.reach _)
    | loadSequence => exact hg _ (h.reach _)
    | extTrigger => exact reach_trigger (d := c.dev) hn 0 h
    | idle n => exact reach_ticks hn n h _

theorem edgesIn_cons (ev : Ev) (later : List Ev) (k : ℕ) : edgesIn (ev :: later) (k + 1) = edgesIn later k + ev.edges := by
  unfold edgesIn
  rw [List.take_succ_cons, List.countP_cons]
  cases ev with
  | restart => simp [Ev.edges]
  | call op => cases op <;> simp [Ev.edges, Op.edges]

theorem cyc_run (hn : imgs ≠ []) (fate : ℕ → Fate Image) (delay : ℕ → ℕ) (later : List Ev) : (∀ ev ∈ later, ev.Passive) →
    ∀ (c : Ctl) (j : ℕ) (p : Bool), Cyc imgs j p c.dev →
      ∃ J : ℕ → ℕ, J 0 = j ∧ (∀ k < later.length, J k ≤ J (k + 1) ∧ J (k + 1) ≤ J k + 1) ∧
        ∀ k ≤ later.length, J k ≤ j + p.toNat + edgesIn later k ∧
          (runE fate delay c (later.take k)).dev.shown = imgs[J k % imgs.length]? := by
  induction later with
  | nil =>
    intro _ c j p h
    refine ⟨fun _ => j, rfl, fun k hk => by simp at hk, fun k hk => ⟨by simp only; omega, ?_⟩⟩
    rw [List.take_nil]
    exact h.shown
  | cons ev later ih =>
    intro hp c j p h
    obtain ⟨j', p', h5, h6, h7, h8⟩ := h.stepE hn fate delay ev (hp ev (by simp))
    obtain ⟨J, hJ0, hJ1, hJ2⟩ := ih (fun o ho => hp o (by simp [ho])) _ j' p' h5
    refine ⟨fun k => if k = 0 then j else J (k - 1), by simp, ?_, ?_⟩
    · intro k hk
      cases k with
      | zero => simpa [hJ0] using ⟨h6, h7⟩
      | succ k => simpa using hJ1 k (by simpa using hk)
    · intro k hk
      cases k with
      | zero => exact ⟨by simp only [if_true]; omega, by simpa [runE] using h.shown⟩
      | succ k =>
        obtain ⟨h9, h10⟩ := hJ2 k (by simpa using hk)
        refine ⟨?_, by simpa [runE] using h10⟩
        simp only [Nat.add_eq_zero_iff, one_ne_zero, and_false, if_false, Nat.add_sub_cancel]
        rw [edgesIn_cons]
        omega

/-- A device that has just been started with these images goes through them. -/
theorem goesThrough_of_playing {fate : ℕ → Fate Image} {delay : ℕ → ℕ} {c : Ctl} {d : Dev} {m : ℕ} (hn : imgs ≠ []) {P : Option Image → Prop}
    (h1 : c.dev = ticks m d) (h2 : Playing imgs P d) (h3 : d.pc = .loadFirst) : GoesThrough fate delay c imgs := by
  intro n h3' later hlater
  have hw : Waiting imgs 0 (stepE fate delay c (.call (.idle n))).1.dev := by
    show Waiting imgs 0 (ticks n c.dev)
    rw [h1, ticks_add]
    exact waiting_start (h2.mono fun _ _ => trivial) hn h3 (by omega)
  have hpos : 0 < imgs.length := List.length_pos_iff.2 hn
  obtain ⟨J, hJ0, hJ1, hJ2⟩ := cyc_run hn fate delay later hlater _ 0 false (hw.cyc hpos)
  refine ⟨J, hJ0, hJ1, fun k hk => ?_⟩
  obtain ⟨h5, h6⟩ := hJ2 k hk
  refine ⟨by simpa using h5, h6, ?_⟩
  show (runE fate delay _ (later.take k)).dev.shown.isSome = true
  rw [h6, List.getElem?_eq_getElem (Nat.mod_lt _ hpos)]
  rfl

/-! ### A failed load -/

theorem frozen_effect {s : Option Image} {cmd : Cmd} (hc : cmd ≠ .seqRun true) (d : Dev) (h : d.enabled = false ∧ d.shown = s)
    (f : Fate Image) : (effect d cmd f).enabled = false ∧ (effect d cmd f).shown = s := by
  have key : ∀ cmd : Cmd, cmd ≠ .seqRun true → (apply d cmd).enabled = false ∧ (apply d cmd).shown = s := by
    intro cmd hc
    have := sendAll_frozen (fault := fun _ => false) (delay := fun _ => 0) s [cmd]
      (fun hm => hc (by simp at hm; exact hm.symm)) ⟨false, d, []⟩ h
    simpa [sendAll, send, ticks] using this
  rcases effect_cases d cmd f with e | e | ⟨k, img, img', _, e⟩ | ⟨_, e⟩
  · rw [e]; exact key _ hc
  · rw [e]; exact h
  · rw [e]; exact key _ (by simp)
  · rw [e]; exact h

theorem frozen_tick {s : Option Image} (d : Dev) (h : d.enabled = false ∧ d.shown = s) : (tick d).enabled = false ∧ (tick d).shown = s := by
  have : tick d = d := by simp [tick, h.1]
  rw [this]
  exact h

theorem frozen_of_disabled {fate : ℕ → Fate Image} {delay : ℕ → ℕ} {s : Option Image} (later : List Ev) : ∀ {c : Ctl},
    c.dev.enabled = false ∧ c.dev.shown = s → (∀ ev ∈ later, ev.Passive) →
    (runE fate delay c later).dev.enabled = false ∧ (runE fate delay c later).dev.shown = s := by
  induction later with
  | nil => intro c h _; exact h
  | cons ev later ih =>
    intro c h hp
    refine ih ?_ (fun o ho => hp o (by simp [ho]))
    have hev := hp ev (by simp)
    have hg : ∀ body : Ctl × Except PyErr Unit, (body.1.dev.enabled = false ∧ body.1.dev.shown = s) →
        (guarded c body).1.dev.enabled = false ∧ (guarded c body).1.dev.shown = s := by
      intro body hb
      unfold guarded
      split_ifs
      · exact hb
      · exact h
    cases ev with
    | restart => exact h
    | call op =>
      cases op with
      | «initialize» => exact absurd hev (by simp [Ev.Passive, Op.Passive])
      | loadSingle img => exact absurd hev (by simp [Ev.Passive, Op.Passive])
      | loadMultiple imgs => exact absurd hev (by simp [Ev.Passive, Op.Passive])
      | close => exact h
      | fireTrigger =>
        refine hg _ (sendAllT_inv (P := fun d => d.enabled = false ∧ d.shown = s) frozen_tick _ ?_ c h)
        intro cmd hc d hd f
        exact frozen_effect (fun e => by rw [e] at hc; simp [triggerCmds] at hc) d hd f
      | queryNx => exact hg _ h
      | queryNy => exact hg _ h
      | numberImage => exact hg _ h
      | loadSequence => exact hg _ h
      | extTrigger =>
        have : trigger c.dev = c.dev := by simp [trigger, h.1]
        simp only [stepE, stepT, this]
        exact h
      | idle n => exact ticks_inv (P := fun d => d.enabled = false ∧ d.shown = s) frozen_tick n _ h

/-- Calls on a stopped sequencer followed by the start request: still stopped, or everything took effect. -/
theorem sendAllT_mid {fate : ℕ → Fate Image} {delay : ℕ → ℕ} {s : Option Image} (mid : List Cmd) : ∀ c : Ctl, Cmd.seqRun true ∉ mid →
    c.dev.enabled = false ∧ c.dev.shown = s →
    ((sendAllT fate delay c (mid ++ [.seqRun true])).1.dev.enabled = false ∧
      (sendAllT fate delay c (mid ++ [.seqRun true])).1.dev.shown = s) ∨
    ((sendAllT fate delay c (mid ++ [.seqRun true])).1.dev = after delay c.log.length (mid ++ [.seqRun true]) c.dev ∧
      (sendAllT fate delay c (mid ++ [.seqRun true])).1.log.getLast? = some (.seqRun true)) := by
  induction mid with
  | nil =>
    intro c _ h
    simp only [List.nil_append, sendAllT, after]
    have key : effect c.dev (.seqRun true) (fate c.log.length) = c.dev ∨
        effect c.dev (.seqRun true) (fate c.log.length) = apply c.dev (.seqRun true) := by
      rcases effect_cases c.dev (.seqRun true) (fate c.log.length) with e | e | ⟨_, _, _, e, _⟩ | ⟨e, _⟩
      · exact .inr e
      · exact .inl e
      · cases e
      · cases e
    have key2 : ((ticks (delay c.log.length) (effect c.dev (.seqRun true) (fate c.log.length))).enabled = false ∧
        (ticks (delay c.log.length) (effect c.dev (.seqRun true) (fate c.log.length))).shown = s) ∨
        ticks (delay c.log.length) (effect c.dev (.seqRun true) (fate c.log.length)) =
          ticks (delay c.log.length) (apply c.dev (.seqRun true)) := by
      rcases key with e | e
      · left
        rw [e, ticks_disabled h.1]
        exact h
      · right
        rw [e]
    split_ifs <;> exact key2.imp id fun h => ⟨h, by simp⟩
  | cons cmd mid ih =>
    intro c hm h
    have hc : cmd ≠ .seqRun true := fun e => hm (by simp [e])
    have hd := ticks_inv (P := fun d => d.enabled = false ∧ d.shown = s) frozen_tick (delay c.log.length) _
      (frozen_effect hc c.dev h (fate c.log.length))
    simp only [List.cons_append, sendAllT]
    by_cases hf : (fate c.log.length).ok = true
    · simp only [hf, if_true]
      rcases ih { c with log := c.log ++ [cmd], dev := ticks (delay c.log.length) (effect c.dev cmd (fate c.log.length)) }
        (fun e => hm (by simp [e])) hd with h1 | ⟨h1, h2⟩
      · exact .inl h1
      · refine .inr ⟨?_, h2⟩
        rw [h1, effect_of_ok hf]
        simp [after]
    · simp only [hf, if_false, Bool.false_eq_true]
      exact .inl hd

theorem sendAllT_stop {fate : ℕ → Fate Image} {delay : ℕ → ℕ} (mid : List Cmd) (c : Ctl) (hm : Cmd.seqRun true ∉ mid) :
    (∃ n, (sendAllT fate delay c (.seqRun false :: mid ++ [.seqRun true])).1.dev = ticks n c.dev ∧
      (sendAllT fate delay c (.seqRun false :: mid ++ [.seqRun true])).1.log = c.log ++ [.seqRun false]) ∨
    ((sendAllT fate delay c (.seqRun false :: mid ++ [.seqRun true])).1.dev.enabled = false ∧
      (sendAllT fate delay c (.seqRun false :: mid ++ [.seqRun true])).1.dev.shown = c.dev.shown) ∨
    ((sendAllT fate delay c (.seqRun false :: mid ++ [.seqRun true])).1.dev =
        after delay c.log.length (.seqRun false :: mid ++ [.seqRun true]) c.dev ∧
      (sendAllT fate delay c (.seqRun false :: mid ++ [.seqRun true])).1.log.getLast? = some (.seqRun true)) := by
  simp only [List.cons_append, sendAllT]
  have hd : (ticks (delay c.log.length) (apply c.dev (.seqRun false))).enabled = false ∧
      (ticks (delay c.log.length) (apply c.dev (.seqRun false))).shown = c.dev.shown := by
    rw [ticks_disabled rfl]
    exact ⟨rfl, rfl⟩
  cases hf : fate c.log.length with
  | returns =>
    simp only [Fate.ok, if_true, effect]
    rcases sendAllT_mid (fate := fate) (delay := delay) mid
      { c with log := c.log ++ [.seqRun false], dev := ticks (delay c.log.length) (apply c.dev (.seqRun false)) } hm hd with h1 | ⟨h1, h2⟩
    · exact .inr (.inl h1)
    · refine .inr (.inr ⟨?_, h2⟩)
      rw [h1]
      simp [after]
  | refused => exact .inl ⟨_, rfl, rfl⟩
  | lost => exact .inr (.inl hd)
  | torn x => exact .inl ⟨_, rfl, rfl⟩

theorem loadT_eq {fate : ℕ → Fate Image} {delay : ℕ → ℕ} (c : Ctl) {load : Op}
    (hload : load = .loadMultiple imgs ∨ ∃ img, imgs = [img] ∧ load = .loadSingle img) :
    stepE fate delay c (.call load) = guarded c (sendAllT fate delay c (loadMultipleCmds imgs)) := by
  rcases hload with rfl | ⟨img, rfl, rfl⟩
  · rfl
  · rfl

end Lux

end PySLM2.Controller
