import Verif.Lemmas.Controller

/-!
# Controller lemmas: failed calls and arbitrary trigger timing
-/

namespace PySLM2.Controller

namespace Alp

theorem inverted_foldl (cmds : List Cmd) : ∀ {d : Dev}, Cmd.initialize ∉ cmds → Cmd.projInversion ∉ cmds →
    (cmds.foldl apply d).inverted = d.inverted := by
  induction cmds with
  | nil => intro d _ _; rfl
  | cons cmd cmds ih =>
    intro d h1 h2
    rw [List.foldl_cons, ih (fun h => h1 (by simp [h])) (fun h => h2 (by simp [h]))]
    cases cmd with
    | «initialize» => exact absurd (by simp) h1
    | projInversion => exact absurd (by simp) h2
    | _ => rfl

/-- Only `initialize()` touches the inversion. -/
theorem inverted_step (fault : ℕ → Bool) (c : Ctl) (op : Op) (hop : op ≠ .initialize) :
    (step fault c op).1.dev.inverted = c.dev.inverted := by
  have hs : ∀ cmds : List Cmd, Cmd.initialize ∉ cmds → Cmd.projInversion ∉ cmds →
      (sendAll fault c cmds).1.dev.inverted = c.dev.inverted := by
    intro cmds h1 h2
    obtain ⟨_, _, pre, post, h3, h4⟩ := sendAll_prefix (fault := fault) cmds c
    rw [h4]
    exact inverted_foldl pre (fun h => h1 (by rw [h3]; simp [h])) (fun h => h2 (by rw [h3]; simp [h]))
  have hg : ∀ body : Ctl × Except PyErr Unit, body.1.dev.inverted = c.dev.inverted →
      (guarded c body).1.dev.inverted = c.dev.inverted := by
    intro body hb
    unfold guarded
    split_ifs
    · exact hb
    · rfl
  cases op with
  | «initialize» => exact absurd rfl hop
  | close => exact hs _ (by simp only [closeCmds]; split_ifs <;> simp) (by simp only [closeCmds]; split_ifs <;> simp)
  | loadSingle img => exact hg _ (hs _ (by simp [loadSingleCmds]) (by simp [loadSingleCmds]))
  | loadMultiple imgs =>
    refine hg _ ?_
    split_ifs
    · simp only
      split <;> exact hs _ (by simp) (by simp)
    · exact hs _ (by simp [loadMultipleCmds]) (by simp [loadMultipleCmds])
  | queryNx => exact hg _ (hs _ (by simp) (by simp))
  | queryNy => exact hg _ (hs _ (by simp) (by simp))
  | numberImage => exact hg _ (hs _ (by simp) (by simp))
  | fireTrigger => rfl
  | loadSequence => exact hg _ rfl

theorem inverted_run (fault : ℕ → Bool) (ops : List Op) : ∀ {c : Ctl}, Op.initialize ∉ ops →
    (run fault c ops).dev.inverted = c.dev.inverted := by
  induction ops with
  | nil => intro c _; rfl
  | cons op ops ih =>
    intro c h
    rw [run, ih (fun h1 => h (by simp [h1])), inverted_step fault c op (fun h1 => h (by simp [h1]))]

theorem invert_run (fault : ℕ → Bool) (ops : List Op) : ∀ {c : Ctl}, (run fault c ops).invert = c.invert := by
  induction ops with
  | nil => intro c; rfl
  | cons op ops ih => intro c; rw [run, ih, (step_dev fault c op).1]

/-- A failing sequence of vendor calls: those before the failing one took effect. -/
theorem sendAll_fail {fault : ℕ → Bool} (cmds : List Cmd) : ∀ (c : Ctl), (sendAll fault c cmds).2 ≠ .ok () →
    ∃ pre cmd post, cmds = pre ++ cmd :: post ∧ (sendAll fault c cmds).1.dev = pre.foldl apply c.dev ∧
      (sendAll fault c cmds).1.log = c.log ++ pre ++ [cmd] := by
  induction cmds with
  | nil => intro c h; exact absurd rfl h
  | cons cmd cmds ih =>
    intro c h
    simp only [sendAll, send] at h ⊢
    by_cases hf : fault c.log.length = true
    · simp only [hf, if_true, Bool.false_eq_true, if_false]
      exact ⟨[], cmd, cmds, rfl, rfl, by simp⟩
    · simp only [Bool.not_eq_true] at hf
      simp only [hf, Bool.false_eq_true, if_false, if_true] at h ⊢
      obtain ⟨pre, x, post, h1, h2, h3⟩ := ih _ h
      exact ⟨cmd :: pre, x, post, by rw [h1]; rfl, h2, by rw [h3]; simp⟩

/-- Vendor calls other than `Run` do not start a projection. -/
theorem running_foldl (cmds : List Cmd) : ∀ {d : Dev}, d.running = none → Cmd.run ∉ cmds →
    (cmds.foldl apply d).running = none := by
  induction cmds with
  | nil => intro d h _; exact h
  | cons cmd cmds ih =>
    intro d h h1
    refine ih ?_ (fun h2 => h1 (by simp [h2]))
    cases cmd with
    | «initialize» => rfl
    | halt => rfl
    | free => rfl
    | run => exact absurd (by simp) h1
    | _ => exact h

/-- Calls that start with `Halt` and end with `Run`, interrupted. -/
theorem sendAll_dark {fault : ℕ → Bool} {c : Ctl} {mid : List Cmd} (hmid : Cmd.run ∉ mid) {last : List Cmd}
    (hlast : last = [] ∨ last = [.run]) (h : (sendAll fault c (.halt :: mid ++ last)).2 ≠ .ok ()) :
    ((sendAll fault c (.halt :: mid ++ last)).1.dev = c.dev ∧
      (sendAll fault c (.halt :: mid ++ last)).1.log = c.log ++ [.halt]) ∨
    (sendAll fault c (.halt :: mid ++ last)).1.dev.running = none := by
  obtain ⟨pre, cmd, post, h1, h2, h3⟩ := sendAll_fail _ _ h
  cases pre with
  | nil =>
    left
    rw [h2, h3]
    simp only [List.nil_append, List.cons_append, List.cons.injEq] at h1
    rw [← h1.1]
    simp
  | cons x pre =>
    right
    simp only [List.cons_append, List.cons.injEq] at h1
    rw [h2, List.foldl_cons, ← h1.1]
    refine running_foldl pre rfl fun hr => ?_
    have h4 := congrArg (List.count Cmd.run) h1.2
    simp only [List.count_append, List.count_eq_zero_of_not_mem hmid, List.count_cons] at h4
    have h5 : 0 < pre.count Cmd.run := List.count_pos_iff.2 hr
    rcases hlast with rfl | rfl
    · simp at h4; omega
    · have h6 := congrArg List.getLast? h1.2
      have h7 : (mid ++ [Cmd.run]).getLast? = some Cmd.run := by simp
      rw [h7] at h6
      simp at h4
      cases hp : post with
      | nil =>
        rw [hp] at h6
        simp at h6
        rw [← h6] at h4
        simp at h4
        omega
      | cons y ys =>
        have : 0 < (post.count Cmd.run) := by
          refine List.count_pos_iff.2 ?_
          have h8 : (pre ++ cmd :: post).getLast? = post.getLast? := by
            rw [List.getLast?_append, hp]
            simp [List.getLast?_cons_cons, List.getLast?_eq_getLast_of_ne_nil]
          rw [h8] at h6
          exact List.mem_of_getLast? h6.symm
        omega

end Alp

namespace Lux

/-- Making vendor calls on a sequencer that is and stays disabled changes neither the display nor that. -/
theorem sendAll_frozen {fault : ℕ → Bool} {delay : ℕ → ℕ} (s : Option Image) (cmds : List Cmd)
    (h : Cmd.seqRun true ∉ cmds) : ∀ (c : Ctl), c.dev.enabled = false ∧ c.dev.shown = s →
    (sendAll fault delay c cmds).1.dev.enabled = false ∧ (sendAll fault delay c cmds).1.dev.shown = s := by
  refine sendAll_inv (P := fun d => d.enabled = false ∧ d.shown = s) ?_ cmds ?_
  · rintro d ⟨h1, h2⟩
    have : tick d = d := by simp [tick, h1]
    rw [this]
    exact ⟨h1, h2⟩
  · rintro cmd hc d ⟨h1, h2⟩
    cases cmd with
    | seqRun on =>
      cases on
      · exact ⟨rfl, h2⟩
      · exact absurd hc h
    | seqReset on => cases on <;> exact ⟨h1, h2⟩
    | softwareSync l =>
      cases l
      · exact ⟨h1, h2⟩
      · simp only [apply]
        split_ifs
        · exact ⟨h1, h2⟩
        · simp [trigger, h1, h2]
    | _ => exact ⟨h1, h2⟩

/-- A disabled sequencer stays as it is during passive calls. -/
theorem frozen_run (fault : ℕ → Bool) (delay : ℕ → ℕ) (s : Option Image) (ops : List Op) : ∀ {c : Ctl},
    c.dev.enabled = false ∧ c.dev.shown = s → (∀ op ∈ ops, op.Passive) →
    (run fault delay c ops).dev.enabled = false ∧ (run fault delay c ops).dev.shown = s := by
  induction ops with
  | nil => intro c h _; exact h
  | cons op ops ih =>
    intro c h hp
    refine ih ?_ (fun o ho => hp o (by simp [ho]))
    have hop := hp op (by simp)
    have hg : ∀ body : Ctl × Except PyErr Unit, (body.1.dev.enabled = false ∧ body.1.dev.shown = s) →
        (guarded c body).1.dev.enabled = false ∧ (guarded c body).1.dev.shown = s := by
      intro body hb
      unfold guarded
      split_ifs
      · exact hb
      · exact h
    cases op with
    | «initialize» => exact absurd hop (by simp [Op.Passive])
    | loadSingle img => exact absurd hop (by simp [Op.Passive])
    | loadMultiple imgs => exact absurd hop (by simp [Op.Passive])
    | close => exact h
    | fireTrigger => exact hg _ (sendAll_frozen s _ (by simp [triggerCmds]) c h)
    | queryNx => exact hg _ h
    | queryNy => exact hg _ h
    | numberImage => exact hg _ h
    | loadSequence => exact hg _ h
    | extTrigger =>
      simp only [step]
      have : trigger c.dev = c.dev := by simp [trigger, h.1]
      rw [this]
      exact h
    | idle n =>
      simp only [step]
      rw [ticks_disabled h.1]
      exact h

/-- Stop the sequencer, do things, start it: interrupted. -/
theorem sendAll_stop {fault : ℕ → Bool} {delay : ℕ → ℕ} (mid : List Cmd) (hmid : Cmd.seqRun true ∉ mid) (c : Ctl)
    (h : (sendAll fault delay c (.seqRun false :: mid ++ [.seqRun true])).2 ≠ .ok ()) :
    (∃ n, (sendAll fault delay c (.seqRun false :: mid ++ [.seqRun true])).1.dev = ticks n c.dev ∧
      (sendAll fault delay c (.seqRun false :: mid ++ [.seqRun true])).1.log = c.log ++ [.seqRun false]) ∨
    ((sendAll fault delay c (.seqRun false :: mid ++ [.seqRun true])).1.dev.enabled = false ∧
      (sendAll fault delay c (.seqRun false :: mid ++ [.seqRun true])).1.dev.shown = c.dev.shown) := by
  simp only [List.cons_append, sendAll, send] at h ⊢
  by_cases hf : fault c.log.length = true
  · left
    simp only [hf, if_true, Bool.false_eq_true, if_false]
    exact ⟨_, rfl, trivial⟩
  · right
    simp only [Bool.not_eq_true] at hf
    simp only [hf, Bool.false_eq_true, if_false, if_true] at h ⊢
    have key : ∀ (l : List Cmd) (c' : Ctl), Cmd.seqRun true ∉ l → c'.dev.enabled = false ∧ c'.dev.shown = c.dev.shown →
        (sendAll fault delay c' (l ++ [.seqRun true])).2 ≠ .ok () →
        (sendAll fault delay c' (l ++ [.seqRun true])).1.dev.enabled = false ∧
          (sendAll fault delay c' (l ++ [.seqRun true])).1.dev.shown = c.dev.shown := by
      intro l
      induction l with
      | nil =>
        intro c' _ h1 h2
        simp only [List.nil_append, sendAll, send] at h2 ⊢
        by_cases hf' : fault c'.log.length = true
        · simp only [hf', if_true, Bool.false_eq_true, if_false]
          rw [ticks_disabled h1.1]
          exact h1
        · simp [hf'] at h2
      | cons cmd l ih =>
        intro c' hl h1 h2
        simp only [List.cons_append, sendAll, send] at h2 ⊢
        by_cases hf' : fault c'.log.length = true
        · simp only [hf', if_true, Bool.false_eq_true, if_false]
          rw [ticks_disabled h1.1]
          exact h1
        · simp only [Bool.not_eq_true] at hf'
          simp only [hf', Bool.false_eq_true, if_false, if_true] at h2 ⊢
          refine ih _ (fun hm => hl (by simp [hm])) ?_ h2
          have := sendAll_frozen (fault := fun _ => false) (delay := fun _ => delay c'.log.length) c.dev.shown [cmd]
            (fun hm => hl (by simp at hm; simp [hm])) c' h1
          simpa [sendAll, send] using this
    refine key mid _ hmid ?_ h
    rw [ticks_disabled rfl]
    exact ⟨rfl, rfl⟩

theorem run_append (fault : ℕ → Bool) (delay : ℕ → ℕ) (a : List Op) : ∀ (c : Ctl) (b : List Op),
    run fault delay c (a ++ b) = run fault delay (run fault delay c a) b := by
  induction a with
  | nil => intro c b; rfl
  | cons op a ih => intro c b; exact ih _ b

/-! ### Counting images shown -/

/-- `j` images have followed the first one; `pending` says a trigger has been accepted whose image is not shown yet. -/
structure Cyc (imgs : List Image) (j : ℕ) (pending : Bool) (d : Dev) : Prop where
  enabled : d.enabled = true
  held : d.held = false
  programmed : d.programmed = true
  reg0 : d.reg0 = imgs.length
  slots : ∀ i, i < imgs.length → d.slots i = imgs[i]?
  shown : d.shown = imgs[j % imgs.length]?
  point : match d.pc with
    | .loadFirst => pending = true ∧ (j + 1) % imgs.length = 0
    | .show => pending = true ∧ d.inum = (j + 1) % imgs.length ∧ d.memory = imgs[(j + 1) % imgs.length]?
    | .loadNext => pending = false ∧ d.inum = j % imgs.length
    | .wait => pending = false ∧ d.inum = j % imgs.length ∧ d.memory = d.slots (d.inum + 1)
    | .next => pending = true ∧ d.inum = j % imgs.length ∧ d.memory = d.slots (d.inum + 1)

variable {imgs : List Image} {d : Dev}

theorem succ_mod_of_lt {j n : ℕ} (h : j % n + 1 < n) : (j + 1) % n = j % n + 1 := by
  rw [Nat.add_mod, Nat.mod_eq_of_lt (show 1 < n by omega), Nat.mod_eq_of_lt h]

theorem succ_mod_of_le {j n : ℕ} (hn : 0 < n) (h : n ≤ j % n + 1) : (j + 1) % n = 0 := by
  have h1 : j % n < n := Nat.mod_lt _ hn
  have h2 : j % n + 1 = n := by omega
  rw [← Nat.mod_add_mod, h2, Nat.mod_self]

/-- One instruction: the count stays, or the pending image is shown. -/
theorem Cyc.tick {j : ℕ} {p : Bool} (h : Cyc imgs j p d) (hn : imgs ≠ []) :
    Cyc imgs j p (tick d) ∨ (p = true ∧ Cyc imgs (j + 1) false (tick d)) := by
  have hpos : 0 < imgs.length := List.length_pos_iff.2 hn
  have hp := h.point
  unfold Lux.tick
  rw [if_pos ⟨h.enabled, by simp [h.held], h.programmed⟩]
  cases hpc : d.pc with
  | loadFirst =>
    rw [hpc] at hp
    left
    exact ⟨h.enabled, h.held, h.programmed, h.reg0, h.slots, h.shown, hp.1, hp.2.symm, by
      simp only [hp.2]; exact h.slots 0 hpos⟩
  | «show» =>
    rw [hpc] at hp
    right
    exact ⟨hp.1, h.enabled, h.held, h.programmed, h.reg0, h.slots, hp.2.2, rfl, hp.2.1⟩
  | loadNext =>
    rw [hpc] at hp
    left
    exact ⟨h.enabled, h.held, h.programmed, h.reg0, h.slots, h.shown, hp.1, hp.2, rfl⟩
  | wait => left; exact h
  | next =>
    rw [hpc] at hp
    left
    simp only
    split_ifs with hlt
    · rw [h.reg0, hp.2.1] at hlt
      have e := succ_mod_of_lt hlt
      refine ⟨h.enabled, h.held, h.programmed, h.reg0, h.slots, h.shown, hp.1, ?_, ?_⟩
      · simp only [e, hp.2.1]
      · simp only [hp.2.2, hp.2.1, e]
        exact h.slots _ hlt
    · rw [h.reg0, hp.2.1] at hlt
      exact ⟨h.enabled, h.held, h.programmed, h.reg0, h.slots, h.shown, hp.1, succ_mod_of_le hpos (by omega)⟩

theorem Cyc.ticks {j : ℕ} (hn : imgs ≠ []) : ∀ (n : ℕ) {p : Bool} {d : Dev}, Cyc imgs j p d →
    Cyc imgs j p (ticks n d) ∨ (p = true ∧ Cyc imgs (j + 1) false (ticks n d)) := by
  have h0 : ∀ (n : ℕ) {j : ℕ} {d : Dev}, Cyc imgs j false d → Cyc imgs j false (Lux.ticks n d) := by
    intro n
    induction n with
    | zero => intro j d h; exact h
    | succ n ih =>
      intro j d h
      rcases h.tick hn with h1 | ⟨h1, _⟩
      · exact ih h1
      · cases h1
  intro n
  induction n with
  | zero => intro p d h; exact .inl h
  | succ n ih =>
    intro p d h
    rcases h.tick hn with h1 | ⟨h1, h2⟩
    · exact ih h1
    · exact .inr ⟨h1, h0 n h2⟩

theorem Cyc.trigger {j : ℕ} {p : Bool} (h : Cyc imgs j p d) :
    Cyc imgs j p (trigger d) ∨ (p = false ∧ Cyc imgs j true (trigger d)) := by
  unfold Lux.trigger
  split_ifs with hw
  · have hp := h.point
    rw [hw.2.2.2] at hp
    exact .inr ⟨hp.1, h.enabled, h.held, h.programmed, h.reg0, h.slots, h.shown, rfl, hp.2⟩
  · exact .inl h

theorem Cyc.sync {j : ℕ} {p : Bool} (h : Cyc imgs j p d) (b : Bool) : Cyc imgs j p { d with sync := b } :=
  ⟨h.enabled, h.held, h.programmed, h.reg0, h.slots, h.shown, h.point⟩

/-- What a call can do: the count plus the pending image grows by at most one, and only for a trigger. -/
def Reach (imgs : List Image) (j : ℕ) (p : Bool) (extra : ℕ) (d : Dev) : Prop :=
  ∃ j' p', Cyc imgs j' p' d ∧ j ≤ j' ∧ j' ≤ j + 1 ∧ j' + p'.toNat ≤ j + p.toNat + extra

theorem Cyc.reach {j : ℕ} {p : Bool} (h : Cyc imgs j p d) (e : ℕ) : Reach imgs j p e d :=
  ⟨j, p, h, le_rfl, by omega, by omega⟩

theorem reach_ticks {j : ℕ} {p : Bool} (hn : imgs ≠ []) (n : ℕ) (h : Cyc imgs j p d) (e : ℕ) :
    Reach imgs j p e (ticks n d) := by
  rcases h.ticks hn n with h1 | ⟨h1, h2⟩
  · exact h1.reach e
  · exact ⟨j + 1, false, h2, by omega, by omega, by simp [h1]⟩

theorem reach_trigger {j : ℕ} {p : Bool} (hn : imgs ≠ []) (n : ℕ) (h : Cyc imgs j p d) :
    Reach imgs j p 1 (ticks n (trigger d)) := by
  rcases h.trigger with h1 | ⟨h1, h2⟩
  · exact reach_ticks hn n h1 1
  · rcases h2.ticks hn n with h3 | ⟨_, h3⟩
    · exact ⟨j, true, h3, le_rfl, by omega, by simp [h1]⟩
    · exact ⟨j + 1, false, h3, by omega, by omega, by simp [h1]⟩

/-- Number of trigger edges a call can cause. -/
def Op.edges : Op → ℕ
  | .fireTrigger | .extTrigger => 1
  | _ => 0

theorem Cyc.step {c : Ctl} {j : ℕ} {p : Bool} (h : Cyc imgs j p c.dev) (hn : imgs ≠ []) (fault : ℕ → Bool) (delay : ℕ → ℕ)
    (op : Op) (hop : op.Passive) : Reach imgs j p op.edges (step fault delay c op).1.dev := by
  have hg : ∀ body : Ctl × Except PyErr Unit, Reach imgs j p op.edges body.1.dev →
      Reach imgs j p op.edges (guarded c body).1.dev := by
    intro body hb
    unfold guarded
    split_ifs
    · exact hb
    · exact h.reach _
  cases op with
  | «initialize» => exact absurd hop (by simp [Op.Passive])
  | loadSingle img => exact absurd hop (by simp [Op.Passive])
  | loadMultiple imgs => exact absurd hop (by simp [Op.Passive])
  | close => exact h.reach _
  | fireTrigger =>
    refine hg _ ?_
    simp only [triggerCmds, sendAll, send, Op.edges]
    by_cases hf : fault c.log.length = true
    · simp only [hf, if_true, Bool.false_eq_true, if_false]
      exact reach_ticks hn _ h 1
    · simp only [Bool.not_eq_true] at hf
      simp only [hf, Bool.false_eq_true, if_false, if_true]
      by_cases hf2 : fault (c.log ++ [Cmd.softwareSync true]).length = true
      · simp only [hf2, if_true, Bool.false_eq_true, if_false, ticks_add]
        simp only [apply]
        split_ifs
        · exact reach_ticks hn _ h 1
        · exact reach_trigger hn _ (h.sync true)
      · simp only [Bool.not_eq_true] at hf2
        simp only [hf2, Bool.false_eq_true, if_false, if_true]
        have e : ∀ (a b : ℕ) (d : Dev), Lux.ticks b (apply (Lux.ticks a d) (.softwareSync false)) =
            { Lux.ticks (a + b) d with sync := false } := by
          intro a b d
          show Lux.ticks b { Lux.ticks a d with sync := false } = _
          rw [ticks_sync false b, ticks_add]
        rw [e]
        have h2 : Reach imgs j p 1 (Lux.ticks (delay c.log.length + delay (c.log ++ [Cmd.softwareSync true]).length)
            (apply c.dev (.softwareSync true))) := by
          simp only [apply]
          split_ifs
          · exact reach_ticks hn _ h 1
          · exact reach_trigger hn _ (h.sync true)
        obtain ⟨j', p', h3, h4⟩ := h2
        exact ⟨j', p', h3.sync false, h4⟩
  | queryNx => exact hg _ (h.reach _)
  | queryNy => exact hg _ (h.reach _)
  | numberImage => exact hg _ (h.reach _)
  | loadSequence => exact hg _ (h.reach _)
  | extTrigger => exact reach_trigger (d := c.dev) hn 0 h
  | idle n => exact reach_ticks hn n h _

theorem Waiting.cyc {m : ℕ} (h : Waiting imgs m d) (hm : m < imgs.length) : Cyc imgs m false d := by
  obtain ⟨h1, h2, h3, h4, h5, h6, h7⟩ := h.playing
  rw [h.pc] at h7
  have hi := h.inum
  refine ⟨h1, h2, h3, h4, h5, ?_, ?_⟩
  · rw [Nat.mod_eq_of_lt hm, ← hi]; exact h7.2.2
  · rw [h.pc, Nat.mod_eq_of_lt hm]
    exact ⟨rfl, hi, h7.2.1⟩

/-- Whatever the sequencer is doing, after four instructions it waits for a trigger. -/
theorem playing_waits (h : Playing imgs (fun _ => True) d) (hn : imgs ≠ []) {n : ℕ} (h4 : 4 ≤ n) :
    ∃ m, m < imgs.length ∧ Waiting imgs m (Lux.ticks n d) := by
  have hp := ticks_inv (P := Playing imgs (fun _ => True)) (fun d hd => hd.tick (fun _ _ => trivial) hn) 4 d h
  have hpc : (Lux.ticks 4 d).pc = .wait := by
    obtain ⟨he, hh, hg, hr, _, _, _⟩ := h
    rcases d with ⟨s, r, e, hd, pr, pc, i, m, sh, sy⟩
    simp only at he hh hg
    subst he hh hg
    cases pc with
    | next =>
      by_cases hl : i + 1 < r
      · simp [Lux.ticks, Lux.tick, hl]
      · simp [Lux.ticks, Lux.tick, hl]
    | _ => simp [Lux.ticks, Lux.tick]
  have hw : Waiting imgs (Lux.ticks 4 d).inum (Lux.ticks 4 d) := ⟨hp, hpc, rfl⟩
  refine ⟨_, ?_, waiting_more hw h4⟩
  have := hp.point
  rw [hpc] at this
  exact this.1

end Lux

end PySLM2.Controller
