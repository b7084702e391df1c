import Verif.Model.OpenLux
import Verif.Spec.Controller

/-!
# C190: threads that initialize and use a Luxbeam controller
-/

namespace PySLM2.Controller.OpenLux

open Lux

variable {dev : Dev} {progs : ℕ → List Op}

/-- What is claimed of an entry of the log, given the entries before it -/
def Legit (before : List Entry) : Entry → Prop
  | .called _ _ op _ _ => op.NeedsDevice → ∃ k m, Entry.ready k m ∈ before
  | .refused _ _ _ => ¬ ∃ k m, Entry.ready k m ∈ before
  | .ready k n => ∀ c ∈ initCmds, Entry.called k n .initialize c true ∈ before

/-- The same for all entries -/
def AllLegit (log : List Entry) : Prop := ∀ before e after, log = before ++ e :: after → Legit before e

theorem AllLegit.snoc {log : List Entry} {e : Entry} (h : AllLegit log) (he : Legit log e) : AllLegit (log ++ [e]) := by
  intro before e' after heq
  rcases List.eq_nil_or_concat after with rfl | ⟨l, b, rfl⟩
  · have := List.append_inj' heq rfl
    obtain ⟨rfl, h2⟩ := this
    cases h2
    exact he
  · rw [List.concat_eq_append, ← List.cons_append, ← List.append_assoc] at heq
    exact h before e' l (List.append_inj' heq rfl).1

/-- What holds of a thread at any time -/
def ThreadOk (initialized : Bool) (log : List Entry) (i : ℕ) (t : Thread) : Prop :=
  t.doing <:+ acts t.op ∧
  (t.op.NeedsDevice → t.doing = [] ∨ t.doing.head? = some .check ∨ initialized = true) ∧
  (t.op = .initialize → ∀ c ∈ initCmds, t.doing = [] ∨ Act.vendor c ∈ t.doing ∨ Entry.called i t.count .initialize c true ∈ log)

/-- The invariant -/
structure Inv (w : World) : Prop where
  flag : w.initialized = true ↔ ∃ k m, Entry.ready k m ∈ w.log
  legit : AllLegit w.log
  thread : ∀ i, ThreadOk w.initialized w.log i (w.threads i)

theorem ThreadOk.mono {ini ini' : Bool} {log : List Entry} {es : List Entry} {i : ℕ} {t : Thread} (h : ThreadOk ini log i t)
    (hi : ini = true → ini' = true) : ThreadOk ini' (log ++ es) i t := by
  refine ⟨h.1, fun hn => ?_, fun hn c hc => ?_⟩
  · rcases h.2.1 hn with h | h | h
    · exact .inl h
    · exact .inr (.inl h)
    · exact .inr (.inr (hi h))
  · rcases h.2.2 hn c hc with h | h | h
    · exact .inl h
    · exact .inr (.inl h)
    · exact .inr (.inr (List.mem_append_left _ h))

theorem threads_goOn {w : World} {i : ℕ} {as : List Act} {P : ℕ → Thread → Prop} (hi : P i { w.threads i with doing := as })
    (h : ∀ k, k ≠ i → P k (w.threads k)) (k : ℕ) : P k (w.goOn i as k) := by
  by_cases hk : k = i
  · subst hk; simpa [World.goOn] using hi
  · simpa [World.goOn, hk] using h k hk

theorem setFlag_suffix {op : Op} {as : List Act} (h : .setFlag :: as <:+ acts op) : op = .initialize ∧ as = [] := by
  have hm : Act.setFlag ∈ acts op := h.subset (List.mem_cons_self ..)
  cases op with
  | «initialize» =>
    refine ⟨rfl, ?_⟩
    simpa [acts, initCmds, List.suffix_cons_iff] using h
  | _ => simp [acts] at hm

theorem Inv.step {w : World} (h : Inv w) (e : Ev) : Inv (w.step e) := by
  cases e with
  | runs i =>
    simp only [World.step]
    have hi := h.thread i
    split
    · rename_i hd
      split
      · exact h
      · rename_i op rest ht
        refine ⟨h.flag, h.legit, fun k => ?_⟩
        by_cases hk : k = i
        · subst hk
          simp only [Function.update_self]
          refine ⟨List.suffix_rfl, fun hn => ?_, fun hn c hc => ?_⟩
          · simp only at hn ⊢
            cases op with
            | _ => first | (simp [acts]; done) | exact hn.elim
          · simp only at hn ⊢
            subst hn
            exact .inr (.inl (List.mem_append_left _ (List.mem_map_of_mem hc)))
        · simpa [hk] using h.thread k
    · rename_i as hd
      have hsuf : as <:+ acts (w.threads i).op := by
        have h' := hi.1
        rw [hd] at h'; exact (List.suffix_cons _ _).trans h'
      split
      · rename_i hini
        refine ⟨h.flag, h.legit, threads_goOn (P := fun k t => ThreadOk w.initialized w.log k t) ?_ fun k _ => h.thread k⟩
        refine ⟨hsuf, fun _ => .inr (.inr hini), fun hn c hc => ?_⟩
        rcases hi.2.2 hn c hc with h' | h' | h'
        · rw [hd] at h'; cases h'
        · rw [hd] at h'; exact .inr (.inl (by simpa using h'))
        · exact .inr (.inr h')
      · rename_i hini
        refine ⟨?_, h.legit.snoc ?_, threads_goOn (P := fun k t => ThreadOk w.initialized (w.log ++ _) k t) ?_ fun k _ => (h.thread k).mono id⟩
        · simpa using h.flag
        · intro hr; exact hini (h.flag.mpr hr)
        · exact ⟨List.nil_suffix, fun _ => .inl rfl, fun _ _ _ => .inl rfl⟩
    · rename_i c as hd
      refine ⟨?_, h.legit.snoc ?_, threads_goOn (P := fun k t => ThreadOk w.initialized (w.log ++ _) k t) ?_ fun k _ => (h.thread k).mono id⟩
      · simpa using h.flag
      · intro hn
        rcases hi.2.1 hn with h' | h' | h'
        · rw [hd] at h'; cases h'
        · rw [hd] at h'; cases h'
        · exact h.flag.mp h'
      · refine ⟨?_, fun hn => ?_, fun hn c' hc => ?_⟩
        · have h' := hi.1
          rw [hd] at h'; exact (List.suffix_cons _ _).trans h'
        · rcases hi.2.1 hn with h' | h' | h'
          · rw [hd] at h'; cases h'
          · rw [hd] at h'; cases h'
          · exact .inr (.inr h')
        · simp only at hn ⊢
          by_cases hcc : c' = c
          · subst hcc; rw [hn]; exact .inr (.inr (by simp))
          · rcases hi.2.2 hn c' hc with h' | h' | h'
            · rw [hd] at h'; cases h'
            · rw [hd] at h'
              refine .inr (.inl ?_)
              rcases List.mem_cons.mp h' with h'' | h''
              · cases h''; exact absurd rfl hcc
              · exact h''
            · exact .inr (.inr (List.mem_append_left _ h'))
    · rename_i as hd
      have hs : (w.threads i).op = .initialize ∧ as = [] := by
        have h' := hi.1
        rw [hd] at h'; exact setFlag_suffix h'
      refine ⟨?_, h.legit.snoc ?_, threads_goOn (P := fun k t => ThreadOk true (w.log ++ _) k t) ?_ fun k _ => (h.thread k).mono fun _ => rfl⟩
      · exact ⟨fun _ => ⟨i, _, List.mem_append_right _ (List.mem_singleton_self _)⟩, fun _ => rfl⟩
      · intro c hc
        rcases hi.2.2 hs.1 c hc with h' | h' | h'
        · rw [hd] at h'; cases h'
        · rw [hd, hs.2] at h'; simp at h'
        · exact h'
      · rw [hs.2]
        exact ⟨List.nil_suffix, fun _ => .inl rfl, fun _ _ _ => .inl rfl⟩
  | fails i =>
    simp only [World.step]
    have hi := h.thread i
    split
    · rename_i c as hd
      refine ⟨?_, h.legit.snoc ?_, threads_goOn (P := fun k t => ThreadOk w.initialized (w.log ++ _) k t) ?_ fun k _ => (h.thread k).mono id⟩
      · simpa using h.flag
      · intro hn
        rcases hi.2.1 hn with h' | h' | h'
        · rw [hd] at h'; cases h'
        · rw [hd] at h'; cases h'
        · exact h.flag.mp h'
      · exact ⟨List.nil_suffix, fun _ => .inl rfl, fun _ _ _ => .inl rfl⟩
    · exact h
  | external => exact ⟨h.flag, h.legit, h.thread⟩
  | tick => exact ⟨h.flag, h.legit, h.thread⟩

theorem inv_start : Inv (World.start dev progs) := by
  refine ⟨by simp [World.start], ?_, fun i => ⟨List.nil_suffix, fun _ => .inl rfl, fun _ _ _ => .inl rfl⟩⟩
  intro before e after h
  simp [World.start] at h

theorem inv_run {w : World} (h : Inv w) (evs : List Ev) : Inv (w.run evs) := by
  induction evs generalizing w with
  | nil => exact h
  | cons e evs ih => exact ih (h.step e)

/-- **C190 (guard)**: threads initialize and use one controller in any order, requests may raise, and external triggers arrive at any moment.  A request of a
load or a software trigger, of any thread, comes after an `initialize()` of some thread has returned, all of whose requests went through. -/
theorem C190_guard (dev : Dev) (progs : ℕ → List Op) (evs : List Ev) {before after : List Entry} {i n : ℕ} {op : Op} {c : Cmd} {ok : Bool}
    (h : ((World.start dev progs).run evs).log = before ++ .called i n op c ok :: after) (hop : op.NeedsDevice) :
    ∃ k m, Entry.ready k m ∈ before ∧ ∀ c' ∈ initCmds, Entry.called k m .initialize c' true ∈ before := by
  have hl := (inv_run (inv_start (dev := dev) (progs := progs)) evs).legit
  obtain ⟨k, m, hr⟩ := hl _ _ _ h hop
  refine ⟨k, m, hr, fun c' hc => ?_⟩
  obtain ⟨b1, b2, rfl⟩ := List.append_of_mem hr
  rw [List.append_assoc, List.cons_append] at h
  exact List.mem_append_left _ (hl _ _ _ h c' hc)

/-- **C190 (open)**: when a call is refused because the controller is not initialized, no `initialize()` of any thread has returned yet. -/
theorem C190_open (dev : Dev) (progs : ℕ → List Op) (evs : List Ev) {before after : List Entry} {i n : ℕ} {op : Op}
    (h : ((World.start dev progs).run evs).log = before ++ .refused i n op :: after) : ¬ ∃ k m, Entry.ready k m ∈ before :=
  (inv_run (inv_start (dev := dev) (progs := progs)) evs).legit _ _ _ h

/-- Nothing is shown while the sequencer is not enabled. -/
theorem tick_disabled {d : Dev} (h : d.enabled = false) : tick d = d := by simp [tick, h]

theorem trigger_shown (d : Dev) : (trigger d).shown = d.shown ∧ (trigger d).enabled = d.enabled ∧ (trigger d).programmed = d.programmed := by
  unfold trigger; split <;> exact ⟨rfl, rfl, rfl⟩

theorem apply_shown (d : Dev) (c : Cmd) : (apply d c).shown = d.shown ∧ (c ≠ .seqRun true → d.enabled = false → (apply d c).enabled = false) ∧
    (d.programmed = true ∨ c = .loadSequence → (apply d c).programmed = true) := by
  cases c with
  | seqRun on => cases on <;> simp [apply]
  | seqReset on => cases on <;> simp [apply]
  | softwareSync on =>
    cases on
    · simp [apply]
    · simp only [apply]
      split
      · simp
      · have := trigger_shown { d with sync := true }
        simp [this]
  | _ => simp [apply]

/-- Only loads start the sequencer. -/
theorem seqRun_mem {op : Op} (h : Act.vendor (.seqRun true) ∈ acts op) : (∃ img, op = .loadSingle img) ∨ ∃ imgs, op = .loadMultiple imgs := by
  cases op with
  | loadSingle img => exact .inl ⟨img, rfl⟩
  | loadMultiple imgs => exact .inr ⟨imgs, rfl⟩
  | _ => simp [acts, initCmds, triggerCmds] at h

/-- **C190 (dark)**: as long as no thread has made the last request of a `load_single` or `load_multiple`, the display of a device whose
sequencer is not running does not change, whatever triggers arrive and whichever threads initialize. -/
theorem C190_dark (dev : Dev) (hdev : dev.enabled = false) (progs : ℕ → List Op) (evs : List Ev)
    (hno : ∀ i n op, ((∃ img, op = .loadSingle img) ∨ ∃ imgs, op = .loadMultiple imgs) →
      Entry.called i n op (.seqRun true) true ∉ ((World.start dev progs).run evs).log) :
    ((World.start dev progs).run evs).dev.shown = dev.shown := by
  have key : ∀ (evs : List Ev), (∀ i n op, ((∃ img, op = .loadSingle img) ∨ ∃ imgs, op = .loadMultiple imgs) →
      Entry.called i n op (.seqRun true) true ∉ ((World.start dev progs).run evs).log) →
      ((World.start dev progs).run evs).dev.shown = dev.shown ∧ ((World.start dev progs).run evs).dev.enabled = false := by
    intro evs
    induction evs using List.reverseRecOn with
    | nil => exact fun _ => ⟨rfl, hdev⟩
    | append_singleton evs e ih =>
      have hr : (World.start dev progs).run (evs ++ [e]) = ((World.start dev progs).run evs).step e := by simp [World.run]
      rw [hr]
      have hI := inv_run (inv_start (dev := dev) (progs := progs)) evs
      generalize (World.start dev progs).run evs = w at ih hI
      intro hno
      cases e with
      | runs i =>
        simp only [World.step] at hno ⊢
        split at hno <;> (try split at hno)
        · exact ih hno
        · exact ih hno
        · rename_i hini
          rw [if_pos hini]
          exact ih hno
        · rename_i hini
          rw [if_neg hini]
          exact ih fun i n op ho hm => hno i n op ho (List.mem_append_left _ hm)
        · rename_i c as hd
          have h := ih fun i n op ho hm => hno i n op ho (List.mem_append_left _ hm)
          have hc : c ≠ .seqRun true := by
            rintro rfl
            have hs := (hI.thread i).1
            rw [hd] at hs
            exact hno _ _ _ (seqRun_mem (hs.subset (List.mem_cons_self ..))) (List.mem_append_right _ (List.mem_singleton_self _))
          have ha := apply_shown w.dev c
          exact ⟨ha.1.trans h.1, ha.2.1 hc h.2⟩
        · exact ih fun i n op ho hm => hno i n op ho (List.mem_append_left _ hm)
      | fails i =>
        simp only [World.step] at hno ⊢
        split at hno
        · exact ih fun i n op ho hm => hno i n op ho (List.mem_append_left _ hm)
        · exact ih hno
      | external =>
        have h := ih hno
        have ht := trigger_shown w.dev
        exact ⟨ht.1.trans h.1, ht.2.1.trans h.2⟩
      | tick =>
        have h := ih hno
        simp only [World.step, tick_disabled h.2]
        exact h
  exact (key evs hno).1

/-- **C190 (programmed)**: once an `initialize()` of some thread has returned, the sequencer holds the program of the controller, whatever the other threads do
and whichever requests raise. -/
theorem C190_programmed (dev : Dev) (progs : ℕ → List Op) (evs : List Ev)
    (hready : ∃ k m, Entry.ready k m ∈ ((World.start dev progs).run evs).log) : ((World.start dev progs).run evs).dev.programmed = true := by
  have key : ∀ (evs : List Ev), (∃ i n op, Entry.called i n op .loadSequence true ∈ ((World.start dev progs).run evs).log) →
      ((World.start dev progs).run evs).dev.programmed = true := by
    intro evs
    induction evs using List.reverseRecOn with
    | nil => rintro ⟨i, n, op, h⟩; simp [World.run, World.start] at h
    | append_singleton evs e ih =>
      have hr : (World.start dev progs).run (evs ++ [e]) = ((World.start dev progs).run evs).step e := by simp [World.run]
      rw [hr]
      generalize (World.start dev progs).run evs = w at ih
      rintro ⟨i, n, op, hm⟩
      cases e with
      | runs k =>
        simp only [World.step] at hm ⊢
        split at hm <;> (try split at hm)
        · exact ih ⟨i, n, op, hm⟩
        · exact ih ⟨i, n, op, hm⟩
        · rename_i hini
          rw [if_pos hini]
          exact ih ⟨i, n, op, hm⟩
        · rename_i hini
          rw [if_neg hini]
          exact ih ⟨i, n, op, by simpa using hm⟩
        · rename_i c as hd
          refine (apply_shown w.dev c).2.2 ?_
          rcases List.mem_append.mp hm with hm | hm
          · exact .inl (ih ⟨i, n, op, hm⟩)
          · simp only [List.mem_singleton, Entry.called.injEq] at hm
            exact .inr hm.2.2.2.1.symm
        · exact ih ⟨i, n, op, by simpa using hm⟩
      | fails k =>
        simp only [World.step] at hm ⊢
        split at hm
        · exact ih ⟨i, n, op, by simpa using hm⟩
        · exact ih ⟨i, n, op, hm⟩
      | external => exact (trigger_shown w.dev).2.2.trans (ih ⟨i, n, op, hm⟩)
      | tick =>
        have h := ih ⟨i, n, op, hm⟩
        simp only [World.step, Lux.tick]
        split
        · split <;> (try split) <;> exact h
        · exact h
  obtain ⟨k, m, hr⟩ := hready
  obtain ⟨b1, b2, he⟩ := List.append_of_mem hr
  have hl := (inv_run (inv_start (dev := dev) (progs := progs)) evs).legit _ _ _ he .loadSequence (by simp [initCmds])
  exact key evs ⟨k, m, .initialize, by rw [he]; exact List.mem_append_left _ hl⟩

/-- A device that goes through one image only -/
structure Stuck (x : Option Image) (a : Image) (d : Dev) : Prop where
  reg : d.reg0 = 1
  slot : d.slots 0 = some a
  inum : d.inum = 0
  memory : d.pc = .show → d.memory = some a
  shown : d.shown = x ∨ d.shown = some a

theorem Stuck.tick {x : Option Image} {a : Image} {d : Dev} (h : Stuck x a d) : Stuck x a (Lux.tick d) := by
  unfold Lux.tick
  split
  · split
    · exact ⟨h.reg, h.slot, rfl, fun _ => h.slot, h.shown⟩
    · rename_i hpc; exact ⟨h.reg, h.slot, h.inum, fun he => (by cases he), .inr (h.memory hpc)⟩
    · exact ⟨h.reg, h.slot, h.inum, fun he => (by cases he), h.shown⟩
    · exact h
    · split
      · rename_i hlt; rw [h.reg, h.inum] at hlt; simp at hlt
      · exact ⟨h.reg, h.slot, h.inum, fun he => (by cases he), h.shown⟩
  · exact h

theorem Stuck.trigger {x : Option Image} {a : Image} {d : Dev} (h : Stuck x a d) : Stuck x a (Lux.trigger d) := by
  unfold Lux.trigger
  split
  · exact ⟨h.reg, h.slot, h.inum, fun he => (by cases he), h.shown⟩
  · exact h

/-- **C190 (load) is false**: two threads initialize the controller; when one of them is done it loads two images.  No request raises, both calls of
`initialize()` began before the load did, and all calls return.  But from then on, however many triggers arrive, the second image is never shown: the display
shows what it showed, or the first image. -/
theorem C190_refuted (dev : Dev) (a b : Image) : ∃ (progs : ℕ → List Op) (evs : List Ev), (∀ i, Ev.fails i ∉ evs) ∧
    progs 0 = [.initialize, .loadMultiple [a, b]] ∧ progs 1 = [.initialize] ∧
    (∀ i, (((World.start dev progs).run evs).threads i).todo = [] ∧ (((World.start dev progs).run evs).threads i).doing = []) ∧
    ∀ later : List Ev, (((World.start dev progs).run evs).run later).dev.shown = dev.shown ∨
      (((World.start dev progs).run evs).run later).dev.shown = some a := by
  have key : ∀ (later : List Ev) (w : World), (∀ i, (w.threads i).todo = [] ∧ (w.threads i).doing = []) → Stuck dev.shown a w.dev →
      (w.run later).dev.shown = dev.shown ∨ (w.run later).dev.shown = some a := by
    intro later
    induction later with
    | nil => exact fun w _ h => h.shown
    | cons e later ih =>
      intro w hw h
      cases e with
      | runs i =>
        have : w.step (.runs i) = w := by simp [World.step, hw i]
        show ((w.step (.runs i)).run later).dev.shown = _ ∨ ((w.step (.runs i)).run later).dev.shown = _
        rw [this]
        exact ih w hw h
      | fails i =>
        have : w.step (.fails i) = w := by simp [World.step, hw i]
        show ((w.step (.fails i)).run later).dev.shown = _ ∨ ((w.step (.fails i)).run later).dev.shown = _
        rw [this]
        exact ih w hw h
      | external => exact ih _ hw h.trigger
      | tick => exact ih _ hw h.tick
  let progs : ℕ → List Op := fun i => if i = 0 then [.initialize, .loadMultiple [a, b]] else if i = 1 then [.initialize] else []
  let evs : List Ev := [.runs 1, .runs 1, .runs 0, .runs 0, .runs 0, .runs 0, .runs 0, .runs 0, .runs 0,
    .runs 0, .runs 0, .runs 0, .runs 0, .runs 0, .runs 0, .runs 0, .runs 0, .runs 0, .runs 1, .runs 1, .runs 1, .runs 1, .runs 1]
  have hfin : ∀ i, (((World.start dev progs).run evs).threads i).todo = [] ∧ (((World.start dev progs).run evs).threads i).doing = [] := by
    intro i
    by_cases h1 : i = 1
    · subst h1
      simp [World.run, World.step, World.start, World.goOn, acts, initCmds, loadMultipleCmds, loadImages, progs, evs]
    · by_cases h0 : i = 0
      · subst h0
        simp [World.run, World.step, World.start, World.goOn, acts, initCmds, loadMultipleCmds, loadImages, progs, evs]
      · simp [World.run, World.step, World.start, World.goOn, acts, initCmds, loadMultipleCmds, loadImages, progs, evs, h0, h1]
  refine ⟨progs, evs, by simp [evs], rfl, rfl, hfin, fun later => key later _ hfin ?_⟩
  constructor <;>
    simp [World.run, World.step, World.start, World.goOn, acts, initCmds, loadMultipleCmds, loadImages, progs, evs, Lux.apply]

/-- Two threads initialize the controller of a new device, triggers arrive: the hypotheses of `C190_dark` and `C190_programmed` are met. -/
example : ∃ (progs : ℕ → List Op) (evs : List Ev), (∃ k m, Entry.ready k m ∈ ((World.start Dev.init progs).run evs).log) ∧
    ∀ i n op, ((∃ img, op = .loadSingle img) ∨ ∃ imgs, op = .loadMultiple imgs) →
      Entry.called i n op (.seqRun true) true ∉ ((World.start Dev.init progs).run evs).log := by
  refine ⟨fun i => if i = 0 ∨ i = 1 then [.initialize] else [], [.runs 0, .runs 1, .runs 0, .runs 0, .runs 1, .external, .tick, .runs 0, .runs 0, .runs 0, .runs 0],
    ⟨0, 1, ?_⟩, ?_⟩ <;>
  simp [World.run, World.step, World.start, World.goOn, acts, initCmds, Lux.apply, Dev.init]

/-- A trigger is refused before `initialize()`; after it, a load is served, and the image is shown. -/
example (img : Image) : ((World.start Dev.init fun i => if i = 0 then [.fireTrigger, .initialize, .loadSingle img] else []).run
    [.runs 0, .runs 0, .runs 0, .runs 0, .runs 0, .runs 0, .runs 0, .runs 0, .runs 0, .runs 0, .runs 0, .runs 0, .runs 0, .runs 0, .runs 0, .runs 0, .runs 0,
      .tick, .tick]).dev.shown = some img ∧
    ((World.start Dev.init fun i => if i = 0 then [.fireTrigger, .initialize, .loadSingle img] else []).run
    [.runs 0, .runs 0, .runs 0, .runs 0, .runs 0, .runs 0, .runs 0, .runs 0, .runs 0, .runs 0, .runs 0, .runs 0]).log =
    [.refused 0 1 .fireTrigger, .called 0 2 .initialize (.seqRun false) true, .called 0 2 .initialize (.seqReset true) true,
      .called 0 2 .initialize .loadSequence true, .called 0 2 .initialize (.setReg 1) true, .called 0 2 .initialize (.seqReset false) true, .ready 0 2,
      .called 0 3 (.loadSingle img) (.seqRun false) true] := by
  constructor <;>
    simp [World.run, World.step, World.start, World.goOn, acts, initCmds, loadSingleCmds, Lux.apply, Lux.tick, Dev.init, triggerCmds]

end PySLM2.Controller.OpenLux
