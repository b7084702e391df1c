import Verif.Model.OpenAlp
import Verif.Spec.Controller

/-!
# C189: threads that open, use and close an ALP controller
-/

namespace PySLM2.Controller.OpenAlp

open Alp

variable {invert : Bool} {dev : Dev} {progs : ℕ → List Op}

/-- What is claimed of an entry of the log, given the entries before it -/
def Legit (invert : Bool) (before : List Entry) : Entry → Prop
  | .called _ _ op _ _ => op.NeedsDevice → ∃ k m, Entry.ready k m ∈ before
  | .refused _ _ _ => ¬ ∃ k m, Entry.ready k m ∈ before
  | .ready k n => ∀ c ∈ initCmds invert, Entry.called k n .initialize c true ∈ before

/-- The same for all entries -/
def AllLegit (invert : Bool) (log : List Entry) : Prop := ∀ before e after, log = before ++ e :: after → Legit invert before e

theorem AllLegit.snoc {log : List Entry} {e : Entry} (h : AllLegit invert log) (he : Legit invert log e) : AllLegit invert (log ++ [e]) := by
  intro before e' after heq
  rcases List.eq_nil_or_concat after with rfl | ⟨l, b, rfl⟩
  · have := List.append_inj' heq rfl
    obtain ⟨rfl, h2⟩ := this
    cases h2
    exact he
  · rw [List.concat_eq_append, ← List.cons_append, ← List.append_assoc] at heq
    exact h before e' l (List.append_inj' heq rfl).1

/-- What holds of a thread at any time -/
def ThreadOk (invert initialized : Bool) (log : List Entry) (i : ℕ) (t : Thread) : Prop :=
  (t.doing <:+ acts invert t.op ∨ t.op = .close ∧ t.doing = [.vendor .freeSeq, .vendor .free]) ∧
  (t.op.NeedsDevice → t.doing = [] ∨ t.doing.head? = some .check ∨ initialized = true) ∧
  (t.op = .initialize → ∀ c ∈ initCmds invert, t.doing = [] ∨ Act.vendor c ∈ t.doing ∨ Entry.called i t.count .initialize c true ∈ log)

/-- The invariant -/
structure Inv (w : World) : Prop where
  flag : w.initialized = true ↔ ∃ k m, Entry.ready k m ∈ w.log
  legit : AllLegit w.invert w.log
  thread : ∀ i, ThreadOk w.invert w.initialized w.log i (w.threads i)

theorem ThreadOk.mono {ini ini' : Bool} {log : List Entry} {es : List Entry} {i : ℕ} {t : Thread} (h : ThreadOk invert ini log i t)
    (hi : ini = true → ini' = true) : ThreadOk invert ini' (log ++ es) i t := by
  refine ⟨h.1, fun hn => ?_, fun hn c hc => ?_⟩
  · rcases h.2.1 hn with h | h | h
    · exact .inl h
    · exact .inr (.inl h)
    · exact .inr (.inr (hi h))
  · rcases h.2.2 hn c hc with h | h | h
    · exact .inl h
    · exact .inr (.inl h)
    · exact .inr (.inr (List.mem_append_left _ h))

theorem threads_goOn {w : World} {i : ℕ} {as : List Act} {P : ℕ → Thread → Prop} (hi : P i { w.threads i with doing := as })
    (h : ∀ k, k ≠ i → P k (w.threads k)) (k : ℕ) : P k (w.goOn i as k) := by
  by_cases hk : k = i
  · subst hk; simpa [World.goOn] using hi
  · simpa [World.goOn, hk] using h k hk

/-- Vendor calls of `close` and `initialize` only come from `close` and `initialize`; the assignment of the flag is the last step of `initialize`. -/
theorem setFlag_suffix {op : Op} {as : List Act} (h : .setFlag :: as <:+ acts invert op) : op = .initialize ∧ as = [] := by
  have hm : Act.setFlag ∈ acts invert op := h.subset (List.mem_cons_self ..)
  cases op with
  | «initialize» =>
    refine ⟨rfl, ?_⟩
    cases invert <;> simp [acts, initCmds, List.suffix_cons_iff] at h <;> exact h
  | loadMultiple imgs => cases imgs <;> simp [acts, loadMultipleCmds] at hm
  | _ => simp [acts, loadSingleCmds] at hm

theorem testLast_suffix {op : Op} {as : List Act} (h : .testLast :: as <:+ acts invert op) : op = .close ∧ as = [.vendor .free] := by
  have hm : Act.testLast ∈ acts invert op := h.subset (List.mem_cons_self ..)
  cases op with
  | close => refine ⟨rfl, ?_⟩; simpa [acts, List.suffix_cons_iff] using h
  | loadMultiple imgs => cases imgs <;> simp [acts, loadMultipleCmds] at hm
  | «initialize» => cases invert <;> simp [acts, initCmds] at hm
  | _ => simp [acts, loadSingleCmds] at hm

theorem step_invert (w : World) (e : Ev) : (w.step e).invert = w.invert := by
  cases e with
  | runs i => simp only [World.step]; split <;> (try split) <;> rfl
  | fails i => simp only [World.step]; split <;> rfl

theorem Inv.step {w : World} (h : Inv w) (e : Ev) : Inv (w.step e) := by
  cases e with
  | runs i =>
    simp only [World.step]
    have hi := h.thread i
    split
    · rename_i hd
      split
      · exact h
      · rename_i op rest ht
        refine ⟨h.flag, h.legit, fun k => ?_⟩
        by_cases hk : k = i
        · subst hk
          simp only [Function.update_self]
          refine ⟨.inl List.suffix_rfl, fun hn => ?_, fun hn c hc => ?_⟩
          · simp only at hn ⊢
            cases op with
            | loadMultiple imgs => cases imgs <;> simp [acts]
            | _ => first | (simp [acts]; done) | exact hn.elim
          · simp only at hn ⊢
            subst hn
            exact .inr (.inl (List.mem_append_left _ (List.mem_map_of_mem hc)))
        · simpa [hk] using h.thread k
    · rename_i as hd
      have hsuf : as <:+ acts w.invert (w.threads i).op := by
        rcases hi.1 with h' | h'
        · rw [hd] at h'; exact (List.suffix_cons _ _).trans h'
        · rw [hd] at h'; simp at h'
      split
      · rename_i hini
        refine ⟨h.flag, h.legit, threads_goOn (P := fun k t => ThreadOk w.invert w.initialized w.log k t) ?_ fun k _ => h.thread k⟩
        refine ⟨.inl hsuf, fun _ => .inr (.inr hini), fun hn c hc => ?_⟩
        rcases hi.2.2 hn c hc with h' | h' | h'
        · rw [hd] at h'; cases h'
        · rw [hd] at h'; exact .inr (.inl (by simpa using h'))
        · exact .inr (.inr h')
      · rename_i hini
        refine ⟨?_, h.legit.snoc ?_, threads_goOn (P := fun k t => ThreadOk w.invert w.initialized (w.log ++ _) k t) ?_ fun k _ => (h.thread k).mono id⟩
        · simpa using h.flag
        · intro hr; exact hini (h.flag.mpr hr)
        · exact ⟨.inl (List.nil_suffix), fun _ => .inl rfl, fun _ _ _ => .inl rfl⟩
    · rename_i c as hd
      refine ⟨?_, h.legit.snoc ?_, threads_goOn (P := fun k t => ThreadOk w.invert w.initialized (w.log ++ _) k t) ?_ fun k _ => (h.thread k).mono id⟩
      · simpa using h.flag
      · intro hn
        rcases hi.2.1 hn with h' | h' | h'
        · rw [hd] at h'; cases h'
        · rw [hd] at h'; cases h'
        · exact h.flag.mp h'
      · refine ⟨?_, fun hn => ?_, fun hn c' hc => ?_⟩
        · rcases hi.1 with h' | ⟨h1, h2⟩
          · rw [hd] at h'; exact .inl ((List.suffix_cons _ _).trans h')
          · rw [hd] at h2
            cases h2
            simp only at h1 ⊢
            rw [h1]
            exact .inl ⟨[.vendor .halt, .testLast], rfl⟩
        · rcases hi.2.1 hn with h' | h' | h'
          · rw [hd] at h'; cases h'
          · rw [hd] at h'; cases h'
          · exact .inr (.inr h')
        · simp only at hn ⊢
          by_cases hcc : c' = c
          · subst hcc; rw [hn]; exact .inr (.inr (by simp))
          · rcases hi.2.2 hn c' hc with h' | h' | h'
            · rw [hd] at h'; cases h'
            · rw [hd] at h'
              refine .inr (.inl ?_)
              rcases List.mem_cons.mp h' with h'' | h''
              · cases h''; exact absurd rfl hcc
              · exact h''
            · exact .inr (.inr (List.mem_append_left _ h'))
    · rename_i as hd
      have hs : (w.threads i).op = .close ∧ as = [.vendor .free] := by
        rcases hi.1 with h' | h'
        · rw [hd] at h'; exact testLast_suffix h'
        · rw [hd] at h'; simp at h'
      refine ⟨h.flag, h.legit, threads_goOn (P := fun k t => ThreadOk w.invert w.initialized w.log k t) ?_ fun k _ => h.thread k⟩
      refine ⟨?_, fun hn => ?_, fun hn => ?_⟩
      · simp only
        rw [hs.1, hs.2]
        split
        · exact .inr ⟨rfl, rfl⟩
        · exact .inl ⟨[.vendor .halt, .testLast], rfl⟩
      · simp only at hn; rw [hs.1] at hn; exact hn.elim
      · simp only at hn; rw [hs.1] at hn; cases hn
    · rename_i as hd
      have hs : (w.threads i).op = .initialize ∧ as = [] := by
        rcases hi.1 with h' | h'
        · rw [hd] at h'; exact setFlag_suffix h'
        · rw [hd] at h'; simp at h'
      refine ⟨?_, h.legit.snoc ?_, threads_goOn (P := fun k t => ThreadOk w.invert true (w.log ++ _) k t) ?_ fun k _ => (h.thread k).mono fun _ => rfl⟩
      · exact ⟨fun _ => ⟨i, _, List.mem_append_right _ (List.mem_singleton_self _)⟩, fun _ => rfl⟩
      · intro c hc
        rcases hi.2.2 hs.1 c hc with h' | h' | h'
        · rw [hd] at h'; cases h'
        · rw [hd, hs.2] at h'; simp at h'
        · exact h'
      · rw [hs.2]
        exact ⟨.inl (List.nil_suffix), fun _ => .inl rfl, fun _ _ _ => .inl rfl⟩
  | fails i =>
    simp only [World.step]
    have hi := h.thread i
    split
    · rename_i c as hd
      refine ⟨?_, h.legit.snoc ?_, threads_goOn (P := fun k t => ThreadOk w.invert w.initialized (w.log ++ _) k t) ?_ fun k _ => (h.thread k).mono id⟩
      · simpa using h.flag
      · intro hn
        rcases hi.2.1 hn with h' | h' | h'
        · rw [hd] at h'; cases h'
        · rw [hd] at h'; cases h'
        · exact h.flag.mp h'
      · exact ⟨.inl (List.nil_suffix), fun _ => .inl rfl, fun _ _ _ => .inl rfl⟩
    · exact h

theorem inv_start : Inv (World.start invert dev progs) := by
  refine ⟨by simp [World.start], ?_, fun i => ⟨.inl List.nil_suffix, fun _ => .inl rfl, fun _ _ _ => .inl rfl⟩⟩
  intro before e after h
  simp [World.start] at h

theorem inv_run {w : World} (h : Inv w) (evs : List Ev) : Inv (w.run evs) := by
  induction evs generalizing w with
  | nil => exact h
  | cons e evs ih => exact ih (h.step e)

theorem run_invert (w : World) (evs : List Ev) : (w.run evs).invert = w.invert := by
  induction evs generalizing w with
  | nil => rfl
  | cons e evs ih => exact (ih (w.step e)).trans (step_invert w e)

/-- **C189 (guard)**: threads initialize, use and close one controller in any order, and vendor calls may raise.  A vendor call of a load, a query or
`number_image`, of any thread, comes after an `initialize()` of some thread has returned, all of whose vendor calls went through. -/
theorem C189_guard (invert : Bool) (dev : Dev) (progs : ℕ → List Op) (evs : List Ev) {before after : List Entry} {i n : ℕ} {op : Op} {c : Cmd} {ok : Bool}
    (h : ((World.start invert dev progs).run evs).log = before ++ .called i n op c ok :: after) (hop : op.NeedsDevice) :
    ∃ k m, Entry.ready k m ∈ before ∧ ∀ c' ∈ initCmds invert, Entry.called k m .initialize c' true ∈ before := by
  have hl := (inv_run (inv_start (invert := invert) (dev := dev) (progs := progs)) evs).legit
  rw [run_invert] at hl
  obtain ⟨k, m, hr⟩ := hl _ _ _ h hop
  refine ⟨k, m, hr, fun c' hc => ?_⟩
  obtain ⟨b1, b2, rfl⟩ := List.append_of_mem hr
  rw [List.append_assoc, List.cons_append] at h
  exact List.mem_append_left _ (hl _ _ _ h c' hc)

/-- **C189 (open)**: when a call is refused because the controller is not initialized, no `initialize()` of any thread has returned yet. -/
theorem C189_open (invert : Bool) (dev : Dev) (progs : ℕ → List Op) (evs : List Ev) {before after : List Entry} {i n : ℕ} {op : Op}
    (h : ((World.start invert dev progs).run evs).log = before ++ .refused i n op :: after) : ¬ ∃ k m, Entry.ready k m ∈ before := by
  have hl := (inv_run (inv_start (invert := invert) (dev := dev) (progs := progs)) evs).legit
  exact hl _ _ _ h

/-! ## Inversion -/

/-- The inversion has been switched on, or a thread is about to do it. -/
def Turned (w : World) : Prop := w.dev.inverted = true ∨ ∃ i, Act.vendor .projInversion ∈ (w.threads i).doing

theorem initialize_suffix {op : Op} {as : List Act} (h : .vendor .initialize :: as <:+ acts true op) : Act.vendor .projInversion ∈ as := by
  have hm : Act.vendor .initialize ∈ acts true op := h.subset (List.mem_cons_self ..)
  cases op with
  | loadMultiple imgs => cases imgs <;> simp [acts, loadMultipleCmds] at hm
  | «initialize» =>
    simp [acts, initCmds, List.suffix_cons_iff] at h
    simp [h]
  | _ => simp [acts, loadSingleCmds] at hm

theorem apply_inverted {d : Dev} {c : Cmd} (hc : c ≠ .initialize) (h : d.inverted = true) : (apply d c).inverted = true := by
  cases c <;> first | exact absurd rfl hc | exact h | rfl

/-- Once it has been switched on, or is about to be, this remains so while no vendor call raises; and no `initialize()` returns before. -/
theorem turned_step {w : World} (hw : Inv w) (hinv : w.invert = true) (h : Turned w ∨ w.initialized = false ∧ ∀ i, Act.setFlag ∉ (w.threads i).doing) (i : ℕ) :
    Turned (w.step (.runs i)) ∨ (w.step (.runs i)).initialized = false ∧ ∀ k, Act.setFlag ∉ ((w.step (.runs i)).threads k).doing := by
  have hs := hw.thread i
  have keep : ∀ {as : List Act} {d : Dev} {w' : World}, w'.dev = d → w'.threads = w.goOn i as → (w.dev.inverted = true → d.inverted = true) →
      (Act.vendor .projInversion ∈ (w.threads i).doing → Act.vendor .projInversion ∈ as ∨ d.inverted = true) → Turned w → Turned w' := by
    intro as d w' hd ht h1 h2 h3
    rcases h3 with h3 | ⟨k, hk⟩
    · exact .inl (hd ▸ h1 h3)
    · by_cases hki : k = i
      · subst hki
        rcases h2 hk with h4 | h4
        · exact .inr ⟨k, by rw [ht]; simpa [World.goOn] using h4⟩
        · exact .inl (hd ▸ h4)
      · exact .inr ⟨k, by rw [ht]; simpa [World.goOn, hki] using hk⟩
  have keep' : ∀ {as : List Act} {w' : World}, w'.threads = w.goOn i as → (∀ a ∈ as, a ∈ (w.threads i).doing ∨ a ≠ .setFlag) →
      (∀ k, Act.setFlag ∉ (w.threads k).doing) → ∀ k, Act.setFlag ∉ (w'.threads k).doing := by
    intro as w' ht ha h1 k hk
    rw [ht] at hk
    by_cases hki : k = i
    · subst hki
      simp only [World.goOn, Function.update_self] at hk
      rcases ha _ hk with h2 | h2
      · exact h1 _ h2
      · exact h2 rfl
    · simp only [World.goOn, Function.update_of_ne hki] at hk
      exact h1 k hk
  simp only [World.step]
  split
  · rename_i hd
    split
    · exact h
    · rename_i op rest ht
      by_cases hop : op = .initialize
      · subst hop
        exact .inl (.inr ⟨i, by simp [acts, initCmds, hinv]⟩)
      · rcases h with (h | ⟨k, hk⟩) | ⟨h1, h2⟩
        · exact .inl (.inl h)
        · have hki : k ≠ i := by rintro rfl; rw [hd] at hk; cases hk
          exact .inl (.inr ⟨k, by simpa [hki] using hk⟩)
        · refine .inr ⟨h1, fun k => ?_⟩
          by_cases hki : k = i
          · subst hki
            simp only [Function.update_self]
            intro hm
            cases op with
            | loadMultiple imgs => cases imgs <;> simp [acts, loadMultipleCmds] at hm
            | «initialize» => exact hop rfl
            | _ => simp [acts, loadSingleCmds] at hm
          · simpa [hki] using h2 k
  · rename_i as hd
    split
    · rename_i hini
      rcases h with h | ⟨h1, h2⟩
      · refine .inl (keep rfl rfl id (fun hm => ?_) h)
        rw [hd] at hm
        exact .inl (by simpa using hm)
      · rw [hini] at h1; cases h1
    · rename_i hini
      rcases h with h | ⟨h1, h2⟩
      · by_cases hp : Act.vendor .projInversion ∈ as
        · exfalso
          rcases hs.1 with h' | h'
          · rw [hd] at h'
            have hc : Act.check ∈ acts w.invert (w.threads i).op := h'.subset (List.mem_cons_self ..)
            have hq : Act.vendor .projInversion ∈ acts w.invert (w.threads i).op := h'.subset (List.mem_cons_of_mem _ hp)
            generalize (w.threads i).op = op at hc hq
            cases op with
            | loadMultiple imgs => cases imgs <;> simp [acts, loadMultipleCmds] at hq
            | «initialize» => simp [acts] at hc
            | _ => simp [acts, loadSingleCmds] at hq
          · rw [hd] at h'; simp at h'
        · refine .inl (keep rfl rfl id (fun hm => ?_) h)
          rw [hd] at hm
          exact absurd (by simpa using hm) hp
      · exact .inr ⟨h1, keep' rfl (by simp) h2⟩
  · rename_i c as hd
    by_cases hc : c = .initialize
    · subst hc
      refine .inl (.inr ⟨i, ?_⟩)
      simp only [World.goOn, Function.update_self]
      rcases hs.1 with h' | h'
      · rw [hd, hinv] at h'; exact initialize_suffix h'
      · rw [hd] at h'; simp at h'
    · rcases h with h | ⟨h1, h2⟩
      · refine .inl (keep rfl rfl (apply_inverted hc) (fun hm => ?_) h)
        rw [hd] at hm
        rcases List.mem_cons.mp hm with h' | h'
        · cases h'; exact .inr rfl
        · exact .inl h'
      · exact .inr ⟨h1, keep' rfl (fun a ha => .inl (by rw [hd]; exact List.mem_cons_of_mem _ ha)) h2⟩
  · rename_i as hd
    have hsub : ∀ a ∈ (if w.dev.last.isSome then .vendor .freeSeq :: as else as), a ∈ (w.threads i).doing ∨ a ≠ .setFlag := by
      intro a ha
      split at ha
      · rcases List.mem_cons.mp ha with rfl | ha
        · exact .inr (by simp)
        · exact .inl (by rw [hd]; exact List.mem_cons_of_mem _ ha)
      · exact .inl (by rw [hd]; exact List.mem_cons_of_mem _ ha)
    rcases h with h | ⟨h1, h2⟩
    · refine .inl (keep rfl rfl id (fun hm => ?_) h)
      rw [hd] at hm
      have : Act.vendor .projInversion ∈ as := by simpa using hm
      refine .inl ?_
      split
      · exact List.mem_cons_of_mem _ this
      · exact this
    · exact .inr ⟨h1, keep' rfl hsub h2⟩
  · rename_i as hd
    rcases h with h | ⟨h1, h2⟩
    · refine .inl (keep rfl rfl id (fun hm => ?_) h)
      rw [hd] at hm
      exact .inl (by simpa using hm)
    · exact absurd (by rw [hd]; simp) (h2 i)

theorem turned_run {w : World} (hw : Inv w) (hinv : w.invert = true) (h : Turned w ∨ w.initialized = false ∧ ∀ i, Act.setFlag ∉ (w.threads i).doing)
    (evs : List Ev) (hev : ∀ i, Ev.fails i ∉ evs) :
    Turned (w.run evs) ∨ (w.run evs).initialized = false ∧ ∀ i, Act.setFlag ∉ ((w.run evs).threads i).doing := by
  induction evs generalizing w with
  | nil => exact h
  | cons e evs ih =>
    cases e with
    | runs i => exact ih (hw.step _) ((step_invert _ _).trans hinv) (turned_step hw hinv h i) fun i hi => hev i (List.mem_cons_of_mem _ hi)
    | fails i => exact absurd (List.mem_cons_self ..) (hev i)

/-- **C189 (inversion)**: a controller made with `invert=True`, and no vendor call raises.  As soon as an `initialize()` of some thread has returned, and
whenever no thread is inside an `initialize()`, the mirrors of the device are inverted. -/
theorem C189_inverted (dev : Dev) (progs : ℕ → List Op) (evs : List Ev) (hev : ∀ i, Ev.fails i ∉ evs)
    (hready : ∃ k m, Entry.ready k m ∈ ((World.start true dev progs).run evs).log)
    (hout : ∀ i, (((World.start true dev progs).run evs).threads i).op = .initialize → (((World.start true dev progs).run evs).threads i).doing = []) :
    ((World.start true dev progs).run evs).dev.inverted = true := by
  have hi := inv_run (inv_start (invert := true) (dev := dev) (progs := progs)) evs
  rcases turned_run inv_start rfl (.inr ⟨rfl, fun i => by simp [World.start]⟩) evs hev with (h | ⟨k, hk⟩) | h
  · exact h
  · exfalso
    rcases (hi.thread k).1 with h' | h'
    · have hq := h'.subset hk
      have : (((World.start true dev progs).run evs).threads k).op = .initialize := by
        generalize (((World.start true dev progs).run evs).threads k).op = op at hq
        cases op with
        | loadMultiple imgs => cases imgs <;> simp [acts, loadMultipleCmds] at hq
        | «initialize» => rfl
        | _ => simp [acts, loadSingleCmds] at hq
      rw [hout k this] at hk
      cases hk
    · rw [h'.2] at hk; simp at hk
  · rw [hi.flag.mpr hready] at h; cases h.1

/-! ## Closing -/

/-- What holds at any time if only thread `k` closes the controller -/
structure CloseInv (k : ℕ) (w : World) : Prop where
  todo : ∀ i, i ≠ k → .close ∉ (w.threads i).todo ∧ ((w.threads i).op = .close → (w.threads i).doing = [])
  seq : Act.vendor .freeSeq ∈ (w.threads k).doing → w.dev.last.isSome = true

theorem freeSeq_mem {op : Op} {as : List Act} (h : as <:+ acts invert op ∨ op = .close ∧ as = [.vendor .freeSeq, .vendor .free])
    (hm : Act.vendor .freeSeq ∈ as) : op = .close ∧ as = [.vendor .freeSeq, .vendor .free] := by
  rcases h with h | h
  · exfalso
    have hm := h.subset hm
    cases op with
    | loadMultiple imgs => cases imgs <;> simp [acts, loadMultipleCmds] at hm
    | «initialize» => cases invert <;> simp [acts, initCmds] at hm
    | _ => simp [acts, loadSingleCmds] at hm
  · exact h

theorem apply_last {d : Dev} {c : Cmd} (hc : c ≠ .freeSeq) (h : d.last.isSome = true) : (apply d c).last.isSome = true := by
  cases c <;> first | exact absurd rfl hc | exact h | rfl

theorem CloseInv.step {k : ℕ} {w : World} (hw : Inv w) (h : CloseInv k w) (e : Ev) : CloseInv k (w.step e) := by
  have go : ∀ {i : ℕ} {as : List Act} {w' : World}, w'.threads = w.goOn i as → (w.threads i).doing ≠ [] →
      (i = k → Act.vendor .freeSeq ∈ as → w'.dev.last.isSome = true) →
      (i ≠ k → w.dev.last.isSome = true → w'.dev.last.isSome = true) → CloseInv k w' := by
    intro i as w' ht hne h1 h2
    refine ⟨fun j hj => ?_, fun hm => ?_⟩
    · rw [ht]
      by_cases hji : j = i
      · subst hji
        simp only [World.goOn, Function.update_self]
        exact ⟨(h.todo j hj).1, fun ho => absurd ((h.todo j hj).2 ho) hne⟩
      · simpa [World.goOn, hji] using h.todo j hj
    · rw [ht] at hm
      by_cases hki : i = k
      · subst hki
        simp only [World.goOn, Function.update_self] at hm
        exact h1 rfl hm
      · simp only [World.goOn, Function.update_of_ne (Ne.symm hki)] at hm
        exact h2 hki (h.seq hm)
  cases e with
  | runs i =>
    have hs := hw.thread i
    simp only [World.step]
    split
    · rename_i hd
      split
      · exact h
      · rename_i op rest ht
        refine ⟨fun j hj => ?_, fun hm => ?_⟩
        · by_cases hji : j = i
          · subst hji
            simp only [Function.update_self]
            have := (h.todo j hj).1
            rw [ht] at this
            refine ⟨fun hc => this (List.mem_cons_of_mem _ hc), fun ho => absurd (List.mem_cons.mpr (.inl ho.symm)) this⟩
          · simpa [hji] using h.todo j hj
        · by_cases hki : k = i
          · subst hki
            simp only [Function.update_self] at hm
            have := freeSeq_mem (.inl List.suffix_rfl) hm
            rw [this.2] at hm
            obtain ⟨ho, ha⟩ := this
            rw [ho] at ha
            simp [acts] at ha
          · simp only [Function.update_of_ne hki] at hm
            exact h.seq hm
    · rename_i as hd
      split
      · refine go rfl (by rw [hd]; simp) (fun hk hm => ?_) fun _ => id
        subst hk
        exact h.seq (by rw [hd]; exact List.mem_cons_of_mem _ hm)
      · exact go rfl (by rw [hd]; simp) (fun _ hm => by cases hm) fun _ => id
    · rename_i c as hd
      by_cases hc : c = .freeSeq
      · subst hc
        have ho := freeSeq_mem hs.1 (by rw [hd]; simp)
        refine go rfl (by rw [hd]; simp) (fun _ hm => ?_) fun hk _ => ?_
        · rw [hd] at ho
          have := ho.2
          simp at this
          rw [this] at hm
          simp at hm
        · have := (h.todo i hk).2 ho.1
          rw [hd] at this
          cases this
      · refine go rfl (by rw [hd]; simp) (fun hk hm => ?_) fun _ => apply_last hc
        subst hk
        exact apply_last hc (h.seq (by rw [hd]; exact List.mem_cons_of_mem _ hm))
    · rename_i as hd
      refine go rfl (by rw [hd]; simp) (fun hk hm => ?_) fun _ => id
      subst hk
      split at hm
      · assumption
      · exact h.seq (by rw [hd]; exact List.mem_cons_of_mem _ hm)
    · rename_i as hd
      refine go rfl (by rw [hd]; simp) (fun hk hm => ?_) fun _ => id
      subst hk
      exact h.seq (by rw [hd]; exact List.mem_cons_of_mem _ hm)
  | fails i =>
    simp only [World.step]
    split
    · rename_i c as hd
      exact go rfl (by rw [hd]; simp) (fun _ hm => by cases hm) fun _ => id
    · exact h

/-- **C189 (close, partial)**: if only one thread closes the controller, then whenever `close()` is about to free a sequence there is one, whatever the other
threads do and whichever vendor calls raise.  What is missing: several threads that close it, for which it is false. -/
theorem C189_close_partial (invert : Bool) (dev : Dev) {progs : ℕ → List Op} {k : ℕ} (hk : ∀ i, i ≠ k → .close ∉ progs i) (evs : List Ev) {i : ℕ}
    {as : List Act} (h : (((World.start invert dev progs).run evs).threads i).doing = .vendor .freeSeq :: as) :
    ((World.start invert dev progs).run evs).dev.last ≠ none := by
  have key : ∀ (evs : List Ev) (w : World), Inv w → CloseInv k w → CloseInv k (w.run evs) := by
    intro evs
    induction evs with
    | nil => exact fun w _ h => h
    | cons e evs ih => exact fun w hw h => ih _ (hw.step e) (h.step hw e)
  have hc := key evs _ (inv_start (invert := invert) (dev := dev) (progs := progs))
    ⟨fun i hi => ⟨hk i hi, fun ho => by cases ho⟩, fun hm => by simp [World.start] at hm⟩
  have hw := inv_run (inv_start (invert := invert) (dev := dev) (progs := progs)) evs
  have ho := freeSeq_mem (hw.thread i).1 (by rw [h]; simp)
  by_cases hik : i = k
  · subst hik
    have := hc.seq (by rw [h]; simp)
    exact Option.isSome_iff_ne_none.mp this
  · have := (hc.todo i hik).2 ho.1
    rw [h] at this
    cases this

/-- One thread loads an image and closes the controller: it is about to free the sequence. -/
example (dev : Dev) (img : Image) : (((World.start false dev fun i => if i = 0 then [.initialize, .loadSingle img, .close] else []).run
    [.runs 0, .runs 0, .runs 0, .runs 0, .runs 0, .runs 0, .runs 0, .runs 0, .runs 0, .runs 0, .runs 0, .runs 0, .runs 0, .runs 0]).threads 0).doing =
    [.vendor .freeSeq, .vendor .free] := by
  simp [World.run, World.step, World.start, World.goOn, acts, initCmds, loadSingleCmds, apply]

/-- **C189 (close) is false** for two threads that close the controller: both find a sequence to free, the first frees it, and the second is about to free a
sequence when there is none. -/
theorem C189_close_refuted (dev : Dev) (img : Image) : ∃ (progs : ℕ → List Op) (evs : List Ev), (∀ i, Ev.fails i ∉ evs) ∧
    progs 0 = [.initialize, .loadSingle img, .close] ∧ progs 1 = [.close] ∧
    (((World.start false dev progs).run evs).threads 1).doing = [.vendor .freeSeq, .vendor .free] ∧
    ((World.start false dev progs).run evs).dev.last = none := by
  refine ⟨fun i => if i = 0 then [.initialize, .loadSingle img, .close] else if i = 1 then [.close] else [],
    [.runs 0, .runs 0, .runs 0, .runs 0, .runs 0, .runs 0, .runs 0, .runs 0, .runs 0, .runs 0, .runs 0, .runs 0, .runs 0, .runs 0,
      .runs 1, .runs 1, .runs 1, .runs 0], by simp, rfl, rfl, ?_, ?_⟩ <;>
  simp [World.run, World.step, World.start, World.goOn, acts, initCmds, loadSingleCmds, apply]

/-- **C189 (use) is false**: a load that is under way when another thread closes the controller goes on: its last vendor call reaches the library after the
device has been released, although no vendor call has raised and nothing has been initialized again, and the load returns as if the image were shown. -/
theorem C189_use_refuted (dev : Dev) (img : Image) : ∃ (progs : ℕ → List Op) (evs : List Ev) (before : List Entry), (∀ i, Ev.fails i ∉ evs) ∧
    progs 0 = [.initialize, .loadSingle img] ∧ progs 1 = [.close] ∧
    ((World.start false dev progs).run evs).log = before ++ [.called 1 1 .close .free true, .called 0 2 (.loadSingle img) .run true] ∧
    (∀ i, (((World.start false dev progs).run evs).threads i).doing = []) ∧
    ((World.start false dev progs).run evs).dev.allocated = false ∧ ((World.start false dev progs).run evs).dev.running = none := by
  refine ⟨fun i => if i = 0 then [.initialize, .loadSingle img] else if i = 1 then [.close] else [],
    [.runs 0, .runs 0, .runs 0, .runs 0, .runs 0, .runs 0, .runs 0, .runs 0, .runs 0, .runs 0,
      .runs 1, .runs 1, .runs 1, .runs 1, .runs 1, .runs 0],
    [.called 0 1 .initialize .initialize true, .ready 0 1, .called 0 2 (.loadSingle img) .halt true, .called 0 2 (.loadSingle img) (.seqAlloc 1) true,
      .called 0 2 (.loadSingle img) .seqControl true, .called 0 2 (.loadSingle img) (.seqPut (toBytes img)) true, .called 0 2 (.loadSingle img) .setTiming true,
      .called 1 1 .close .halt true, .called 1 1 .close .freeSeq true], by simp, rfl, rfl, ?_, fun i => ?_, ?_, ?_⟩
  · simp [World.run, World.step, World.start, World.goOn, acts, initCmds, loadSingleCmds, apply]
  · by_cases h1 : i = 1
    · subst h1
      simp [World.run, World.step, World.start, World.goOn, acts, initCmds, loadSingleCmds, apply]
    · by_cases h0 : i = 0
      · subst h0
        simp [World.run, World.step, World.start, World.goOn, acts, initCmds, loadSingleCmds, apply]
      · simp [World.run, World.step, World.start, World.goOn, acts, initCmds, loadSingleCmds, apply, h0, h1]
  · simp [World.run, World.step, World.start, World.goOn, acts, initCmds, loadSingleCmds, apply]
  · simp [World.run, World.step, World.start, World.goOn, acts, initCmds, loadSingleCmds, apply]

/-- Two threads initialize an inverting controller; one loads an image while the other is still at it.  The vendor calls of the load are made, and the hypotheses
of `C189_guard` and `C189_inverted` are met. -/
example (dev : Dev) (img : Image) : ∃ (progs : ℕ → List Op) (evs : List Ev),
    (∃ before after, ((World.start true dev progs).run evs).log = before ++ .called 0 2 (.loadSingle img) .halt true :: after) ∧
    (∀ i, Ev.fails i ∉ evs) ∧ (∃ k m, Entry.ready k m ∈ ((World.start true dev progs).run evs).log) ∧
    (∀ i, (((World.start true dev progs).run evs).threads i).op = .initialize → (((World.start true dev progs).run evs).threads i).doing = []) := by
  refine ⟨fun i => if i = 0 then [.initialize, .loadSingle img] else if i = 1 then [.initialize] else [],
    [.runs 0, .runs 1, .runs 0, .runs 1, .runs 0, .runs 0, .runs 0, .runs 0, .runs 0, .runs 1, .runs 1], ⟨[.called 0 1 .initialize .initialize true,
      .called 1 1 .initialize .initialize true, .called 0 1 .initialize .projInversion true, .ready 0 1],
      [.called 1 1 .initialize .projInversion true, .ready 1 1], ?_⟩, by simp, ⟨0, 1, ?_⟩, fun i => ?_⟩
  · simp [World.run, World.step, World.start, World.goOn, acts, initCmds, loadSingleCmds, apply]
  · simp [World.run, World.step, World.start, World.goOn, acts, initCmds, loadSingleCmds, apply]
  · by_cases h1 : i = 1
    · subst h1
      simp [World.run, World.step, World.start, World.goOn, acts, initCmds, loadSingleCmds, apply]
    · by_cases h0 : i = 0
      · subst h0
        simp [World.run, World.step, World.start, World.goOn, acts, initCmds, loadSingleCmds, apply]
      · simp [World.run, World.step, World.start, World.goOn, acts, initCmds, loadSingleCmds, apply, h0, h1]

/-- A query is refused before `initialize()`, and served after it. -/
example (dev : Dev) : ((World.start false dev fun i => if i = 0 then [.queryNx, .initialize, .queryNx] else []).run
    [.runs 0, .runs 0, .runs 0, .runs 0, .runs 0, .runs 0, .runs 0, .runs 0]).log =
    [.refused 0 1 .queryNx, .called 0 2 .initialize .initialize true, .ready 0 2, .called 0 3 .queryNx .inquireWidth true] := by
  simp [World.run, World.step, World.start, World.goOn, acts, initCmds, apply]

end PySLM2.Controller.OpenAlp
