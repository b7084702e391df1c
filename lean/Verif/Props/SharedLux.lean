import Verif.Spec.SharedLux
import Verif.Lemmas.ControllerFaults

/-!
# Threads that share a Luxbeam controller (C185)
-/

namespace PySLM2.Controller.SharedLux

open Lux

/-! ## After a load -/

/-- The display still shows what it showed before the load. -/
structure Opening (imgs : List Image) (s : Option Image) (d : Dev) : Prop where
  enabled : d.enabled = true
  held : d.held = false
  programmed : d.programmed = true
  reg0 : d.reg0 = imgs.length
  slots : ∀ i, i < imgs.length → d.slots i = imgs[i]?
  shown : d.shown = s
  point : d.pc = .loadFirst ∨ d.pc = .show ∧ d.inum = 0 ∧ d.memory = imgs[0]?

/-- Position 0 is before the first image, position `j + 1` is image `j`, counted on and on. -/
inductive At (imgs : List Image) (s : Option Image) : ℕ → Bool → Dev → Prop
  | opening {d : Dev} (h : Opening imgs s d) : At imgs s 0 true d
  | playing {d : Dev} {j : ℕ} {p : Bool} (h : Cyc imgs j p d) : At imgs s (j + 1) p d

variable {imgs : List Image} {s : Option Image} {d : Dev} {j : ℕ} {p : Bool}

theorem At.shown (h : At imgs s j p d) : d.shown = if j = 0 then s else imgs[(j - 1) % imgs.length]? := by
  cases h with
  | opening h => exact h.shown
  | playing h => exact h.shown

theorem Opening.tick (hn : imgs ≠ []) (h : Opening imgs s d) :
    (d.pc = .loadFirst ∧ Opening imgs s (Lux.tick d) ∧ (Lux.tick d).pc = .show) ∨ (d.pc = .show ∧ Cyc imgs 0 false (Lux.tick d)) := by
  have hpos : 0 < imgs.length := List.length_pos_iff.2 hn
  unfold Lux.tick
  rw [if_pos ⟨h.enabled, by simp [h.held], h.programmed⟩]
  rcases h.point with hpc | ⟨hpc, hi, hm⟩
  · left
    rw [hpc]
    exact ⟨rfl, ⟨h.enabled, h.held, h.programmed, h.reg0, h.slots, h.shown, .inr ⟨rfl, rfl, h.slots 0 hpos⟩⟩, rfl⟩
  · right
    rw [hpc]
    refine ⟨rfl, h.enabled, h.held, h.programmed, h.reg0, h.slots, ?_, rfl, ?_⟩
    · simp only [hm, Nat.zero_mod]
    · simp only [hi, Nat.zero_mod]

theorem Opening.trigger (h : Opening imgs s d) : Lux.trigger d = d := by
  unfold Lux.trigger
  rw [if_neg]
  rintro ⟨-, -, -, hw⟩
  rcases h.point with hpc | ⟨hpc, -, -⟩ <;> rw [hpc] at hw <;> cases hw

theorem Opening.sync (h : Opening imgs s d) (b : Bool) : Opening imgs s { d with sync := b } :=
  ⟨h.enabled, h.held, h.programmed, h.reg0, h.slots, h.shown, h.point⟩

theorem run_append (w : World) (a b : List Ev) : w.run (a ++ b) = (w.run a).run b := List.foldl_append

/-- What an event can do. -/
def Moves (imgs : List Image) (s : Option Image) (j : ℕ) (p : Bool) (extra : ℕ) (d : Dev) : Prop :=
  ∃ j' p', At imgs s j' p' d ∧ j ≤ j' ∧ j' ≤ j + 1 ∧ j' + p'.toNat ≤ j + p.toNat + extra

theorem At.stays (h : At imgs s j p d) (e : ℕ) : Moves imgs s j p e d := ⟨j, p, h, le_rfl, by omega, by omega⟩

theorem At.tick (hn : imgs ≠ []) (h : At imgs s j p d) : Moves imgs s j p 0 (Lux.tick d) := by
  cases h with
  | opening h =>
    rcases h.tick hn with ⟨-, h1, -⟩ | ⟨-, h1⟩
    · exact (At.opening h1).stays 0
    · exact ⟨1, false, .playing h1, by omega, by omega, by simp⟩
  | playing h =>
    rcases h.tick hn with h1 | ⟨h1, h2⟩
    · exact (At.playing h1).stays 0
    · exact ⟨_, false, .playing h2, by omega, by omega, by simp [h1]⟩

theorem At.trigger (h : At imgs s j p d) : Moves imgs s j p 1 (Lux.trigger d) := by
  cases h with
  | opening h =>
    rw [h.trigger]
    exact (At.opening h).stays 1
  | playing h =>
    rcases h.trigger with h1 | ⟨h1, h2⟩
    · exact (At.playing h1).stays 1
    · exact ⟨_, true, .playing h2, by omega, by omega, by simp [h1]⟩

theorem At.sync (h : At imgs s j p d) (b : Bool) : At imgs s j p { d with sync := b } := by
  cases h with
  | opening h => exact .opening (h.sync b)
  | playing h => exact .playing (h.sync b)

theorem At.softwareSync (h : At imgs s j p d) (b : Bool) : Moves imgs s j p (if b then 1 else 0) (Lux.apply d (.softwareSync b)) := by
  cases b with
  | false => exact (h.sync false).stays _
  | true =>
    show Moves imgs s j p 1 (if d.sync = true then d else Lux.trigger { d with sync := true })
    split
    · exact h.stays 1
    · exact (h.sync true).trigger

open Classical in
theorem At.step (hn : imgs ≠ []) {w : World} (hq : ∀ i, (w.threads i).NotLoading) (h : At imgs s j p w.dev) (ev : Ev) :
    Moves imgs s j p (if IsTrigger w ev then 1 else 0) (w.step ev).dev := by
  cases ev with
  | tick =>
    rw [if_neg (show ¬IsTrigger w .tick from fun h => h)]
    exact h.tick hn
  | external =>
    rw [if_pos (show IsTrigger w .external from trivial)]
    exact h.trigger
  | fails i =>
    have : (w.step (.fails i)).dev = w.dev := by
      simp only [World.step]
      split <;> rfl
    rw [this]
    exact h.stays _
  | runs i =>
    rcases hd : (w.threads i).doing with _ | ⟨c, cs⟩
    · have : (w.step (.runs i)).dev = w.dev := by
        simp only [World.step, hd]
        split <;> rfl
      rw [this]
      exact h.stays _
    · obtain ⟨b, rfl⟩ := hq i c (by rw [hd]; exact List.mem_cons_self)
      have : (w.step (.runs i)).dev = Lux.apply w.dev (.softwareSync b) := by simp only [World.step, hd]
      rw [this]
      have e : (if IsTrigger w (.runs i) then 1 else 0) = if b then 1 else 0 := by
        cases b with
        | true => exact if_pos ⟨cs, hd⟩
        | false =>
          refine if_neg ?_
          rintro ⟨cs', h'⟩
          rw [hd] at h'
          cases h'
      rw [e]
      exact h.softwareSync b

theorem noLoads_tail {w : World} {ev : Ev} {evs : List Ev} (h : NoLoads w (ev :: evs)) : NoLoads (w.step ev) evs :=
  fun past hp i => h (ev :: past) (List.cons_prefix_cons.mpr ⟨rfl, hp⟩) i

theorem noLoads_head {w : World} {evs : List Ev} (h : NoLoads w evs) (i : ℕ) : (w.threads i).NotLoading :=
  h [] List.nil_prefix i

theorem At.run (hn : imgs ≠ []) (later : List Ev) : ∀ (w : World) (j : ℕ) (p : Bool), NoLoads w later → At imgs s j p w.dev →
    ∃ J : ℕ → ℕ, J 0 = j ∧ (∀ m < later.length, J m ≤ J (m + 1) ∧ J (m + 1) ≤ J m + 1) ∧
      ∀ m ≤ later.length, J m ≤ j + p.toNat + triggers w (later.take m) ∧
        (w.run (later.take m)).dev.shown = if J m = 0 then s else imgs[(J m - 1) % imgs.length]? := by
  induction later with
  | nil =>
    intro w j p _ h
    refine ⟨fun _ => j, rfl, fun m hm => by simp at hm, fun m _ => ⟨by simp only; omega, ?_⟩⟩
    rw [List.take_nil]
    exact h.shown
  | cons ev later ih =>
    intro w j p hq h
    obtain ⟨j', p', h1, h2, h3, h4⟩ := h.step hn (noLoads_head hq) ev
    obtain ⟨J, hJ0, hJ1, hJ2⟩ := ih (w.step ev) j' p' (noLoads_tail hq) h1
    refine ⟨fun k => if k = 0 then j else J (k - 1), by simp, ?_, ?_⟩
    · intro k hk
      cases k with
      | zero => simpa [hJ0] using ⟨h2, h3⟩
      | succ k => simpa using hJ1 k (by simpa using hk)
    · intro k hk
      cases k with
      | zero => exact ⟨by simp only [if_true]; omega, by simpa [World.run] using h.shown⟩
      | succ k =>
        obtain ⟨h9, h10⟩ := hJ2 k (by simpa using hk)
        refine ⟨?_, by simpa [World.run] using h10⟩
        simp only [Nat.add_eq_zero_iff, one_ne_zero, and_false, if_false, Nat.add_sub_cancel, List.take_succ_cons, triggers]
        omega

/-! ## During a load -/

/-- Equal except for the level of the software sync line. -/
def SameButSync (d d' : Dev) : Prop := { d with sync := false } = { d' with sync := false }

theorem SameButSync.apply {d d' : Dev} (h : SameButSync d d') {c : Cmd} (hc : ∀ b, c ≠ .softwareSync b) : SameButSync (Lux.apply d c) (Lux.apply d' c) := by
  rcases d with ⟨a1, a2, a3, a4, a5, a6, a7, a8, a9, a10⟩
  rcases d' with ⟨b1, b2, b3, b4, b5, b6, b7, b8, b9, b10⟩
  simp only [SameButSync, Dev.mk.injEq, and_true] at h
  obtain ⟨rfl, rfl, rfl, rfl, rfl, rfl, rfl, rfl, rfl⟩ := h
  cases c with
  | softwareSync b => exact absurd rfl (hc b)
  | seqReset b => cases b <;> rfl
  | _ => rfl

theorem tick_disabled (h : d.enabled = false) : Lux.tick d = d := by
  unfold Lux.tick
  rw [if_neg (by simp [h])]

theorem trigger_disabled (h : d.enabled = false) : Lux.trigger d = d := by
  unfold Lux.trigger
  rw [if_neg (by simp [h])]

theorem SameButSync.softwareSync {d d' : Dev} (h : SameButSync d d') (he : d.enabled = false) (b : Bool) :
    SameButSync (Lux.apply d (.softwareSync b)) d' := by
  cases b with
  | false => exact h
  | true =>
    show SameButSync (if d.sync = true then d else Lux.trigger { d with sync := true }) d'
    split
    · exact h
    · rw [trigger_disabled (by exact he)]
      exact h

theorem SameButSync.enabled {d d' : Dev} (h : SameButSync d d') : d.enabled = d'.enabled := by
  have := congrArg (fun x : Dev => x.enabled) (show ({ d with sync := false } : Dev) = { d' with sync := false } from h)
  exact this

theorem SameButSync.shown {d d' : Dev} (h : SameButSync d d') : d.shown = d'.shown := by
  have := congrArg (fun x : Dev => x.shown) (show ({ d with sync := false } : Dev) = { d' with sync := false } from h)
  exact this

/-- The requests of a load between the first and the last one. -/
def middle (imgs : List Image) : List Cmd := [.seqReset true, .setReg imgs.length, .seqReset false] ++ loadImages 0 imgs

theorem loads_cmds {call : Call} (h : call.Loads imgs) : call.cmds = .seqRun false :: middle imgs ++ [.seqRun true] := by
  rcases h with rfl | ⟨img, rfl, rfl⟩ <;> rfl

theorem mem_loadImages {c : Cmd} (imgs : List Image) : ∀ k, c ∈ loadImages k imgs → ∃ i img, c = .loadImage i img := by
  induction imgs with
  | nil => exact fun k h => absurd h (by simp [loadImages])
  | cons img imgs ih =>
    intro k h
    rcases List.mem_cons.mp h with rfl | h
    · exact ⟨_, _, rfl⟩
    · exact ih _ h

/-- A request in the middle of a load leaves the display and the stopped sequencer alone. -/
theorem middle_apply {c : Cmd} (h : c ∈ middle imgs) (d : Dev) :
    (∀ b, c ≠ .softwareSync b) ∧ (Lux.apply d c).enabled = d.enabled ∧ (Lux.apply d c).shown = d.shown := by
  rcases List.mem_append.mp h with h | h
  · simp only [List.mem_cons, List.not_mem_nil, or_false] at h
    rcases h with rfl | rfl | rfl <;> exact ⟨by intro b; exact Cmd.noConfusion, rfl, rfl⟩
  · obtain ⟨i, img, rfl⟩ := mem_loadImages imgs 0 h
    exact ⟨by intro b; exact Cmd.noConfusion, rfl, rfl⟩

/-- Where thread `k` is in its load, which it began when the device was `d₀`. -/
inductive Stage (imgs : List Image) (k : ℕ) (call : Call) (rest : List Call) (w : World) : Prop
  | before (h : w.threads k = ⟨call :: rest, []⟩) (hp : w.dev.programmed = true)
  | begun (h : w.threads k = ⟨rest, call.cmds⟩) (hp : w.dev.programmed = true)
  | stopped (d₀ : Dev) (made left : List Cmd) (hp : d₀.programmed = true) (h0 : d₀.enabled = false) (hm : middle imgs = made ++ left)
      (h : w.threads k = ⟨rest, left ++ [.seqRun true]⟩) (he : w.dev.enabled = false) (hs : SameButSync w.dev (made.foldl Lux.apply d₀))

/-- Events of other threads and of the device. -/
def Ev.Foreign (k : ℕ) (ev : Ev) : Prop := ev ≠ .runs k ∧ ev ≠ .fails k

theorem foreign_step {w : World} {k : ℕ} (hq : ∀ i, i ≠ k → (w.threads i).NotLoading) {ev : Ev} (hev : ev.Foreign k) :
    (w.step ev).threads k = w.threads k ∧ (w.dev.programmed = true → (w.step ev).dev.programmed = true) ∧
    (w.dev.enabled = false → (w.step ev).dev.enabled = false ∧ SameButSync (w.step ev).dev w.dev) := by
  have keep : ∀ {w' : World}, w'.threads k = w.threads k → w'.dev = w.dev → w'.threads k = w.threads k ∧
      (w.dev.programmed = true → w'.dev.programmed = true) ∧ (w.dev.enabled = false → w'.dev.enabled = false ∧ SameButSync w'.dev w.dev) := by
    intro w' h1 h2
    rw [h2]
    exact ⟨h1, id, fun h => ⟨h, rfl⟩⟩
  cases ev with
  | tick => exact ⟨rfl, programmed_tick _, fun h => by simp only [World.step]; rw [tick_disabled h]; exact ⟨h, rfl⟩⟩
  | external => exact ⟨rfl, programmed_trigger _, fun h => by simp only [World.step]; rw [trigger_disabled h]; exact ⟨h, rfl⟩⟩
  | fails i =>
    have hi : k ≠ i := fun h => hev.2 (by rw [h])
    rcases hd : (w.threads i).doing with _ | ⟨c, cs⟩
    · exact keep (by simp only [World.step, hd]) (by simp only [World.step, hd])
    · exact keep (by simp only [World.step, hd, Function.update_of_ne hi]) (by simp only [World.step, hd])
  | runs i =>
    have hi : k ≠ i := fun h => hev.1 (by rw [h])
    rcases hd : (w.threads i).doing with _ | ⟨c, cs⟩
    · rcases ht : (w.threads i).todo with _ | ⟨call, rest⟩
      · exact keep (by simp only [World.step, hd, ht]) (by simp only [World.step, hd, ht])
      · exact keep (by simp only [World.step, hd, ht, Function.update_of_ne hi]) (by simp only [World.step, hd, ht])
    · obtain ⟨b, rfl⟩ := hq i hi.symm c (by rw [hd]; exact List.mem_cons_self)
      have e : (w.step (.runs i)).dev = Lux.apply w.dev (.softwareSync b) := by simp only [World.step, hd]
      refine ⟨by simp only [World.step, hd, Function.update_of_ne hi], fun h => by rw [e]; exact programmed_apply _ _ h, fun h => ?_⟩
      rw [e]
      have hs : SameButSync (Lux.apply w.dev (.softwareSync b)) w.dev := SameButSync.softwareSync rfl h b
      exact ⟨hs.enabled.trans h, hs⟩

theorem Stage.step {k : ℕ} {call : Call} (hcall : call.Loads imgs) {rest : List Call} {w : World} (h : Stage imgs k call rest w)
    (hq : ∀ i, i ≠ k → (w.threads i).NotLoading) {ev : Ev} (hev : ev ≠ .fails k) :
    Stage imgs k call rest (w.step ev) ∨ (ev = .runs k ∧ ∃ d₀ : Dev, d₀.programmed = true ∧ d₀.enabled = false ∧
      w.threads k = ⟨rest, [.seqRun true]⟩ ∧ (w.step ev).threads k = ⟨rest, []⟩ ∧ SameButSync w.dev ((middle imgs).foldl Lux.apply d₀) ∧
      (w.step ev).dev = Lux.apply w.dev (.seqRun true)) := by
  by_cases hk : ev = .runs k
  · subst hk
    cases h with
    | before h hp =>
      left
      refine .begun ?_ ?_
      · simp only [World.step, h, Function.update_self]
      · simp only [World.step, h]
        exact hp
    | begun h hp =>
      left
      rw [loads_cmds hcall] at h
      refine .stopped { w.dev with enabled := false } [] (middle imgs) hp rfl rfl ?_ ?_ ?_
      · simp only [World.step, h, List.cons_append, Function.update_self]
      · simp only [World.step, h, List.cons_append]
        rfl
      · simp only [World.step, h, List.cons_append]
        rfl
    | stopped d₀ made left hp h0 hm h he hs =>
      rcases left with _ | ⟨c, left⟩
      · right
        rw [List.append_nil] at hm
        refine ⟨rfl, d₀, hp, h0, h, ?_, by rw [hm]; exact hs, ?_⟩
        · simp only [World.step, h, List.nil_append, Function.update_self]
        · simp only [World.step, h, List.nil_append]
      · left
        have hc : c ∈ middle imgs := by rw [hm]; simp
        obtain ⟨h1, h2, -⟩ := middle_apply hc w.dev
        refine .stopped d₀ (made ++ [c]) left hp h0 (by rw [hm]; simp) ?_ ?_ ?_
        · simp only [World.step, h, List.cons_append, Function.update_self]
        · simp only [World.step, h, List.cons_append]
          rw [h2]
          exact he
        · simp only [World.step, h, List.cons_append]
          rw [List.foldl_append]
          exact hs.apply h1
  · left
    obtain ⟨h1, h2, h3⟩ := foreign_step hq (⟨hk, hev⟩ : ev.Foreign k)
    cases h with
    | before h hp => exact .before (h1.trans h) (h2 hp)
    | begun h hp => exact .begun (h1.trans h) (h2 hp)
    | stopped d₀ made left hp h0 hm h he hs =>
      obtain ⟨h4, h5⟩ := h3 he
      exact .stopped d₀ made left hp h0 hm (h1.trans h) h4 (h5.trans hs)

theorem opening_of_load (hn : imgs ≠ []) {d₀ d : Dev} (hp : d₀.programmed = true) (h0 : d₀.enabled = false)
    (hs : SameButSync d ((middle imgs).foldl Lux.apply d₀)) : Opening imgs d.shown (Lux.apply d (.seqRun true)) := by
  have key : ∀ (l : List Cmd) (k : ℕ) (d : Dev), after (fun _ => 0) k l d = l.foldl Lux.apply d := by
    intro l
    induction l with
    | nil => exact fun k d => rfl
    | cons c l ih => exact fun k d => ih _ _
  obtain ⟨slots, h1, h2, -⟩ := after_loadImages (fun _ => 0) imgs 0 0
    ({ d₀ with held := false, pc := .loadFirst, inum := 0, reg0 := imgs.length } : Dev) h0
  have e : (middle imgs).foldl Lux.apply d₀ = ({ d₀ with held := false, pc := .loadFirst, inum := 0, reg0 := imgs.length, slots := slots } : Dev) := by
    unfold middle
    rw [List.foldl_append, ← key (loadImages 0 imgs) 0, ← h1]
    rfl
  rw [e] at hs
  have c := fun {α : Type} (f : Dev → α) => congrArg f hs
  refine ⟨rfl, c fun x => x.held, (c fun x => x.programmed).trans hp, c fun x => x.reg0, fun i hi => ?_, rfl, .inl (c fun x => x.pc)⟩
  have := congrFun (c fun x => x.slots) i
  exact this.trans (by simpa using h2 i hi)

theorem exclusive_tail {w : World} {k : ℕ} {ev : Ev} {evs : List Ev} (h : Exclusive w k (ev :: evs)) : Exclusive (w.step ev) k evs :=
  fun past hp i => h (ev :: past) (List.cons_prefix_cons.mpr ⟨rfl, hp⟩) i

theorem todo_le (w : World) (k : ℕ) (evs : List Ev) : ((w.run evs).threads k).todo.length ≤ (w.threads k).todo.length := by
  induction evs generalizing w with
  | nil => exact le_rfl
  | cons ev evs ih =>
    refine (ih (w.step ev)).trans ?_
    cases ev with
    | tick => exact le_rfl
    | external => exact le_rfl
    | fails i =>
      rcases hd : (w.threads i).doing with _ | ⟨c, cs⟩
      · simp only [World.step, hd, le_refl]
      · simp only [World.step, hd]
        by_cases hi : k = i
        · subst hi; simp
        · rw [Function.update_of_ne hi]
    | runs i =>
      rcases hd : (w.threads i).doing with _ | ⟨c, cs⟩
      · rcases ht : (w.threads i).todo with _ | ⟨call, rest⟩
        · simp only [World.step, hd, ht, le_refl]
        · simp only [World.step, hd, ht]
          by_cases hi : k = i
          · subst hi; simp [ht]
          · rw [Function.update_of_ne hi]
      · simp only [World.step, hd]
        by_cases hi : k = i
        · subst hi; simp
        · rw [Function.update_of_ne hi]

theorem Stage.run {k : ℕ} {call : Call} (hcall : call.Loads imgs) {rest : List Call} (during : List Ev) : ∀ {w : World}, Stage imgs k call rest w →
    Exclusive w k during → .fails k ∉ during → (∀ past, past <+: during → (w.run past).threads k ≠ ⟨rest, []⟩) →
    Stage imgs k call rest (w.run during) := by
  induction during with
  | nil => exact fun h _ _ _ => h
  | cons ev during ih =>
    intro w h hex hf hne
    rcases h.step hcall (hex [] List.nil_prefix) (ev := ev) (fun e => hf (by rw [e]; exact List.mem_cons_self)) with
      h1 | ⟨-, d₀, -, -, -, h2, -⟩
    · exact ih h1 (exclusive_tail hex) (fun e => hf (List.mem_cons_of_mem _ e)) fun past hp =>
        hne (ev :: past) (List.cons_prefix_cons.mpr ⟨rfl, hp⟩)
    · exact absurd h2 (hne [ev] (List.cons_prefix_cons.mpr ⟨rfl, List.nil_prefix⟩))

theorem exclusive_append {w : World} {k : ℕ} {a b : List Ev} (h : Exclusive w k (a ++ b)) : Exclusive w k a ∧ Exclusive (w.run a) k b := by
  refine ⟨fun past hp i hi => h past (hp.trans (List.prefix_append _ _)) i hi, fun past hp i hi => ?_⟩
  have := h (a ++ past) ((List.prefix_append_right_inj a).mpr hp) i hi
  rwa [World.run, List.foldl_append] at this

/-- **C185**, proved part.  Many threads use one initialized controller, requests and sequencer instructions and external triggers in any interleaving,
and requests of the other threads may raise.  If thread `k` makes a load, none of whose requests raises, and no other thread is inside a load
meanwhile, then from the moment it is done, and as long as no thread begins another load, the display shows what it showed before
(position 0), and then the images of the load in order from the first one, cyclically, without leaving any out, whoever fires triggers and whenever; it
never moves on more often than there are triggers.  Missing: loads that overlap. -/
theorem C185_in_order_partial (hn : imgs ≠ []) {w : World} (hp : w.dev.programmed = true) {k : ℕ} {call : Call} (hcall : call.Loads imgs)
    {rest : List Call} (hk : w.threads k = ⟨call :: rest, []⟩) (during : List Ev) (hex : Exclusive w k during) (hf : .fails k ∉ during)
    (hbusy : ∀ past, past <+: during → (w.run past).threads k ≠ ⟨rest, []⟩)
    (hdone : (w.run (during ++ [.runs k])).threads k = ⟨rest, []⟩) (later : List Ev) (hq : NoLoads (w.run (during ++ [.runs k])) later) :
    ∃ J : ℕ → ℕ, J 0 = 0 ∧ (∀ m < later.length, J m ≤ J (m + 1) ∧ J (m + 1) ≤ J m + 1) ∧
      ∀ m ≤ later.length, J m ≤ 1 + triggers (w.run (during ++ [.runs k])) (later.take m) ∧
        (w.run (during ++ [.runs k] ++ later.take m)).dev.shown =
          if J m = 0 then (w.run during).dev.shown else imgs[(J m - 1) % imgs.length]? := by
  have hst := (Stage.before hk hp).run hcall during hex hf hbusy
  have e : w.run (during ++ [.runs k]) = (w.run during).step (.runs k) := by simp only [World.run, List.foldl_append]; rfl
  rcases hst.step hcall (hex during (List.prefix_refl _)) (ev := .runs k) (fun h => by cases h) with h1 | ⟨-, d₀, h1, h2, -, -, h3, h4⟩
  · rw [← e] at h1
    exfalso
    cases h1 with
    | before h _ => rw [hdone] at h; injection h with h _; exact absurd (congrArg List.length h) (by simp)
    | begun h _ => rw [hdone, loads_cmds hcall] at h; injection h with _ h; cases h
    | stopped d₀ made left hp h0 hm h he hs => rw [hdone] at h; injection h with _ h; simp at h
  · have ho := opening_of_load hn h1 h2 h3
    rw [← h4, ← e] at ho
    obtain ⟨J, hJ0, hJ1, hJ2⟩ := At.run hn later _ 0 true hq (At.opening ho)
    refine ⟨J, hJ0, hJ1, fun m hm => ?_⟩
    obtain ⟨h5, h6⟩ := hJ2 m hm
    refine ⟨by simpa using h5, ?_⟩
    rw [← h6, run_append]

/-- **C185.** While a load is under way, from its first request to its last one, the display does not change, whoever fires triggers meanwhile. -/
theorem C185_frozen {w : World} (hp : w.dev.programmed = true) {k : ℕ} {call : Call} (hcall : call.Loads imgs) {rest : List Call}
    (hk : w.threads k = ⟨call :: rest, []⟩) (before during : List Ev) (hex : Exclusive w k (before ++ during)) (hf : .fails k ∉ before ++ during)
    (hbusy : ∀ past, past <+: before ++ during → (w.run past).threads k ≠ ⟨rest, []⟩)
    (hfirst : ((w.run before).threads k).todo = rest ∧ ((w.run before).threads k).doing ≠ call.cmds) :
    (w.run (before ++ during)).dev.shown = (w.run before).dev.shown := by
  obtain ⟨e1, e2⟩ := exclusive_append hex
  have hst := (Stage.before hk hp).run hcall before e1 (fun h => hf (List.mem_append_left _ h)) fun past hp => hbusy past (hp.trans (List.prefix_append _ _))
  have hrun : w.run (before ++ during) = (w.run before).run during := by simp only [World.run, List.foldl_append]
  rw [hrun]
  have key : ∀ (during : List Ev) (w : World) (d₀ : Dev) (made left : List Cmd), d₀.enabled = false → middle imgs = made ++ left →
      w.threads k = ⟨rest, left ++ [.seqRun true]⟩ → w.dev.enabled = false → Exclusive w k during → .fails k ∉ during →
      (∀ past, past <+: during → (w.run past).threads k ≠ ⟨rest, []⟩) → (w.run during).dev.shown = w.dev.shown := by
    intro during
    induction during with
    | nil => intros; rfl
    | cons ev during ih =>
      intro w d₀ made left h0 hm h he hex hf hne
      have tail := fun past hp => hne (ev :: past) (List.cons_prefix_cons.mpr ⟨rfl, hp⟩)
      have hf' : .fails k ∉ during := fun e => hf (List.mem_cons_of_mem _ e)
      by_cases hev : ev = .runs k
      · subst hev
        rcases left with _ | ⟨c, left⟩
        · exact absurd (by simp [World.run, World.step, h]) (hne [.runs k] (List.cons_prefix_cons.mpr ⟨rfl, List.nil_prefix⟩))
        · have hc : c ∈ middle imgs := by rw [hm]; simp
          obtain ⟨-, h2, h3⟩ := middle_apply hc w.dev
          have es : (w.step (.runs k)).dev = Lux.apply w.dev c := by simp only [World.step, h, List.cons_append]
          have := ih (w.step (.runs k)) d₀ (made ++ [c]) left h0 (by rw [hm]; simp)
            (by simp only [World.step, h, List.cons_append, Function.update_self]) (by rw [es, h2]; exact he) (exclusive_tail hex) hf' tail
          exact this.trans (by rw [es, h3])
      · obtain ⟨h1, -, h3⟩ := foreign_step (hex [] List.nil_prefix) (⟨hev, fun e => hf (by rw [e]; exact List.mem_cons_self)⟩ : ev.Foreign k)
        obtain ⟨h4, h5⟩ := h3 he
        exact (ih (w.step ev) d₀ made left h0 hm (h1.trans h) h4 (exclusive_tail hex) hf' tail).trans h5.shown
  have hbusy' : ∀ past, past <+: during → ((w.run before).run past).threads k ≠ ⟨rest, []⟩ := fun past hp => by
    have := hbusy (before ++ past) ((List.prefix_append_right_inj before).mpr hp)
    rwa [World.run, List.foldl_append] at this
  cases hst with
  | before h _ => rw [h] at hfirst; exact absurd (congrArg List.length hfirst.1) (by simp)
  | begun h _ => rw [h] at hfirst; exact absurd rfl hfirst.2
  | stopped d₀ made left hp h0 hm h he hs =>
    exact key during _ d₀ made left h0 hm h he e2 (fun e => hf (List.mem_append_right _ e)) hbusy'

/-- A device after `initialize()`. -/
def initialDev : Dev := initCmds.foldl Lux.apply Dev.init

/-- Two threads, with the calls they make. -/
def twoThreads (a b : List Call) : World := World.start initialDev fun i => if i = 0 then a else if i = 1 then b else []

/-- **C185** is false if loads overlap: two threads load two images each, all requests succeed and both calls return; then the display goes through an
image of the second thread and one of the first. -/
theorem C185_refuted (a b c d : Image) : ∃ evs : List Ev,
    let w := (twoThreads [.loadMultiple [a, b]] [.loadMultiple [c, d]]).run evs
    w.threads 0 = ⟨[], []⟩ ∧ w.threads 1 = ⟨[], []⟩ ∧ (∀ i, .fails i ∉ evs) ∧
    (w.run [.tick, .tick, .tick]).dev.shown = some c ∧
    (w.run [.tick, .tick, .tick, .external, .tick, .tick, .tick]).dev.shown = some b ∧
    (w.run [.tick, .tick, .tick, .external, .tick, .tick, .tick, .external, .tick, .tick, .tick]).dev.shown = some c := by
  refine ⟨[.runs 0, .runs 0, .runs 0, .runs 0, .runs 0, .runs 0, .runs 1, .runs 1, .runs 1, .runs 1, .runs 1, .runs 1, .runs 1,
    .runs 0, .runs 0, .runs 1], ?_⟩
  simp [World.run, World.step, twoThreads, World.start, Call.cmds, loadMultipleCmds, loadImages, Function.update, Lux.apply, Lux.tick, Lux.trigger,
    initialDev, initCmds, Dev.init]

/-- **C185.** Two threads that fire the software trigger at the same time may together move the display by one image only, although both calls
return. -/
theorem C185_trigger_lost (a b c : Image) : ∃ load both : List Ev,
    let w := (twoThreads [.loadMultiple [a, b, c], .fireTrigger] [.fireTrigger]).run load
    w.dev.shown = some a ∧ w.threads 0 = ⟨[.fireTrigger], []⟩ ∧ w.threads 1 = ⟨[.fireTrigger], []⟩ ∧
    (w.run both).threads 0 = ⟨[], []⟩ ∧ (w.run both).threads 1 = ⟨[], []⟩ ∧ (∀ i, .fails i ∉ both) ∧
    (w.run both).dev.shown = some b ∧ (w.run both).dev.pc = .wait := by
  refine ⟨[.runs 0, .runs 0, .runs 0, .runs 0, .runs 0, .runs 0, .runs 0, .runs 0, .runs 0, .tick, .tick, .tick],
    [.runs 0, .runs 1, .runs 0, .tick, .tick, .tick, .tick, .runs 1, .tick, .tick, .tick, .runs 0, .runs 1], ?_⟩
  simp [World.run, World.step, twoThreads, World.start, Call.cmds, loadMultipleCmds, loadImages, triggerCmds, Function.update, Lux.apply, Lux.tick,
    Lux.trigger, initialDev, initCmds, Dev.init]

/-- The hypotheses of C185_in_order_partial can be met: one thread loads while another one fires a trigger. -/
example (a : Image) : ∃ during : List Ev, let w := twoThreads [.loadSingle a] [.fireTrigger]
    w.dev.programmed = true ∧ Exclusive w 0 during ∧ .fails 0 ∉ during ∧ (∀ past, past <+: during → (w.run past).threads 0 ≠ ⟨[], []⟩) ∧
    (w.run (during ++ [.runs 0])).threads 0 = ⟨[], []⟩ ∧ (w.run (during ++ [.runs 0])).threads 1 = ⟨[], [.softwareSync false]⟩ := by
  refine ⟨[.runs 0, .runs 1, .runs 0, .runs 0, .runs 1, .runs 0, .runs 0, .runs 0], rfl, ?_, by simp, ?_, rfl, rfl⟩
  · intro past hp i hi
    rw [← List.mem_inits] at hp
    simp only [List.inits, List.map_cons, List.map_nil, List.mem_cons, List.not_mem_nil, or_false] at hp
    by_cases h1 : i = 1
    · subst h1
      rcases hp with rfl | rfl | rfl | rfl | rfl | rfl | rfl | rfl | rfl <;>
        simp [World.run, World.step, twoThreads, World.start, Call.cmds, loadSingleCmds, triggerCmds, Thread.NotLoading]
    · rcases hp with rfl | rfl | rfl | rfl | rfl | rfl | rfl | rfl | rfl <;>
        simp [World.run, World.step, twoThreads, World.start, Call.cmds, loadSingleCmds, triggerCmds, Thread.NotLoading, hi, h1]
  · intro past hp
    rw [← List.mem_inits] at hp
    simp only [List.inits, List.map_cons, List.map_nil, List.mem_cons, List.not_mem_nil, or_false] at hp
    rcases hp with rfl | rfl | rfl | rfl | rfl | rfl | rfl | rfl | rfl <;>
      simp [World.run, World.step, twoThreads, World.start, Call.cmds, loadSingleCmds, triggerCmds]

end PySLM2.Controller.SharedLux
