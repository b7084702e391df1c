import Verif.Spec.SharedAlp
import Verif.Lemmas.Controller

/-!
# C187: threads that share an ALP controller
-/

namespace PySLM2.Controller.SharedAlp

open Alp

theorem run_append (w : World) (a b : List Ev) : w.run (a ++ b) = (w.run a).run b := List.foldl_append

theorem exclusive_head {w : World} {k : ℕ} {evs : List Ev} (h : Exclusive w k evs) {i : ℕ} (hi : i ≠ k) : (w.threads i).NotLoading :=
  h [] List.nil_prefix i hi

theorem exclusive_tail {w : World} {k : ℕ} {ev : Ev} {evs : List Ev} (h : Exclusive w k (ev :: evs)) : Exclusive (w.step ev) k evs :=
  fun past hp i hi => h (ev :: past) (List.cons_prefix_cons.mpr ⟨rfl, hp⟩) i hi

/-- An event of a thread that is not loading leaves the device alone. -/
theorem step_dev {w : World} {i : ℕ} (h : (w.threads i).NotLoading) : (w.step (.runs i)).dev = w.dev := by
  rcases hd : (w.threads i).doing with _ | ⟨c, cs⟩
  · simp only [World.step, hd]
    split <;> rfl
  · simp only [World.step, hd]
    rcases h c (by rw [hd]; simp) with rfl | rfl <;> rfl

theorem step_fails_dev (w : World) (i : ℕ) : (w.step (.fails i)).dev = w.dev := by
  simp only [World.step]
  split <;> rfl

theorem step_other {w : World} {i k : ℕ} (h : k ≠ i) : (w.step (.runs i)).threads k = w.threads k ∧ (w.step (.fails i)).threads k = w.threads k := by
  constructor
  · simp only [World.step]
    split
    · exact Function.update_of_ne h _ _
    · split
      · rfl
      · exact Function.update_of_ne h _ _
  · simp only [World.step]
    split
    · exact Function.update_of_ne h _ _
    · rfl

theorem step_todo (w : World) (ev : Ev) (k : ℕ) : ((w.step ev).threads k).todo <:+ (w.threads k).todo := by
  rcases ev with i | i
  · by_cases h : k = i
    · subst h
      simp only [World.step]
      split
      · simp only [Function.update_self]; exact List.suffix_rfl
      · split
        · exact List.suffix_rfl
        · rename_i h2
          simp only [Function.update_self, h2]
          exact List.suffix_cons _ _
    · rw [(step_other h).1]
  · by_cases h : k = i
    · subst h
      simp only [World.step]
      split
      · simp only [Function.update_self]; exact List.suffix_rfl
      · exact List.suffix_rfl
    · rw [(step_other h).2]

theorem run_todo (evs : List Ev) : ∀ (w : World) (k : ℕ), ((w.run evs).threads k).todo <:+ (w.threads k).todo := by
  induction evs with
  | nil => exact fun w k => List.suffix_rfl
  | cons ev evs ih => exact fun w k => (ih (w.step ev) k).trans (step_todo w ev k)

/-- While thread `k` alone is loading, the device receives its vendor calls and nothing else. -/
theorem exclusive_run {k : ℕ} {rest : List Call} (evs : List Ev) : ∀ (w : World) (cs : List Cmd), w.threads k = ⟨rest, cs⟩ → Exclusive w k evs →
    .fails k ∉ evs → (w.run evs).threads k = ⟨rest, []⟩ → (w.run evs).dev = cs.foldl apply w.dev := by
  induction evs with
  | nil =>
    intro w cs hk _ _ hdone
    have : cs = [] := by
      have := hk.symm.trans hdone
      injection this
    rw [this]
    rfl
  | cons ev evs ih =>
    intro w cs hk hex hf hdone
    have hf' : .fails k ∉ evs := fun h => hf (List.mem_cons_of_mem _ h)
    rcases ev with i | i
    · by_cases hi : i = k
      · subst hi
        rcases cs with _ | ⟨c, cs⟩
        · rcases rest with _ | ⟨call, rest⟩
          · have e : w.step (.runs i) = w := by simp only [World.step, hk]
            have := ih (w.step (.runs i)) [] (by rw [e, hk]) (exclusive_tail hex) hf' hdone
            rw [e] at this
            rw [show w.run (.runs i :: evs) = (w.step (.runs i)).run evs from rfl, e]
            exact this
          · exfalso
            have e : ((w.step (.runs i)).threads i).todo = rest := by simp only [World.step, hk, Function.update_self]
            have h1 := (run_todo evs (w.step (.runs i)) i).length_le
            change ((w.step (.runs i)).run evs).threads i = _ at hdone
            rw [hdone, e] at h1
            simp at h1
        · have e1 : (w.step (.runs i)).threads i = ⟨rest, cs⟩ := by simp only [World.step, hk, Function.update_self]
          have e2 : (w.step (.runs i)).dev = apply w.dev c := by simp only [World.step, hk]
          have := ih (w.step (.runs i)) cs e1 (exclusive_tail hex) hf' hdone
          rw [e2] at this
          exact this
      · have := ih (w.step (.runs i)) cs (by rw [(step_other (Ne.symm hi)).1, hk]) (exclusive_tail hex) hf' hdone
        rw [step_dev (exclusive_head hex hi)] at this
        exact this
    · have hi : i ≠ k := fun h => hf (by rw [h]; simp)
      have := ih (w.step (.fails i)) cs (by rw [(step_other (Ne.symm hi)).2, hk]) (exclusive_tail hex) hf' hdone
      rw [step_fails_dev] at this
      exact this

/-- … from before it begins. -/
theorem exclusive_call {k : ℕ} {call : Call} {rest : List Call} (evs : List Ev) : ∀ (w : World), w.threads k = ⟨call :: rest, []⟩ → Exclusive w k evs →
    .fails k ∉ evs → (w.run evs).threads k = ⟨rest, []⟩ → (w.run evs).dev = call.cmds.foldl apply w.dev := by
  induction evs with
  | nil =>
    intro w hk _ _ hdone
    have := congrArg (fun t : Thread => t.todo.length) (hk.symm.trans hdone)
    simp at this
  | cons ev evs ih =>
    intro w hk hex hf hdone
    have hf' : .fails k ∉ evs := fun h => hf (List.mem_cons_of_mem _ h)
    rcases ev with i | i
    · by_cases hi : i = k
      · subst hi
        have e1 : (w.step (.runs i)).threads i = ⟨rest, call.cmds⟩ := by simp only [World.step, hk, Function.update_self]
        have e2 : (w.step (.runs i)).dev = w.dev := by simp only [World.step, hk]
        have := exclusive_run evs (w.step (.runs i)) call.cmds e1 (exclusive_tail hex) hf' hdone
        rw [e2] at this
        exact this
      · have := ih (w.step (.runs i)) (by rw [(step_other (Ne.symm hi)).1, hk]) (exclusive_tail hex) hf' hdone
        rw [step_dev (exclusive_head hex hi)] at this
        exact this
    · have hi : i ≠ k := fun h => hf (by rw [h]; simp)
      have := ih (w.step (.fails i)) (by rw [(step_other (Ne.symm hi)).2, hk]) (exclusive_tail hex) hf' hdone
      rw [step_fails_dev] at this
      exact this

theorem noLoads_run (evs : List Ev) : ∀ w : World, NoLoads w evs → (w.run evs).dev = w.dev := by
  induction evs with
  | nil => exact fun w _ => rfl
  | cons ev evs ih =>
    intro w h
    have h1 := ih (w.step ev) fun past hp i => h (ev :: past) (List.cons_prefix_cons.mpr ⟨rfl, hp⟩) i
    rw [show w.run (ev :: evs) = (w.step ev).run evs from rfl, h1]
    rcases ev with i | i
    · exact step_dev (h [] List.nil_prefix i)
    · exact step_fails_dev w i

theorem step_fresh {w : World} (h : Fresh w.dev) (ev : Ev) : Fresh (w.step ev).dev := by
  rcases ev with i | i
  · simp only [World.step]
    split
    · exact fresh_apply h _
    · split <;> exact h
  · rw [step_fails_dev]
    exact h

theorem run_fresh (evs : List Ev) : ∀ {w : World}, Fresh w.dev → Fresh (w.run evs).dev := by
  induction evs with
  | nil => exact fun h => h
  | cons ev evs ih => exact fun h => ih (step_fresh h ev)

/-- **C187, what holds of every load that does not overlap with another one** (missing: overlapping loads, see `C187_refuted`). After any history of the
controller and any interleaving `before` of the calls of the threads (overlapping loads and failures included), let thread `k` make a load while no other
thread is inside a load (others may query the device). When it returns, the device runs exactly those pictures, until some thread begins another load. -/
theorem C187_exclusive_partial (fault : ℕ → Bool) (invert : Bool) (ops : List Op) (progs : ℕ → List Call) (before : List Ev)
    {imgs : List Image} (hn : imgs ≠ []) {call : Call} (hcall : call.Loads imgs) {k : ℕ} {rest : List Call} (during later : List Ev) :
    let w := (World.start (Alp.run fault (Ctl.new invert) ops).dev progs).run before
    w.threads k = ⟨call :: rest, []⟩ → Exclusive w k during → .fails k ∉ during → (w.run during).threads k = ⟨rest, []⟩ →
    NoLoads (w.run during) later →
      (w.run (during ++ later)).dev.projecting = some (imgs.length, stored imgs) := by
  intro w hk hex hf hdone hlater
  have hfr : Fresh w.dev := run_fresh before (fresh_run fault ops (fresh_new invert))
  rw [run_append, noLoads_run later _ hlater, exclusive_call during w hk hex hf hdone]
  rcases hcall with rfl | ⟨img, rfl, rfl⟩
  · rcases imgs with _ | ⟨img, imgs⟩
    · exact absurd rfl hn
    · exact projecting_multiple hfr _
  · have := projecting_single hfr img
    rw [show stored [img] = toBytes img by simp [stored, toBytes]]
    exact this

/-! ## Overlapping loads -/

/-- The vendor call changes neither the sequences nor what is running. -/
def Inert (c : Cmd) : Prop := (∀ d, (apply d c).seqs = d.seqs ∧ (apply d c).last = d.last ∧ (apply d c).running = d.running) ∧
  (∀ n, c ≠ .seqAlloc n) ∧ (∀ x, c ≠ .seqPut x) ∧ c ≠ .run

theorem cmds_cases {call : Call} (hv : call ≠ .loadMultiple []) {c : Cmd} {cs : List Cmd} (h : c :: cs <:+ call.cmds) :
    Inert c ∨ (c = .halt ∧ .run ∈ cs) ∨
    ∃ imgs, call.Loads imgs ∧ ((c = .seqAlloc imgs.length ∧ .seqPut (stored imgs) ∈ cs ∧ .run ∈ cs) ∨
      (c = .seqPut (stored imgs) ∧ ∀ n, .seqAlloc n ∉ cs) ∨ c = .run) := by
  have inert : ∀ c ∈ [Cmd.projSlave, .triggerRising, .seqControl, .seqInquire, .setTiming, .inquireWidth, .inquireHeight], Inert c := by
    intro c hc
    simp only [List.mem_cons, List.not_mem_nil, or_false] at hc
    rcases hc with rfl | rfl | rfl | rfl | rfl | rfl | rfl <;>
      exact ⟨fun d => ⟨rfl, rfl, rfl⟩, fun n => by simp, fun x => by simp, by simp⟩
  cases call with
  | loadSingle img =>
    have hst : stored [img] = toBytes img := by simp [stored, toBytes]
    simp only [Call.cmds, loadSingleCmds, List.suffix_cons_iff, List.cons.injEq, List.suffix_nil, reduceCtorEq, or_false] at h
    rcases h with ⟨rfl, rfl⟩ | ⟨rfl, rfl⟩ | ⟨rfl, rfl⟩ | ⟨rfl, rfl⟩ | ⟨rfl, rfl⟩ | ⟨rfl, rfl⟩
    · exact .inr (.inl ⟨rfl, by simp⟩)
    · exact .inr (.inr ⟨[img], .inr ⟨img, rfl, rfl⟩, .inl ⟨rfl, by simp [hst], by simp⟩⟩)
    · exact .inl (inert _ (by simp))
    · exact .inr (.inr ⟨[img], .inr ⟨img, rfl, rfl⟩, .inr (.inl ⟨by rw [hst], by simp⟩)⟩)
    · exact .inl (inert _ (by simp))
    · exact .inr (.inr ⟨[img], .inr ⟨img, rfl, rfl⟩, .inr (.inr rfl)⟩)
  | loadMultiple imgs =>
    rcases imgs with _ | ⟨img, imgs⟩
    · exact absurd rfl hv
    have hst : stored (img :: imgs) = toBytes (img :: imgs).flatten := rfl
    simp only [Call.cmds, loadMultipleCmds, ← hst, List.suffix_cons_iff, List.cons.injEq, List.suffix_nil, reduceCtorEq, or_false] at h
    rcases h with ⟨rfl, rfl⟩ | ⟨rfl, rfl⟩ | ⟨rfl, rfl⟩ | ⟨rfl, rfl⟩ | ⟨rfl, rfl⟩ | ⟨rfl, rfl⟩ | ⟨rfl, rfl⟩ | ⟨rfl, rfl⟩ | ⟨rfl, rfl⟩
    · exact .inr (.inl ⟨rfl, by simp⟩)
    · exact .inl (inert _ (by simp))
    · exact .inl (inert _ (by simp))
    · exact .inr (.inr ⟨_, .inl rfl, .inl ⟨rfl, by simp, by simp⟩⟩)
    · exact .inl (inert _ (by simp))
    · exact .inr (.inr ⟨_, .inl rfl, .inr (.inl ⟨rfl, by simp⟩)⟩)
    · exact .inl (inert _ (by simp))
    · exact .inl (inert _ (by simp))
    · exact .inr (.inr ⟨_, .inl rfl, .inr (.inr rfl)⟩)
  | queryNx =>
    simp only [Call.cmds, List.suffix_cons_iff, List.cons.injEq, List.suffix_nil, reduceCtorEq, or_false] at h
    exact .inl (inert _ (by simp [h.1]))
  | queryNy =>
    simp only [Call.cmds, List.suffix_cons_iff, List.cons.injEq, List.suffix_nil, reduceCtorEq, or_false] at h
    exact .inl (inert _ (by simp [h.1]))
  | numberImage =>
    simp only [Call.cmds, List.suffix_cons_iff, List.cons.injEq, List.suffix_nil, reduceCtorEq, or_false] at h
    rcases h with h | h <;> exact .inl (inert _ (by simp [h.1]))

/-- The images are loaded by one of the calls. -/
def Asked (progs : ℕ → List Call) (imgs : List Image) : Prop := ∃ i, ∃ call ∈ progs i, call.Loads imgs

/-- The library's current sequence exists, and has room for the pictures of some load. -/
def Ready (progs : ℕ → List Call) (d : Dev) : Prop :=
  ∃ id imgs data, d.last = some id ∧ (d.seqs.find? fun s => s.1 = id) = some (id, imgs.length, data) ∧ Asked progs imgs

/-- … and holds the pictures of some load. -/
def Filled (progs : ℕ → List Call) (d : Dev) : Prop :=
  ∃ id imgs imgs', d.last = some id ∧ (d.seqs.find? fun s => s.1 = id) = some (id, imgs.length, stored imgs') ∧ Asked progs imgs ∧ Asked progs imgs'

structure Inv (progs : ℕ → List Call) (w : World) : Prop where
  fresh : Fresh w.dev
  todo : ∀ i, (w.threads i).todo <:+ progs i
  doing : ∀ i, (w.threads i).doing = [] ∨ ∃ call ∈ progs i, (w.threads i).doing <:+ call.cmds
  ready : ∀ i x, .seqPut x ∈ (w.threads i).doing → (∀ n, .seqAlloc n ∉ (w.threads i).doing) → Ready progs w.dev
  state : (∀ i imgs, ∀ call ∈ progs i, call.Loads imgs → call ∈ (w.threads i).todo) ∨
    ((Filled progs w.dev ∨ ∃ i x, .seqPut x ∈ (w.threads i).doing) ∧ (w.dev.running = w.dev.last ∨ ∃ i, .run ∈ (w.threads i).doing))

theorem find_alloc {d : Dev} (h : Fresh d) (n : ℕ) :
    ((apply d (.seqAlloc n)).seqs.find? fun s => decide (s.1 = d.next)) = some (d.next, n, []) := by
  show ((d.seqs ++ [(d.next, n, [])]).find? fun s : ℕ × ℕ × List ℕ => s.1 = d.next) = _
  rw [List.find?_append, List.find?_eq_none.mpr fun s hs => by simpa using (h s hs).ne]
  simp

theorem find_put {d : Dev} {id n : ℕ} {data : List ℕ} (hl : d.last = some id) (hf : (d.seqs.find? fun s => s.1 = id) = some (id, n, data)) (x : List ℕ) :
    ((apply d (.seqPut x)).seqs.find? fun s => s.1 = id) = some (id, n, x) := by
  show ((d.seqs.map fun s => if some s.1 = d.last then (s.1, s.2.1, x) else s).find? fun s => s.1 = id) = _
  rw [List.find?_map]
  have e : ((fun s : ℕ × ℕ × List ℕ => decide (s.1 = id)) ∘ fun s => if some s.1 = d.last then (s.1, s.2.1, x) else s) = fun s => decide (s.1 = id) := by
    funext s
    simp only [Function.comp]
    split <;> rfl
  rw [e, hf, hl]
  simp

theorem Inv.step {progs : ℕ → List Call} (hv : ∀ i, .loadMultiple [] ∉ progs i) {w : World} (h : Inv progs w) (i : ℕ) : Inv progs (w.step (.runs i)) := by
  have hfr := step_fresh h.fresh (.runs i)
  have htodo : ∀ j, ((w.step (.runs i)).threads j).todo <:+ progs j := fun j => (step_todo w _ j).trans (h.todo j)
  rcases hd : (w.threads i).doing with _ | ⟨c, cs⟩
  · rcases ht : (w.threads i).todo with _ | ⟨call, rest⟩
    · have e : w.step (.runs i) = w := by simp only [World.step, hd, ht]
      rw [e]
      exact h
    · have e : w.step (.runs i) = ⟨w.dev, Function.update w.threads i ⟨rest, call.cmds⟩⟩ := by simp only [World.step, hd, ht]
      have hmem : call ∈ progs i := (h.todo i).subset (by rw [ht]; simp)
      rw [e] at hfr htodo ⊢
      refine ⟨hfr, htodo, fun j => ?_, fun j x hx hno => ?_, ?_⟩
      · by_cases hj : j = i
        · subst hj
          exact .inr ⟨call, hmem, by simp⟩
        · simp only [Function.update_of_ne hj]
          exact h.doing j
      · by_cases hj : j = i
        · subst hj
          simp only [Function.update_self] at hx hno
          exfalso
          cases call with
          | loadSingle img => exact hno 1 (by simp [Call.cmds, loadSingleCmds])
          | loadMultiple imgs =>
            rcases imgs with _ | ⟨img, imgs⟩
            · exact hv _ hmem
            · exact hno (img :: imgs).length (by simp [Call.cmds, loadMultipleCmds])
          | _ => simp [Call.cmds] at hx
        · simp only [Function.update_of_ne hj] at hx hno
          exact h.ready j x hx hno
      · rcases h.state with hs | ⟨h1, h2⟩
        · by_cases hl : ∃ imgs, call.Loads imgs
          · right
            obtain ⟨imgs, hl⟩ := hl
            have : (∃ x, Cmd.seqPut x ∈ call.cmds) ∧ Cmd.run ∈ call.cmds := by
              rcases hl with rfl | ⟨img, rfl, rfl⟩
              · rcases imgs with _ | ⟨img, imgs⟩
                · exact absurd hmem (hv i)
                · exact ⟨⟨_, by simp only [Call.cmds, loadMultipleCmds, List.mem_cons]; exact .inr (.inr (.inr (.inr (.inr (.inl rfl)))))⟩,
                    by simp [Call.cmds, loadMultipleCmds]⟩
              · exact ⟨⟨toBytes img, by simp [Call.cmds, loadSingleCmds]⟩, by simp [Call.cmds, loadSingleCmds]⟩
            obtain ⟨⟨x, hx⟩, hr⟩ := this
            exact ⟨.inr ⟨i, x, by simpa using hx⟩, .inr ⟨i, by simpa using hr⟩⟩
          · left
            intro j imgs call' hc hload
            by_cases hj : j = i
            · subst hj
              simp only [Function.update_self]
              have := hs j imgs call' hc hload
              rw [ht, List.mem_cons] at this
              rcases this with rfl | this
              · exact absurd ⟨imgs, hload⟩ hl
              · exact this
            · simp only [Function.update_of_ne hj]
              exact hs j imgs call' hc hload
        · right
          have keep : ∀ c : Cmd, ∀ j, c ∈ (w.threads j).doing → c ∈ (Function.update w.threads i ⟨rest, call.cmds⟩ j).doing := by
            intro c j hc
            by_cases hj : j = i
            · subst hj
              rw [hd] at hc
              cases hc
            · rw [Function.update_of_ne hj]
              exact hc
          exact ⟨h1.imp id fun ⟨j, x, hx⟩ => ⟨j, x, keep _ j hx⟩, h2.imp id fun ⟨j, hx⟩ => ⟨j, keep _ j hx⟩⟩
  · have e : w.step (.runs i) = ⟨apply w.dev c, Function.update w.threads i ⟨(w.threads i).todo, cs⟩⟩ := by simp only [World.step, hd]
    obtain ⟨call, hmem, hsuf⟩ := (h.doing i).resolve_left (by rw [hd]; simp)
    rw [hd] at hsuf
    have hdo : ∀ j, (Function.update w.threads i ⟨(w.threads i).todo, cs⟩ j).doing = [] ∨
        ∃ call ∈ progs j, (Function.update w.threads i ⟨(w.threads i).todo, cs⟩ j).doing <:+ call.cmds := by
      intro j
      by_cases hj : j = i
      · subst hj
        exact .inr ⟨call, hmem, by rw [Function.update_self]; exact (List.suffix_cons c cs).trans hsuf⟩
      · rw [Function.update_of_ne hj]
        exact h.doing j
    have htd : ∀ j, (Function.update w.threads i ⟨(w.threads i).todo, cs⟩ j).todo = (w.threads j).todo := by
      intro j
      by_cases hj : j = i
      · subst hj
        rw [Function.update_self]
      · rw [Function.update_of_ne hj]
    have keep : ∀ (x : Cmd) (j : ℕ), x ≠ c → x ∈ (w.threads j).doing → x ∈ (Function.update w.threads i ⟨(w.threads i).todo, cs⟩ j).doing := by
      intro x j hx hm
      by_cases hj : j = i
      · subst hj
        rw [hd, List.mem_cons] at hm
        rw [Function.update_self]
        exact hm.resolve_left hx
      · rw [Function.update_of_ne hj]
        exact hm
    have back : ∀ (x : Cmd) (j : ℕ), x ∈ (Function.update w.threads i ⟨(w.threads i).todo, cs⟩ j).doing → x ∈ (w.threads j).doing := by
      intro x j hm
      by_cases hj : j = i
      · subst hj
        rw [Function.update_self] at hm
        rw [hd]
        exact List.mem_cons_of_mem _ hm
      · rwa [Function.update_of_ne hj] at hm
    -- readiness that does not depend on the thread's own allocation
    have ready' : (∀ n, c ≠ .seqAlloc n) → ∀ j x, .seqPut x ∈ (Function.update w.threads i ⟨(w.threads i).todo, cs⟩ j).doing →
        (∀ n, .seqAlloc n ∉ (Function.update w.threads i ⟨(w.threads i).todo, cs⟩ j).doing) → Ready progs w.dev := by
      intro hc j x hx hno
      exact h.ready j x (back _ j hx) fun n hn => hno n (keep _ j (hc n).symm hn)
    rw [e] at hfr htodo ⊢
    rcases cmds_cases (fun hh => hv i (hh ▸ hmem)) hsuf with ⟨hin, ha, hp, hr⟩ | ⟨rfl, hrun⟩ | ⟨imgs, hload, hcase⟩
    · obtain ⟨e1, e2, e3⟩ := hin w.dev
      refine ⟨hfr, htodo, hdo, fun j x hx hno => ?_, ?_⟩
      · obtain ⟨id, m, data, q1, q2, q3⟩ := ready' ha j x hx hno
        exact ⟨id, m, data, by rw [← q1]; exact e2, by rw [← q2]; exact congrArg _ e1, q3⟩
      · rcases h.state with hs | ⟨h1, h2⟩
        · exact .inl fun j m call' hc hl => by rw [htd]; exact hs j m call' hc hl
        · refine .inr ⟨h1.imp ?_ fun ⟨j, x, hx⟩ => ⟨j, x, keep _ j (hp x).symm hx⟩, h2.imp (fun q => ?_) fun ⟨j, hx⟩ => ⟨j, keep _ j hr.symm hx⟩⟩
          · rintro ⟨id, m, m', q1, q2, q3⟩
            exact ⟨id, m, m', by rw [← q1]; exact e2, by rw [← q2]; exact congrArg _ e1, q3⟩
          · show (apply w.dev c).running = (apply w.dev c).last
            rw [e2, e3, q]
    · refine ⟨hfr, htodo, hdo, fun j x hx hno => ready' (by simp) j x hx hno, ?_⟩
      rcases h.state with hs | ⟨h1, h2⟩
      · exact .inl fun j m call' hc hl => by rw [htd]; exact hs j m call' hc hl
      · refine .inr ⟨h1.imp id fun ⟨j, x, hx⟩ => ⟨j, x, keep _ j (by simp) hx⟩, .inr ⟨i, ?_⟩⟩
        simp only [Function.update_self]
        exact hrun
    · have hask : Asked progs imgs := ⟨i, call, hmem, hload⟩
      rcases hcase with ⟨rfl, hput, hrun⟩ | ⟨rfl, hnoalloc⟩ | rfl
      · refine ⟨hfr, htodo, hdo, fun j x hx hno => ⟨w.dev.next, imgs, [], rfl, find_alloc h.fresh _, hask⟩, .inr ⟨.inr ⟨i, stored imgs, ?_⟩, .inr ⟨i, ?_⟩⟩⟩
        · simp only [Function.update_self]
          exact hput
        · simp only [Function.update_self]
          exact hrun
      · obtain ⟨id, m, data, q1, q2, q3⟩ := h.ready i (stored imgs) (by rw [hd]; simp) (fun n hn => by
          rw [hd, List.mem_cons] at hn
          exact hn.elim (by simp) (hnoalloc n))
        have q4 := find_put q1 q2 (stored imgs)
        refine ⟨hfr, htodo, hdo, fun j x hx hno => ⟨id, m, _, q1, q4, q3⟩, ?_⟩
        rcases h.state with hs | ⟨h1, h2⟩
        · exact .inl fun j m call' hc hl => by rw [htd]; exact hs j m call' hc hl
        · exact .inr ⟨.inl ⟨id, m, imgs, q1, q4, q3, hask⟩, h2.imp (fun q => q) fun ⟨j, hx⟩ => ⟨j, keep _ j (by simp) hx⟩⟩
      · refine ⟨hfr, htodo, hdo, fun j x hx hno => ready' (by simp) j x hx hno, ?_⟩
        rcases h.state with hs | ⟨h1, h2⟩
        · exact .inl fun j m call' hc hl => by rw [htd]; exact hs j m call' hc hl
        · exact .inr ⟨h1.imp (fun q => q) fun ⟨j, x, hx⟩ => ⟨j, x, keep _ j (by simp) hx⟩, .inl rfl⟩

theorem Inv.run {progs : ℕ → List Call} (hv : ∀ i, .loadMultiple [] ∉ progs i) (evs : List Ev) (hf : ∀ i, .fails i ∉ evs) :
    ∀ {w : World}, Inv progs w → Inv progs (w.run evs) := by
  induction evs with
  | nil => exact fun h => h
  | cons ev evs ih =>
    intro w h
    rcases ev with i | i
    · exact ih (fun j hj => hf j (List.mem_cons_of_mem _ hj)) (h.step hv i)
    · exact absurd (List.mem_cons_self) (hf i)

/-- **C187, overlapping loads.** In any interleaving in which no vendor call raises, when all threads have finished and there was at least one load, the device
runs a sequence that has room for the pictures of one of the loads and holds the pictures of one of the loads (not of the same one, perhaps): pictures of
different loads are not mixed, and memory that was never written is not shown. -/
theorem C187_finished (fault : ℕ → Bool) (invert : Bool) (ops : List Op) (progs : ℕ → List Call) (hv : ∀ i, .loadMultiple [] ∉ progs i) (evs : List Ev)
    (hf : ∀ i, .fails i ∉ evs) {w : World} (hw : w = (World.start (Alp.run fault (Ctl.new invert) ops).dev progs).run evs) (hfin : w.Finished)
    (hsome : ∃ i, ∃ call ∈ progs i, ∃ imgs, call.Loads imgs) :
    ∃ i, ∃ call ∈ progs i, ∃ imgs, call.Loads imgs ∧ ∃ i', ∃ call' ∈ progs i', ∃ imgs', call'.Loads imgs' ∧
      w.dev.projecting = some (imgs.length, stored imgs') := by
  have h0 : Inv progs (World.start (Alp.run fault (Ctl.new invert) ops).dev progs) :=
    ⟨fresh_run fault ops (fresh_new invert), fun i => List.suffix_rfl, fun i => .inl rfl, fun i x hx => (by cases hx), .inl fun i imgs call hc _ => hc⟩
  have h := Inv.run hv evs hf h0
  rw [← hw] at h
  obtain ⟨i, call, hc, imgs, hl⟩ := hsome
  rcases h.state with hs | ⟨h1, h2⟩
  · have := hs i imgs call hc hl
    rw [hfin i] at this
    cases this
  · have h1 := h1.resolve_right fun ⟨j, x, hx⟩ => by rw [hfin j] at hx; cases hx
    have h2 := h2.resolve_right fun ⟨j, hx⟩ => by rw [hfin j] at hx; cases hx
    obtain ⟨id, m, m', q1, q2, ⟨a, ca, ha, hla⟩, b, cb, hb, hlb⟩ := h1
    refine ⟨a, ca, ha, m, hla, b, cb, hb, m', hlb, ?_⟩
    rw [Dev.projecting, h2, q1]
    show Option.map _ (List.find? _ _) = _
    rw [q2]
    rfl

/-- **C187.** So if the threads only make calls of `load_single`, exactly one of the images is shown at the end, however the calls overlap. -/
theorem C187_singles (fault : ℕ → Bool) (invert : Bool) (ops : List Op) (progs : ℕ → List Call) (hv : ∀ i imgs, .loadMultiple imgs ∉ progs i)
    (evs : List Ev) (hf : ∀ i, .fails i ∉ evs) {w : World} (hw : w = (World.start (Alp.run fault (Ctl.new invert) ops).dev progs).run evs)
    (hfin : w.Finished) (hsome : ∃ i img, .loadSingle img ∈ progs i) :
    ∃ i img, .loadSingle img ∈ progs i ∧ w.dev.projecting = some (1, stored [img]) := by
  obtain ⟨i, img, hi⟩ := hsome
  obtain ⟨a, ca, ha, m, hla, b, cb, hb, m', hlb, q⟩ := C187_finished fault invert ops progs (fun i => hv i []) evs hf hw hfin
    ⟨i, _, hi, [img], .inr ⟨img, rfl, rfl⟩⟩
  rcases hla with rfl | ⟨x, rfl, rfl⟩
  · exact absurd ha (hv _ _)
  rcases hlb with rfl | ⟨y, rfl, rfl⟩
  · exact absurd hb (hv _ _)
  exact ⟨b, y, hb, q⟩

/-- Two threads, on a controller that was just initialized. -/
def twoThreads (a b : List Call) : World :=
  World.start (Alp.run (fun _ => false) (Ctl.new false) [.initialize]).dev fun i => if i = 0 then a else if i = 1 then b else []

/-- **C187** is false if loads overlap. One thread loads a single image, another one two images; all vendor calls succeed and both calls return; then the
device runs a sequence of two pictures for which only the data of the single image was transferred: neither what the one nor what the other loaded. -/
theorem C187_refuted (a b c : Image) : ∃ evs : List Ev,
    let w := (twoThreads [.loadSingle a] [.loadMultiple [b, c]]).run evs
    w.Finished ∧ (∀ i, .fails i ∉ evs) ∧ w.dev.projecting = some (2, stored [a]) := by
  refine ⟨[.runs 0, .runs 1, .runs 0, .runs 0, .runs 1, .runs 1, .runs 1, .runs 1, .runs 1, .runs 1, .runs 0, .runs 0, .runs 0, .runs 0, .runs 1, .runs 1,
    .runs 1], ?_, by simp, ?_⟩
  · intro i
    rcases i with _ | _ | i <;> simp [World.run, World.step, twoThreads, World.start, Call.cmds, loadSingleCmds, loadMultipleCmds, Function.update]
  · simp [World.run, World.step, twoThreads, World.start, Call.cmds, loadSingleCmds, loadMultipleCmds, Function.update, Alp.run, Alp.step, Ctl.new, sendAll, send,
      initCmds, apply, Dev.init, Dev.projecting, stored, toBytes]

/-- **C187.** Also with calls of `load_single` only, one of them may return while the device runs a sequence to which nothing was transferred yet. -/
theorem C187_blank (a b : Image) : ∃ evs : List Ev,
    let w := (twoThreads [.loadSingle a] [.loadSingle b]).run evs
    w.threads 0 = ⟨[], []⟩ ∧ (∀ i, .fails i ∉ evs) ∧ w.dev.projecting = some (1, []) := by
  refine ⟨[.runs 0, .runs 0, .runs 0, .runs 0, .runs 0, .runs 1, .runs 1, .runs 1, .runs 0, .runs 0], ?_, by simp, ?_⟩
  · simp [World.run, World.step, twoThreads, World.start, Call.cmds, loadSingleCmds, Function.update]
  · simp [World.run, World.step, twoThreads, World.start, Call.cmds, loadSingleCmds, Function.update, Alp.run, Alp.step, Ctl.new, sendAll, send,
      initCmds, apply, Dev.init, Dev.projecting, toBytes]

/-! ## The hypotheses can be met -/

/-- C187_exclusive_partial: one thread loads an image while another one asks for the size of the device. -/
example (a : Image) : ∃ during : List Ev,
    let w := twoThreads [.loadSingle a] [.numberImage]
    w.threads 0 = ⟨[.loadSingle a], []⟩ ∧ Exclusive w 0 during ∧ .fails 0 ∉ during ∧ (w.run during).threads 0 = ⟨[], []⟩ ∧
      NoLoads (w.run during) [.runs 1] := by
  refine ⟨[.runs 0, .runs 0, .runs 1, .runs 0, .runs 1, .runs 0, .runs 0, .runs 0, .runs 0], rfl, ?_, by simp, ?_, ?_⟩
  · intro past hp i hi
    rw [← List.mem_inits] at hp
    simp only [List.inits, List.map_cons, List.map_nil, List.mem_cons, List.not_mem_nil, or_false] at hp
    by_cases h1 : i = 1
    · subst h1
      rcases hp with rfl | rfl | rfl | rfl | rfl | rfl | rfl | rfl | rfl | rfl <;> simp [World.run, World.step, twoThreads, World.start, Call.cmds, loadSingleCmds, Thread.NotLoading]
    · rcases hp with rfl | rfl | rfl | rfl | rfl | rfl | rfl | rfl | rfl | rfl <;> simp [World.run, World.step, twoThreads, World.start, Call.cmds, loadSingleCmds, Thread.NotLoading, hi, h1]
  · simp [World.run, World.step, twoThreads, World.start, Call.cmds, loadSingleCmds]
  · intro past hp i
    rw [← List.mem_inits] at hp
    simp only [List.inits, List.map_cons, List.map_nil, List.mem_cons, List.not_mem_nil, or_false] at hp
    by_cases h1 : i = 1
    · subst h1
      rcases hp with rfl | rfl <;> simp [World.run, World.step, twoThreads, World.start, Call.cmds, loadSingleCmds, Thread.NotLoading]
    · by_cases h0 : i = 0
      · subst h0
        rcases hp with rfl | rfl <;> simp [World.run, World.step, twoThreads, World.start, Call.cmds, loadSingleCmds, Thread.NotLoading]
      · rcases hp with rfl | rfl <;> simp [World.run, World.step, twoThreads, World.start, Call.cmds, loadSingleCmds, Thread.NotLoading, h0, h1]

/-- C187_finished and C187_singles: two calls of `load_single` whose vendor calls alternate. -/
example (a b : Image) : ∃ evs : List Ev, ((twoThreads [.loadSingle a] [.loadSingle b]).run evs).Finished ∧ (∀ i, .fails i ∉ evs) ∧
    ((twoThreads [.loadSingle a] [.loadSingle b]).run evs).dev.projecting = some (1, stored [b]) := by
  refine ⟨[.runs 0, .runs 1, .runs 0, .runs 1, .runs 0, .runs 1, .runs 0, .runs 1, .runs 0, .runs 1, .runs 0, .runs 1, .runs 0, .runs 1], ?_, by simp, ?_⟩
  · intro i
    rcases i with _ | _ | i <;> simp [World.run, World.step, twoThreads, World.start, Call.cmds, loadSingleCmds, Function.update]
  · simp [World.run, World.step, twoThreads, World.start, Call.cmds, loadSingleCmds, Function.update, Alp.run, Alp.step, Ctl.new, sendAll, send,
      initCmds, apply, Dev.init, Dev.projecting, stored, toBytes]

end PySLM2.Controller.SharedAlp
