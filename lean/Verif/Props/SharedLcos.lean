import Verif.Spec.SharedLcos

/-!
# Threads that use one LCOS SLM (C184)
-/

noncomputable section

namespace PySLM2.SharedLcos

open LCOS

/-- What an interrupted thread corresponds to: its call has not been made yet, and would assign what is about to be stored. -/
def Matches (l : LCOS) (t : Thread) (p : Prog) : Prop :=
  match t with
  | .idle q => p = q
  | .storing new q => ∃ c k, p = .call c k ∧ ∀ st, perform { l with state := st } c = ({ l with state := new }, .done (.ok ())) ∧ q = k (.done (.ok ()))

theorem matches_congr {l l' : LCOS} (h : l.slm = l'.slm) (t : Thread) (p : Prog) : Matches l t p ↔ Matches l' t p := by
  cases t with
  | idle q => rfl
  | storing new q => simp only [Matches, h]

theorem slm_step (l : LCOS) (t : Thread) : (stepThread l t).1.slm = l.slm := by
  rcases t with (_ | ⟨c, k⟩) | ⟨new, p⟩
  · rfl
  · rcases c with _ | ⟨h, inp, target, method, kw, u⟩ | st | _
    · rfl
    · simp only [stepThread]
      split <;> rfl
    · rfl
    · rfl
  · rfl

theorem refine_step {w : World} {a : Atomic} (hl : w.lcos = a.lcos) (hm : ∀ i, Matches w.lcos (w.threads i) (a.progs i)) (i : ℕ) :
    (w.step i).lcos = a.lcos ∧ (∀ j, Matches (w.step i).lcos ((w.step i).threads j) (a.progs j)) ∨
    (w.step i).lcos = (a.call i).lcos ∧ ∀ j, Matches (w.step i).lcos ((w.step i).threads j) ((a.call i).progs j) := by
  have hi := hm i
  have hslm : (w.step i).lcos.slm = w.lcos.slm := slm_step _ _
  have keep : ∀ t' p', stepThread w.lcos (w.threads i) = (w.lcos, t') → Matches w.lcos t' p' → ∀ q : ℕ → Prog, (∀ j, j ≠ i → q j = a.progs j) → q i = p' →
      (w.step i).lcos = a.lcos ∧ ∀ j, Matches (w.step i).lcos ((w.step i).threads j) (q j) := by
    intro t' p' e ht q hq hqi
    have e1 : (w.step i).lcos = w.lcos := by simp only [World.step, e]
    refine ⟨e1.trans hl, fun j => ?_⟩
    rw [e1]
    by_cases hj : j = i
    · subst hj
      simp only [World.step, e, Function.update_self, hqi]
      exact ht
    · simp only [World.step, Function.update_of_ne hj, hq j hj]
      exact hm j
  rcases ht : w.threads i with (_ | ⟨c, k⟩) | ⟨new, p⟩
  · left
    refine keep (.idle .ended) .ended (by rw [ht]; rfl) rfl a.progs (fun _ _ => rfl) ?_
    rw [ht] at hi
    exact hi
  · rw [ht] at hi
    have hp : a.progs i = .call c k := hi
    have call_eq : a.call i = ⟨(perform a.lcos c).1, Function.update a.progs i (k (perform a.lcos c).2)⟩ := by
      unfold Atomic.call
      rw [hp]
    rcases c with _ | ⟨h, inp, target, method, kw, u⟩ | st | _
    · left
      refine keep _ _ (by rw [ht]; rfl) ?_ a.progs (fun _ _ => rfl) hp
      exact ⟨_, _, rfl, fun st => ⟨rfl, rfl⟩⟩
    · rcases hh : hologram w.lcos.slm h inp target method kw u with e | t
      · right
        have e' : a.lcos.calculateHologram h inp target method kw u = (a.lcos, .error e) := by
          unfold calculateHologram
          rw [← hl, hh]
        have pf : perform a.lcos (.calculate h inp target method kw u) = (a.lcos, .done (.error e)) := by simp only [perform, e']
        rw [call_eq, pf]
        refine keep (.idle (k (.done (.error e)))) _ (by rw [ht]; simp only [stepThread, hh]) rfl _
          (fun j hj => Function.update_of_ne hj _ _) (Function.update_self _ _ _)
      · left
        refine keep _ _ (by rw [ht]; simp only [stepThread, hh]; rfl) ?_ a.progs (fun _ _ => rfl) hp
        refine ⟨_, _, rfl, fun st => ⟨?_, rfl⟩⟩
        simp only [perform, calculateHologram, hh]
    · left
      refine keep _ _ (by rw [ht]; rfl) ?_ a.progs (fun _ _ => rfl) hp
      exact ⟨_, _, rfl, fun st => ⟨rfl, rfl⟩⟩
    · right
      rw [call_eq]
      refine keep (.idle (k (.value w.lcos.state))) _ (by rw [ht]; rfl) rfl _ (fun j hj => Function.update_of_ne hj _ _) ?_
      rw [hl]
      exact Function.update_self _ _ _
  · right
    rw [ht] at hi
    obtain ⟨c, k, hp, hpf⟩ := hi
    obtain ⟨pf, hq⟩ := hpf w.lcos.state
    have pf : perform a.lcos c = ({ w.lcos with state := new }, .done (.ok ())) := by rw [← hl]; exact pf
    have call_eq : a.call i = ⟨{ w.lcos with state := new }, Function.update a.progs i p⟩ := by
      unfold Atomic.call
      rw [hp]
      simp only [pf, hq]
    rw [call_eq]
    have e1 : (w.step i).lcos = { w.lcos with state := new } := by simp only [World.step, ht]; rfl
    refine ⟨e1, fun j => ?_⟩
    rw [matches_congr hslm]
    by_cases hj : j = i
    · subst hj
      simp only [World.step, ht, Function.update_self]
      rfl
    · simp only [World.step, Function.update_of_ne hj]
      exact hm j

/-- The uninterrupted calls `a` correspond to the threads `w`. -/
def Inv (w : World) (a : Atomic) : Prop := w.lcos = a.lcos ∧ ∀ i, Matches w.lcos (w.threads i) (a.progs i)

open Classical in
/-- The order of the calls: a call is made when it takes effect. -/
def orderOf (w : World) (a : Atomic) : List ℕ → List ℕ
  | [] => []
  | i :: sched => if Inv (w.step i) a then orderOf (w.step i) a sched else i :: orderOf (w.step i) (a.call i) sched

theorem orderOf_sublist (w : World) (a : Atomic) (sched : List ℕ) : (orderOf w a sched).Sublist sched := by
  induction sched generalizing w a with
  | nil => exact List.Sublist.refl _
  | cons i sched ih =>
    unfold orderOf
    split
    · exact (ih _ _).cons _
    · exact (ih _ _).cons_cons _

theorem orderOf_inv {w : World} {a : Atomic} (h : Inv w a) (sched : List ℕ) : Inv (w.run sched) (a.calls (orderOf w a sched)) := by
  induction sched generalizing w a with
  | nil => exact h
  | cons i sched ih =>
    unfold orderOf
    split
    · next h' => exact ih h'
    · next h' => exact ih ((refine_step h.1 h.2 i).resolve_left h')

open Classical in
theorem orderOf_append (w : World) (a : Atomic) (s₁ s₂ : List ℕ) :
    orderOf w a (s₁ ++ s₂) = orderOf w a s₁ ++ orderOf (w.run s₁) (a.calls (orderOf w a s₁)) s₂ := by
  induction s₁ generalizing w a with
  | nil => rfl
  | cons i s₁ ih =>
    have e : ∀ s, orderOf w a (i :: s) = if Inv (w.step i) a then orderOf (w.step i) a s else i :: orderOf (w.step i) (a.call i) s := fun _ => rfl
    by_cases h : Inv (w.step i) a
    · rw [List.cons_append, e, e, if_pos h, if_pos h]
      exact ih _ _
    · rw [List.cons_append, e, e, if_neg h, if_neg h, List.cons_append, ih]
      rfl

/-- **C184.** Any number of threads use one LCOS SLM, with any programs, which may depend on what their calls returned and on the states they read.
For every schedule there is an order in which the calls could have been made one after the other, without interruption, such that
the SLM shows the same state, and every thread between two calls has got the same results and states and so has the same calls still to make.
The order respects time: when the schedule goes on, calls are only added at the end, at moments in which their threads run. -/
theorem C184_linearizable (l : LCOS) (progs : ℕ → Prog) : ∃ order : List ℕ → List ℕ,
    (∀ sched, ((World.start l progs).run sched).lcos = (Atomic.calls ⟨l, progs⟩ (order sched)).lcos ∧
      ∀ i p, ((World.start l progs).run sched).threads i = .idle p → (Atomic.calls ⟨l, progs⟩ (order sched)).progs i = p) ∧
    ∀ now later, ∃ added, order (now ++ later) = order now ++ added ∧ added.Sublist later := by
  refine ⟨orderOf (World.start l progs) ⟨l, progs⟩, fun sched => ?_, fun now later => ⟨_, orderOf_append _ _ _ _, orderOf_sublist _ _ _⟩⟩
  obtain ⟨h2, h3⟩ := orderOf_inv (w := World.start l progs) (a := ⟨l, progs⟩) ⟨rfl, fun _ => rfl⟩ sched
  refine ⟨h2, fun i p hp => ?_⟩
  have := h3 i
  rw [hp] at this
  exact this

/-- **C184.** When all threads have ended, all their calls have been made in that order. -/
theorem C184_ended (l : LCOS) (progs : ℕ → Prog) (sched : List ℕ) (hend : ((World.start l progs).run sched).Ended) :
    ∃ order : List ℕ, (Atomic.calls ⟨l, progs⟩ order).progs = (fun _ => .ended) ∧
      ((World.start l progs).run sched).lcos = (Atomic.calls ⟨l, progs⟩ order).lcos := by
  obtain ⟨order, h, -⟩ := C184_linearizable l progs
  exact ⟨order sched, funext fun i => (h sched).2 i _ (hend i), (h sched).1⟩

/-- What a state can be: that of the start, one that a thread assigned, no phase at all after a reset, or the hologram of one call. -/
def Whole (l : LCOS) (Q : Req → Prop) (st : LcosState) : Prop :=
  st = l.state ∨ ∃ c, Q c ∧ (perform l c).1.state = st

theorem atomic_whole (l : LCOS) (Q : Req → Prop) (order : List ℕ) : ∀ a : Atomic, a.lcos.slm = l.slm → Whole l Q a.lcos.state →
    (∀ i, (a.progs i).Only Q) → (a.calls order).lcos.slm = l.slm ∧ Whole l Q (a.calls order).lcos.state := by
  induction order with
  | nil => exact fun a h1 h2 _ => ⟨h1, h2⟩
  | cons i order ih =>
    intro a h1 h2 h3
    have key : (a.call i).lcos.slm = l.slm ∧ Whole l Q (a.call i).lcos.state ∧ ∀ j, ((a.call i).progs j).Only Q := by
      unfold Atomic.call
      rcases hp : a.progs i with _ | ⟨c, k⟩
      · exact ⟨h1, h2, h3⟩
      · have hi := h3 i
        rw [hp] at hi
        simp only
        refine ⟨?_, ?_, fun j => ?_⟩
        · rcases c with _ | ⟨h, inp, target, method, kw, u⟩ | st | _ <;> try exact h1
          simp only [perform, calculateHologram]
          split <;> exact h1
        · rcases c with _ | ⟨h, inp, target, method, kw, u⟩ | st | _
          · exact .inr ⟨_, hi.1, by simp only [perform, LCOS.reset, h1]⟩
          · rcases hh : hologram l.slm h inp target method kw u with e | t
            · simp only [perform, calculateHologram, h1, hh]
              exact h2
            · refine .inr ⟨_, hi.1, ?_⟩
              simp only [perform, calculateHologram, h1, hh]
          · exact .inr ⟨_, hi.1, rfl⟩
          · exact h2
        · by_cases hj : j = i
          · subst hj
            rw [Function.update_self]
            exact hi.2 _
          · rw [Function.update_of_ne hj]
            exact h3 j
    exact ih _ key.1 key.2.1 key.2.2

/-- **C184.** At every moment the SLM shows one whole state: the one at the start or the result of one single call, made alone, that a thread may make.
Holograms of different threads are never mixed. -/
theorem C184_whole (l : LCOS) {progs : ℕ → Prog} {Q : Req → Prop} (hq : ∀ i, (progs i).Only Q) (sched : List ℕ) :
    ((World.start l progs).run sched).lcos.slm = l.slm ∧ Whole l Q ((World.start l progs).run sched).lcos.state := by
  obtain ⟨order, h, -⟩ := C184_linearizable l progs
  rw [(h sched).1]
  exact atomic_whole l Q (order sched) ⟨l, progs⟩ rfl (.inl rfl) hq

/-- **C184.** No thread ever waits for another: whatever has happened, a thread that runs alone is done with its program after finitely many steps. -/
theorem C184_ends (w : World) (i : ℕ) : ∃ k, (w.run (List.replicate k i)).threads i = .idle .ended := by
  have idle : ∀ (p : Prog) (w : World), w.threads i = .idle p → ∃ k, (w.run (List.replicate k i)).threads i = .idle .ended := by
    intro p
    induction p with
    | ended => exact fun w h => ⟨0, h⟩
    | call c k ih =>
      intro w h
      have one : ∀ r, (w.step i).threads i = .idle (k r) → ∃ n, (w.run (List.replicate n i)).threads i = .idle .ended := by
        intro r hr
        obtain ⟨n, hn⟩ := ih r _ hr
        exact ⟨n + 1, hn⟩
      have two : ∀ new r, (w.step i).threads i = .storing new (k r) → ∃ n, (w.run (List.replicate n i)).threads i = .idle .ended := by
        intro new r hr
        obtain ⟨n, hn⟩ := ih r ((w.step i).step i) (by
          show Function.update _ i _ i = _
          rw [Function.update_self, hr]
          rfl)
        exact ⟨n + 2, hn⟩
      have hs : (w.step i).threads i = (stepThread w.lcos (w.threads i)).2 := Function.update_self _ _ _
      rw [h] at hs
      rcases c with _ | ⟨h', inp, target, method, kw, u⟩ | st | _
      · exact two _ _ hs
      · rcases hh : hologram w.lcos.slm h' inp target method kw u with e | t
        · simp only [stepThread, hh] at hs
          exact one _ hs
        · simp only [stepThread, hh] at hs
          exact two _ _ hs
      · exact two _ _ hs
      · exact one _ hs
  rcases ht : w.threads i with p | ⟨new, p⟩
  · exact idle p w ht
  · obtain ⟨k, hk⟩ := idle p (w.step i) (by
      show Function.update _ i _ i = _
      rw [Function.update_self, ht]
      rfl)
    exact ⟨k + 1, hk⟩

/-- The client program `slm.slm_state = slm.slm_state + correction`. -/
def addPhase (φ : ℕ → ℕ → ℂ) : Prog :=
  .call .read fun r => match r with
    | .value st => .call (.assign ⟨st.kind, ⟨st.arr.shape, fun i j => st.arr.get i j + φ i j⟩⟩) fun _ => .ended
    | .done _ => .ended

/-- **C184**, what is not promised: two threads that each add a phase map to the state (by reading and assigning it) may lose one of the two, whatever
the maps and the SLM are. -/
theorem C184_lost_update (l : LCOS) (φ ψ : ℕ → ℕ → ℂ) : ∃ sched : List ℕ,
    let w := (World.start l fun i => if i = 0 then addPhase φ else if i = 1 then addPhase ψ else .ended).run sched
    w.Ended ∧ w.lcos.state.arr = ⟨l.state.arr.shape, fun i j => l.state.arr.get i j + ψ i j⟩ := by
  refine ⟨[0, 1, 0, 0, 1, 1], ?_⟩
  constructor
  · intro i
    by_cases h0 : i = 0
    · subst h0; rfl
    · by_cases h1 : i = 1
      · subst h1; rfl
      · simp [World.run, World.start, World.step, Function.update, h0, h1]
  · rfl

/-- A case: one thread computes a hologram, which fails or not, another one resets the SLM, a third one reads it. -/
example (s : SLM) (h : Profile.Heap) (inp target : ProfArg) (u : ℕ → ℕ → ℝ) (sched : List ℕ) :
    let progs : ℕ → Prog := fun i => if i = 0 then .call (.calculate h inp target "gs" {} u) fun _ => .ended
      else if i = 1 then .call .reset fun _ => .ended else .call .read fun _ => .ended
    ((World.start (LCOS.new s) progs).run sched).lcos.state = zeroState s ∨
      ((World.start (LCOS.new s) progs).run sched).lcos.state = ((LCOS.new s).calculateHologram h inp target "gs" {} u).1.state := by
  intro progs
  have := (C184_whole (LCOS.new s) (progs := progs) (Q := fun c => c = .calculate h inp target "gs" {} u ∨ c = .reset ∨ c = .read) (fun i => by
    by_cases h0 : i = 0
    · simp [progs, h0, Prog.Only]
    · by_cases h1 : i = 1
      · simp [progs, h1, Prog.Only]
      · simp [progs, h0, h1, Prog.Only]) sched).2
  rcases this with h | ⟨c, rfl | rfl | rfl, h⟩
  · exact .inl h
  · exact .inr h.symm
  · exact .inl h.symm
  · exact .inl h.symm

end PySLM2.SharedLcos
