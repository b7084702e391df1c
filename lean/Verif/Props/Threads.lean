import Verif.Lemmas.Threads
import Verif.Props.Cache

/-!
# C146, C147: several threads
-/

namespace PySLM2.Threads

open Cache Spec

variable {V A : Type}

/-- **C146.** Whatever the number of threads, their programs, the size of the caches and the order in which their
steps are interleaved: if the precision was used before the threads started (or none of them assigns it), every
thread that ends gives a result it can give when all its precision reads show the precision configured at start-up,
its grid queries the uncached grids of that precision, its assignments of the precision raise `AssertionError`, and
its reads of `fft_backend` show values that were configured or assigned by some thread. -/
theorem C146_schedules (C : Code V) (cap : ℕ) (gpu : Bool) (pre : List Backend.Op) (progs : ℕ → Prog V A)
    (hq : Backend.Spec.locked pre = true ∨ ∀ i, Makes KeepsPrecision (progs i)) {S : Set ℤ}
    (hS : Backend.Spec.chosenFft gpu pre ∈ S) (hs : ∀ i, Makes (Selects S) (progs i)) (sched : List ℕ) (i : ℕ) {a : A}
    (ha : ((World.start gpu pre progs).run C cap sched).result i = some a) :
    Gives C (Backend.Spec.chosen pre) S (progs i) a := by
  have h := ((start_good C gpu pre hq hS hs).run (cap := cap) sched).thread i
  refine h.gives a ?_
  unfold World.result at ha
  rcases hp : (((World.start gpu pre progs).run C cap sched).threads i).prog with b | ⟨op, k⟩
  · rw [hp] at ha
    cases ha
    exact .done a
  · rw [hp] at ha
    cases ha

theorem gives_unique {C : Code V} {d : Backend.DType} {v : ℤ} {p : Prog V A} {a : A} (ha : Gives C d {v} p a) :
    ∀ {b : A}, Gives C d {v} p b → a = b := by
  induction ha with
  | done a => intro b hb; cases hb; rfl
  | @call op k o a ho _ ih =>
    intro b hb
    obtain _ | ⟨ho', hb⟩ := hb
    rename_i o'
    have : o = o' := by
      rcases op with op | ⟨m, obj⟩
      · rcases op with _ | _ | _ | _ | w | w
        all_goals simp only [Answers] at ho ho'
        all_goals try exact ho.trans ho'.symm
        obtain ⟨x, hx, rfl⟩ := ho
        obtain ⟨y, hy, rfl⟩ := ho'
        rw [Set.mem_singleton_iff.mp hx, Set.mem_singleton_iff.mp hy]
      · exact ho.trans ho'.symm
    subst this
    exact ih hb

/-- **C146.** Threads do not disturb each other: as long as no thread changes `fft_backend`, the result of a thread is
the same in every process (other threads running other programs, another order of the steps, other cache sizes),
in particular the same as when it runs alone. -/
theorem C146_independent (C : Code V) (cap cap' : ℕ) (gpu : Bool) (pre : List Backend.Op) (progs progs' : ℕ → Prog V A)
    (hq : Backend.Spec.locked pre = true ∨ ∀ i, Makes KeepsPrecision (progs i) ∧ Makes KeepsPrecision (progs' i))
    (hs : ∀ i, Makes (Selects ∅) (progs i) ∧ Makes (Selects ∅) (progs' i)) (sched sched' : List ℕ) (i : ℕ)
    (hi : progs i = progs' i) {a b : A} (ha : ((World.start gpu pre progs).run C cap sched).result i = some a)
    (hb : ((World.start gpu pre progs').run C cap' sched').result i = some b) : a = b := by
  have mono : ∀ p : Prog V A, Makes (Selects ∅) p → Makes (Selects {Backend.Spec.chosenFft gpu pre}) p := by
    intro p
    induction p with
    | done a => exact fun _ => trivial
    | call op k ih => exact fun h => ⟨fun v hv => ((h.1 v hv).elim), fun o => ih o (h.2 o)⟩
  have h1 := C146_schedules C cap gpu pre progs (hq.imp id fun q i => (q i).1) (S := {Backend.Spec.chosenFft gpu pre})
    rfl (fun i => mono _ (hs i).1) sched i ha
  have h2 := C146_schedules C cap' gpu pre progs' (hq.imp id fun q i => (q i).2) (S := {Backend.Spec.chosenFft gpu pre})
    rfl (fun i => mono _ (hs i).2) sched' i hb
  rw [← hi] at h2
  exact gives_unique h1 h2

/-- The thread ends after finitely many of its own steps, whatever the shared state is at each of them. -/
inductive Ends (C : Code V) (cap : ℕ) : Thread V A → Prop
  | done {t : Thread V A} {a : A} : t.prog = .done a → Ends C cap t
  | step {t : Thread V A} : (∀ s, Ends C cap (Threads.step C cap s t).2) → Ends C cap t

theorem ends (C : Code V) (cap : ℕ) (p : Prog V A) : Ends C cap (⟨p, .idle, none⟩ : Thread V A) := by
  induction p with
  | done a => exact .done rfl
  | call op k ih =>
    have hret0 : ∀ pc r, Ends C cap (returns C ⟨.call op k, pc, none⟩ r) := fun pc r => ih _
    have hbody0 : ∀ m obj r, Ends C cap (⟨.call op k, .body m obj (.ret r), none⟩ : Thread V A) := by
      intro m obj r
      refine .step fun s => ?_
      show Ends C cap (finish C cap s _ m obj r).2
      unfold finish
      rcases r with e | v
      · exact ih _
      · dsimp only
        split <;> exact ih _
    have hret : ∀ pc out r, Ends C cap (returns C ⟨.call op k, pc, out⟩ r) := by
      intro pc out r
      rcases out with _ | obj
      · exact hret0 _ _
      · exact hbody0 _ _ _
    have hbody : ∀ b m obj out, Ends C cap (⟨.call op k, .body m obj b, out⟩ : Thread V A) := by
      intro b
      induction b with
      | ret r =>
        intro m obj out
        refine .step fun s => ?_
        show Ends C cap (finish C cap s _ m obj r).2
        unfold finish
        rcases r with e | v
        · exact hret _ _ _
        · dsimp only
          split <;> exact hret _ _ _
      | read f ihf =>
        intro m obj out
        exact .step fun s => .step fun s' => ihf _ _ _ _
    have hlook : ∀ s pc out m obj, m ≠ .fourier → Ends C cap (lookup C s ⟨.call op k, pc, out⟩ m obj).2 := by
      intro s pc out m obj hm
      unfold lookup
      split
      · exact hret _ _ _
      · rw [if_neg hm]; exact hbody _ _ _ _
    have hlook' : ∀ s pc out m obj, Ends C cap (lookup C s ⟨.call op k, pc, out⟩ m obj).2 := by
      intro s pc out m obj
      by_cases hm : m = .fourier
      · subst hm
        unfold lookup
        split
        · exact hret _ _ _
        · rw [if_pos rfl]
          exact .step fun s' => hlook _ _ _ _ _ (by decide)
      · exact hlook _ _ _ _ _ hm
    refine .step fun s => ?_
    show Ends C cap (begin C s _ op).2
    rcases op with op | ⟨m, obj⟩
    · rcases op with _ | _ | _ | _ | v | v <;> dsimp only [begin]
      · exact .step fun s' => ih _
      · exact .step fun s' => ih _
      · exact .step fun s' => ih _
      · exact ih _
      · split_ifs
        · exact ih _
        · exact .step fun s' => ih _
        · exact ih _
      · exact ih _
    · exact hlook' _ _ _ _ _

/-- The first `n` steps of an unending schedule. -/
def first (σ : ℕ → ℕ) (n : ℕ) : List ℕ := (List.range n).map σ

theorem run_first (C : Code V) (cap : ℕ) (w : World V A) (σ : ℕ → ℕ) (n : ℕ) :
    w.run C cap (first σ (n + 1)) = (w.run C cap (first σ n)).step C cap (σ n) := by
  simp only [first, List.range_succ, List.map_append, run_append]
  rfl

theorem ends_fair {C : Code V} {cap : ℕ} (w : World V A) (σ : ℕ → ℕ) (i : ℕ) (hf : ∀ n, ∃ k, n ≤ k ∧ σ k = i)
    {t : Thread V A} (ht : Ends C cap t) :
    ∀ n, (w.run C cap (first σ n)).threads i = t → ∃ n' a, (w.run C cap (first σ n')).result i = some a := by
  induction ht with
  | @done t a h => intro n hn; exact ⟨n, a, by simp [World.result, hn, h]⟩
  | @step t _ ih =>
    intro n hn
    classical
    obtain ⟨hk, hki⟩ := Nat.find_spec (hf n)
    have hmin : ∀ j, n ≤ j → j ≤ Nat.find (hf n) → (w.run C cap (first σ j)).threads i = t := by
      intro j hj
      induction j, hj using Nat.le_induction with
      | base => exact fun _ => hn
      | succ j hj ihj =>
        intro hle
        have hne : σ j ≠ i := fun he => Nat.find_min (hf n) (m := j) (by omega) ⟨hj, he⟩
        rw [run_first]
        simp only [World.step, Function.update_of_ne hne.symm]
        exact ihj (by omega)
    have h1 := hmin _ hk le_rfl
    refine ih (w.run C cap (first σ (Nat.find (hf n)))).shared (Nat.find (hf n) + 1) ?_
    rw [run_first, hki]
    simp only [World.step, Function.update_self, h1]

/-- **C146.** No thread ever waits for another: in every unending schedule that lets thread `i` make a step again and
again, thread `i` ends, whatever the others do or fail to do. -/
theorem C146_progress (C : Code V) (cap : ℕ) (gpu : Bool) (pre : List Backend.Op) (progs : ℕ → Prog V A)
    (σ : ℕ → ℕ) (i : ℕ) (hf : ∀ n, ∃ k, n ≤ k ∧ σ k = i) :
    ∃ n a, ((World.start gpu pre progs).run C cap ((List.range n).map σ)).result i = some a :=
  ends_fair (World.start gpu pre progs) σ i hf (ends C cap (progs i)) 0 rfl

/-- **C146.** At no point of any schedule does a cache hold more than its size, nor two entries of one object. -/
theorem C146_bounded (C : Code V) (cap : ℕ) (gpu : Bool) (pre : List Backend.Op) (progs : ℕ → Prog V A)
    (sched : List ℕ) (m : Method) :
    (((World.start gpu pre progs).run C cap sched).shared.cache m).length ≤ cap ∧
      ((((World.start gpu pre progs).run C cap sched).shared.cache m).map Prod.fst).Nodup := by
  let J : Cache.State V → Prop := fun s => ∀ m, (s.cache m).length ≤ cap ∧ ((s.cache m).map Prod.fst).Nodup
  have htouch : ∀ (c : Lru V) (e : ℕ × V), e ∈ c → c.length ≤ cap ∧ (c.map Prod.fst).Nodup →
      (touch c e).length ≤ cap ∧ ((touch c e).map Prod.fst).Nodup := by
    intro c e he ⟨h1, h2⟩
    constructor
    · have hlt : (c.filter fun e' => e'.1 ≠ e.1).length < c.length := by
        rw [List.length_filter_lt_length_iff_exists]
        exact ⟨e, he, by simp⟩
      simp only [touch, List.length_cons]
      omega
    · simp only [touch, List.map_cons, List.nodup_cons]
      refine ⟨?_, (List.filter_sublist.map Prod.fst).nodup h2⟩
      intro hc
      obtain ⟨e', he', heq⟩ := List.mem_map.mp hc
      have := (List.mem_filter.mp he').2
      simp [heq] at this
  have hstore : ∀ (c : Lru V) (e : ℕ × V), c.find? (fun e' => e'.1 = e.1) = none →
      c.length ≤ cap ∧ (c.map Prod.fst).Nodup → (store cap c e).length ≤ cap ∧ ((store cap c e).map Prod.fst).Nodup := by
    intro c e hn ⟨h1, h2⟩
    refine ⟨List.length_take_le _ _, ((List.take_sublist _ _).map Prod.fst).nodup ?_⟩
    rw [List.map_cons, List.nodup_cons]
    refine ⟨fun hc => ?_, h2⟩
    obtain ⟨e', he', heq⟩ := List.mem_map.mp hc
    have := List.find?_eq_none.mp hn e' he'
    simp [heq] at this
  have hupd : ∀ (s : Cache.State V) (m : Method) (c : Lru V), J s → c.length ≤ cap ∧ (c.map Prod.fst).Nodup →
      J { s with cache := Function.update s.cache m c } := by
    intro s m c hs hc m'
    by_cases h : m' = m
    · subst h; simpa using hc
    · simpa [h] using hs m'
  have hlook : ∀ (s : Cache.State V) (t : Thread V A) m obj, J s → J (lookup C s t m obj).1 := by
    intro s t m obj hs
    unfold lookup
    rcases hf : (s.cache m).find? (fun e => e.1 = obj) with _ | e
    · simp only [hf]
      split_ifs <;> exact hs
    · simp only [hf]
      exact hupd _ _ _ hs (htouch _ _ (List.mem_of_find?_eq_some hf) (hs m))
  have hstep : ∀ (s : Cache.State V) (t : Thread V A), J s → J (step C cap s t).1 := by
    intro s t hs
    unfold step
    split
    · split
      · exact hs
      · rename_i op _ _
        rcases op with op | ⟨m, obj⟩
        · rcases op with _ | _ | _ | _ | v | v <;> dsimp only [begin] <;> try exact hs
          split_ifs <;> exact hs
        · exact hlook _ _ _ _ hs
    · exact hs
    · exact hs
    · exact hlook _ _ _ _ hs
    · rename_i m obj r _
      unfold finish
      rcases r with e | v
      · exact hs
      · dsimp only
        rcases hf : (s.cache m).find? (fun e => e.1 = obj) with _ | e
        · simp only [hf]
          exact hupd _ _ _ hs (hstore _ _ hf (hs m))
        · simp only [hf]
          exact hs
    · exact hs
    · exact hs
  have hrun : ∀ (sched : List ℕ) (w : World V A), J w.shared → J (w.run C cap sched).shared := by
    intro sched
    induction sched with
    | nil => exact fun w h => h
    | cons i sched ih => exact fun w h => ih _ (hstep _ _ h)
  exact hrun sched _ (fun m => by simp [World.start]) m

/-- The grid methods of the single-threaded model of C65 as bodies (each reads the precision twice,
`slm.py:100-101`, `slm.py:117-118`, `simulation.py:96-99`, `simulation.py:113-114`). -/
def codeOf (B : Bodies V) : Code V where
  body m obj :=
    match PySLM2.Spec.gridValue B m obj with
    | .error e => .ret (.error e)
    | .ok f => .read fun d => .read fun _ => .ret (f d)
  convert := B.convert

/-- The program that makes the calls `ops` and returns all the answers. -/
def script : List Cache.Op → List (Cache.Out V) → Prog V (List (Cache.Out V))
  | [], acc => .done acc
  | op :: ops, acc => .call op fun o => script ops (acc ++ [o])

/-- **C146.** The threads see what the single-threaded program sees: when the precision was used at start-up, a thread that
makes the calls `ops` (no thread assigning `fft_backend`) gets, in every schedule and beside any other threads, the
answers the same calls give in the single-threaded program that goes on after the same start-up. -/
theorem C146_sequential (B : Bodies V) (cap cap' : ℕ) (gpu : Bool) (pre : List Backend.Op)
    (hq : Backend.Spec.locked pre = true) (progs : ℕ → Prog V (List (Cache.Out V)))
    (hs : ∀ i, Makes (Selects ∅) (progs i)) (sched : List ℕ) (i : ℕ) {ops : List Cache.Op}
    (hi : progs i = script ops []) {a : List (Cache.Out V)}
    (ha : ((World.start gpu pre progs).run (codeOf B) cap sched).result i = some a) :
    (Cache.run cap' B (State.init gpu) (pre.map .backend ++ ops)).2 =
      (Backend.run (Backend.init gpu) pre).2.map .backend ++ a := by
  have mono : ∀ p : Prog V (List (Cache.Out V)), Makes (Selects ∅) p → Makes (Selects {Backend.Spec.chosenFft gpu pre}) p := by
    intro p
    induction p with
    | done a => exact fun _ => trivial
    | call op k ih => exact fun h => ⟨fun v hv => ((h.1 v hv).elim), fun o => ih o (h.2 o)⟩
  have hg := C146_schedules (codeOf B) cap gpu pre progs (Or.inl hq) (S := {Backend.Spec.chosenFft gpu pre})
    rfl (fun i => mono _ (hs i)) sched i ha
  have hm := hs i
  rw [hi] at hg hm
  rw [(C65_transparent cap' B gpu _).1]
  obtain ⟨⟨hd, hinit, hf⟩, -⟩ := Backend.reached_run gpu pre [] _ (Backend.reached_init gpu)
  simp only [List.nil_append] at hd hinit hf
  rw [hq] at hinit
  have happ : ∀ (l : List Backend.Op) (b : Backend.State),
      (PySLM2.Spec.runUncached B b (l.map .backend ++ ops)).2 = (Backend.run b l).2.map .backend ++
        (PySLM2.Spec.runUncached B (Backend.run b l).1 ops).2 := by
    intro l
    induction l with
    | nil => exact fun b => rfl
    | cons op l ih =>
      intro b
      simp only [List.map_cons, List.cons_append, PySLM2.Spec.runUncached, PySLM2.Spec.stepUncached, Backend.run, ih]
  rw [happ]
  congr 1
  generalize hb : (Backend.run (Backend.init gpu) pre).1 = b at hd hinit hf ⊢
  have key : ∀ (ops : List Cache.Op) (acc : List (Cache.Out V)), Makes (Selects ∅) (script ops acc) →
      ∀ a, Gives (codeOf B) (Backend.Spec.chosen pre) {Backend.Spec.chosenFft gpu pre} (script ops acc) a →
      a = acc ++ (PySLM2.Spec.runUncached B b ops).2 := by
    intro ops
    induction ops with
    | nil => intro acc _ a ha; cases ha; simp [PySLM2.Spec.runUncached]
    | cons op ops ih =>
      intro acc hmk a ha
      obtain _ | ⟨ho, ha⟩ := ha
      rename_i o
      have hstep : PySLM2.Spec.stepUncached B b op = (b, o) := by
        obtain ⟨bd, bf, bi⟩ := b
        simp only at hd hinit hf
        subst hd hinit hf
        rcases op with op | ⟨m, obj⟩
        · rcases op with _ | _ | _ | _ | v | v <;> simp only [Answers] at ho
          · subst ho; rfl
          · subst ho
            simp only [PySLM2.Spec.stepUncached, Backend.step, Backend.getDtypeComplex]
            cases Backend.Spec.chosen pre <;> rfl
          · subst ho
            simp only [PySLM2.Spec.stepUncached, Backend.step, Backend.getDtypeInt]
            cases Backend.Spec.chosen pre <;> rfl
          · obtain ⟨x, hx, rfl⟩ := ho
            rw [Set.mem_singleton_iff.mp hx]; rfl
          · subst ho; rfl
          · exact (hmk.1 v rfl).elim
        · simp only [Answers] at ho
          subst ho
          simp only [PySLM2.Spec.stepUncached]
          have hval : Threads.Spec.gridValue (codeOf B) (Backend.Spec.chosen pre) m obj =
              (PySLM2.Spec.gridValue B m obj).bind (fun f => f (Backend.Spec.chosen pre)) := by
            unfold Threads.Spec.gridValue codeOf
            by_cases hm : m = .fourier
            · subst hm
              simp [PySLM2.Spec.gridValue, Threads.Spec.bodyValue, Except.map, Except.bind]
            · rw [if_neg hm]
              dsimp only
              rcases e : PySLM2.Spec.gridValue B m obj with e' | f <;>
                simp [Threads.Spec.bodyValue, Except.bind]
          rw [hval]
          rcases e : PySLM2.Spec.gridValue B m obj with e' | f
          · simp [Except.bind]
          · simp [Except.bind, Backend.getDtype]
      rw [ih _ (hmk.2 o) a ha]
      simp only [PySLM2.Spec.runUncached, hstep]
      simp
  have := key ops [] hm a hg
  simpa using this.symm

/-- **C147 (partial).** In the middle of any schedule, once some thread has used the precision: later on the precision is
the present one, or one of those that other threads were just about to write (having passed the test before).
Hence it can no longer change when no thread is in the middle of an assignment.  An assignment that begins later
raises `AssertionError`.  Missing from the property: assignments under way during the first use. -/
theorem C147_partial (C : Code V) (cap : ℕ) (w : World V A) (hw : w.shared.backend.initialized = true)
    (sched : List ℕ) :
    ((w.run C cap sched).shared.backend.dtype = w.shared.backend.dtype ∨
      ∃ i v, (w.threads i).pc = .assign v ∧ (w.run C cap sched).shared.backend.dtype = v) ∧
    ∀ i v k, ((w.run C cap sched).threads i).pc = .idle →
      ((w.run C cap sched).threads i).prog = .call (.backend (.setDtype v)) k →
      ((w.run C cap sched).step C cap i).threads i = ⟨k (.backend (.raised .assertionError)), .idle, none⟩ := by
  have hlook : ∀ (s : Cache.State V) (t : Thread V A) m obj,
      (lookup C s t m obj).1.backend = s.backend ∧ ∀ v, (lookup C s t m obj).2.pc ≠ .assign v := by
    intro s t m obj
    have hr : ∀ r v, (returns C t r).pc ≠ .assign v := by
      intro r v
      unfold returns answer
      split
      · split <;> simp
      · simp
    unfold lookup
    split
    · exact ⟨rfl, hr _⟩
    · split_ifs
      · exact ⟨rfl, by simp⟩
      · exact ⟨rfl, by simp⟩
  have hstep : ∀ (s : Cache.State V) (t : Thread V A), s.backend.initialized = true →
      (step C cap s t).1.backend.initialized = true ∧ (∀ v, (step C cap s t).2.pc ≠ .assign v) ∧
      ((step C cap s t).1.backend.dtype = s.backend.dtype ∨ t.pc = .assign (step C cap s t).1.backend.dtype) := by
    intro s t hs
    have ha : ∀ o v, (answer t o).pc ≠ .assign v := by
      intro o v
      unfold answer
      split <;> simp
    have hr : ∀ r v, (returns C t r).pc ≠ .assign v := by
      intro r v
      unfold returns
      split
      · exact ha _ _
      · simp
    unfold step
    split
    · rename_i hpc
      split
      · exact ⟨hs, by rw [hpc]; simp, Or.inl rfl⟩
      · rename_i op _ _
        rcases op with op | ⟨m, obj⟩
        · rcases op with _ | _ | _ | _ | v | v <;> dsimp only [begin]
          · exact ⟨rfl, by simp, Or.inl rfl⟩
          · exact ⟨rfl, by simp, Or.inl rfl⟩
          · exact ⟨rfl, by simp, Or.inl rfl⟩
          · exact ⟨hs, ha _, Or.inl rfl⟩
          · rw [if_pos hs]
            exact ⟨hs, ha _, Or.inl rfl⟩
          · exact ⟨hs, ha _, Or.inl rfl⟩
        · obtain ⟨h1, h2⟩ := hlook s t m obj
          exact ⟨by rw [begin, h1]; exact hs, h2, Or.inl (by rw [begin, h1])⟩
    · rename_i v hpc
      exact ⟨hs, ha _, Or.inr hpc⟩
    · exact ⟨hs, ha _, Or.inl rfl⟩
    · rename_i m obj _
      obtain ⟨h1, h2⟩ := hlook s t m obj
      exact ⟨by rw [h1]; exact hs, h2, Or.inl (by rw [h1])⟩
    · unfold finish
      split
      · exact ⟨hs, hr _, Or.inl rfl⟩
      · split
        · exact ⟨hs, hr _, Or.inl rfl⟩
        · exact ⟨hs, hr _, Or.inl rfl⟩
    · exact ⟨rfl, by simp, Or.inl rfl⟩
    · exact ⟨hs, by simp, Or.inl rfl⟩
  have hrun : ∀ (sched : List ℕ) (w : World V A), w.shared.backend.initialized = true →
      (w.run C cap sched).shared.backend.initialized = true ∧
      ((w.run C cap sched).shared.backend.dtype = w.shared.backend.dtype ∨
        ∃ i v, (w.threads i).pc = .assign v ∧ (w.run C cap sched).shared.backend.dtype = v) := by
    intro sched
    induction sched with
    | nil => exact fun w h => ⟨h, Or.inl rfl⟩
    | cons i sched ih =>
      intro w h
      obtain ⟨h1, h2, h3⟩ := hstep w.shared (w.threads i) h
      obtain ⟨g1, g2⟩ := ih (w.step C cap i) h1
      refine ⟨g1, ?_⟩
      rcases g2 with g2 | ⟨j, v, g2, g3⟩
      · rcases h3 with h3 | h3
        · exact Or.inl (g2.trans h3)
        · exact Or.inr ⟨i, _, h3, g2⟩
      · by_cases hj : j = i
        · subst hj
          simp only [World.step, Function.update_self] at g2
          exact absurd g2 (h2 v)
        · simp only [World.step, Function.update_of_ne hj] at g2
          exact Or.inr ⟨j, v, g2, g3⟩
  obtain ⟨h1, h2⟩ := hrun sched w hw
  refine ⟨h2, fun i v k hpc hp => ?_⟩
  simp only [World.step, Function.update_self, step, hpc, hp, begin, h1, if_true, answer]

/-! Witnesses. -/

/-- Assign double precision. -/
def assigner (A : Type) (V : Type) (a : A) : Prog V A := .call (.backend (.setDtype .float64)) fun _ => .done a

/-- Read the precision twice. -/
def reader (V : Type) : Prog V (List (Cache.Out V)) :=
  .call (.backend .readDtype) fun o => .call (.backend .readDtype) fun o' => .done [o, o']

/-- **C147 is false of the code**: thread 0 configures double precision while thread 1 reads the precision twice.  When
thread 1 runs between the test and the write of the setter, it sees first single and then double precision. -/
theorem C147_refuted (C : Code V) (cap : ℕ) :
    let w := (World.start false [] fun i => if i = 0 then assigner _ V [] else reader V).run C cap [0, 1, 1, 0, 1, 1]
    w.result 1 = some [.backend (.dtype .float32), .backend (.dtype .float64)] := rfl

/-- **C147 is false of the code**, grids: the same race in the middle of the computation of a pixel grid (whose two
coordinates each read the precision) makes a grid of mixed precision, which is cached: thread 1 gets it again in its
second query, although no thread runs beside it any more. -/
theorem C147_torn (cap : ℕ) (hcap : 0 < cap) (C : Code (Backend.DType × Backend.DType))
    (hC : C.body .pixel 7 = .read fun d => .read fun d' => .ret (.ok (d, d'))) :
    let w := (World.start false [] fun i => if i = 0 then assigner _ _ [] else
      .call (.grid .pixel 7) fun o => .call (.grid .pixel 7) fun o' => .done [o, o']).run C cap
        [0, 1, 1, 1, 0, 1, 1, 1, 1]
    w.result 1 = some [.grid (.ok (.float32, .float64)), .grid (.ok (.float32, .float64))] := by
  obtain ⟨n, rfl⟩ : ∃ n, cap = n + 1 := ⟨cap - 1, by omega⟩
  simp [World.run, World.step, World.start, World.result, step, begin, lookup, finish, returns, answer, hC, assigner,
    Backend.run, Backend.init, Backend.DType.eq64, store, touch]

/-- The hypotheses of C146 are met: a start-up that configures and uses double precision, two threads that both ask for
the Fourier grid of one object, one of which also tries to configure the precision. -/
example : Backend.Spec.locked [.setDtype .float64, .readDtype] = true ∧
    Backend.Spec.chosen [.setDtype .float64, .readDtype] = .float64 ∧
    Backend.Spec.chosenFft false [.setDtype .float64, .readDtype] ∈ ({1} : Set ℤ) ∧
    ∀ i : ℕ, Makes (V := Unit) (A := List (Cache.Out Unit)) (Selects {1}) (if i = 0 then
      .call (.grid .fourier 3) fun o => .done [o] else
      .call (.backend (.setDtype .float32)) fun o => .call (.grid .fourier 3) fun o' => .done [o, o']) := by
  refine ⟨rfl, rfl, rfl, fun i => ?_⟩
  by_cases hi : i = 0 <;> simp only [hi, if_true, if_false]
  · exact ⟨fun v hv => (by cases hv), fun o => trivial⟩
  · exact ⟨fun v hv => (by cases hv), fun o => ⟨fun v hv => (by cases hv), fun o' => trivial⟩⟩

/-- Both threads of such a process miss the caches and compute the grids; thread 1 finds thread 0's pixel grid when it
stores its own.  Both get the grid of the configured precision, and the late assignment raises. -/
example (C : Code Backend.DType) (hC : C.body .pixel 3 = .read fun d => .ret (.ok d)) (hc : C.convert 3 = id) :
    let w := (World.start false [.setDtype .float64, .readDtype] fun i => if i = 0 then
        .call (.grid .fourier 3) fun o => .done [o] else
        .call (.backend (.setDtype .float32)) fun o => .call (.grid .fourier 3) fun o' => .done [o, o']).run C 128
      [0, 1, 1, 0, 1, 0, 1, 0, 1, 0, 0, 1, 1]
    w.result 0 = some [.grid (.ok .float64)] ∧
      w.result 1 = some [.backend (.raised .assertionError), .grid (.ok .float64)] ∧
      w.shared.cache .pixel = [(3, .float64)] ∧ w.shared.cache .fourier = [(3, .float64)] := by
  simp [World.run, World.step, World.start, World.result, step, begin, lookup, finish, returns, answer, hC, hc,
    Backend.run, Backend.init, Backend.step, Backend.setDtype, Backend.getDtype, Backend.DType.eq64, store,
    Except.map]

end PySLM2.Threads
