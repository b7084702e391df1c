import Verif.Spec.Threads
import Verif.Lemmas.Backend

/-!
# Lemmas about threads
-/

namespace PySLM2.Threads

open Cache Spec

variable {V A : Type}

/-- What is true of the shared state while the precision is `d`. -/
structure SGood (C : Code V) (d : Backend.DType) (S : Set ℤ) (s : Cache.State V) : Prop where
  dtype : s.backend.dtype = d
  fft : s.backend.fftBackend ∈ S
  cache : ∀ m, ∀ e ∈ s.cache m, gridValue C d m e.1 = .ok e.2

/-- The place in the current call fits the program. -/
def PcGood (C : Code V) (d : Backend.DType) (t : Thread V A) : Prop :=
  match t.pc with
  | .idle => t.outer = none
  | .assign _ => False
  | .fetch op => t.outer = none ∧ Backend.Spec.isRead op = true ∧ ∃ k, t.prog = .call (.backend op) k
  | .query m obj => m = .pixel ∧ t.outer = some obj ∧ ∃ k, t.prog = .call (.grid .fourier obj) k
  | .body m obj b => bodyValue d b = gridValue C d m obj ∧
      ((t.outer = none ∧ ∃ k, t.prog = .call (.grid m obj) k) ∨
        (t.outer = some obj ∧ m = .pixel ∧ ∃ k, t.prog = .call (.grid .fourier obj) k))
  | .flagged m obj f => bodyValue d (f d) = gridValue C d m obj ∧
      ((t.outer = none ∧ ∃ k, t.prog = .call (.grid m obj) k) ∨
        (t.outer = some obj ∧ m = .pixel ∧ ∃ k, t.prog = .call (.grid .fourier obj) k))

/-- What is true of a thread that started with `p`. -/
structure TGood (C : Code V) (d : Backend.DType) (S : Set ℤ) (p : Prog V A) (t : Thread V A) : Prop where
  pc : PcGood C d t
  selects : Makes (Selects S) t.prog
  gives : ∀ a, Gives C d S t.prog a → Gives C d S p a

theorem gridValue_pixel (C : Code V) (d : Backend.DType) (obj : ℕ) :
    gridValue C d .pixel obj = bodyValue d (C.body .pixel obj) := by simp [gridValue]

theorem gridValue_fourier (C : Code V) (d : Backend.DType) (obj : ℕ) :
    gridValue C d .fourier obj = (gridValue C d .pixel obj).map (C.convert obj) := by simp [gridValue]

/-- A call is answered acceptably. -/
theorem TGood.answer {C : Code V} {d : Backend.DType} {S : Set ℤ} {p : Prog V A} {t : Thread V A}
    (h : TGood C d S p t) {op : Cache.Op} {k : Cache.Out V → Prog V A} (hp : t.prog = .call op k) {o : Cache.Out V}
    (ho : Answers C d S op o) :
    TGood C d S p (answer t o) ∧ (Makes KeepsPrecision t.prog → Makes KeepsPrecision (Threads.answer t o).prog) := by
  have hs := h.selects
  have hg := h.gives
  rw [hp] at hs hg
  unfold Threads.answer
  rw [hp]
  exact ⟨⟨rfl, hs.2 o, fun a ha => hg a (.call ho ha)⟩, fun hm => hm.2 o⟩

theorem TGood.returns {C : Code V} {d : Backend.DType} {S : Set ℤ} {p : Prog V A} {t : Thread V A}
    (h : TGood C d S p t) {m : Method} {obj : ℕ}
    (hp : (t.outer = none ∧ ∃ k, t.prog = .call (.grid m obj) k) ∨
        (t.outer = some obj ∧ m = .pixel ∧ ∃ k, t.prog = .call (.grid .fourier obj) k))
    {r : Except PyErr V} (hr : r = gridValue C d m obj) :
    TGood C d S p (Threads.returns C t r) ∧
      (Makes KeepsPrecision t.prog → Makes KeepsPrecision (Threads.returns C t r).prog) := by
  unfold Threads.returns
  rcases hp with ⟨ho, k, hp⟩ | ⟨ho, rfl, k, hp⟩
  · rw [ho]
    exact h.answer hp (by rw [hr]; rfl)
  · rw [ho]
    refine ⟨⟨?_, h.selects, h.gives⟩, id⟩
    simp only [PcGood]
    refine ⟨?_, Or.inl ⟨trivial, k, hp⟩⟩
    rw [gridValue_fourier, hr]
    rfl

theorem good_lookup {C : Code V} {d : Backend.DType} {S : Set ℤ} {s : Cache.State V} (hs : SGood C d S s)
    {p : Prog V A} {t : Thread V A} (h : TGood C d S p t) {m : Method} {obj : ℕ}
    (hp : (t.outer = none ∧ ∃ k, t.prog = .call (.grid m obj) k) ∨
        (t.outer = some obj ∧ m = .pixel ∧ ∃ k, t.prog = .call (.grid .fourier obj) k)) :
    SGood C d S (lookup C s t m obj).1 ∧ TGood C d S p (lookup C s t m obj).2 ∧
      (lookup C s t m obj).1.backend = s.backend ∧
      (Makes KeepsPrecision t.prog → Makes KeepsPrecision (lookup C s t m obj).2.prog) := by
  unfold lookup
  rcases hf : (s.cache m).find? (fun e => e.1 = obj) with _ | e
  · simp only [hf]
    by_cases hm : m = .fourier
    · subst hm
      rw [if_pos rfl]
      refine ⟨hs, ⟨?_, h.selects, h.gives⟩, rfl, id⟩
      rcases hp with ⟨-, hp⟩ | ⟨-, hm, -⟩
      · exact ⟨rfl, rfl, hp⟩
      · cases hm
    · rw [if_neg hm]
      refine ⟨hs, ⟨?_, h.selects, h.gives⟩, rfl, id⟩
      exact ⟨by simp [gridValue, hm], hp⟩
  · simp only [hf]
    have he := List.mem_of_find?_eq_some hf
    have ho : e.1 = obj := by simpa using List.find?_some hf
    obtain ⟨h1, h2⟩ := h.returns (r := .ok e.2) hp (by rw [← ho, hs.cache m e he])
    refine ⟨⟨hs.dtype, hs.fft, fun m' e' he' => ?_⟩, h1, trivial, h2⟩
    by_cases hm : m' = m
    · subst hm
      simp only [Function.update_self, touch, List.mem_cons, List.mem_filter] at he'
      rcases he' with rfl | ⟨he', -⟩
      · exact hs.cache _ _ he
      · exact hs.cache _ _ he'
    · simp only [Function.update_of_ne hm] at he'
      exact hs.cache _ _ he'

theorem good_finish {C : Code V} {cap : ℕ} {d : Backend.DType} {S : Set ℤ} {s : Cache.State V} (hs : SGood C d S s)
    {p : Prog V A} {t : Thread V A} (h : TGood C d S p t) {m : Method} {obj : ℕ} {r : Except PyErr V}
    (hr : r = gridValue C d m obj)
    (hp : (t.outer = none ∧ ∃ k, t.prog = .call (.grid m obj) k) ∨
        (t.outer = some obj ∧ m = .pixel ∧ ∃ k, t.prog = .call (.grid .fourier obj) k)) :
    SGood C d S (finish C cap s t m obj r).1 ∧ TGood C d S p (finish C cap s t m obj r).2 ∧
      (finish C cap s t m obj r).1.backend = s.backend ∧
      (Makes KeepsPrecision t.prog → Makes KeepsPrecision (finish C cap s t m obj r).2.prog) := by
  unfold finish
  rcases r with e | v
  · obtain ⟨h1, h2⟩ := h.returns hp hr
    exact ⟨hs, h1, rfl, h2⟩
  · obtain ⟨h1, h2⟩ := h.returns hp hr
    dsimp only
    rcases hf : (s.cache m).find? (fun e => e.1 = obj) with _ | e
    · simp only [hf]
      refine ⟨⟨hs.dtype, hs.fft, fun m' e' he' => ?_⟩, h1, trivial, h2⟩
      by_cases hm : m' = m
      · subst hm
        simp only [Function.update_self, store] at he'
        rcases List.mem_cons.mp (List.mem_of_mem_take he') with rfl | he'
        · exact hr.symm
        · exact hs.cache _ _ he'
      · simp only [Function.update_of_ne hm] at he'
        exact hs.cache _ _ he'
    · simp only [hf]
      exact ⟨hs, h1, trivial, h2⟩

/-- The effect of a step on whether the precision was used. -/
theorem good_step {C : Code V} {cap : ℕ} {d : Backend.DType} {S : Set ℤ} {s : Cache.State V} (hs : SGood C d S s)
    {p : Prog V A} {t : Thread V A} (h : TGood C d S p t)
    (hq : s.backend.initialized = true ∨ Makes KeepsPrecision t.prog) :
    SGood C d S (step C cap s t).1 ∧ TGood C d S p (step C cap s t).2 ∧
      (s.backend.initialized = true → (step C cap s t).1.backend.initialized = true) ∧
      (Makes KeepsPrecision t.prog → Makes KeepsPrecision (step C cap s t).2.prog) := by
  obtain ⟨prog, pc, outer⟩ := t
  have hpc := h.pc
  unfold step
  rcases pc with _ | v | op | ⟨m, obj⟩ | ⟨m, obj, b⟩ | ⟨m, obj, f⟩
  · -- idle
    rcases prog with a | ⟨op, k⟩
    · exact ⟨hs, h, id, id⟩
    · dsimp only [PcGood] at hpc
      rcases op with op | ⟨m, obj⟩
      · rcases op with _ | _ | _ | _ | v | v <;> dsimp only [begin]
        · exact ⟨⟨hs.dtype, hs.fft, hs.cache⟩, ⟨⟨hpc, rfl, k, rfl⟩, h.selects, h.gives⟩, fun _ => rfl, id⟩
        · exact ⟨⟨hs.dtype, hs.fft, hs.cache⟩, ⟨⟨hpc, rfl, k, rfl⟩, h.selects, h.gives⟩, fun _ => rfl, id⟩
        · exact ⟨⟨hs.dtype, hs.fft, hs.cache⟩, ⟨⟨hpc, rfl, k, rfl⟩, h.selects, h.gives⟩, fun _ => rfl, id⟩
        · obtain ⟨h1, h2⟩ := h.answer rfl (o := .backend (.fft s.backend.fftBackend)) ⟨_, hs.fft, rfl⟩
          exact ⟨hs, h1, id, h2⟩
        · rcases hq with hq | hq
          · obtain ⟨h1, h2⟩ := h.answer rfl (o := .backend (.raised .assertionError)) rfl
            rw [if_pos hq]
            exact ⟨hs, h1, id, h2⟩
          · exact absurd rfl (hq.1 v)
        · obtain ⟨h1, h2⟩ := h.answer rfl (o := .backend .done) rfl
          exact ⟨⟨hs.dtype, h.selects.1 v rfl, hs.cache⟩, h1, id, h2⟩
      · obtain ⟨h1, h2, h3, h4⟩ := good_lookup hs h (m := m) (obj := obj) (Or.inl ⟨hpc, k, rfl⟩)
        exact ⟨h1, h2, fun hi => (congrArg Backend.State.initialized h3).trans hi, h4⟩
  · exact hpc.elim
  · -- fetch
    obtain ⟨-, hr, k, hp⟩ := hpc
    dsimp only at hp ⊢
    obtain ⟨h1, h2⟩ := h.answer hp (o := .backend (Backend.step s.backend op).2) (by
      rcases op with _ | _ | _ | _ | v | v <;> simp [Backend.Spec.isRead] at hr
      · simp [Answers, Backend.step, Backend.getDtype, hs.dtype]
      · simp only [Answers, Backend.step, Backend.getDtypeComplex, hs.dtype]
        cases d <;> rfl
      · simp only [Answers, Backend.step, Backend.getDtypeInt, hs.dtype]
        cases d <;> rfl)
    exact ⟨hs, h1, id, h2⟩
  · -- query
    obtain ⟨rfl, ho, hp⟩ := hpc
    obtain ⟨h1, h2, h3, h4⟩ := good_lookup hs h (m := .pixel) (obj := obj) (Or.inr ⟨ho, rfl, hp⟩)
    exact ⟨h1, h2, by dsimp only; rw [h3]; exact id, h4⟩
  · rcases b with r | f
    · obtain ⟨h1, h2, h3, h4⟩ := good_finish (cap := cap) hs h (m := m) (obj := obj) (r := r) hpc.1 hpc.2
      exact ⟨h1, h2, by dsimp only; rw [h3]; exact id, h4⟩
    · exact ⟨⟨hs.dtype, hs.fft, hs.cache⟩, ⟨⟨hpc.1, hpc.2⟩, h.selects, h.gives⟩, fun _ => rfl, id⟩
  · refine ⟨hs, ⟨?_, h.selects, h.gives⟩, id, id⟩
    dsimp only [PcGood] at hpc ⊢
    rw [hs.dtype]
    exact hpc

/-- The invariant of the whole process. -/
structure Good (C : Code V) (d : Backend.DType) (S : Set ℤ) (progs : ℕ → Prog V A) (w : World V A) : Prop where
  shared : SGood C d S w.shared
  thread : ∀ i, TGood C d S (progs i) (w.threads i)
  quiet : w.shared.backend.initialized = true ∨ ∀ i, Makes KeepsPrecision (w.threads i).prog

theorem Good.step {C : Code V} {cap : ℕ} {d : Backend.DType} {S : Set ℤ} {progs : ℕ → Prog V A} {w : World V A}
    (h : Good C d S progs w) (i : ℕ) : Good C d S progs (w.step C cap i) := by
  obtain ⟨h1, h2, h3, h4⟩ := good_step (cap := cap) h.shared (h.thread i) (h.quiet.imp id fun q => q i)
  refine ⟨h1, fun j => ?_, ?_⟩
  · by_cases hj : j = i
    · subst hj; simpa [World.step] using h2
    · simpa [World.step, hj] using h.thread j
  · refine h.quiet.imp h3 fun q j => ?_
    by_cases hj : j = i
    · subst hj; simpa [World.step] using h4 (q j)
    · simpa [World.step, hj] using q j

theorem Good.run {C : Code V} {cap : ℕ} {d : Backend.DType} {S : Set ℤ} {progs : ℕ → Prog V A} (sched : List ℕ) :
    ∀ {w : World V A}, Good C d S progs w → Good C d S progs (w.run C cap sched) := by
  induction sched with
  | nil => exact fun h => h
  | cons i sched ih => exact fun h => ih (h.step i)

theorem run_append (C : Code V) (cap : ℕ) (a b : List ℕ) :
    ∀ w : World V A, w.run C cap (a ++ b) = (w.run C cap a).run C cap b := by
  induction a with
  | nil => exact fun w => rfl
  | cons i a ih => exact fun w => ih _

theorem start_good (C : Code V) (gpu : Bool) (pre : List Backend.Op) {S : Set ℤ} {progs : ℕ → Prog V A}
    (hq : Backend.Spec.locked pre = true ∨ ∀ i, Makes KeepsPrecision (progs i))
    (hS : Backend.Spec.chosenFft gpu pre ∈ S) (hs : ∀ i, Makes (Selects S) (progs i)) :
    Good C (Backend.Spec.chosen pre) S progs (World.start gpu pre progs) := by
  obtain ⟨⟨hd, hi, hf⟩, -⟩ := Backend.reached_run gpu pre [] _ (Backend.reached_init gpu)
  simp only [List.nil_append] at hd hi hf
  refine ⟨⟨hd, by rw [World.start, hf]; exact hS, fun m e he => by simp [World.start] at he⟩, fun i => ⟨rfl, hs i, fun a ha => ha⟩, ?_⟩
  exact hq.imp (fun h => by rw [World.start, hi]; exact h) id

end PySLM2.Threads
