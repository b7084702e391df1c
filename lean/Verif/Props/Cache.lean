import Verif.Spec.Cache

/-!
# The grid caches (C65)
-/

namespace PySLM2.Cache

open Backend Spec

variable {V : Type}

/-- Every entry is what the method would compute now, and if there is an entry the precision is locked. -/
def Inv (B : Bodies V) (s : State V) : Prop :=
  ∀ m, ∀ e ∈ s.cache m, s.backend.initialized = true ∧ ∃ f, gridValue B m e.1 = .ok f ∧ f s.backend.dtype = .ok e.2

theorem getDtype_locked {b : Backend.State} (h : b.initialized = true) : (getDtype b).1 = b := by
  cases b; simp only at h; subst h; rfl

/-- What a method call does, with or without the cache. -/
def Good (B : Bodies V) (m : Method) (f : State V → ℕ → State V × Except PyErr V) : Prop :=
  ∀ s obj, Inv B s → Inv B (f s obj).1 ∧ match gridValue B m obj with
    | .error e => (f s obj).1.backend = s.backend ∧ (f s obj).2 = .error e
    | .ok g => (f s obj).1.backend = (getDtype s.backend).1 ∧ (f s obj).2 = g s.backend.dtype

theorem inv_getDtype {B : Bodies V} {s : State V} (h : Inv B s) : Inv B { s with backend := (getDtype s.backend).1 } :=
  fun m e he => ⟨rfl, (h m e he).2⟩

theorem good_readBody {B : Bodies V} {m : Method} {f : ℕ → DType → Except PyErr V} (hf : ∀ obj, gridValue B m obj = .ok (f obj)) :
    Good B m (readBody f) := by
  intro s obj hs
  rw [hf]
  exact ⟨inv_getDtype hs, rfl, rfl⟩

theorem good_readBody? {B : Bodies V} {m : Method} {f : ℕ → Except PyErr (DType → V)}
    (hf : ∀ obj, gridValue B m obj = (f obj).map fun g d => .ok (g d)) : Good B m (readBody? f) := by
  intro s obj hs
  rw [hf]
  unfold readBody?
  cases hfo : f obj with
  | error e => exact ⟨hs, rfl, rfl⟩
  | ok g => exact ⟨inv_getDtype hs, rfl, rfl⟩

theorem good_wrapped {B : Bodies V} {m : Method} {f : State V → ℕ → State V × Except PyErr V} (hf : Good B m f)
    (cap : ℕ) : Good B m (wrapped cap m f) := by
  intro s obj hs
  unfold wrapped
  cases hfind : (s.cache m).find? (fun e => e.1 = obj) with
  | some e =>
    have hmem := List.mem_of_find?_eq_some hfind
    have hkey : e.1 = obj := by simpa using List.find?_some hfind
    obtain ⟨h1, g, h2, h3⟩ := hs m e hmem
    rw [hkey] at h2
    rw [h2]
    refine ⟨fun m' e' he' => ?_, (getDtype_locked h1).symm, h3.symm⟩
    by_cases hm : m' = m
    · subst hm
      simp only [Function.update_self, touch, List.mem_cons, List.mem_filter] at he'
      rcases he' with rfl | ⟨he', _⟩
      · exact hs m' _ hmem
      · exact hs m' e' he'
    · simp only [Function.update_of_ne hm] at he'
      exact hs m' e' he'
  | none =>
    simp only
    obtain ⟨h1, h2⟩ := hf s obj hs
    cases hb : f s obj with
    | mk s' r =>
      rw [hb] at h1 h2
      cases r with
      | error e =>
        refine ⟨h1, ?_⟩
        cases hg : gridValue B m obj with
        | error e' => rw [hg] at h2; exact h2
        | ok g => rw [hg] at h2; exact h2
      | ok v =>
        cases hg : gridValue B m obj with
        | error e' => rw [hg] at h2; exact absurd h2.2 (by simp)
        | ok g =>
          rw [hg] at h2
          obtain ⟨h3, h4⟩ := h2
          simp only at h3
          refine ⟨fun m' e' he' => ?_, h3, h4⟩
          by_cases hm : m' = m
          · subst hm
            simp only [Function.update_self, store] at he'
            rcases List.mem_cons.mp (List.mem_of_mem_take he') with rfl | he'
            · refine ⟨by simp only [h3]; rfl, g, hg, ?_⟩
              simp only [h3]
              exact h4.symm
            · exact h1 m' e' he'
          · simp only [Function.update_of_ne hm] at he'
            exact h1 m' e' he'

theorem good_fourier (cap : ℕ) (B : Bodies V) : Good B .fourier (fourierGrid cap B) := by
  refine good_wrapped (fun s obj hs => ?_) cap
  have hp : Good B .pixel (pixelGrid cap B) := good_wrapped (good_readBody fun _ => rfl) cap
  obtain ⟨h1, h2, h3⟩ := hp s obj hs
  cases hb : pixelGrid cap B s obj with
  | mk s' r =>
    rw [hb] at h1 h2 h3
    simp only at h1 h2 h3
    subst h3
    exact ⟨h1, h2, rfl⟩

theorem step_spec (cap : ℕ) (B : Bodies V) {s : State V} (hs : Inv B s) (op : Op) :
    Inv B (step cap B s op).1 ∧ (step cap B s op).1.backend = (stepUncached B s.backend op).1 ∧
      (step cap B s op).2 = (stepUncached B s.backend op).2 := by
  cases op with
  | backend op =>
    refine ⟨fun m e he => ?_, rfl, rfl⟩
    obtain ⟨h1, g, h2, h3⟩ := hs m e he
    show (Backend.step s.backend op).1.initialized = true ∧ ∃ f, gridValue B m e.1 = .ok f ∧ f (Backend.step s.backend op).1.dtype = .ok e.2
    have : (Backend.step s.backend op).1.initialized = true ∧ (Backend.step s.backend op).1.dtype = s.backend.dtype := by
      cases op with
      | setDtype v => simp [Backend.step, Backend.setDtype, h1]
      | readDtype | readComplex | readInt => exact ⟨rfl, rfl⟩
      | readFft => exact ⟨h1, rfl⟩
      | setFft v => exact ⟨h1, rfl⟩
    rw [this.2]
    exact ⟨this.1, g, h2, h3⟩
  | grid m obj =>
    have key : ∀ f : State V → ℕ → State V × Except PyErr V, Good B m f →
        Inv B (f s obj).1 ∧ (f s obj).1.backend = (stepUncached B s.backend (.grid m obj)).1 ∧
          Out.grid (f s obj).2 = (stepUncached B s.backend (.grid m obj)).2 := by
      intro f hf
      obtain ⟨h1, h2⟩ := hf s obj hs
      simp only [stepUncached]
      cases hg : gridValue B m obj with
      | error e => rw [hg] at h2; exact ⟨h1, h2.1, by rw [h2.2]⟩
      | ok g => rw [hg] at h2; exact ⟨h1, h2.1, by rw [h2.2]; rfl⟩
    cases m with
    | pixel => exact key _ (good_wrapped (good_readBody fun _ => rfl) cap)
    | fourier => exact key _ (good_fourier cap B)
    | image => exact key _ (good_wrapped (good_readBody? fun _ => rfl) cap)
    | paddedImage => exact key _ (good_wrapped (good_readBody? fun _ => rfl) cap)
    | paddedFourier => exact key _ (good_wrapped (good_readBody fun _ => rfl) cap)

/-- **C65.** The caches are invisible: for every history of grid queries (on any number of objects, so with any amount
of eviction) and uses of the backend, and for every cache size, each call gives the caller exactly what it gives in
the program without caches, and the backend ends in the same state. -/
theorem C65_transparent (cap : ℕ) (B : Bodies V) (gpu : Bool) (ops : List Op) :
    (run cap B (State.init gpu) ops).2 = (runUncached B (Backend.init gpu) ops).2 ∧
      (run cap B (State.init gpu) ops).1.backend = (runUncached B (Backend.init gpu) ops).1 := by
  have main : ∀ (ops : List Op) (s : State V), Inv B s →
      (run cap B s ops).2 = (runUncached B s.backend ops).2 ∧
        (run cap B s ops).1.backend = (runUncached B s.backend ops).1 := by
    intro ops
    induction ops with
    | nil => intro s _; exact ⟨rfl, rfl⟩
    | cons op ops ih =>
      intro s hs
      obtain ⟨h1, h2, h3⟩ := step_spec cap B hs op
      obtain ⟨h4, h5⟩ := ih _ h1
      simp only [run, runUncached]
      rw [h4, h5, h2, h3]
      exact ⟨rfl, rfl⟩
  exact main ops (State.init gpu) (fun m e he => by simp [State.init] at he)

/-- **C65.** Memory stays bounded: after any history no cache holds more than its size, nor two entries of one
object. -/
theorem C65_bounded (cap : ℕ) (B : Bodies V) (gpu : Bool) (ops : List Op) (m : Method) :
    ((run cap B (State.init gpu) ops).1.cache m).length ≤ cap ∧
      (((run cap B (State.init gpu) ops).1.cache m).map Prod.fst).Nodup := by
  let J : State V → Prop := fun s => ∀ m, (s.cache m).length ≤ cap ∧ ((s.cache m).map Prod.fst).Nodup
  have htouch : ∀ (c : Lru V) (e : ℕ × V), e ∈ c → c.length ≤ cap ∧ (c.map Prod.fst).Nodup →
      (touch c e).length ≤ cap ∧ ((touch c e).map Prod.fst).Nodup := by
    intro c e he ⟨h1, h2⟩
    constructor
    · have hlt : (c.filter fun e' => e'.1 ≠ e.1).length < c.length := by
        rw [List.length_filter_lt_length_iff_exists]
        exact ⟨e, he, by simp⟩
      simp only [touch, List.length_cons]
      omega
    · simp only [touch, List.map_cons, List.nodup_cons]
      refine ⟨?_, (List.filter_sublist.map Prod.fst).nodup h2⟩
      intro hc
      obtain ⟨e', he', heq⟩ := List.mem_map.mp hc
      have := (List.mem_filter.mp he').2
      simp [heq] at this
  have hstore : ∀ (c : Lru V) (e : ℕ × V), c.find? (fun e' => e'.1 = e.1) = none →
      c.length ≤ cap ∧ (c.map Prod.fst).Nodup → (store cap c e).length ≤ cap ∧ ((store cap c e).map Prod.fst).Nodup := by
    intro c e hn ⟨h1, h2⟩
    refine ⟨List.length_take_le _ _, ((List.take_sublist _ _).map Prod.fst).nodup ?_⟩
    rw [List.map_cons, List.nodup_cons]
    refine ⟨fun hc => ?_, h2⟩
    obtain ⟨e', he', heq⟩ := List.mem_map.mp hc
    have := List.find?_eq_none.mp hn e' he'
    simp [heq] at this
  have hupd : ∀ (s : State V) (m : Method) (c : Lru V), J s → c.length ≤ cap ∧ (c.map Prod.fst).Nodup →
      J { s with cache := Function.update s.cache m c } := by
    intro s m c hs hc m'
    by_cases h : m' = m
    · subst h; simpa using hc
    · simpa [h] using hs m'
  have hw : ∀ (m : Method) (f : State V → ℕ → State V × Except PyErr V),
      (∀ s obj, J s → J (f s obj).1 ∧ (f s obj).1.cache m = s.cache m) → ∀ s obj, J s → J (wrapped cap m f s obj).1 := by
    intro m f hf s obj hs
    unfold wrapped
    cases hfind : (s.cache m).find? (fun e => e.1 = obj) with
    | some e => exact hupd _ _ _ hs (htouch _ _ (List.mem_of_find?_eq_some hfind) (hs m))
    | none =>
      simp only
      obtain ⟨h1, h2⟩ := hf s obj hs
      cases hb : f s obj with
      | mk s' r =>
        rw [hb] at h1 h2
        cases r with
        | error e => exact h1
        | ok v => exact hupd _ _ _ h1 (hstore _ _ (by rw [h2]; exact hfind) (h1 m))
  have hr : ∀ f s obj, J s → J (readBody f s obj).1 := fun f s obj hs m => hs m
  have hr? : ∀ f s obj, J s → J (readBody? (V := V) f s obj).1 := by
    intro f s obj hs
    unfold readBody?
    cases f obj <;> exact fun m => hs m
  have hrc : ∀ f s obj (m : Method), (readBody? (V := V) f s obj).1.cache m = s.cache m := by
    intro f s obj m
    unfold readBody?
    cases f obj <;> rfl
  have hother : ∀ (m m' : Method) (f : State V → ℕ → State V × Except PyErr V), m ≠ m' →
      (∀ s obj, (f s obj).1.cache m = s.cache m) → ∀ s obj, (wrapped cap m' f s obj).1.cache m = s.cache m := by
    intro m m' f hne hf s obj
    unfold wrapped
    cases hfind : (s.cache m').find? (fun e => e.1 = obj) with
    | some e => simp [hne]
    | none =>
      simp only
      have h2 := hf s obj
      cases hb : f s obj with
      | mk s' r =>
        rw [hb] at h2
        cases r with
        | error e => exact h2
        | ok v => simpa [hne] using h2
  have hstep : ∀ s op, J s → J (step cap B s op).1 := by
    intro s op hs
    cases op with
    | backend op => exact fun m => hs m
    | grid m obj =>
      cases m with
      | pixel => exact hw _ _ (fun s obj hs => ⟨hr _ s obj hs, rfl⟩) s obj hs
      | fourier =>
        refine hw _ _ (fun s obj hs => ?_) s obj hs
        have h1 : J (pixelGrid cap B s obj).1 := hw _ _ (fun s obj hs => ⟨hr _ s obj hs, rfl⟩) s obj hs
        have h2 : (pixelGrid cap B s obj).1.cache .fourier = s.cache .fourier :=
          hother _ _ _ (by simp) (fun _ _ => rfl) s obj
        cases hb : pixelGrid cap B s obj with
        | mk s' r =>
          rw [hb] at h1 h2
          cases r <;> exact ⟨h1, h2⟩
      | image => exact hw _ _ (fun s obj hs => ⟨hr? _ s obj hs, hrc _ _ _ _⟩) s obj hs
      | paddedImage => exact hw _ _ (fun s obj hs => ⟨hr? _ s obj hs, hrc _ _ _ _⟩) s obj hs
      | paddedFourier => exact hw _ _ (fun s obj hs => ⟨hr _ s obj hs, rfl⟩) s obj hs
  have main : ∀ (ops : List Op) (s : State V), J s → J (run cap B s ops).1 := by
    intro ops
    induction ops with
    | nil => intro s hs; exact hs
    | cons op ops ih => intro s hs; exact ih _ (hstep s op hs)
  exact main ops (State.init gpu) (fun m => ⟨by simp [State.init], by simp [State.init]⟩) m

/-- C65: the second query of object 1 is a hit; with one entry per cache the third recomputes. -/
example : let B : Bodies ℕ := ⟨fun o d => if d = .float64 then 10 * o else o, fun _ v => v + 1, fun o => .ok fun _ => o,
      fun _ => .error .zeroDivisionError, fun o _ => .ok o⟩
    ((run 1 B (State.init false) [.backend (.setDtype .float64), .grid .fourier 1, .grid .fourier 1, .grid .fourier 2,
      .grid .fourier 1, .grid .paddedImage 1]).1.cache .fourier) = [(1, 11)] := by
  decide

end PySLM2.Cache
