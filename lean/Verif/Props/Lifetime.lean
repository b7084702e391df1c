import Verif.Lemmas.Lifetime

/-!
# Objects that come and go (C155, C156)
-/

noncomputable section

namespace PySLM2.Lifetime

open Classical Backend Cache Spec

variable {V : Type}

/-- **C155.** A device or simulation always gets its own grids, although the caches are keyed by address and the
interpreter gives the addresses of freed objects to new ones: for every program that makes, copies, rebinds and deletes
devices and simulations and asks for grids, for every cache size, and however the interpreter places objects and
whenever it frees those nothing refers to, every statement shows the program what it shows when variables hold the
devices and simulations themselves and each grid is computed afresh. -/
theorem C155_lifetime [Inhabited V] (cap : ℕ) (G : Grids V) (R : Runtime) (gpu : Bool) (ops : List Op) :
    (run cap G R (State.init gpu) ops).2 = idealRun G (Backend.init gpu) (fun _ => none) ops := by
  have main : ∀ (ops : List Op) (s : State V) (vars : ℕ → Option Val), Good G s vars →
      (run cap G R s ops).2 = idealRun G s.grids.backend vars ops := by
    intro ops
    induction ops with
    | nil => intro s vars _; rfl
    | cons op ops ih =>
      intro s vars hs
      obtain ⟨h1, h2, h3⟩ := hs.exec cap R op
      have := ih (Lifetime.collect R (Lifetime.exec cap G R s op).1) _ (h1.collect R)
      simp only [run, step, idealRun]
      rw [h3, ← h2]
      exact congrArg _ this
  exact main ops (State.init gpu) _ ⟨fun x => rfl, fun x a hx => by simp [State.init] at hx,
    fun m e he => by simp [State.init, Cache.State.init] at he⟩

/-- An interpreter that frees objects at once and always uses the lowest free address. -/
def lowest : Runtime where
  place _ M := sInf {a | ∀ c ∈ M, c.1 ≠ a}
  place_free _ M := by
    have hne : {a | ∀ c ∈ M, c.1 ≠ a}.Nonempty := by
      obtain ⟨n, hn⟩ := (M.map Prod.fst).toFinset.exists_notMem
      exact ⟨n, fun c hc h => hn (List.mem_toFinset.mpr (h ▸ List.mem_map_of_mem hc))⟩
    exact fun c hc => Nat.sInf_mem hne c hc
  reclaim _ _ := true

theorem lowest_place_nil (t : ℕ) : lowest.place t [] = 0 := by
  simp [lowest]

/-- Whether something refers to an object, when only the variables do. -/
theorem referenced_uncached {s : State V} (hc : ∀ m, s.grids.cache m = []) (a : ℕ) :
    referenced s a ↔ named s a ∨ ∃ b px py, named s b ∧ lookup s.mem b = some (.sim px py a) := by
  have : ∀ b, ¬cached s b := by rintro b ⟨m, e, he, _⟩; rw [hc m] at he; cases he
  simp [referenced, this]

/-- An address is really used again: here the second device gets the address of the first, which has been freed. -/
example [Inhabited V] (G : Grids V) (a b : SLM) :
    let s1 := (run 128 G lowest (State.init false) [.newSlm 0 a]).1
    let s3 := (run 128 G lowest (State.init false) [.newSlm 0 a, .del 0, .newSlm 1 b]).1
    s1.vars 0 = some 0 ∧ lookup s1.mem 0 = some (.slm a) ∧ s3.vars 1 = some 0 ∧ lookup s3.mem 0 = some (.slm b) := by
  have e1 : step 128 G lowest (State.init false) (.newSlm 0 a) =
      (⟨1, Function.update (fun _ => none) 0 (some 0), [(0, .slm a)], Cache.State.init false⟩, .done) := by
    have hr : ∀ s : State V, s.vars 0 = some 0 → referenced s 0 := fun s h => .inl (.inl ⟨0, h⟩)
    simp only [step, exec, bindNew, State.init, lowest_place_nil, collect]
    rw [List.filter_cons_of_pos]
    · rfl
    · rw [decide_eq_true_eq]; exact .inl (hr _ (by simp))
  have e2 : step 128 G lowest (⟨1, Function.update (fun _ => none) 0 (some 0), [(0, .slm a)], Cache.State.init false⟩ : State V)
      (.del 0) = (⟨2, fun _ => none, [], Cache.State.init false⟩, .done) := by
    simp only [step, exec, Function.update_self, collect, Function.update_idem]
    rw [List.filter_cons_of_neg]
    · simp
    · rw [decide_eq_true_eq, referenced_uncached (fun m => rfl)]
      simp [named, lowest, lookup]
  have e3 : step 128 G lowest (⟨2, fun _ => none, [], Cache.State.init false⟩ : State V) (.newSlm 1 b) =
      (⟨3, Function.update (fun _ => none) 1 (some 0), [(0, .slm b)], Cache.State.init false⟩, .done) := by
    have hr : ∀ s : State V, s.vars 1 = some 0 → referenced s 0 := fun s h => .inl (.inl ⟨1, h⟩)
    simp only [step, exec, bindNew, lowest_place_nil, collect]
    rw [List.filter_cons_of_pos]
    · rfl
    · rw [decide_eq_true_eq]; exact .inl (hr _ (by simp))
  simp only [run, e1, e2, e3]
  refine ⟨by simp, by simp [lookup], by simp, by simp [lookup]⟩

/-- The program can still get at the object: through a variable, or through the device of a simulation it has a variable
for. -/
def usable (s : State V) (a : ℕ) : Prop := named s a ∨ ∃ b px py, named s b ∧ lookup s.mem b = some (.sim px py a)

/-- No cache holds more entries than its size. -/
def Small (cap : ℕ) (s : Cache.State V) : Prop := ∀ m, (s.cache m).length ≤ cap

theorem small_wrapped {cap : ℕ} {m : Method} {f : Cache.State V → ℕ → Cache.State V × Except PyErr V}
    {s : Cache.State V} {a : ℕ} (hs : Small cap s) (hf : Small cap (f s a).1) : Small cap (wrapped cap m f s a).1 := by
  unfold wrapped
  cases hfind : (s.cache m).find? (fun e => e.1 = a) with
  | some e =>
    intro m'
    by_cases hm : m' = m
    · subst hm
      have hlt : ((s.cache m').filter fun e' => e'.1 ≠ e.1).length < (s.cache m').length := by
        rw [List.length_filter_lt_length_iff_exists]
        exact ⟨e, List.mem_of_find?_eq_some hfind, by simp⟩
      have := hs m'
      simp only [Function.update_self, touch, List.length_cons]
      omega
    · simpa [hm] using hs m'
  | none =>
    cases hb : f s a with
    | mk s' r =>
      rw [hb] at hf
      cases r with
      | error _ => exact hf
      | ok v =>
        intro m'
        by_cases hm : m' = m
        · subst hm
          simpa only [Function.update_self, store] using List.length_take_le _ _
        · simpa [hm] using hf m'

theorem small_step {cap : ℕ} {B : Bodies V} {s : Cache.State V} (hs : Small cap s) (op : Cache.Op) :
    Small cap (Cache.step cap B s op).1 := by
  have hq : ∀ f a, Small cap (readBody? (V := V) f s a).1 := fun f a m => by
    rw [cache_readBody?]; exact hs m
  cases op with
  | backend op => exact hs
  | grid m a =>
    cases m with
    | pixel => exact small_wrapped hs hs
    | image => exact small_wrapped hs (hq _ _)
    | paddedImage => exact small_wrapped hs (hq _ _)
    | paddedFourier => exact small_wrapped hs hs
    | fourier =>
      refine small_wrapped hs ?_
      have h1 : Small cap (pixelGrid cap B s a).1 := small_wrapped hs hs
      cases hb : pixelGrid cap B s a with
      | mk s' r => rw [hb] at h1; cases r <;> exact h1

/-- What holds of memory after every statement when the interpreter frees objects at once. -/
structure Tidy (cap : ℕ) (s : State V) : Prop where
  nodup : (s.mem.map Prod.fst).Nodup
  small : Small cap s.grids
  referenced : ∀ c ∈ s.mem, referenced s c.1

theorem Tidy.step [Inhabited V] {cap : ℕ} {G : Grids V} {R : Runtime} (hR : ∀ t a, R.reclaim t a = true) {s : State V}
    (h : Tidy cap s) (op : Op) : Tidy cap (step cap G R s op).1 := by
  have hnew : ∀ x o, ((bindNew R s x o).mem.map Prod.fst).Nodup := by
    intro x o
    simp only [bindNew, List.map_cons, List.nodup_cons]
    refine ⟨fun hc => ?_, h.nodup⟩
    obtain ⟨c, hc, he⟩ := List.mem_map.mp hc
    exact R.place_free s.clock s.mem c hc he
  have hgrid : ∀ m a, Small cap (gridCall cap G s m a).1.grids := fun m a => small_step h.small _
  have hexec : ((exec cap G R s op).1.mem.map Prod.fst).Nodup ∧ Small cap (exec cap G R s op).1.grids := by
    cases op with
    | newSlm x o => exact ⟨hnew x _, h.small⟩
    | newSim x y px py =>
      simp only [exec]
      split
      · exact ⟨h.nodup, h.small⟩
      · split
        · exact ⟨hnew x _, h.small⟩
        · exact ⟨h.nodup, h.small⟩
    | copy x y => simp only [exec]; split <;> exact ⟨h.nodup, h.small⟩
    | del x => simp only [exec]; split <;> exact ⟨h.nodup, h.small⟩
    | grid m x =>
      simp only [exec]
      split
      · exact ⟨h.nodup, h.small⟩
      · cases m <;> simp only <;> split <;> first | exact ⟨h.nodup, hgrid _ _⟩ | exact ⟨h.nodup, h.small⟩
    | backend op => exact ⟨h.nodup, h.small⟩
  generalize hr : exec cap G R s op = r at hexec
  simp only [Lifetime.step, hr]
  refine ⟨(List.filter_sublist.map Prod.fst).nodup hexec.1, hexec.2, fun c hc => ?_⟩
  have hc' := (List.mem_filter.mp hc).2
  rw [decide_eq_true_eq, hR] at hc'
  have hc'' : Lifetime.referenced r.1 c.1 := by simpa using hc'
  have keep : ∀ b, named r.1 b ∨ cached r.1 b → lookup (collect R r.1).mem b = lookup r.1.mem b := by
    intro b hb
    have := lookup_filter (M := r.1.mem) (q := fun b => Lifetime.referenced r.1 b ∨ R.reclaim r.1.clock b = false)
      (.inl (.inl hb))
    rw [← this]
    show lookup (List.filter _ r.1.mem) b = _
    congr!
  rcases hc'' with h1 | ⟨b, px, py, h1, h2⟩
  · exact .inl h1
  · exact .inr ⟨b, px, py, h1, by rw [keep b h1, h2]⟩

/-- **C156 (part).** How much of what the program has dropped stays in memory when the interpreter frees objects as soon as
nothing refers to them: after any program, every object in memory that the program cannot get at any more is one a grid
was computed for, or the device of such a simulation; and there are at most seven times as many of these as one cache
has entries (the caches have 128, so at most 896 objects), however many devices and simulations the program has made and
dropped.  Missing: that nothing stays, see `C156_refuted`. -/
theorem C156_partial [Inhabited V] (cap : ℕ) (G : Grids V) (R : Runtime) (hR : ∀ t a, R.reclaim t a = true) (gpu : Bool)
    (ops : List Op) :
    let s := (run cap G R (State.init gpu) ops).1
    (∀ c ∈ s.mem, ¬usable s c.1 → cached s c.1 ∨ ∃ b px py, cached s b ∧ lookup s.mem b = some (.sim px py c.1)) ∧
      (s.mem.filter fun c => ¬usable s c.1).length ≤ 7 * cap := by
  have main : ∀ (ops : List Op) (s : State V) (vars : ℕ → Option Val), Good G s vars → Tidy cap s →
      ∃ vars', Good G (run cap G R s ops).1 vars' ∧ Tidy cap (run cap G R s ops).1 := by
    intro ops
    induction ops with
    | nil => intro s vars h1 h2; exact ⟨vars, h1, h2⟩
    | cons op ops ih => intro s vars h1 h2; exact ih _ _ ((h1.exec cap R op).1.collect R) (h2.step hR op)
  obtain ⟨vars, hg, ht⟩ := main ops (State.init gpu) (fun _ => none) ⟨fun x => rfl, fun x a hx => by simp [State.init] at hx,
    fun m e he => by simp [State.init, Cache.State.init] at he⟩ ⟨by simp [State.init],
    fun m => by simp [State.init, Cache.State.init], fun c hc => by simp [State.init] at hc⟩
  intro s
  have hcell : ∀ c ∈ s.mem, ¬usable s c.1 →
      cached s c.1 ∨ ∃ b px py, cached s b ∧ lookup s.mem b = some (.sim px py c.1) := by
    intro c hc hn
    rcases ht.referenced c hc with (h1 | h1) | ⟨b, px, py, h1 | h1, h2⟩
    · exact absurd (.inl h1) hn
    · exact .inl h1
    · exact absurd (.inr ⟨b, px, py, h1, h2⟩) hn
    · exact .inr ⟨b, px, py, h1, h2⟩
  refine ⟨hcell, ?_⟩
  let keys : Method → List ℕ := fun m => (s.grids.cache m).map Prod.fst
  let devs : Method → List ℕ := fun m => (s.grids.cache m).filterMap fun e =>
    match lookup s.mem e.1 with
    | some (.sim _ _ d) => some d
    | _ => none
  have hkeys : ∀ m, (keys m).length ≤ cap := fun m => by simpa [keys] using ht.small m
  have hdevs : ∀ m, (devs m).length ≤ cap := fun m => (List.length_filterMap_le _ _).trans (ht.small m)
  have hsim : ∀ m e px py d, e ∈ s.grids.cache m → lookup s.mem e.1 = some (.sim px py d) →
      m = .paddedImage ∨ m = .paddedFourier := by
    intro m e px py d he hl
    obtain ⟨_, v, f, h1, h2, _⟩ := hg.cache m e he
    have : ∃ s' , v = .sim s' px py := by
      unfold resolve at h1
      rw [hl] at h1
      simp only at h1
      cases hd : slmAt s.mem d with
      | none => rw [hd] at h1; cases h1
      | some s' => rw [hd] at h1; exact ⟨s', by simpa using h1.symm⟩
    obtain ⟨s', rfl⟩ := this
    cases m <;> simp [gridOf] at h2 <;> simp
  have hsub : (s.mem.filter fun c => ¬usable s c.1).map Prod.fst ⊆
      keys .pixel ++ keys .fourier ++ keys .image ++ keys .paddedImage ++ keys .paddedFourier ++ devs .paddedImage ++
        devs .paddedFourier := by
    intro a ha
    obtain ⟨c, hc, rfl⟩ := List.mem_map.mp ha
    obtain ⟨hc1, hc2⟩ := List.mem_filter.mp hc
    rcases hcell c hc1 (by simpa using hc2) with ⟨m, e, he, hk⟩ | ⟨b, px, py, ⟨m, e, he, hk⟩, hl⟩
    · have : c.1 ∈ keys m := List.mem_map.mpr ⟨e, he, hk⟩
      simp only [List.mem_append]
      cases m <;> tauto
    · have hd : c.1 ∈ devs m := by
        refine List.mem_filterMap.mpr ⟨e, he, ?_⟩
        rw [hk, hl]
      simp only [List.mem_append]
      rcases hsim m e px py c.1 he (hk ▸ hl) with rfl | rfl <;> tauto
  have hnd : ((s.mem.filter fun c => ¬usable s c.1).map Prod.fst).Nodup := (List.filter_sublist.map Prod.fst).nodup ht.nodup
  have hle := (hnd.subperm hsub).length_le
  simp only [List.length_append, List.length_map] at hle
  have h1 := hkeys .pixel
  have h2 := hkeys .fourier
  have h3 := hkeys .image
  have h4 := hkeys .paddedImage
  have h5 := hkeys .paddedFourier
  have h6 := hdevs .paddedImage
  have h7 := hdevs .paddedFourier
  simp only [keys, List.length_map] at hle h1 h2 h3 h4 h5
  omega

/-- **C156 is false of the code.** A device that was asked for a grid once stays in memory after the program has deleted
its only variable for it, although the interpreter frees at once whatever nothing refers to. -/
theorem C156_refuted [Inhabited V] (G : Grids V) (a : SLM) (gpu : Bool) :
    let s := (run 128 G lowest (State.init gpu) [.newSlm 0 a, .grid .pixel 0, .del 0]).1
    (∀ x, s.vars x = none) ∧ lookup s.mem 0 = some (.slm a) := by
  have e1 : step 128 G lowest (State.init gpu) (.newSlm 0 a) =
      (⟨1, Function.update (fun _ => none) 0 (some 0), [(0, .slm a)], Cache.State.init gpu⟩, .done) := by
    have hr : ∀ s : State V, s.vars 0 = some 0 → referenced s 0 := fun s h => .inl (.inl ⟨0, h⟩)
    simp only [step, exec, bindNew, State.init, lowest_place_nil, collect]
    rw [List.filter_cons_of_pos]
    · rfl
    · rw [decide_eq_true_eq]; exact .inl (hr _ (by simp))
  let s1 : State V := ⟨1, Function.update (fun _ => none) 0 (some 0), [(0, .slm a)], Cache.State.init gpu⟩
  have hs1 : slmAt s1.mem 0 = some a := by simp [s1, slmAt, lookup]
  have e2 : step 128 G lowest s1 (.grid .pixel 0) = (collect lowest (gridCall 128 G s1 .pixel 0).1, (gridCall 128 G s1 .pixel 0).2) := by
    have hv : s1.vars 0 = some 0 := by simp [s1]
    simp only [step, exec, hv, hs1]
  have hcached : ∀ s : State V, s.grids = (gridCall 128 G s1 .pixel 0).1.grids → cached s 0 := by
    intro s hs
    refine ⟨.pixel, (0, (bodies G s1.mem).pixel 0 (getDtype s1.grids.backend).2), ?_, rfl⟩
    rw [hs]
    simp [gridCall, Cache.step, pixelGrid, wrapped, readBody, s1, Cache.State.init, store]
  have hkeep : ∀ s : State V, cached s 0 → s.mem = [(0, .slm a)] → (collect lowest s).mem = [(0, .slm a)] := by
    intro s hs hm
    simp only [collect, hm]
    rw [List.filter_cons_of_pos]
    · rfl
    · rw [decide_eq_true_eq]; exact .inl (.inl (.inr hs))
  have h2 := hkeep (gridCall 128 G s1 .pixel 0).1 (hcached _ rfl) rfl
  have hvars : (collect lowest (gridCall 128 G s1 .pixel 0).1).vars 0 = some 0 := by
    show s1.vars 0 = some 0
    simp [s1]
  simp only [run, e1]
  show (∀ x, (step 128 G lowest (step 128 G lowest s1 (.grid .pixel 0)).1 (.del 0)).1.vars x = none) ∧ _
  have e3 : step 128 G lowest (step 128 G lowest s1 (.grid .pixel 0)).1 (.del 0) =
      (collect lowest { collect lowest (gridCall 128 G s1 .pixel 0).1 with vars := Function.update s1.vars 0 none }, .done) := by
    rw [e2]
    simp only [step, exec, hvars]
    rfl
  rw [e3]
  constructor
  · intro x
    show Function.update s1.vars 0 none x = none
    by_cases hx : x = 0 <;> simp [s1, hx]
  · have := hkeep { collect lowest (gridCall 128 G s1 .pixel 0).1 with vars := Function.update s1.vars 0 none } (hcached _ rfl) h2
    show lookup (collect lowest _).mem 0 = _
    rw [this]
    simp [lookup]

/-- The interpreter of the refutation frees objects at once, as `C156_partial` asks. -/
example : ∀ t a, lowest.reclaim t a = true := fun _ _ => rfl

end PySLM2.Lifetime
