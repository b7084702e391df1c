import Verif.Props.Cache
import Verif.Spec.Lifetime

/-!
# Helper lemmas for C155 and C156
-/

noncomputable section

namespace PySLM2.Lifetime

open Classical Backend Cache Spec

variable {V : Type}

/-- What the object at an address is. -/
def resolve (M : Mem) (a : ℕ) : Option Val :=
  match lookup M a with
  | some (.slm s) => some (.slm s)
  | some (.sim px py d) => (slmAt M d).map fun s => .sim s px py
  | none => none

theorem lookup_cons {M : Mem} {p a : ℕ} {o : Obj} (h : p ≠ a) : lookup ((p, o) :: M) a = lookup M a := by
  simp [lookup, List.find?_cons, h]

theorem lookup_cons_self {M : Mem} {p : ℕ} {o : Obj} : lookup ((p, o) :: M) p = some o := by
  simp [lookup, List.find?_cons]

theorem lookup_mem {M : Mem} {a : ℕ} {o : Obj} (h : lookup M a = some o) : (a, o) ∈ M := by
  unfold lookup at h
  cases hf : M.find? fun c => c.1 = a with
  | none => rw [hf] at h; cases h
  | some c =>
    rw [hf] at h
    have h1 : c.1 = a := by simpa using List.find?_some hf
    have h2 : c.2 = o := by simpa using h
    rw [← h1, ← h2]
    exact List.mem_of_find?_eq_some hf

theorem lookup_filter {M : Mem} {q : ℕ → Prop} {a : ℕ} (h : q a) :
    lookup (M.filter fun c => q c.1) a = lookup M a := by
  unfold lookup
  congr 1
  induction M with
  | nil => rfl
  | cons c M ih =>
    by_cases hq : q c.1
    · rw [List.filter_cons_of_pos (by simpa using hq), List.find?_cons, List.find?_cons, ih]
    · rw [List.filter_cons_of_neg (by simpa using hq), ih, List.find?_cons]
      have : c.1 ≠ a := fun hc => hq (hc ▸ h)
      simp [this]

theorem slmAt_eq {M : Mem} {a : ℕ} {s : SLM} : slmAt M a = some s ↔ lookup M a = some (.slm s) := by
  unfold slmAt
  cases lookup M a with
  | none => simp
  | some o => cases o <;> simp

/-- A new object does not disturb what the other addresses hold. -/
theorem resolve_cons {M : Mem} {p a : ℕ} {o : Obj} {v : Val} (hp : ∀ c ∈ M, c.1 ≠ p) (h : resolve M a = some v) :
    resolve ((p, o) :: M) a = some v := by
  have hne : ∀ {b : ℕ} {o' : Obj}, lookup M b = some o' → p ≠ b := fun hb hc => hp _ (lookup_mem hb) hc.symm
  unfold resolve at h ⊢
  cases hl : lookup M a with
  | none => rw [hl] at h; cases h
  | some o' =>
    rw [lookup_cons (hne hl), hl]
    rw [hl] at h
    cases o' with
    | slm s => exact h
    | sim px py d =>
      simp only at h ⊢
      cases hs : slmAt M d with
      | none => rw [hs] at h; cases h
      | some s =>
        have : slmAt ((p, o) :: M) d = some s := by
          rw [slmAt_eq] at hs ⊢
          rw [lookup_cons (hne hs), hs]
        rw [this, ← hs]
        exact h

/-- Freeing objects does not disturb an object that is kept together with the device it refers to. -/
theorem resolve_filter {M : Mem} {q : ℕ → Prop} {a : ℕ} (h : q a)
    (hd : ∀ px py d, lookup M a = some (.sim px py d) → q d) :
    resolve (M.filter fun c => q c.1) a = resolve M a := by
  unfold resolve
  rw [lookup_filter h]
  cases hl : lookup M a with
  | none => rfl
  | some o =>
    cases o with
    | slm s => rfl
    | sim px py d =>
      simp only [slmAt]
      rw [lookup_filter (hd px py d hl)]

/-- The bodies of the grid methods compute the grid of what the address holds. -/
theorem gridValue_bodies [Inhabited V] {G : Grids V} {M : Mem} {m : Method} {a : ℕ} {v : Val}
    {g : Except PyErr (DType → Except PyErr V)} (h : resolve M a = some v) (hg : gridOf G m v = some g) :
    gridValue (bodies G M) m a = g := by
  unfold resolve at h
  cases hl : lookup M a with
  | none => rw [hl] at h; cases h
  | some o =>
    rw [hl] at h
    cases o with
    | slm s =>
      have hv : Val.slm s = v := by simpa using h
      subst hv
      have hs : slmAt M a = some s := slmAt_eq.mpr hl
      cases m <;> simp [gridOf] at hg <;> subst hg <;> simp [gridValue, bodies, hs]
    | sim px py d =>
      simp only at h
      cases hs : slmAt M d with
      | none => rw [hs] at h; cases h
      | some s =>
        rw [hs] at h
        have hv : Val.sim s px py = v := by simpa using h
        subst hv
        have hsim : simAt M a = some (s, px, py) := by simp [simAt, hl, hs]
        cases m <;> simp [gridOf] at hg <;> subst hg <;> simp [gridValue, bodies, hsim]

/-- The keys of the caches after the `lru_cache` wrapper: those before it or after the body, and the object. -/
theorem keys_wrapped (cap : ℕ) (m : Method) (f : Cache.State V → ℕ → Cache.State V × Except PyErr V)
    (s : Cache.State V) (a : ℕ) (m' : Method) (e : ℕ × V) (he : e ∈ (wrapped cap m f s a).1.cache m') :
    (∃ e0 ∈ s.cache m', e0.1 = e.1) ∨ (∃ e0 ∈ (f s a).1.cache m', e0.1 = e.1) ∨ (m' = m ∧ e.1 = a) := by
  unfold wrapped at he
  cases hfind : (s.cache m).find? (fun e => e.1 = a) with
  | some e1 =>
    rw [hfind] at he
    simp only at he
    by_cases hm : m' = m
    · subst hm
      simp only [Function.update_self, touch, List.mem_cons] at he
      left
      rcases he with he | he
      · exact ⟨e1, List.mem_of_find?_eq_some hfind, by rw [he]⟩
      · exact ⟨e, (List.mem_filter.mp he).1, rfl⟩
    · simp only [Function.update_of_ne hm] at he
      exact .inl ⟨e, he, rfl⟩
  | none =>
    rw [hfind] at he
    simp only at he
    cases hb : f s a with
    | mk s' r =>
      rw [hb] at he
      cases r with
      | error _ => exact .inr (.inl ⟨e, he, rfl⟩)
      | ok v =>
        simp only at he
        by_cases hm : m' = m
        · subst hm
          simp only [Function.update_self, store] at he
          rcases List.mem_cons.mp (List.mem_of_mem_take he) with he | he
          · exact .inr (.inr ⟨rfl, by rw [he]⟩)
          · exact .inr (.inl ⟨e, he, rfl⟩)
        · simp only [Function.update_of_ne hm] at he
          exact .inr (.inl ⟨e, he, rfl⟩)

theorem cache_readBody? (f : ℕ → Except PyErr (DType → V)) (s : Cache.State V) (a : ℕ) :
    (readBody? f s a).1.cache = s.cache := by
  unfold readBody?
  cases f a <;> rfl

/-- A grid query adds at most the queried object to the caches. -/
theorem keys_step (cap : ℕ) (B : Bodies V) (s : Cache.State V) (m : Method) (a : ℕ) (m' : Method) (e : ℕ × V)
    (he : e ∈ (Cache.step cap B s (.grid m a)).1.cache m') :
    (∃ e0 ∈ s.cache m', e0.1 = e.1) ∨ (e.1 = a ∧ (m' = m ∨ (m = .fourier ∧ m' = .pixel))) := by
  have plain : ∀ (m : Method) (f : Cache.State V → ℕ → Cache.State V × Except PyErr V),
      (f s a).1.cache = s.cache → e ∈ (wrapped cap m f s a).1.cache m' →
      (∃ e0 ∈ s.cache m', e0.1 = e.1) ∨ (e.1 = a ∧ m' = m) := by
    intro m f hf he
    rcases keys_wrapped cap m f s a m' e he with h | h | h
    · exact .inl h
    · rw [hf] at h; exact .inl h
    · exact .inr ⟨h.2, h.1⟩
  have up : ∀ m : Method, (∃ e0 ∈ s.cache m', e0.1 = e.1) ∨ (e.1 = a ∧ m' = m) →
      (∃ e0 ∈ s.cache m', e0.1 = e.1) ∨ (e.1 = a ∧ (m' = m ∨ (m = .fourier ∧ m' = .pixel))) := by
    intro m h
    rcases h with h | h
    · exact .inl h
    · exact .inr ⟨h.1, .inl h.2⟩
  cases m with
  | pixel => exact up _ (plain .pixel _ rfl he)
  | image => exact up _ (plain .image _ (cache_readBody? _ _ _) he)
  | paddedImage => exact up _ (plain .paddedImage _ (cache_readBody? _ _ _) he)
  | paddedFourier => exact up _ (plain .paddedFourier _ rfl he)
  | fourier =>
    rcases keys_wrapped cap .fourier _ s a m' e he with h | ⟨e0, h0, h1⟩ | h
    · exact .inl h
    · have hc : e0 ∈ (pixelGrid cap B s a).1.cache m' := by
        cases hb : pixelGrid cap B s a with
        | mk s' r => rw [hb] at h0; cases r <;> exact h0
      rcases keys_wrapped cap .pixel _ s a m' e0 hc with ⟨e2, h2, h3⟩ | ⟨e2, h2, h3⟩ | h
      · exact .inl ⟨e2, h2, h3.trans h1⟩
      · exact .inl ⟨e2, h2, h3.trans h1⟩
      · exact .inr ⟨h1 ▸ h.2, .inr ⟨rfl, h.1⟩⟩
    · exact .inr ⟨h.2, .inl h.1⟩

/-- What every reachable state satisfies: variables hold the objects their author expects, and so do the keys of the
caches, with the grids of those objects. -/
structure Good [Inhabited V] (G : Grids V) (s : State V) (vars : ℕ → Option Val) : Prop where
  vars : ∀ x, (s.vars x).bind (resolve s.mem) = vars x
  some : ∀ x a, s.vars x = some a → (resolve s.mem a).isSome
  cache : ∀ m, ∀ e ∈ s.grids.cache m, s.grids.backend.initialized = true ∧
    ∃ v f, resolve s.mem e.1 = .some v ∧ gridOf G m v = .some (.ok f) ∧ f s.grids.backend.dtype = .ok e.2

theorem Good.inv [Inhabited V] {G : Grids V} {s : State V} {vars : ℕ → Option Val} (h : Good G s vars) :
    Cache.Inv (bodies G s.mem) s.grids := by
  intro m e he
  obtain ⟨h1, v, f, h2, h3, h4⟩ := h.cache m e he
  exact ⟨h1, f, gridValue_bodies h2 h3, h4⟩

/-- Freeing unreferenced objects keeps the invariant. -/
theorem Good.collect [Inhabited V] {G : Grids V} {s : State V} {vars : ℕ → Option Val} (h : Good G s vars)
    (R : Runtime) : Good G (collect R s) vars := by
  have key : ∀ a, named s a ∨ cached s a → resolve (Lifetime.collect R s).mem a = resolve s.mem a := by
    intro a ha
    have := resolve_filter (q := fun b => referenced s b ∨ R.reclaim s.clock b = false) (.inl (.inl ha))
      (fun px py d hl => .inl (.inr ⟨a, px, py, ha, hl⟩))
    rw [← this]
    show resolve (List.filter _ s.mem) a = _
    congr!
  refine ⟨fun x => ?_, fun x a hx => ?_, fun m e he => ?_⟩
  · rw [← h.vars x]
    show (s.vars x).bind _ = _
    cases hx : s.vars x with
    | none => rfl
    | some a => exact key a (.inl ⟨x, hx⟩)
  · rw [key a (.inl ⟨x, hx⟩)]
    exact h.some x a hx
  · rw [key e.1 (.inr ⟨m, e, he, rfl⟩)]
    exact h.cache m e he

/-- Making an object and binding it keeps the invariant. -/
theorem Good.bindNew [Inhabited V] {G : Grids V} {s : State V} {vars : ℕ → Option Val} (h : Good G s vars)
    (R : Runtime) (x : ℕ) (o : Obj) (v : Val)
    (hv : resolve ((R.place s.clock s.mem, o) :: s.mem) (R.place s.clock s.mem) = .some v) :
    Good G (bindNew R s x o) (Function.update vars x (.some v)) := by
  have key : ∀ a w, resolve s.mem a = .some w → resolve (Lifetime.bindNew R s x o).mem a = .some w :=
    fun a w => resolve_cons (R.place_free s.clock s.mem)
  have old : ∀ y a, s.vars y = .some a → resolve (Lifetime.bindNew R s x o).mem a = resolve s.mem a := by
    intro y a hy
    obtain ⟨w, hw⟩ := Option.isSome_iff_exists.mp (h.some y a hy)
    rw [hw, key a w hw]
  refine ⟨fun y => ?_, fun y a hy => ?_, fun m e he => ?_⟩
  · by_cases hy : y = x
    · subst hy
      simp only [Function.update_self]
      show (Function.update s.vars y _ y).bind _ = _
      rw [Function.update_self]
      exact hv
    · rw [Function.update_of_ne hy, ← h.vars y]
      show (Function.update s.vars x _ y).bind _ = _
      rw [Function.update_of_ne hy]
      cases hs : s.vars y with
      | none => rfl
      | some a => exact old y a hs
  · by_cases hyx : y = x
    · subst hyx
      have ha : R.place s.clock s.mem = a := by
        have : Function.update s.vars y (.some (R.place s.clock s.mem)) y = .some a := hy
        simpa using this
      rw [← ha]
      show (resolve ((R.place s.clock s.mem, o) :: s.mem) (R.place s.clock s.mem)).isSome
      rw [hv]; rfl
    · have : Function.update s.vars x (.some (R.place s.clock s.mem)) y = .some a := hy
      rw [Function.update_of_ne hyx] at this
      rw [old y a this]
      exact h.some y a this
  · obtain ⟨h1, w, f, h2, h3, h4⟩ := h.cache m e he
    exact ⟨h1, w, f, key _ _ h2, h3, h4⟩

/-- A grid query on an object the program holds: the answer, and the invariant. -/
theorem Good.gridCall [Inhabited V] {G : Grids V} {s : State V} {vars : ℕ → Option Val} (h : Good G s vars)
    (cap : ℕ) (m : Method) (a : ℕ) (v : Val) (g : Except PyErr (DType → Except PyErr V)) (ha : resolve s.mem a = .some v)
    (hg : gridOf G m v = .some g) :
    Good G (gridCall cap G s m a).1 vars ∧
      match g with
      | .error e => (Lifetime.gridCall cap G s m a).1.grids.backend = s.grids.backend ∧
          (Lifetime.gridCall cap G s m a).2 = .grid (.error e)
      | .ok f => (Lifetime.gridCall cap G s m a).1.grids.backend = (getDtype s.grids.backend).1 ∧
          (Lifetime.gridCall cap G s m a).2 = .grid (f (getDtype s.grids.backend).2) := by
  obtain ⟨h1, h2, h3⟩ := Cache.step_spec cap (bodies G s.mem) h.inv (.grid m a)
  have hgv := gridValue_bodies ha hg
  constructor
  · refine ⟨h.vars, h.some, fun m' e he => ?_⟩
    obtain ⟨k1, f, k2, k3⟩ := h1 m' e he
    have hw : ∃ w g', resolve s.mem e.1 = .some w ∧ gridOf G m' w = .some g' := by
      rcases keys_step cap (bodies G s.mem) s.grids m a m' e he with ⟨e0, h0, hk⟩ | ⟨hk, hm⟩
      · obtain ⟨_, w, f', q1, q2, _⟩ := h.cache m' e0 h0
        exact ⟨w, _, hk ▸ q1, q2⟩
      · rw [hk]
        rcases hm with hm | ⟨hm1, hm2⟩
        · exact ⟨v, g, ha, hm ▸ hg⟩
        · subst hm1; subst hm2
          cases v with
          | slm sl => exact ⟨_, _, ha, rfl⟩
          | sim sl px py => cases hg
    obtain ⟨w, g', q1, q2⟩ := hw
    refine ⟨k1, w, f, q1, ?_, k3⟩
    rw [q2, ← gridValue_bodies q1 q2, k2]
  · simp only [stepUncached, hgv] at h2 h3
    cases g with
    | error e => exact ⟨h2, by simp only [Lifetime.gridCall]; rw [h3]⟩
    | ok f => exact ⟨h2, by simp only [Lifetime.gridCall]; rw [h3]⟩

/-- A statement does what its author expects, and keeps the invariant. -/
theorem Good.exec [Inhabited V] {G : Grids V} {s : State V} {vars : ℕ → Option Val} (h : Good G s vars)
    (cap : ℕ) (R : Runtime) (op : Op) :
    Good G (exec cap G R s op).1 (ideal G s.grids.backend vars op).1.2 ∧
      (Lifetime.exec cap G R s op).1.grids.backend = (ideal G s.grids.backend vars op).1.1 ∧
      (Lifetime.exec cap G R s op).2 = (ideal G s.grids.backend vars op).2 := by
  have hnone : ∀ x, s.vars x = none → vars x = none := fun x hx => by rw [← h.vars x, hx]; rfl
  have hsome : ∀ x a, s.vars x = .some a → ∃ v, vars x = .some v ∧ resolve s.mem a = .some v := by
    intro x a hx
    obtain ⟨v, hv⟩ := Option.isSome_iff_exists.mp (h.some x a hx)
    exact ⟨v, by rw [← h.vars x, hx]; exact hv, hv⟩
  have hslm : ∀ a s', resolve s.mem a = .some (.slm s') → slmAt s.mem a = .some s' := by
    intro a s' ha
    rw [slmAt_eq]
    unfold resolve at ha
    cases hl : lookup s.mem a with
    | none => rw [hl] at ha; cases ha
    | some o =>
      rw [hl] at ha
      cases o with
      | slm s'' => simp only [Option.some.injEq, Val.slm.injEq] at ha; rw [ha]
      | sim px py d =>
        simp only at ha
        cases hd : slmAt s.mem d <;> rw [hd] at ha <;> cases ha
  have hsim : ∀ a s' px py, resolve s.mem a = .some (.sim s' px py) →
      slmAt s.mem a = none ∧ simAt s.mem a = .some (s', px, py) := by
    intro a s' px py ha
    unfold resolve at ha
    cases hl : lookup s.mem a with
    | none => rw [hl] at ha; cases ha
    | some o =>
      rw [hl] at ha
      cases o with
      | slm s'' => cases ha
      | sim px' py' d =>
        simp only at ha
        cases hd : slmAt s.mem d with
        | none => rw [hd] at ha; cases ha
        | some s'' =>
          rw [hd] at ha
          simp only [Option.map_some, Option.some.injEq, Val.sim.injEq] at ha
          obtain ⟨rfl, rfl, rfl⟩ := ha
          exact ⟨by simp [slmAt, hl], by simp [simAt, hl, hd]⟩
  have hslm' : ∀ a s', resolve s.mem a = .some (.slm s') → simAt s.mem a = none := by
    intro a s' ha
    have := slmAt_eq.mp (hslm a s' ha)
    simp [simAt, this]
  have hbind : ∀ x v a, resolve s.mem a = .some v →
      Good G { s with vars := Function.update s.vars x (.some a) } (Function.update vars x (.some v)) := by
    intro x v a ha
    refine ⟨fun y => ?_, fun y b hy => ?_, h.cache⟩
    · by_cases hyx : y = x
      · subst hyx; simpa using ha
      · simpa [hyx] using h.vars y
    · by_cases hyx : y = x
      · subst hyx
        have : a = b := by simpa using hy
        rw [← this, ha]; rfl
      · exact h.some y b (by simpa [hyx] using hy)
  cases op with
  | newSlm x o =>
    refine ⟨h.bindNew R x (.slm o) (.slm o) ?_, rfl, rfl⟩
    simp [resolve, lookup_cons_self]
  | newSim x y px py =>
    simp only [Lifetime.exec, ideal]
    cases hy : s.vars y with
    | none => rw [hnone y hy]; exact ⟨h, rfl, rfl⟩
    | some d =>
      obtain ⟨v, hv, hr⟩ := hsome y d hy
      rw [hv]
      cases v with
      | sim s' px' py' => simp only [(hsim d s' px' py' hr).1]; exact ⟨h, trivial, trivial⟩
      | slm s' =>
        simp only [hslm d s' hr]
        refine ⟨h.bindNew R x (.sim px py d) (.sim s' px py) ?_, rfl, trivial⟩
        have hd : R.place s.clock s.mem ≠ d :=
          fun hc => R.place_free s.clock s.mem _ (lookup_mem (slmAt_eq.mp (hslm d s' hr))) hc.symm
        have : slmAt ((R.place s.clock s.mem, Obj.sim px py d) :: s.mem) d = .some s' := by
          rw [slmAt_eq, lookup_cons hd, ← slmAt_eq]; exact hslm d s' hr
        simp [resolve, lookup_cons_self, this]
  | copy x y =>
    simp only [Lifetime.exec, ideal]
    cases hy : s.vars y with
    | none => rw [hnone y hy]; exact ⟨h, rfl, rfl⟩
    | some a =>
      obtain ⟨v, hv, hr⟩ := hsome y a hy
      rw [hv]
      exact ⟨hbind x v a hr, rfl, rfl⟩
  | del x =>
    simp only [Lifetime.exec, ideal]
    cases hx : s.vars x with
    | none => rw [hnone x hx]; exact ⟨h, rfl, rfl⟩
    | some a =>
      obtain ⟨v, hv, hr⟩ := hsome x a hx
      rw [hv]
      refine ⟨⟨fun y => ?_, fun y b hy => ?_, h.cache⟩, rfl, rfl⟩
      · by_cases hyx : y = x
        · subst hyx; simp
        · simpa [hyx] using h.vars y
      · by_cases hyx : y = x
        · subst hyx; simp at hy
        · exact h.some y b (by simpa [hyx] using hy)
  | grid m x =>
    cases hx : s.vars x with
    | none =>
      simp only [Lifetime.exec, ideal, hx, hnone x hx]
      exact ⟨h, rfl, rfl⟩
    | some a =>
      obtain ⟨v, hv, hr⟩ := hsome x a hx
      cases hg : gridOf G m v with
      | none =>
        have he : Lifetime.exec cap G R s (.grid m x) = (s, .raised .outsideModel) := by
          simp only [Lifetime.exec, hx]
          cases v with
          | slm s' => cases m <;> simp [gridOf] at hg <;> simp [hslm' a s' hr]
          | sim s' px py => cases m <;> simp [gridOf] at hg <;> simp [(hsim a s' px py hr).1]
        rw [he]
        simp only [ideal, hv, Option.bind_some, hg]
        exact ⟨h, trivial, trivial⟩
      | some g =>
        have he : Lifetime.exec cap G R s (.grid m x) = Lifetime.gridCall cap G s m a := by
          simp only [Lifetime.exec, hx]
          cases v with
          | slm s' => cases m <;> simp [gridOf] at hg <;> simp [hslm a s' hr]
          | sim s' px py => cases m <;> simp [gridOf] at hg <;> simp [(hsim a s' px py hr).2]
        rw [he]
        obtain ⟨h1, h2⟩ := h.gridCall cap m a v g hr hg
        simp only [ideal, hv, Option.bind_some, hg]
        cases g <;> exact ⟨h1, h2.1, h2.2⟩
  | backend op =>
    refine ⟨⟨h.vars, h.some, fun m e he => ?_⟩, rfl, rfl⟩
    obtain ⟨_, v, f, h2, h3, _⟩ := h.cache m e he
    obtain ⟨k1, f', k2, k3⟩ := (Cache.step_spec cap (bodies G s.mem) h.inv (.backend op)).1 m e he
    rw [gridValue_bodies h2 h3] at k2
    cases k2
    exact ⟨k1, v, f, h2, h3, k3⟩

end PySLM2.Lifetime
