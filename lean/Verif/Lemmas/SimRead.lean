import Verif.Spec.SimRead
import Verif.Lemmas.SharedRead
import Verif.Lemmas.DmdHistory

/-!
# Lemmas on simulations of a DMD that other threads update
-/

noncomputable section

namespace PySLM2.SimRead

open Lib DMD SharedDmd SharedRead

variable {d : DMD} {tasks : ℕ → Task}

theorem run_snoc (w : World) (l : List Who) (x : Who) : w.run d tasks (l ++ [x]) = (w.run d tasks l).step d tasks x := by
  simp [World.run]

theorem run_append (w : World) (l l' : List Who) : w.run d tasks (l ++ l') = (w.run d tasks l).run d tasks l' := by
  simp [World.run]

theorem Moment.mono {w : World} {r : ℕ} {l before : List Who} (h : Moment d tasks w r l before) (l' : List Who) :
    Moment d tasks w r (l ++ l') before := by
  obtain ⟨⟨after, rfl⟩, h2⟩ := h
  exact ⟨⟨after ++ l', by simp⟩, h2⟩

theorem Moment.last {w : World} {r : ℕ} {l : List Who} (h : ∀ o, ¬ (w.run d tasks l).Ended r o) :
    Moment d tasks w r (l ++ [.reader r]) l := ⟨⟨[], rfl⟩, h⟩

theorem run_dmd (w : World) (l : List Who) : (w.run d tasks l).dmd = w.dmd.run d (writersOf l) := by
  induction l generalizing w with
  | nil => rfl
  | cons x l ih =>
    cases x with
    | writer i => exact ih (w.step d tasks (.writer i))
    | reader r => exact ih (w.step d tasks (.reader r))

/-! ## Same dtype and shape -/

/-- Same dtype and shape -/
def Alike (a b : StateArr) : Prop := a.isFloat = b.isFloat ∧ a.shape = b.shape

theorem Alike.trans {a b c : StateArr} (h : Alike a b) (h' : Alike b c) : Alike a c := ⟨h.1.trans h'.1, h.2.trans h'.2⟩

theorem writeMirror_alike (o v : StateArr) (a b : ℕ) : Alike (writeMirror o v a b) o := by
  cases o <;> cases v <;> exact ⟨rfl, rfl⟩

theorem fresh_alike (t : Task) (a : StateArr) : Alike (t.fresh a) a := by
  cases a <;> exact ⟨rfl, rfl⟩

theorem writeMirror_entry {o v : StateArr} (h : o.isFloat = v.isFloat) (a b : ℕ) :
    (writeMirror o v a b).entry a b = v.entry a b ∧
      ∀ a' b', (a', b') ≠ (a, b) → (writeMirror o v a b).entry a' b' = o.entry a' b' := by
  cases o <;> cases v <;> first | cases h | skip
  all_goals
    refine ⟨by simp [writeMirror, StateArr.entry], fun a' b' hne => ?_⟩
    have : ¬ (a' = a ∧ b' = b) := fun e => hne (by rw [e.1, e.2])
    simp [writeMirror, StateArr.entry, this]

/-- A step of a thread keeps dtype and shape of the arrays in use. -/
theorem alike_step {w : SharedDmd.World} (hc : w.mem.cur < w.mem.next) (i : ℕ) :
    (w.step d i).mem.cur < (w.step d i).mem.next ∧ w.mem.next ≤ (w.step d i).mem.next ∧
      ∀ k < w.mem.next, Alike ((w.step d i).mem.arrays k) (w.mem.arrays k) := by
  obtain ⟨m, th⟩ := w
  have key : (stepThread d m (th i)).1.cur < (stepThread d m (th i)).1.next ∧ m.next ≤ (stepThread d m (th i)).1.next ∧
      ∀ k < m.next, Alike ((stepThread d m (th i)).1.arrays k) (m.arrays k) := by
    change m.cur < m.next at hc
    cases hth : th i with
    | mk todo copy =>
    cases copy with
    | some cp =>
      obtain ⟨array, values, left⟩ := cp
      cases left with
      | nil => exact ⟨hc, le_refl _, fun _ _ => ⟨rfl, rfl⟩⟩
      | cons q left =>
        refine ⟨hc, le_refl _, fun k _ => ?_⟩
        simp only [stepThread]
        by_cases hk : k = array
        · subst hk
          rw [Function.update_self]
          exact writeMirror_alike ..
        · rw [Function.update_of_ne hk]
          exact ⟨rfl, rfl⟩
    | none =>
      cases todo with
      | nil => exact ⟨hc, le_refl _, fun _ _ => ⟨rfl, rfl⟩⟩
      | cons c cs =>
        simp only [stepThread]
        by_cases hp : c.isPatch
        · have : (begin d m c).1 = m := by
            cases c with
            | patch =>
              simp only [begin]
              split <;> rfl
            | off => exact hp.elim
            | on => exact hp.elim
            | setGrating => exact hp.elim
            | calculate => exact hp.elim
          rw [this]
          exact ⟨hc, le_refl _, fun _ _ => ⟨rfl, rfl⟩⟩
        · rcases begin_whole (d := d) (m := m) hp with e | ⟨a, e⟩
          · rw [e]
            exact ⟨hc, le_refl _, fun _ _ => ⟨rfl, rfl⟩⟩
          · rw [e]
            refine ⟨Nat.lt_succ_self _, Nat.le_succ _, fun k hk => ?_⟩
            change Alike (Function.update m.arrays m.next a k) _
            rw [Function.update_of_ne (Nat.ne_of_lt hk)]
            exact ⟨rfl, rfl⟩
  exact key

/-! ## Where a simulation is -/

/-- The copy so far: entries that have been copied are those of array `k` at some moment after `before`. -/
def Copied (d : DMD) (tasks : ℕ → Task) (w0 : World) (r : ℕ) (l before : List Who) (copy : StateArr) (seen : List (ℕ × ℕ)) : Prop :=
  ∀ q ∈ seen, ∃ later, Moment d tasks w0 r l later ∧ before <+: later ∧
    copy.entry q.1 q.2 = ((w0.run d tasks later).dmd.mem.arrays (w0.run d tasks before).dmd.mem.cur).entry q.1 q.2

theorem Copied.mono {w0 : World} {r : ℕ} {l before : List Who} {copy : StateArr} {seen : List (ℕ × ℕ)}
    (h : Copied d tasks w0 r l before copy seen) (l' : List Who) : Copied d tasks w0 r (l ++ l') before copy seen :=
  fun q hq => let ⟨later, h1, h2⟩ := h q hq; ⟨later, h1.mono l', h2⟩

/-- Where thread `r` is. -/
def CopyInv (d : DMD) (tasks : ℕ → Task) (w0 : World) (r : ℕ) (l : List Who) : Prop :=
  match (w0.run d tasks l).sims r with
  | .ready => True
  | .copying k copy left => ∃ before seen, Moment d tasks w0 r l before ∧ (w0.run d tasks before).dmd.mem.cur = k ∧
      k < (w0.run d tasks l).dmd.mem.next ∧ Alike copy (w0.run d tasks before).dmd.state ∧
      Alike ((w0.run d tasks l).dmd.mem.arrays k) (w0.run d tasks before).dmd.state ∧
      (tasks r).order (w0.run d tasks before).dmd.state.shape = seen ++ left ∧ Copied d tasks w0 r l before copy seen
  | .ended o => ∃ before copy, Moment d tasks w0 r l before ∧ o = (tasks r).outcome d copy ∧
      Alike copy (w0.run d tasks before).dmd.state ∧
      Copied d tasks w0 r l before copy ((tasks r).order (w0.run d tasks before).dmd.state.shape)

theorem copyInv_run {w0 : World} (hc : w0.dmd.mem.cur < w0.dmd.mem.next) {r : ℕ} (h0 : w0.sims r = .ready) (l : List Who) :
    (w0.run d tasks l).dmd.mem.cur < (w0.run d tasks l).dmd.mem.next ∧ CopyInv d tasks w0 r l := by
  induction l using List.reverseRecOn with
  | nil => exact ⟨hc, by simp only [CopyInv, World.run, List.foldl_nil, h0]⟩
  | append_singleton l x ih =>
    obtain ⟨hQ, hR⟩ := ih
    have keep : ∀ w', w0.run d tasks (l ++ [x]) = w' → w'.sims r = (w0.run d tasks l).sims r →
        (w0.run d tasks l).dmd.mem.next ≤ w'.dmd.mem.next →
        (∀ k < (w0.run d tasks l).dmd.mem.next, Alike (w'.dmd.mem.arrays k) ((w0.run d tasks l).dmd.mem.arrays k)) →
        CopyInv d tasks w0 r (l ++ [x]) := by
      intro w' e1 e2 e3 e4
      unfold CopyInv at hR ⊢
      rw [e1, e2]
      cases h : (w0.run d tasks l).sims r with
      | ready => trivial
      | copying k copy left =>
        rw [h] at hR
        obtain ⟨before, seen, k1, k2, k3, k4, k5, k6, k7⟩ := hR
        exact ⟨before, seen, k1.mono _, k2, k3.trans_le e3, k4, (e4 k k3).trans k5, k6, k7.mono _⟩
      | ended o =>
        rw [h] at hR
        obtain ⟨before, copy, k1, k2, k3, k4⟩ := hR
        exact ⟨before, copy, k1.mono _, k2, k3, k4.mono _⟩
    cases x with
    | writer i =>
      obtain ⟨q1, q2, q3⟩ := alike_step (d := d) hQ i
      have e := run_snoc (d := d) (tasks := tasks) w0 l (.writer i)
      exact ⟨by rw [e]; exact q1, keep _ e rfl q2 q3⟩
    | reader r' =>
      have e := run_snoc (d := d) (tasks := tasks) w0 l (.reader r')
      refine ⟨by rw [e]; exact hQ, ?_⟩
      by_cases hr : r = r'
      · subst hr
        have last : ∀ {j}, (w0.run d tasks l).sims r = j → (∀ o, j ≠ .ended o) → Moment d tasks w0 r (l ++ [.reader r]) l :=
          fun hj hne => .last fun o h => hne o (hj.symm.trans h)
        unfold CopyInv at hR ⊢
        rw [e]
        simp only [World.step, Function.update_self]
        cases h : (w0.run d tasks l).sims r with
        | ready =>
          simp only [Phase.step]
          exact ⟨l, [], last h (by simp), rfl, hQ, fresh_alike .., ⟨rfl, rfl⟩, rfl, fun q hq => by cases hq⟩
        | copying k copy left =>
          rw [h] at hR
          obtain ⟨before, seen, k1, k2, k3, k4, k5, k6, k7⟩ := hR
          cases left with
          | nil =>
            simp only [Phase.step]
            rw [List.append_nil] at k6
            exact ⟨before, copy, k1.mono _, rfl, k4, by rw [k6]; exact k7.mono _⟩
          | cons q left =>
            simp only [Phase.step]
            refine ⟨before, seen ++ [q], k1.mono _, k2, k3, (writeMirror_alike ..).trans k4, k5, by rw [k6]; simp, fun q' hq' => ?_⟩
            obtain ⟨w1, w2⟩ := writeMirror_entry (k4.1.trans k5.1.symm) q.1 q.2
            by_cases hqq : q' = q
            · subst hqq
              refine ⟨l, last h (by simp), ?_, ?_⟩
              · obtain ⟨⟨after, ha⟩, -⟩ := k1
                exact ⟨_, ha.symm⟩
              · rw [w1, k2]
            · rcases List.mem_append.mp hq' with hm | hm
              · obtain ⟨later, m1, m2, m3⟩ := k7.mono [.reader r] q' hm
                exact ⟨later, m1, m2, by rw [w2 q'.1 q'.2 hqq]; exact m3⟩
              · exact absurd (List.mem_singleton.mp hm) hqq
        | ended o =>
          rw [h] at hR
          obtain ⟨before, copy, k1, k2, k3, k4⟩ := hR
          exact ⟨before, copy, k1.mono _, k2, k3, k4.mono _⟩
      · exact keep _ e (Function.update_of_ne hr ..) (le_refl _) fun _ _ => ⟨rfl, rfl⟩

/-! ## Without patches, arrays do not change -/

theorem quiet_run {w : World} (h : Quiet w.dmd) (l : List Who) :
    Quiet (w.run d tasks l).dmd ∧ ∀ k < w.dmd.mem.next, (w.run d tasks l).dmd.mem.arrays k = w.dmd.mem.arrays k := by
  induction l generalizing w with
  | nil => exact ⟨h, fun _ _ => rfl⟩
  | cons x l ih =>
    cases x with
    | writer i =>
      obtain ⟨q1, q2, q3⟩ := quiet_step (d := d) h i
      obtain ⟨h1, h2⟩ := ih (w := w.step d tasks (.writer i)) q1
      exact ⟨h1, fun k hk => (h2 k (hk.trans_le q2)).trans (q3 k hk)⟩
    | reader r => exact ih (w := w.step d tasks (.reader r)) h

theorem patches_run {w : World} (h : ∀ i, ∀ c ∈ (w.dmd.threads i).todo, c.isPatch) (l : List Who) :
    (w.run d tasks l).dmd.mem.cur = w.dmd.mem.cur := by
  induction l generalizing w with
  | nil => rfl
  | cons x l ih =>
    cases x with
    | writer i =>
      obtain ⟨h1, h2⟩ := patches_step (d := d) h i
      exact (ih (w := w.step d tasks (.writer i)) h1).trans h2
    | reader r => exact ih (w := w.step d tasks (.reader r)) h

/-! ## The outcome depends on the entries of the state only -/

theorem same_of_inside {a b : StateArr} (h : Alike a b) (he : ∀ i j, Inside b.shape i j → a.entry i j = b.entry i j) : a.Same b := by
  obtain ⟨h1, h2⟩ := h
  cases a with
  | bool t =>
    cases b with
    | float t' => cases h1
    | bool t' =>
      change t.shape = t'.shape at h2
      refine ⟨h2, ?_⟩
      rw [h2]
      change ∀ i j, Inside t'.shape i j → _ at he
      cases hs : t'.shape with
      | scalar => exact Sum.inl.inj (he 0 0 (by rw [hs]; exact ⟨rfl, rfl⟩))
      | mat M N => exact fun i hi j hj => Sum.inl.inj (he i j (by rw [hs]; exact ⟨hi, hj⟩))
  | float t =>
    cases b with
    | bool t' => cases h1
    | float t' =>
      change t.shape = t'.shape at h2
      refine ⟨h2, ?_⟩
      rw [h2]
      change ∀ i j, Inside t'.shape i j → _ at he
      cases hs : t'.shape with
      | scalar => exact Sum.inr.inj (he 0 0 (by rw [hs]; exact ⟨rfl, rfl⟩))
      | mat M N => exact fun i hi j hj => Sum.inr.inj (he i j (by rw [hs]; exact ⟨hi, hj⟩))

theorem same_map {α β : Type} {t t' : Tensor α} (h : t.Same t') (f : α → β) : (t.map f).Same (t'.map f) := by
  obtain ⟨h1, h2⟩ := h
  refine ⟨h1, ?_⟩
  change match t.shape with
    | .scalar => f (t.get 0 0) = f (t'.get 0 0)
    | .mat r c => ∀ i < r, ∀ j < c, f (t.get i j) = f (t'.get i j)
  cases hs : t.shape with
  | scalar => rw [hs] at h2; exact congrArg f h2
  | mat M N => rw [hs] at h2; exact fun i hi j hj => congrArg f (h2 i hi j hj)

theorem stateTensor_same {a b : StateArr} (h : a.Same b) :
    (∃ e, DMD.stateTensor a = .error e ∧ DMD.stateTensor b = .error e) ∨
      ∃ t t', DMD.stateTensor a = .ok t ∧ DMD.stateTensor b = .ok t' ∧ t.Same t' := by
  cases a with
  | bool t =>
    cases b with
    | float t' => exact h.elim
    | bool t' => exact .inr ⟨_, _, rfl, rfl, same_map h _⟩
  | float t =>
    cases b with
    | bool t' => exact h.elim
    | float t' =>
      have h' : t.Same t' := h
      obtain ⟨h1, h2⟩ := h'
      have hiff : (match t.shape with
          | .scalar => ∃ x, t.get 0 0 = .fin x
          | .mat M N => allFinite M N t.get) ↔ (match t'.shape with
          | .scalar => ∃ x, t'.get 0 0 = .fin x
          | .mat M N => allFinite M N t'.get) := by
        rw [← h1]
        cases hs : t.shape with
        | scalar =>
          rw [hs] at h2
          change t.get 0 0 = t'.get 0 0 at h2
          change (∃ x, t.get 0 0 = .fin x) ↔ ∃ x, t'.get 0 0 = .fin x
          rw [h2]
        | mat M N =>
          rw [hs] at h2
          change ∀ i < M, ∀ j < N, t.get i j = t'.get i j at h2
          change allFinite M N t.get ↔ allFinite M N t'.get
          unfold allFinite
          exact ⟨fun q i hi j hj => by rw [← h2 i hi j hj]; exact q i hi j hj, fun q i hi j hj => by rw [h2 i hi j hj]; exact q i hi j hj⟩
      unfold DMD.stateTensor
      by_cases hc : (match t'.shape with
          | .scalar => ∃ x, t'.get 0 0 = .fin x
          | .mat M N => allFinite M N t'.get)
      · exact .inr ⟨_, _, if_pos (hiff.mpr hc), if_pos hc, same_map ⟨h1, h2⟩ _⟩
      · exact .inl ⟨_, if_neg (fun q => hc (hiff.mp q)), if_neg hc⟩

theorem bcastDim_cover {a b c : ℕ} (h : bcastDim a b = some c) : b = 1 ∨ b = c := by
  unfold bcastDim at h
  split_ifs at h with h1 h2 h3
  · exact .inr (by cases h; exact h1.symm)
  · exact .inr (by cases h; rfl)
  · exact .inl h3

theorem bcast_cover {s : Shape} {r c M N : ℕ} (h : bcast s (.mat r c) = some (.mat M N)) : (r = 1 ∨ r = M) ∧ (c = 1 ∨ c = N) := by
  cases s with
  | scalar =>
    simp only [bcast, Option.some.injEq, Shape.mat.injEq] at h
    exact ⟨.inr h.1, .inr h.2⟩
  | mat r' c' =>
    simp only [bcast] at h
    cases h1 : bcastDim r' r with
    | none => rw [h1] at h; cases h
    | some r'' =>
      cases h2 : bcastDim c' c with
      | none => rw [h1, h2] at h; cases h
      | some c'' =>
        rw [h1, h2] at h
        simp only [Option.some.injEq, Shape.mat.injEq] at h
        rw [← h.1, ← h.2]
        exact ⟨bcastDim_cover h1, bcastDim_cover h2⟩

theorem at_same {α : Type} {t t' : Tensor α} (h : t.Same t') {s : Shape} {M N : ℕ} (hb : bcast s t.shape = some (.mat M N)) {i j : ℕ}
    (hi : i < M) (hj : j < N) : t.at_ i j = t'.at_ i j := by
  obtain ⟨h1, h2⟩ := h
  unfold Tensor.at_
  rw [← h1]
  cases hs : t.shape with
  | scalar => rw [hs] at h2; exact h2
  | mat r c =>
    rw [hs] at h2 hb
    obtain ⟨hr, hc⟩ := bcast_cover hb
    refine h2 _ ?_ _ ?_
    · split_ifs with q
      · omega
      · rcases hr with hr | hr <;> omega
    · split_ifs with q
      · omega
      · rcases hc with hc | hc <;> omega

/-- Multiplying by equal states and padding gives equal arrays, or the same exceptions. -/
theorem pad_same (inp : Tensor ℂ) {t t' : Tensor ℂ} (h : t.Same t') (py px : ℤ) :
    (∃ e, Tensor.map2 (fun a b => a * b) inp t = .error e ∧ Tensor.map2 (fun a b => a * b) inp t' = .error e) ∨
      ∃ o o', Tensor.map2 (fun a b => a * b) inp t = .ok o ∧ Tensor.map2 (fun a b => a * b) inp t' = .ok o' ∧
        Sim.pad o py px = Sim.pad o' py px := by
  unfold Tensor.map2
  rw [← h.1]
  cases hb : bcast inp.shape t.shape with
  | none => exact .inl ⟨_, rfl, rfl⟩
  | some s =>
    refine .inr ⟨_, _, rfl, rfl, ?_⟩
    cases s with
    | scalar => rfl
    | mat M N =>
      simp only [Sim.pad]
      split_ifs with hneg
      · rfl
      · congr 2
        funext i j
        unfold Sim.pad2
        split_ifs with q
        · beta_reduce
          rw [at_same h hb (i := i - py.toNat) (j := j - px.toNat) (by omega) (by omega)]
        · rfl

theorem outcome_same (t : Task) (d : DMD) {a b : StateArr} (h : a.Same b) : t.outcome d a = t.outcome d b := by
  unfold Task.outcome Sim.propagate
  simp only [Device.slm]
  cases h1 : d.slm.profileToTensor t.heap t.input true true with
  | error e => rfl
  | ok inp =>
    simp only
    cases h2 : Sim.pad inp t.sim.py t.sim.px with
    | error e => rfl
    | ok padded =>
      simp only [Device.stateTensor]
      rcases stateTensor_same h with ⟨e, e1, e2⟩ | ⟨x, x', e1, e2, hx⟩
      · rw [e1, e2]
      · rw [e1, e2]
        simp only
        rcases pad_same inp hx t.sim.py t.sim.px with ⟨e, f1, f2⟩ | ⟨o, o', f1, f2, f3⟩
        · rw [f1, f2]
        · rw [f1, f2]
          simp only
          rw [f3]
          cases h3 : Sim.pad o' t.sim.py t.sim.px with
          | error e => rfl
          | ok padded' =>
            simp only
            have him : ∀ st, Sim.imageOf { t.sim with dev := .dmd d st, inputField := some padded, outputField := some padded' } padded' =
                Sim.imageOf { t.sim with dev := .dmd d a, inputField := some padded, outputField := some padded' } padded' := fun _ => rfl
            rw [him b]
            cases Sim.imageOf { t.sim with dev := .dmd d a, inputField := some padded, outputField := some padded' } padded' <;> rfl

end PySLM2.SimRead
