import Verif.Spec.SharedRead
import Verif.Lemmas.SharedDmd
import Verif.Lemmas.Pack

/-!
# Lemmas on threads that read the state of a DMD
-/

noncomputable section

namespace PySLM2.SharedRead

open Lib DMD SharedDmd

theorem run_snoc (d : DMD) (w : World) (l : List Who) (x : Who) : w.run d (l ++ [x]) = (w.run d l).step d x := by
  simp [World.run]

theorem run_append (d : DMD) (w : World) (l l' : List Who) : w.run d (l ++ l') = (w.run d l).run d l' := by
  simp [World.run]

theorem Moment.mono {d : DMD} {w : World} {r : ℕ} {l before : List Who} (h : Moment d w r l before) (l' : List Who) :
    Moment d w r (l ++ l') before := by
  obtain ⟨⟨after, rfl⟩, h2⟩ := h
  exact ⟨⟨after ++ l', by simp⟩, h2⟩

theorem Moment.last {d : DMD} {w : World} {r : ℕ} {l : List Who} (h : ∀ res, ¬ (w.run d l).Ended r res) :
    Moment d w r (l ++ [.reader r]) l := ⟨⟨[], rfl⟩, h⟩

/-- The bits of an array in the order they are read. -/
def bitsOf (t : Tensor Bool) : List Bool := (positions t.shape).map fun q => t.get q.1 q.2

theorem pack_bitsOf (t : Tensor Bool) : packDmdState (.bool t) = .ok (packBits (bitsOf t)) := by
  obtain ⟨shape, get⟩ := t
  unfold packDmdState bitsOf
  cases shape with
  | scalar => rfl
  | mat M N =>
    simp only [positions, flatten, List.map_flatMap, List.map_map]
    rfl

theorem positions_get {M N i j : ℕ} (hi : i < M) (hj : j < N) : (positions (.mat M N))[i * N + j]? = some (i, j) := by
  induction M with
  | zero => omega
  | succ M ih =>
    have hs : positions (.mat (M + 1) N) = positions (.mat M N) ++ (List.range N).map fun j => (M, j) := by
      simp only [positions]
      rw [List.range_succ, List.flatMap_append]
      simp
    have hl : (positions (.mat M N)).length = M * N := flatten_length M N Prod.mk
    rw [hs]
    by_cases h : i < M
    · have : i * N + j < M * N := by
        calc i * N + j < i * N + N := by omega
          _ = (i + 1) * N := by ring
          _ ≤ M * N := Nat.mul_le_mul_right _ h
      rw [List.getElem?_append_left (by rw [hl]; exact this), ih h]
    · have hM : i = M := by omega
      subst hM
      rw [List.getElem?_append_right (by rw [hl]; omega), hl, Nat.add_sub_cancel_left]
      simp [hj]

theorem positions_head (M N : ℕ) : ∃ rest, positions (.mat (M + 1) (N + 2)) = (0, 0) :: (0, 1) :: rest ∧
    rest.length + 2 = (M + 1) * (N + 2) := by
  have h : ∃ rest, positions (.mat (M + 1) (N + 2)) = (0, 0) :: (0, 1) :: rest := by
    simp only [positions]
    rw [List.range_succ_eq_map (n := M), List.range_succ_eq_map (n := N + 1), List.range_succ_eq_map (n := N)]
    simp
  obtain ⟨rest, h⟩ := h
  refine ⟨rest, h, ?_⟩
  have hl : (positions (.mat (M + 1) (N + 2))).length = (M + 1) * (N + 2) := flatten_length (M + 1) (N + 2) Prod.mk
  rw [h] at hl
  simpa using hl

theorem bit_packBits (l : List Bool) (n : ℕ) : bit (packBits l) n = l.getD n false := (packBits_spec l).2.2 n

/-! ## Without patches -/

theorem begin_whole {d : DMD} {m : Memory} {c : Call} (hc : ¬ c.isPatch) :
    begin d m c = (m, none) ∨ ∃ a, begin d m c = (⟨Function.update m.arrays m.next a, m.next, m.next + 1⟩, none) := by
  cases c with
  | off => exact Or.inr ⟨_, rfl⟩
  | on => exact Or.inr ⟨_, rfl⟩
  | patch => exact absurd trivial hc
  | setGrating h amp pin pout method kw draw =>
    simp only [begin, callMem, call, setDmdGratingState]
    cases d.gratingOfArgs h amp pin pout method kw draw with
    | error e => exact Or.inl rfl
    | ok g => exact Or.inr ⟨_, rfl⟩
  | calculate h inp target method window kw draw =>
    simp only [begin, callMem, call]
    cases he : (d.calculateDmdState h inp target method window kw draw).effect with
    | none => exact Or.inl rfl
    | rebind a => exact Or.inr ⟨a, rfl⟩
    | inplace a =>
      exfalso
      revert he
      unfold calculateDmdState
      repeat' split
      all_goals (intro he; cases he)

/-- What holds of the threads that update the device if none of them makes a patch. -/
structure Quiet (w : SharedDmd.World) : Prop where
  cur : w.mem.cur < w.mem.next
  copies : ∀ i, (w.threads i).copy = none
  todo : ∀ i, ∀ c ∈ (w.threads i).todo, ¬ c.isPatch

theorem quiet_step {d : DMD} {w : SharedDmd.World} (h : Quiet w) (i : ℕ) :
    Quiet (w.step d i) ∧ w.mem.next ≤ (w.step d i).mem.next ∧ ∀ k < w.mem.next, (w.step d i).mem.arrays k = w.mem.arrays k := by
  obtain ⟨m, th⟩ := w
  obtain ⟨cur, copies, todo⟩ := h
  cases hth : th i with
  | mk todo' copy' =>
  have hc := copies i
  simp only [hth] at hc
  subst hc
  cases todo' with
  | nil =>
    have hst : SharedDmd.World.step d ⟨m, th⟩ i = ⟨m, th⟩ := by
      simp only [SharedDmd.World.step, stepThread, hth]
      rw [← hth, Function.update_eq_self]
    rw [hst]
    exact ⟨⟨cur, copies, todo⟩, le_refl _, fun _ _ => rfl⟩
  | cons c cs =>
    have hst : SharedDmd.World.step d ⟨m, th⟩ i = ⟨(begin d m c).1, Function.update th i ⟨cs, (begin d m c).2⟩⟩ := by
      simp only [SharedDmd.World.step, stepThread, hth]
    have htodo : ∀ j, ∀ c' ∈ (Function.update th i ⟨cs, none⟩ j).todo, ¬ c'.isPatch := by
      intro j c' hc'
      by_cases hji : j = i
      · subst hji
        simp only [Function.update_self] at hc'
        exact todo j c' (by simp only [hth]; exact List.mem_cons_of_mem _ hc')
      · simp only [Function.update_of_ne hji] at hc'
        exact todo j c' hc'
    have hcopies : ∀ j, (Function.update th i ⟨cs, none⟩ j).copy = none := by
      intro j
      by_cases hji : j = i
      · subst hji; simp
      · simp only [Function.update_of_ne hji]; exact copies j
    rw [hst]
    rcases begin_whole (d := d) (m := m) (todo i c (by simp [hth])) with e | ⟨a, e⟩
    · rw [e]
      exact ⟨⟨cur, hcopies, htodo⟩, le_refl _, fun _ _ => rfl⟩
    · rw [e]
      exact ⟨⟨Nat.lt_succ_self _, hcopies, htodo⟩, Nat.le_succ _, fun k hk => Function.update_of_ne (Nat.ne_of_lt hk) ..⟩

/-- Where reader `r` is, without patches. -/
def ReadInv (d : DMD) (w0 : World) (r : ℕ) (l : List Who) : Prop :=
  match (w0.run d l).readers r with
  | .ready => True
  | .checked => True
  | .reading k bits left => ∃ before t, Moment d w0 r l before ∧ (w0.run d before).dmd.state = .bool t ∧
      k < (w0.run d l).dmd.mem.next ∧ (w0.run d l).dmd.mem.arrays k = .bool t ∧ bits ++ left.map (fun q => t.get q.1 q.2) = bitsOf t
  | .ended res => ∃ before, Moment d w0 r l before ∧ res = packDmdState (w0.run d before).dmd.state

theorem readInv_run {d : DMD} {w0 : World} (hq : Quiet w0.dmd) {r : ℕ} (h0 : w0.readers r = .ready) (l : List Who) :
    Quiet (w0.run d l).dmd ∧ ReadInv d w0 r l := by
  induction l using List.reverseRecOn with
  | nil => exact ⟨hq, by simp only [ReadInv, World.run, List.foldl_nil, h0]⟩
  | append_singleton l x ih =>
    obtain ⟨hQ, hR⟩ := ih
    -- a step that leaves the reader alone and changes no array in use
    have keep : ∀ w', w0.run d (l ++ [x]) = w' → w'.readers r = (w0.run d l).readers r →
        (w0.run d l).dmd.mem.next ≤ w'.dmd.mem.next → (∀ k < (w0.run d l).dmd.mem.next, w'.dmd.mem.arrays k = (w0.run d l).dmd.mem.arrays k) →
        ReadInv d w0 r (l ++ [x]) := by
      intro w' e1 e2 e3 e4
      unfold ReadInv at hR ⊢
      rw [e1, e2]
      cases h : (w0.run d l).readers r with
      | ready => trivial
      | checked => trivial
      | reading k bits left =>
        rw [h] at hR
        obtain ⟨before, t, k1, k2, k3, k4, k5⟩ := hR
        exact ⟨before, t, k1.mono _, k2, k3.trans_le e3, (e4 k k3).trans k4, k5⟩
      | ended res =>
        rw [h] at hR
        obtain ⟨before, k1, k2⟩ := hR
        exact ⟨before, k1.mono _, k2⟩
    cases x with
    | writer i =>
      obtain ⟨q1, q2, q3⟩ := quiet_step (d := d) hQ i
      have e := run_snoc d w0 l (.writer i)
      refine ⟨by rw [e]; exact q1, keep _ e rfl q2 q3⟩
    | reader r' =>
      have e := run_snoc d w0 l (.reader r')
      refine ⟨by rw [e]; exact hQ, ?_⟩
      by_cases hr : r = r'
      · subst hr
        have last : ∀ {j}, (w0.run d l).readers r = j → (∀ res, j ≠ .ended res) → Moment d w0 r (l ++ [.reader r]) l :=
          fun hj hne => .last fun res h => hne res (hj.symm.trans h)
        unfold ReadInv at hR ⊢
        rw [e]
        simp only [World.step, Function.update_self]
        cases h : (w0.run d l).readers r with
        | ready =>
          simp only [Reader.step]
          cases ha : (w0.run d l).dmd.mem.arrays (w0.run d l).dmd.mem.cur with
          | bool t => trivial
          | float t => exact ⟨l, last h (by simp), by rw [SharedDmd.World.state, ha]; rfl⟩
        | checked =>
          simp only [Reader.step]
          cases ha : (w0.run d l).dmd.mem.arrays (w0.run d l).dmd.mem.cur with
          | bool t => exact ⟨l, t, last h (by simp), ha, hQ.cur, ha, rfl⟩
          | float t => exact ⟨l, last h (by simp), by rw [SharedDmd.World.state, ha]; rfl⟩
        | reading k bits left =>
          rw [h] at hR
          obtain ⟨before, t, k1, k2, k3, k4, k5⟩ := hR
          cases left with
          | nil =>
            simp only [Reader.step]
            refine ⟨before, k1.mono _, ?_⟩
            rw [k2, pack_bitsOf, ← k5, List.map_nil, List.append_nil]
          | cons q left =>
            simp only [Reader.step]
            rw [k4]
            exact ⟨before, t, k1.mono _, k2, k3, k4, by rw [← k5]; simp⟩
        | ended res =>
          rw [h] at hR
          obtain ⟨before, k1, k2⟩ := hR
          exact ⟨before, k1.mono _, k2⟩
      · exact keep _ e (Function.update_of_ne hr ..) (le_refl _) fun _ _ => rfl

/-! ## With patches -/

/-- Where reader `r` is. -/
def ReadInv' (d : DMD) (w0 : World) (r : ℕ) (l : List Who) : Prop :=
  match (w0.run d l).readers r with
  | .ready => True
  | .checked => True
  | .reading k bits left => ∃ before t, Moment d w0 r l before ∧ (w0.run d before).dmd.state = .bool t ∧ (w0.run d before).dmd.mem.cur = k ∧
      ∃ seen, positions t.shape = seen ++ left ∧ List.Forall₂ (fun (q : ℕ × ℕ) b => ∃ later t', Moment d w0 r l later ∧ before <+: later ∧
        (w0.run d later).dmd.mem.arrays k = .bool t' ∧ b = t'.get q.1 q.2) seen bits
  | .ended (.error _) => True
  | .ended (.ok bytes) => ∃ before t, Moment d w0 r l before ∧ (w0.run d before).dmd.state = .bool t ∧
      ∃ bits, bytes = packBits bits ∧ List.Forall₂ (fun (q : ℕ × ℕ) b => ∃ later t', Moment d w0 r l later ∧ before <+: later ∧
        (w0.run d later).dmd.mem.arrays (w0.run d before).dmd.mem.cur = .bool t' ∧ b = t'.get q.1 q.2) (positions t.shape) bits

theorem readInv'_run {d : DMD} {w0 : World} {r : ℕ} (h0 : w0.readers r = .ready) (l : List Who) : ReadInv' d w0 r l := by
  induction l using List.reverseRecOn with
  | nil => simp only [ReadInv', World.run, List.foldl_nil, h0]
  | append_singleton l x hR =>
    have grow : ∀ {before : List Who} {k : ℕ} {qs : List (ℕ × ℕ)} {bits : List Bool},
        List.Forall₂ (fun (q : ℕ × ℕ) b => ∃ later t', Moment d w0 r l later ∧ before <+: later ∧
          (w0.run d later).dmd.mem.arrays k = .bool t' ∧ b = t'.get q.1 q.2) qs bits →
        List.Forall₂ (fun (q : ℕ × ℕ) b => ∃ later t', Moment d w0 r (l ++ [x]) later ∧ before <+: later ∧
          (w0.run d later).dmd.mem.arrays k = .bool t' ∧ b = t'.get q.1 q.2) qs bits :=
      fun h => h.imp fun _ _ ⟨later, t', m1, m2⟩ => ⟨later, t', m1.mono _, m2⟩
    have keep : ∀ w', w0.run d (l ++ [x]) = w' → w'.readers r = (w0.run d l).readers r → ReadInv' d w0 r (l ++ [x]) := by
      intro w' e1 e2
      unfold ReadInv' at hR ⊢
      rw [e1, e2]
      cases h : (w0.run d l).readers r with
      | ready => trivial
      | checked => trivial
      | reading k bits left =>
        rw [h] at hR
        obtain ⟨before, t, k1, k2, k3, seen, k4, k5⟩ := hR
        exact ⟨before, t, k1.mono _, k2, k3, seen, k4, grow k5⟩
      | ended res =>
        rw [h] at hR
        cases res with
        | error _ => trivial
        | ok bytes =>
          obtain ⟨before, t, k1, k2, bits, k3, k4⟩ := hR
          exact ⟨before, t, k1.mono _, k2, bits, k3, grow k4⟩
    cases x with
    | writer i => exact keep _ (run_snoc d w0 l (.writer i)) rfl
    | reader r' =>
      have e := run_snoc d w0 l (.reader r')
      by_cases hr : r = r'
      · subst hr
        have last : ∀ {j}, (w0.run d l).readers r = j → (∀ res, j ≠ .ended res) → Moment d w0 r (l ++ [.reader r]) l :=
          fun hj hne => .last fun res h => hne res (hj.symm.trans h)
        unfold ReadInv' at hR ⊢
        rw [e]
        simp only [World.step, Function.update_self]
        cases h : (w0.run d l).readers r with
        | ready =>
          simp only [Reader.step]
          cases ha : (w0.run d l).dmd.mem.arrays (w0.run d l).dmd.mem.cur with
          | bool t => trivial
          | float t => trivial
        | checked =>
          simp only [Reader.step]
          cases ha : (w0.run d l).dmd.mem.arrays (w0.run d l).dmd.mem.cur with
          | bool t => exact ⟨l, t, last h (by simp), ha, rfl, [], rfl, .nil⟩
          | float t => trivial
        | reading k bits left =>
          rw [h] at hR
          obtain ⟨before, t, k1, k2, k3, seen, k4, k5⟩ := hR
          cases left with
          | nil =>
            simp only [Reader.step]
            rw [List.append_nil] at k4
            subst k3
            exact ⟨before, t, k1.mono _, k2, bits, rfl, by rw [k4]; exact grow k5⟩
          | cons q left =>
            simp only [Reader.step]
            cases ha : (w0.run d l).dmd.mem.arrays k with
            | float t => trivial
            | bool t' =>
              refine ⟨before, t, k1.mono _, k2, k3, seen ++ [q], by rw [k4]; simp, ?_⟩
              refine List.rel_append (grow k5) (.cons ⟨l, t', last h (by simp), ?_, ha, rfl⟩ .nil)
              obtain ⟨⟨after, ha'⟩, -⟩ := k1
              exact ⟨_, ha'.symm⟩
        | ended res =>
          rw [h] at hR
          cases res with
          | error _ => trivial
          | ok bytes =>
            obtain ⟨before, t, k1, k2, bits, k3, k4⟩ := hR
            exact ⟨before, t, k1.mono _, k2, bits, k3, grow k4⟩
      · exact keep _ e (Function.update_of_ne hr ..)

/-! ## Only patches -/

theorem patches_step {d : DMD} {w : SharedDmd.World} (h : ∀ i, ∀ c ∈ (w.threads i).todo, c.isPatch) (i : ℕ) :
    (∀ j, ∀ c ∈ ((w.step d i).threads j).todo, c.isPatch) ∧ (w.step d i).mem.cur = w.mem.cur := by
  have key : (stepThread d w.mem (w.threads i)).1.cur = w.mem.cur ∧ ∀ c ∈ (stepThread d w.mem (w.threads i)).2.todo, c ∈ (w.threads i).todo := by
    cases hth : w.threads i with
    | mk todo copy =>
    cases copy with
    | some cp =>
      obtain ⟨array, values, left⟩ := cp
      cases left with
      | nil => exact ⟨rfl, fun c hc => hc⟩
      | cons q left => exact ⟨rfl, fun c hc => hc⟩
    | none =>
      cases todo with
      | nil => exact ⟨rfl, fun c hc => hc⟩
      | cons c cs =>
        refine ⟨?_, fun c' hc' => List.mem_cons_of_mem _ hc'⟩
        have hp : c.isPatch := h i c (by simp [hth])
        simp only [stepThread]
        cases c with
        | patch =>
          simp only [begin]
          split <;> rfl
        | off => exact hp.elim
        | on => exact hp.elim
        | setGrating => exact hp.elim
        | calculate => exact hp.elim
  refine ⟨fun j c hc => ?_, key.1⟩
  by_cases hji : j = i
  · subst hji
    simp only [SharedDmd.World.step, Function.update_self] at hc
    exact h j c (key.2 c hc)
  · simp only [SharedDmd.World.step, Function.update_of_ne hji] at hc
    exact h j c hc

theorem patches_run {d : DMD} {w : World} (h : ∀ i, ∀ c ∈ (w.dmd.threads i).todo, c.isPatch) (l : List Who) :
    (w.run d l).dmd.mem.cur = w.dmd.mem.cur := by
  induction l generalizing w with
  | nil => rfl
  | cons x l ih =>
    cases x with
    | writer i =>
      obtain ⟨h1, h2⟩ := patches_step (d := d) h i
      exact (ih (w := w.step d (.writer i)) h1).trans h2
    | reader r => exact ih (w := w.step d (.reader r)) h

/-! ## What the readers do does not matter to the device -/

/-- The steps of the threads that update the device. -/
def writersOf (l : List Who) : List ℕ := l.filterMap fun
  | .writer i => some i
  | .reader _ => none

theorem run_dmd (d : DMD) (w : World) (l : List Who) : (w.run d l).dmd = w.dmd.run d (writersOf l) := by
  induction l generalizing w with
  | nil => rfl
  | cons x l ih =>
    cases x with
    | writer i => exact ih (w.step d (.writer i))
    | reader r => exact ih (w.step d (.reader r))

/-- A reader that runs alone ends. -/
theorem read_alone (d : DMD) {w : World} {r k : ℕ} {bits : List Bool} {left : List (ℕ × ℕ)} {t : Tensor Bool}
    (h : w.readers r = .reading k bits left) (hk : w.dmd.mem.arrays k = .bool t) :
    (w.run d (List.replicate (left.length + 1) (.reader r))).Ended r (.ok (packBits (bits ++ left.map fun q => t.get q.1 q.2))) := by
  induction left generalizing w bits with
  | nil => simp [World.run, World.Ended, World.step, h, Reader.step]
  | cons q left ih =>
    have := ih (w := w.step d (.reader r)) (bits := bits ++ [t.get q.1 q.2]) (by simp [World.step, h, Reader.step, hk]) hk
    rw [List.append_assoc] at this
    exact this

end PySLM2.SharedRead
