import Verif.Spec.SharedDmd
import Verif.Props.LastWriter

/-!
# Lemmas on threads that update one DMD
-/

noncomputable section

namespace PySLM2.SharedDmd

open Lib DMD

/-- What a mirror shows after a history of calls. -/
def lastOf (d : DMD) (l : List (ℕ × Call)) (a b : ℕ) : Bool := ((l.map Prod.snd).filterMap (d.writes a b)).getLastD false

theorem getLastD_concat {l : List Bool} {x y : Bool} : (l ++ [x]).getLastD y = x := by
  induction l generalizing y with
  | nil => rfl
  | cons a l ih => rw [List.cons_append, List.getLastD_cons]; exact ih

theorem lastOf_append (d : DMD) (l : List (ℕ × Call)) (i : ℕ) (c : Call) (a b : ℕ) :
    lastOf d (l ++ [(i, c)]) a b = (d.writes a b c).getD (lastOf d l a b) := by
  unfold lastOf
  rw [List.map_append, List.filterMap_append]
  cases h : d.writes a b c with
  | none => simp [h]
  | some v =>
    have : List.filterMap (d.writes a b) (List.map Prod.snd [(i, c)]) = [v] := by simp [h]
    rw [this, getLastD_concat]; rfl

theorem mem_maskMirrors {d : DMD} {i j dia : ℝ} {a b : ℕ} :
    (a, b) ∈ maskMirrors d i j dia ↔ a < d.slm.Ny ∧ b < d.slm.Nx ∧ DMD.dist a b i j < |dia| / 2 := by
  unfold maskMirrors
  simp only [List.mem_filter, List.mem_flatMap, List.mem_map, List.mem_range, Prod.mk.injEq, decide_eq_true_eq, circularMask_iff]
  constructor
  · rintro ⟨⟨a', ha, b', hb, rfl, rfl⟩, h⟩
    exact ⟨ha, hb, h⟩
  · rintro ⟨ha, hb, h⟩
    exact ⟨⟨a, ha, b, hb, rfl, rfl⟩, h⟩

/-- What beginning a call does. -/
inductive Began (d : DMD) (m : Memory) (c : Call) : Memory × Option Copy → Prop
  | failed (h : ∀ a b, d.writes a b c = none) : Began d m c (m, none)
  | patch (n : Tensor Bool) (left : List (ℕ × ℕ))
      (h : ∀ a b, (a, b) ∈ left → a < d.slm.Ny ∧ b < d.slm.Nx ∧ covers c a b ∧ d.writes a b c = some (n.get a b))
      (h' : ∀ a < d.slm.Ny, ∀ b < d.slm.Nx, (a, b) ∉ left → d.writes a b c = none) : Began d m c (m, some ⟨m.cur, .bool n, left⟩)
  | whole (n : Tensor Bool) (hs : n.shape = .mat d.slm.Ny d.slm.Nx) (h : ∀ a b, d.writes a b c = some (n.get a b)) :
      Began d m c (⟨Function.update m.arrays m.next (.bool n), m.next, m.next + 1⟩, none)

theorem began {d : DMD} (hx : d.slm.Nx ≠ 1) (hy : d.slm.Ny ≠ 1) {c : Call} (hc : c.binary) {m : Memory} {t : Tensor Bool}
    (hm : m.arrays m.cur = .bool t) (ht : t.shape = .mat d.slm.Ny d.slm.Nx) : Began d m c (begin d m c) := by
  classical
  cases c with
  | off => exact .whole ⟨.mat d.slm.Ny d.slm.Nx, fun _ _ => false⟩ rfl fun _ _ => rfl
  | on => exact .whole ⟨.mat d.slm.Ny d.slm.Nx, fun _ _ => true⟩ rfl fun _ _ => rfl
  | setGrating h amp pin pout method kw draw =>
    cases hg : d.gratingOfArgs h amp pin pout method kw draw with
    | error e =>
      have : begin d m (.setGrating h amp pin pout method kw draw) = (m, none) := by
        simp only [begin, callMem, call, setDmdGratingState, hg]; rfl
      rw [this]
      exact .failed fun a b => by simp only [writes, shows, call, setDmdGratingState, hg]; rfl
    | ok g =>
      obtain ⟨ta, ti, tj, h1⟩ := gratingOfArgs_ok hg
      obtain ⟨n, rfl⟩ := bool_of_isFloat ((grating_isFloat h1).trans (decide_eq_false hc))
      have : begin d m (.setGrating h amp pin pout method kw draw) =
          (⟨Function.update m.arrays m.next (.bool n), m.next, m.next + 1⟩, none) := by
        simp only [begin, callMem, call, setDmdGratingState, hg]
      rw [this]
      exact .whole n (grating_shape hx hy h1) fun a b => by simp only [writes, shows, call, setDmdGratingState, hg]
  | patch h i j amp pin pout dia method kw draw =>
    cases hg : d.gratingOfArgs h amp pin pout method kw draw with
    | error e =>
      have : begin d m (.patch h i j amp pin pout dia method kw draw) = (m, none) := by
        simp only [begin, call, circularPatch, hg]; rfl
      rw [this]
      refine .failed fun a b => ?_
      have : d.shows (.setGrating h amp pin pout method kw draw) a b = none := by
        simp only [shows, call, setDmdGratingState, hg]; rfl
      rw [writes, this, ite_self]
    | ok g =>
      obtain ⟨ta, ti, tj, h1⟩ := gratingOfArgs_ok hg
      obtain ⟨n, rfl⟩ := bool_of_isFloat ((grating_isFloat h1).trans (decide_eq_false hc))
      have hs : (StateArr.bool n).shape = .mat d.slm.Ny d.slm.Nx := grating_shape hx hy h1
      have hsh : (m.arrays m.cur).shape = .mat d.slm.Ny d.slm.Nx := by rw [hm]; exact ht
      have : begin d m (.patch h i j amp pin pout dia method kw draw) = (m, some ⟨m.cur, .bool ⟨t.shape, fun a b =>
          if circularMask i j dia a b then n.get a b else t.get a b⟩, maskMirrors d i j dia⟩) := by
        simp only [begin, call, circularPatch, hg]
        rw [if_pos ⟨hs, hsh⟩, hm]
        rfl
      rw [this]
      have hw : ∀ a b, d.shows (.setGrating h amp pin pout method kw draw) a b = some (n.get a b) := fun a b => by
        simp only [shows, call, setDmdGratingState, hg]
      refine .patch _ _ (fun a b hq => ?_) fun a ha b hb hq => ?_
      · obtain ⟨h1, h2, h3⟩ := mem_maskMirrors.mp hq
        refine ⟨h1, h2, h3, ?_⟩
        rw [writes, hw, if_pos h3]
        exact congrArg some (if_pos ((circularMask_iff _ _ _ _ _).mpr h3)).symm
      · rw [writes, if_neg fun h3 => hq (mem_maskMirrors.mpr ⟨ha, hb, h3⟩)]
  | calculate h inp target method window kw draw =>
    cases hg : d.calcGrating h inp target method window kw draw with
    | error e =>
      have : begin d m (.calculate h inp target method window kw draw) = (m, none) := by
        simp only [begin, callMem, call, calculateDmdState, hg]; rfl
      rw [this]
      exact .failed fun a b => by simp only [writes, shows, call, calculateDmdState, hg]; rfl
    | ok g =>
      obtain ⟨g, e⟩ := g
      obtain ⟨ta, ti, tj, kw', h1⟩ := calcGrating_ok hg
      obtain ⟨n, rfl⟩ := bool_of_isFloat ((grating_isFloat h1).trans (decide_eq_false hc))
      have : begin d m (.calculate h inp target method window kw draw) =
          (⟨Function.update m.arrays m.next (.bool n), m.next, m.next + 1⟩, none) := by
        simp only [begin, callMem, call, calculateDmdState, hg]
      rw [this]
      exact .whole n (grating_shape hx hy h1) fun a b => by simp only [writes, shows, call, calculateDmdState, hg]

/-- What holds at every moment, `l` being the calls begun so far. -/
structure Inv (d : DMD) (progs : ℕ → List Call) (w : World) (l : List (ℕ × Call)) : Prop where
  calls : ∀ i, callsOf i l ++ (w.threads i).todo = progs i
  arrays : ∀ k, ∃ t, w.mem.arrays k = .bool t ∧ t.shape = .mat d.slm.Ny d.slm.Nx
  cur : w.mem.cur < w.mem.next
  copies : ∀ i c, (w.threads i).copy = some c → c.array < w.mem.next ∧ ∃ n, c.values = .bool n ∧ ∀ a b, (a, b) ∈ c.left →
    a < d.slm.Ny ∧ b < d.slm.Nx ∧ (∃ c' ∈ callsOf i l, covers c' a b) ∧ (c.array = w.mem.cur → n.get a b = lastOf d l a b)
  shown : ∀ a < d.slm.Ny, ∀ b < d.slm.Nx, ¬ w.Pending a b → ∀ t, w.mem.arrays w.mem.cur = .bool t → t.get a b = lastOf d l a b

theorem inv_start (d : DMD) (progs : ℕ → List Call) : Inv d progs (World.start d progs) [] where
  calls _ := rfl
  arrays _ := ⟨_, rfl, rfl⟩
  cur := Nat.one_pos
  copies _ _ h := by cases h
  shown a _ b _ _ t ht := by cases ht; rfl

theorem callsOf_append (i j : ℕ) (l : List (ℕ × Call)) (c : Call) :
    callsOf i (l ++ [(j, c)]) = if j = i then callsOf i l ++ [c] else callsOf i l := by
  unfold callsOf
  rw [List.filterMap_append]
  split_ifs with h <;> simp [h]

theorem inv_step {d : DMD} (hx : d.slm.Nx ≠ 1) (hy : d.slm.Ny ≠ 1) {progs : ℕ → List Call} (hb : ∀ i, ∀ c ∈ progs i, c.binary)
    (hsep : Separate d progs) {w : World} {l : List (ℕ × Call)} (inv : Inv d progs w l) (i : ℕ) :
    Inv d progs (w.step d i) (l ++ begins w i) := by
  obtain ⟨calls, arrays, cur, copies, shown⟩ := inv
  obtain ⟨m, th⟩ := w
  cases hth : th i with
  | mk todo copy =>
  cases copy with
  | some cp =>
    obtain ⟨array, values, left⟩ := cp
    have hbeg : begins ⟨m, th⟩ i = [] := by simp only [begins, hth]
    rw [hbeg, List.append_nil]
    obtain ⟨c1, n, c2, c3⟩ := copies i _ (congrArg Thread.copy hth)
    simp only at c1 c2 c3
    subst c2
    cases left with
    | nil =>
      have hst : World.step d ⟨m, th⟩ i = ⟨m, Function.update th i ⟨todo, none⟩⟩ := by
        simp only [World.step, stepThread, hth]
      rw [hst]
      refine ⟨fun j => ?_, arrays, cur, fun j c hj => ?_, fun a ha b hb' hp => shown a ha b hb' ?_⟩
      · rw [← calls j]
        by_cases hji : j = i
        · subst hji; simp [hth]
        · simp [Function.update_of_ne hji]
      · by_cases hji : j = i
        · subst hji; simp at hj
        · simp only [Function.update_of_ne hji] at hj
          exact copies j c hj
      · rintro ⟨j, c, p1, p2, p3⟩
        by_cases hji : j = i
        · subst hji
          simp only [hth, Option.some.injEq] at p1
          subst p1
          simp at p3
        · exact hp ⟨j, c, by simpa only [Function.update_of_ne hji] using p1, p2, p3⟩
    | cons q left =>
      obtain ⟨qa, qb⟩ := q
      obtain ⟨t0, e0, s0⟩ := arrays array
      have hst : World.step d ⟨m, th⟩ i = ⟨{ m with arrays := Function.update m.arrays array (.bool ⟨t0.shape, fun a' b' =>
          if a' = qa ∧ b' = qb then n.get qa qb else t0.get a' b'⟩) }, Function.update th i ⟨todo, some ⟨array, .bool n, left⟩⟩⟩ := by
        simp only at e0
        simp only [World.step, stepThread, hth, writeMirror, e0]
      rw [hst]
      refine ⟨fun j => ?_, fun k => ?_, cur, fun j c hj => ?_, fun a ha b hb' hp t ht => ?_⟩
      · rw [← calls j]
        by_cases hji : j = i
        · subst hji; simp [hth]
        · simp [Function.update_of_ne hji]
      · by_cases hk : k = array
        · subst hk; exact ⟨_, Function.update_self .., s0⟩
        · simp only [Function.update_of_ne hk]; exact arrays k
      · by_cases hji : j = i
        · subst hji
          simp only [Function.update_self, Option.some.injEq] at hj
          subst hj
          exact ⟨c1, n, rfl, fun a b hq => c3 a b (List.mem_cons_of_mem _ hq)⟩
        · simp only [Function.update_of_ne hji] at hj
          exact copies j c hj
      · have old : (a, b) ≠ (qa, qb) → ¬ World.Pending ⟨m, th⟩ a b := by
          rintro hne ⟨j, c, p1, p2, p3⟩
          by_cases hji : j = i
          · subst hji
            simp only [hth, Option.some.injEq] at p1
            subst p1
            refine hp ⟨j, ⟨array, .bool n, left⟩, by simp, p2, ?_⟩
            simpa [hne] using p3
          · exact hp ⟨j, c, by simpa only [Function.update_of_ne hji] using p1, p2, p3⟩
        by_cases hk : m.cur = array
        · simp only [hk, Function.update_self] at ht
          injection ht with ht
          subst ht
          show (if a = qa ∧ b = qb then n.get qa qb else t0.get a b) = _
          split_ifs with hq
          · obtain ⟨rfl, rfl⟩ := hq
            exact (c3 a b (List.mem_cons_self ..)).2.2.2 hk.symm
          · exact shown a ha b hb' (old fun h => hq (by simpa using h)) t0 (by simpa only [hk] using e0)
        · simp only [Function.update_of_ne hk] at ht
          refine shown a ha b hb' ?_ t ht
          rintro ⟨j, c, p1, p2, p3⟩
          by_cases hji : j = i
          · subst hji
            simp only [hth, Option.some.injEq] at p1
            subst p1
            exact hk p2.symm
          · exact hp ⟨j, c, by simpa only [Function.update_of_ne hji] using p1, p2, p3⟩
  | none =>
    cases todo with
    | nil =>
      have hst : World.step d ⟨m, th⟩ i = ⟨m, th⟩ := by
        simp only [World.step, stepThread, hth]
        rw [← hth, Function.update_eq_self]
      have hbeg : begins ⟨m, th⟩ i = [] := by simp only [begins, hth]
      rw [hst, hbeg, List.append_nil]
      exact ⟨calls, arrays, cur, copies, shown⟩
    | cons c cs =>
      have hbeg : begins ⟨m, th⟩ i = [(i, c)] := by simp only [begins, hth]
      have hst : World.step d ⟨m, th⟩ i = ⟨(begin d m c).1, Function.update th i ⟨cs, (begin d m c).2⟩⟩ := by
        simp only [World.step, stepThread, hth]
      have hmem : c ∈ progs i := by
        rw [← calls i]; simp [hth]
      obtain ⟨t0, e0, s0⟩ := arrays m.cur
      have hcalls : ∀ j, callsOf j (l ++ [(i, c)]) ++ (Function.update th i ⟨cs, (begin d m c).2⟩ j).todo = progs j := by
        intro j
        rw [← calls j, callsOf_append]
        by_cases hji : j = i
        · subst hji; simp [hth]
        · simp [Function.update_of_ne hji, Ne.symm hji]
      have hsub : ∀ {j c'}, c' ∈ callsOf j l → c' ∈ callsOf j (l ++ [(i, c)]) := by
        intro j c' h
        rw [callsOf_append]
        split_ifs
        · exact List.mem_append_left _ h
        · exact h
      have hprog : ∀ {j c'}, c' ∈ callsOf j l → c' ∈ progs j := by
        intro j c' h
        rw [← calls j]
        exact List.mem_append_left _ h
      rw [hst, hbeg]
      have hB := began hx hy (hb i c hmem) (m := m) e0 s0
      revert hB hcalls
      generalize begin d m c = r
      intro hcalls hB
      have other : ∀ {j}, j ≠ i → ∀ {c'}, (Function.update th i ⟨cs, r.2⟩ j).copy = some c' → (th j).copy = some c' := by
        intro j hji c' h
        simpa only [Function.update_of_ne hji] using h
      cases hB with
      | failed h =>
        refine ⟨hcalls, arrays, cur, fun j c' hj => ?_, fun a ha b hb' hp t ht => ?_⟩
        · by_cases hji : j = i
          · subst hji; simp at hj
          · obtain ⟨g1, n, g2, g3⟩ := copies j c' (other hji hj)
            refine ⟨g1, n, g2, fun a b hq => ?_⟩
            obtain ⟨k1, k2, ⟨c'', k3, k4⟩, k5⟩ := g3 a b hq
            exact ⟨k1, k2, ⟨c'', hsub k3, k4⟩, fun e => by rw [lastOf_append, h]; exact k5 e⟩
        · rw [lastOf_append, h]
          refine shown a ha b hb' ?_ t ht
          rintro ⟨j, c', p1, p2, p3⟩
          by_cases hji : j = i
          · subst hji; simp [hth] at p1
          · exact hp ⟨j, c', by simpa only [Function.update_of_ne hji] using p1, p2, p3⟩
      | patch n left h h' =>
        refine ⟨hcalls, arrays, cur, fun j c' hj => ?_, fun a ha b hb' hp t ht => ?_⟩
        · by_cases hji : j = i
          · subst hji
            simp only [Function.update_self, Option.some.injEq] at hj
            subst hj
            refine ⟨cur, n, rfl, fun a b hq => ?_⟩
            obtain ⟨k1, k2, k3, k4⟩ := h a b hq
            exact ⟨k1, k2, ⟨c, by rw [callsOf_append, if_pos rfl]; simp, k3⟩, fun _ => by rw [lastOf_append, k4]; rfl⟩
          · obtain ⟨g1, n', g2, g3⟩ := copies j c' (other hji hj)
            refine ⟨g1, n', g2, fun a b hq => ?_⟩
            obtain ⟨k1, k2, ⟨c'', k3, k4⟩, k5⟩ := g3 a b hq
            refine ⟨k1, k2, ⟨c'', hsub k3, k4⟩, fun e => ?_⟩
            rw [lastOf_append, h' a k1 b k2 fun hl => hsep j i hji c'' (hprog k3) c hmem a k1 b k2 ⟨k4, (h a b hl).2.2.1⟩]
            exact k5 e
        · have hl : (a, b) ∉ left := fun hl => hp ⟨i, ⟨m.cur, .bool n, left⟩, by simp, rfl, hl⟩
          rw [lastOf_append, h' a ha b hb' hl]
          refine shown a ha b hb' ?_ t ht
          rintro ⟨j, c', p1, p2, p3⟩
          by_cases hji : j = i
          · subst hji; simp [hth] at p1
          · exact hp ⟨j, c', by simpa only [Function.update_of_ne hji] using p1, p2, p3⟩
      | whole n hs h =>
        refine ⟨hcalls, fun k => ?_, Nat.lt_succ_self _, fun j c' hj => ?_, fun a ha b hb' hp t ht => ?_⟩
        · by_cases hk : k = m.next
          · subst hk; exact ⟨n, Function.update_self .., hs⟩
          · simp only [Function.update_of_ne hk]; exact arrays k
        · by_cases hji : j = i
          · subst hji; simp at hj
          · obtain ⟨g1, n', g2, g3⟩ := copies j c' (other hji hj)
            refine ⟨Nat.lt_succ_of_lt g1, n', g2, fun a b hq => ?_⟩
            obtain ⟨k1, k2, ⟨c'', k3, k4⟩, -⟩ := g3 a b hq
            exact ⟨k1, k2, ⟨c'', hsub k3, k4⟩, fun e => absurd e (Nat.ne_of_lt g1)⟩
        · simp only [Function.update_self] at ht
          injection ht with ht
          subst ht
          rw [lastOf_append, h]; rfl

theorem inv_run {d : DMD} (hx : d.slm.Nx ≠ 1) (hy : d.slm.Ny ≠ 1) {progs : ℕ → List Call} (hb : ∀ i, ∀ c ∈ progs i, c.binary)
    (hsep : Separate d progs) (sched : List ℕ) {w : World} {l : List (ℕ × Call)} (inv : Inv d progs w l) :
    Inv d progs (w.run d sched) (l ++ history d w sched) := by
  induction sched generalizing w l with
  | nil => simpa [World.run, history] using inv
  | cons i sched ih =>
    have := ih (inv_step hx hy hb hsep inv i)
    rw [List.append_assoc] at this
    exact this

/-! ## Overlapping patches -/

/-- Is mirror `(a, b)` of the array that the device shows still to be written by a patch of thread `i`? -/
def PendingBy (w : World) (i a b : ℕ) : Prop :=
  ∃ c, (w.threads i).copy = some c ∧ c.array = w.mem.cur ∧ (a, b) ∈ c.left

/-- What holds at every moment also if patches overlap. -/
structure Inv' (d : DMD) (progs : ℕ → List Call) (w : World) (l : List (ℕ × Call)) : Prop where
  calls : ∀ i, callsOf i l ++ (w.threads i).todo = progs i
  arrays : ∀ k, ∃ t, w.mem.arrays k = .bool t ∧ t.shape = .mat d.slm.Ny d.slm.Nx
  cur : w.mem.cur < w.mem.next
  copies : ∀ i c, (w.threads i).copy = some c → c.array < w.mem.next ∧ ∃ n, c.values = .bool n ∧ (c.array = w.mem.cur →
    ∀ a b, (a, b) ∈ c.left → ∃ l1 c' l2, l = l1 ++ (i, c') :: l2 ∧ d.writes a b c' = some (n.get a b) ∧
      ∀ q ∈ l2, d.writes a b q.2 ≠ none → q.2.isPatch ∧ q.1 ≠ i)
  shown : ∀ a < d.slm.Ny, ∀ b < d.slm.Nx, ∀ t, w.mem.arrays w.mem.cur = .bool t →
    (∃ l1 i c l2, l = l1 ++ (i, c) :: l2 ∧ d.writes a b c = some (t.get a b) ∧
      ∀ q ∈ l2, d.writes a b q.2 ≠ none → q.2.isPatch ∧ (q.1 = i → PendingBy w q.1 a b)) ∨
    (t.get a b = false ∧ ∀ q ∈ l, d.writes a b q.2 ≠ none → PendingBy w q.1 a b)

theorem inv'_start (d : DMD) (progs : ℕ → List Call) : Inv' d progs (World.start d progs) [] where
  calls _ := rfl
  arrays _ := ⟨_, rfl, rfl⟩
  cur := Nat.one_pos
  copies _ _ h := by cases h
  shown a _ b _ t ht := by cases ht; exact Or.inr ⟨rfl, fun q hq => by simp at hq⟩

theorem begun_patch {d : DMD} {m : Memory} {c : Call} {cp : Copy} (h : (begin d m c).2 = some cp) : c.isPatch := by
  cases c with
  | patch => trivial
  | off => cases h
  | on => cases h
  | setGrating => cases h
  | calculate => cases h

theorem inv'_step {d : DMD} (hx : d.slm.Nx ≠ 1) (hy : d.slm.Ny ≠ 1) {progs : ℕ → List Call} (hb : ∀ i, ∀ c ∈ progs i, c.binary)
    {w : World} {l : List (ℕ × Call)} (inv : Inv' d progs w l) (i : ℕ) : Inv' d progs (w.step d i) (l ++ begins w i) := by
  obtain ⟨calls, arrays, cur, copies, shown⟩ := inv
  obtain ⟨m, th⟩ := w
  cases hth : th i with
  | mk todo copy =>
  cases copy with
  | some cp =>
    obtain ⟨array, values, left⟩ := cp
    have hbeg : begins ⟨m, th⟩ i = [] := by simp only [begins, hth]
    rw [hbeg, List.append_nil]
    obtain ⟨c1, n, c2, c3⟩ := copies i _ (congrArg Thread.copy hth)
    simp only at c1 c2 c3
    subst c2
    have hcalls : ∀ (t : Thread), t.todo = todo → ∀ j, callsOf j l ++ (Function.update th i t j).todo = progs j := by
      intro t ht j
      rw [← calls j]
      by_cases hji : j = i
      · subst hji; simp [hth, ht]
      · simp [Function.update_of_ne hji]
    cases left with
    | nil =>
      have hst : World.step d ⟨m, th⟩ i = ⟨m, Function.update th i ⟨todo, none⟩⟩ := by
        simp only [World.step, stepThread, hth]
      have hp : ∀ {j a b}, PendingBy ⟨m, th⟩ j a b → PendingBy ⟨m, Function.update th i ⟨todo, none⟩⟩ j a b := by
        rintro j a b ⟨c, p1, p2, p3⟩
        by_cases hji : j = i
        · subst hji
          simp only [hth, Option.some.injEq] at p1
          subst p1
          simp at p3
        · exact ⟨c, by simpa only [Function.update_of_ne hji] using p1, p2, p3⟩
      rw [hst]
      refine ⟨hcalls _ rfl, arrays, cur, fun j c hj => ?_, fun a ha b hb' t ht => ?_⟩
      · by_cases hji : j = i
        · subst hji; simp at hj
        · simp only [Function.update_of_ne hji] at hj
          exact copies j c hj
      · obtain ⟨l1, j, c, l2, k1, k2, k3⟩ | ⟨k1, k2⟩ := shown a ha b hb' t ht
        · exact Or.inl ⟨l1, j, c, l2, k1, k2, fun q hq hw => ⟨(k3 q hq hw).1, fun e => hp ((k3 q hq hw).2 e)⟩⟩
        · exact Or.inr ⟨k1, fun q hq hw => hp (k2 q hq hw)⟩
    | cons q left =>
      obtain ⟨qa, qb⟩ := q
      obtain ⟨t0, e0, s0⟩ := arrays array
      have hst : World.step d ⟨m, th⟩ i = ⟨{ m with arrays := Function.update m.arrays array (.bool ⟨t0.shape, fun a' b' =>
          if a' = qa ∧ b' = qb then n.get qa qb else t0.get a' b'⟩) }, Function.update th i ⟨todo, some ⟨array, .bool n, left⟩⟩⟩ := by
        simp only at e0
        simp only [World.step, stepThread, hth, writeMirror, e0]
      rw [hst]
      refine ⟨hcalls _ rfl, fun k => ?_, cur, fun j c hj => ?_, fun a ha b hb' t ht => ?_⟩
      · by_cases hk : k = array
        · subst hk; exact ⟨_, Function.update_self .., s0⟩
        · simp only [Function.update_of_ne hk]; exact arrays k
      · by_cases hji : j = i
        · subst hji
          simp only [Function.update_self, Option.some.injEq] at hj
          subst hj
          exact ⟨c1, n, rfl, fun e a b hq => c3 e a b (List.mem_cons_of_mem _ hq)⟩
        · simp only [Function.update_of_ne hji] at hj
          exact copies j c hj
      · have old : ¬(m.cur = array ∧ a = qa ∧ b = qb) → ∀ {j}, PendingBy ⟨m, th⟩ j a b →
            PendingBy ⟨{ m with arrays := Function.update m.arrays array (.bool ⟨t0.shape, fun a' b' =>
              if a' = qa ∧ b' = qb then n.get qa qb else t0.get a' b'⟩) },
              Function.update th i ⟨todo, some ⟨array, .bool n, left⟩⟩⟩ j a b := by
          rintro hne j ⟨c, p1, p2, p3⟩
          by_cases hji : j = i
          · subst hji
            simp only [hth, Option.some.injEq] at p1
            subst p1
            refine ⟨⟨array, .bool n, left⟩, by simp, p2, ?_⟩
            rcases List.mem_cons.mp p3 with e | e
            · injection e with e1 e2
              exact absurd ⟨p2.symm, e1, e2⟩ hne
            · exact e
          · exact ⟨c, by simpa only [Function.update_of_ne hji] using p1, p2, p3⟩
        have lift : ∀ t', t'.get a b = t.get a b → m.arrays m.cur = .bool t' → ¬(m.cur = array ∧ a = qa ∧ b = qb) →
            (∃ l1 i' c l2, l = l1 ++ (i', c) :: l2 ∧ d.writes a b c = some (t.get a b) ∧
              ∀ q ∈ l2, d.writes a b q.2 ≠ none → q.2.isPatch ∧ (q.1 = i' → PendingBy ⟨{ m with arrays := Function.update m.arrays array (.bool ⟨t0.shape,
                fun a' b' => if a' = qa ∧ b' = qb then n.get qa qb else t0.get a' b'⟩) },
                Function.update th i ⟨todo, some ⟨array, .bool n, left⟩⟩⟩ q.1 a b)) ∨
            (t.get a b = false ∧ ∀ q ∈ l, d.writes a b q.2 ≠ none → PendingBy ⟨{ m with arrays := Function.update m.arrays array (.bool ⟨t0.shape,
                fun a' b' => if a' = qa ∧ b' = qb then n.get qa qb else t0.get a' b'⟩) },
                Function.update th i ⟨todo, some ⟨array, .bool n, left⟩⟩⟩ q.1 a b) := by
          intro t' he ht' hne
          rw [← he]
          obtain ⟨l1, j, c, l2, k1, k2, k3⟩ | ⟨k1, k2⟩ := shown a ha b hb' t' ht'
          · exact Or.inl ⟨l1, j, c, l2, k1, k2, fun q hq hw => ⟨(k3 q hq hw).1, fun e => old hne ((k3 q hq hw).2 e)⟩⟩
          · exact Or.inr ⟨k1, fun q hq hw => old hne (k2 q hq hw)⟩
        by_cases hk : m.cur = array
        · simp only [hk, Function.update_self] at ht
          injection ht with ht
          by_cases hq : a = qa ∧ b = qb
          · left
            obtain ⟨l1, c', l2, k1, k2, k3⟩ := c3 hk.symm qa qb (List.mem_cons_self ..)
            obtain ⟨rfl, rfl⟩ := hq
            refine ⟨l1, i, c', l2, k1, ?_, fun q hq hw => ⟨(k3 q hq hw).1, fun e => absurd e (k3 q hq hw).2⟩⟩
            rw [k2, ← ht]
            simp
          · refine lift t0 ?_ (by rw [hk]; exact e0) fun e => hq e.2
            rw [← ht]
            simp [hq]
        · simp only [Function.update_of_ne hk] at ht
          exact lift t rfl ht fun e => hk e.1
  | none =>
    cases todo with
    | nil =>
      have hst : World.step d ⟨m, th⟩ i = ⟨m, th⟩ := by
        simp only [World.step, stepThread, hth]
        rw [← hth, Function.update_eq_self]
      have hbeg : begins ⟨m, th⟩ i = [] := by simp only [begins, hth]
      rw [hst, hbeg, List.append_nil]
      exact ⟨calls, arrays, cur, copies, shown⟩
    | cons c cs =>
      have hbeg : begins ⟨m, th⟩ i = [(i, c)] := by simp only [begins, hth]
      have hst : World.step d ⟨m, th⟩ i = ⟨(begin d m c).1, Function.update th i ⟨cs, (begin d m c).2⟩⟩ := by
        simp only [World.step, stepThread, hth]
      have hmem : c ∈ progs i := by
        rw [← calls i]; simp [hth]
      obtain ⟨t0, e0, s0⟩ := arrays m.cur
      have hcalls : ∀ j, callsOf j (l ++ [(i, c)]) ++ (Function.update th i ⟨cs, (begin d m c).2⟩ j).todo = progs j := by
        intro j
        rw [← calls j, callsOf_append]
        by_cases hji : j = i
        · subst hji; simp [hth]
        · simp [Function.update_of_ne hji, Ne.symm hji]
      rw [hst, hbeg]
      have hB := began hx hy (hb i c hmem) (m := m) e0 s0
      have hpatch : ∀ cp, (begin d m c).2 = some cp → c.isPatch := fun cp h => begun_patch h
      revert hB hcalls hpatch
      generalize begin d m c = r
      intro hcalls hB hpatch
      have other : ∀ {j}, j ≠ i → ∀ {c'}, (Function.update th i ⟨cs, r.2⟩ j).copy = some c' → (th j).copy = some c' := by
        intro j hji c' h
        simpa only [Function.update_of_ne hji] using h
      -- later calls that do not write to the mirror, or are patches of another thread
      have snoc : ∀ {l2 : List (ℕ × Call)} {P : ℕ × Call → Prop}, (∀ q ∈ l2, P q) → P (i, c) → ∀ q ∈ l2 ++ [(i, c)], P q := by
        intro l2 P h1 h2 q hq
        rcases List.mem_append.mp hq with h | h
        · exact h1 q h
        · rw [List.mem_singleton.mp h]; exact h2
      cases hB with
      | failed h =>
        have hp : ∀ {j a b}, PendingBy ⟨m, th⟩ j a b → PendingBy ⟨m, Function.update th i ⟨cs, none⟩⟩ j a b := by
          rintro j a b ⟨c', p1, p2, p3⟩
          by_cases hji : j = i
          · subst hji; simp [hth] at p1
          · exact ⟨c', by simpa only [Function.update_of_ne hji] using p1, p2, p3⟩
        refine ⟨hcalls, arrays, cur, fun j c' hj => ?_, fun a ha b hb' t ht => ?_⟩
        · by_cases hji : j = i
          · subst hji; simp at hj
          · obtain ⟨g1, n, g2, g3⟩ := copies j c' (other hji hj)
            refine ⟨g1, n, g2, fun e a b hq => ?_⟩
            obtain ⟨l1, c'', l2, k1, k2, k3⟩ := g3 e a b hq
            exact ⟨l1, c'', l2 ++ [(i, c)], by rw [k1, List.append_assoc]; rfl, k2, snoc k3 fun hw => absurd (h a b) hw⟩
        · obtain ⟨l1, j, c', l2, k1, k2, k3⟩ | ⟨k1, k2⟩ := shown a ha b hb' t ht
          · exact Or.inl ⟨l1, j, c', l2 ++ [(i, c)], by rw [k1, List.append_assoc]; rfl, k2,
              snoc (fun q hq hw => ⟨(k3 q hq hw).1, fun e => hp ((k3 q hq hw).2 e)⟩) fun hw => absurd (h a b) hw⟩
          · exact Or.inr ⟨k1, snoc (fun q hq hw => hp (k2 q hq hw)) fun hw => absurd (h a b) hw⟩
      | patch n left h h' =>
        have hpc : c.isPatch := hpatch _ rfl
        have hp : ∀ {j a b}, PendingBy ⟨m, th⟩ j a b → PendingBy ⟨m, Function.update th i ⟨cs, some ⟨m.cur, .bool n, left⟩⟩⟩ j a b := by
          rintro j a b ⟨c', p1, p2, p3⟩
          by_cases hji : j = i
          · subst hji; simp [hth] at p1
          · exact ⟨c', by simpa only [Function.update_of_ne hji] using p1, p2, p3⟩
        have hnew : ∀ {a b}, a < d.slm.Ny → b < d.slm.Nx → d.writes a b c ≠ none →
            PendingBy ⟨m, Function.update th i ⟨cs, some ⟨m.cur, .bool n, left⟩⟩⟩ i a b := by
          intro a b ha hb' hw
          refine ⟨⟨m.cur, .bool n, left⟩, by simp, rfl, ?_⟩
          by_contra hl
          exact hw (h' a ha b hb' hl)
        refine ⟨hcalls, arrays, cur, fun j c' hj => ?_, fun a ha b hb' t ht => ?_⟩
        · by_cases hji : j = i
          · subst hji
            simp only [Function.update_self, Option.some.injEq] at hj
            subst hj
            exact ⟨cur, n, rfl, fun _ a b hq => ⟨l, c, [], rfl, (h a b hq).2.2.2, fun q hq => by simp at hq⟩⟩
          · obtain ⟨g1, n', g2, g3⟩ := copies j c' (other hji hj)
            refine ⟨g1, n', g2, fun e a b hq => ?_⟩
            obtain ⟨l1, c'', l2, k1, k2, k3⟩ := g3 e a b hq
            exact ⟨l1, c'', l2 ++ [(i, c)], by rw [k1, List.append_assoc]; rfl, k2, snoc k3 fun _ => ⟨hpc, Ne.symm hji⟩⟩
        · obtain ⟨l1, j, c', l2, k1, k2, k3⟩ | ⟨k1, k2⟩ := shown a ha b hb' t ht
          · exact Or.inl ⟨l1, j, c', l2 ++ [(i, c)], by rw [k1, List.append_assoc]; rfl, k2,
              snoc (fun q hq hw => ⟨(k3 q hq hw).1, fun e => hp ((k3 q hq hw).2 e)⟩) fun hw => ⟨hpc, fun _ => hnew ha hb' hw⟩⟩
          · exact Or.inr ⟨k1, snoc (fun q hq hw => hp (k2 q hq hw)) fun hw => hnew ha hb' hw⟩
      | whole n hs h =>
        refine ⟨hcalls, fun k => ?_, Nat.lt_succ_self _, fun j c' hj => ?_, fun a ha b hb' t ht => ?_⟩
        · by_cases hk : k = m.next
          · subst hk; exact ⟨n, Function.update_self .., hs⟩
          · simp only [Function.update_of_ne hk]; exact arrays k
        · by_cases hji : j = i
          · subst hji; simp at hj
          · obtain ⟨g1, n', g2, -⟩ := copies j c' (other hji hj)
            exact ⟨Nat.lt_succ_of_lt g1, n', g2, fun e => absurd e (Nat.ne_of_lt g1)⟩
        · simp only [Function.update_self] at ht
          injection ht with ht
          subst ht
          exact Or.inl ⟨l, i, c, [], rfl, h a b, fun q hq => by simp at hq⟩

theorem inv'_run {d : DMD} (hx : d.slm.Nx ≠ 1) (hy : d.slm.Ny ≠ 1) {progs : ℕ → List Call} (hb : ∀ i, ∀ c ∈ progs i, c.binary)
    (sched : List ℕ) {w : World} {l : List (ℕ × Call)} (inv : Inv' d progs w l) : Inv' d progs (w.run d sched) (l ++ history d w sched) := by
  induction sched generalizing w l with
  | nil => simpa [World.run, history] using inv
  | cons i sched ih =>
    have := ih (inv'_step hx hy hb inv i)
    rw [List.append_assoc] at this
    exact this

end PySLM2.SharedDmd
