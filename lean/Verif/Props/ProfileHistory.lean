import Verif.Lemmas.ProfileHistory

/-!
# Histories of profile objects (property C55)
-/

noncomputable section

open Complex

namespace PySLM2.Profile

/-- **C55.** In every program that constructs, composes, transforms, assigns and samples profiles: assigning a
parameter of an object after the statements `cs₂` leaves every object (those composed during `cs₂` included) with
exactly the values it has when the assignment is made before `cs₂`; the getters agree too. -/
theorem C55_live (h : Heap) (cs₁ cs₂ : List Cmd) (k param : ℕ) (v : PyNum)
    (hk : k < (World.run ⟨h, [], []⟩ cs₁).objs.length) (hc : ∀ c ∈ cs₂, c.Independent k param) (r q : ℕ) :
    (World.run ⟨h, [], []⟩ (cs₁ ++ cs₂ ++ [.set k param v])).value r =
        (World.run ⟨h, [], []⟩ (cs₁ ++ [.set k param v] ++ cs₂)).value r ∧
      (World.run ⟨h, [], []⟩ (cs₁ ++ cs₂ ++ [.set k param v])).param r q =
        (World.run ⟨h, [], []⟩ (cs₁ ++ [.set k param v] ++ cs₂)).param r q := by
  have hi := inv_run h cs₁
  have e : World.runDeps h cs₁ = (World.run ⟨h, [], []⟩ cs₁, (World.runDeps h cs₁).2) := by
    rw [← runDeps_fst]
  rw [e] at hi
  have hh : Eqv (World.run ⟨h, [], []⟩ (cs₁ ++ cs₂ ++ [.set k param v]))
      (World.run ⟨h, [], []⟩ (cs₁ ++ [.set k param v] ++ cs₂)) := by
    have := set_run_eqv hi (v := v) hk hc
    simpa only [World.run, List.foldl_append, List.foldl_cons, List.foldl_nil] using this
  refine ⟨value_eqv hh r, ?_⟩
  simp only [World.param, hh.1, hh.2]

/-- **C55.** An assignment changes no object that does not contain the assigned one, neither its values nor its
parameters. -/
theorem C55_local (h : Heap) (cs : List Cmd) (k param : ℕ) (v : PyNum) (r : ℕ)
    (hr : k ∉ (World.runDeps h cs).2.getD r ∅) :
    let w := World.run ⟨h, [], []⟩ cs
    (w.exec (.set k param v)).value r = w.value r ∧ ∀ q, (w.exec (.set k param v)).param r q = w.param r q := by
  intro w
  have hi := inv_run h cs
  have e : World.runDeps h cs = (w, (World.runDeps h cs).2) := by
    show _ = (World.run ⟨h, [], []⟩ cs, _)
    rw [← runDeps_fst]
  rw [e] at hi
  cases hk : w.objs[k]? with
  | none => simp only [World.exec, hk, implies_true, and_self]
  | some f =>
    cases hp : (params f)[param]? with
    | none => simp only [World.exec, hk, hp, implies_true, and_self]
    | some p =>
      cases ha : assign w.heap p v with
      | error e => simp only [World.exec, hk, hp, ha, implies_true, and_self]
      | ok h' =>
        have hw : w.exec (.set k param v) = { w with heap := h' } := by simp only [World.exec, hk, hp, ha]
        rw [hw]
        cases hg : w.objs[r]? with
        | none => exact ⟨by funext x y; simp [World.value, hg], fun q => by simp [World.param, hg]⟩
        | some g =>
          have hne : p.1 ∉ cells g := by
            intro hmem
            obtain ⟨_, j, g', h1, h2, h3⟩ := hi.fresh hg _ hmem
            have := hi.uniq h2 hk h3 (List.mem_of_getElem? (params_own hp))
            subst this
            exact hr h1
          have hag := assign_agree ha hne
          refine ⟨?_, fun q => ?_⟩
          · funext x y
            simp only [World.value, hg, Option.bind_some]
            exact (eval_congr g hag x y).symm
          · simp only [World.param, hg, Option.bind_some]
            cases hq : (params g)[q]? with
            | none => rfl
            | some pq =>
              rw [Option.map_some, Option.map_some,
                getParam_congr hag (own_sub _ _ (List.mem_of_getElem? (params_own hq)))]

/-- **C55.** An accepted assignment is what the getter returns afterwards, and the other parameters of the object
keep their values.  A number is accepted unless it is complex and the parameter is real. -/
theorem C55_get (h : Heap) (cs : List Cmd) (k param : ℕ) (v : PyNum) {f : Prof} {p : ℕ × Kind}
    (hk : (World.run ⟨h, [], []⟩ cs).objs[k]? = some f) (hp : (params f)[param]? = some p)
    (hv : v.kind = .cplx → p.2 = .cplx) :
    let w := World.run ⟨h, [], []⟩ cs
    (w.exec (.set k param v)).param k param = some v.val ∧
      ∀ q, q ≠ param → (w.exec (.set k param v)).param k q = w.param k q := by
  intro w
  have hi := inv_run h cs
  have e : World.runDeps h cs = (w, (World.runDeps h cs).2) := by
    show _ = (World.run ⟨h, [], []⟩ cs, _)
    rw [← runDeps_fst]
  rw [e] at hi
  have hok : ∃ h', assign w.heap p v = .ok h' := by
    obtain ⟨c, k⟩ := p
    cases k <;> cases v <;> first | exact ⟨_, rfl⟩ | exact absurd (hv rfl) (by simp)
  obtain ⟨h', ha⟩ := hok
  have hw : w.exec (.set k param v) = { w with heap := h' } := by
    have hk' : w.objs[k]? = some f := hk
    simp only [World.exec, hk', hp, ha]
  rw [hw]
  refine ⟨?_, fun q hq => ?_⟩
  · have hk' : w.objs[k]? = some f := hk
    simp only [World.param, hk', Option.bind_some, hp, Option.map_some, assign_get ha]
  · have hk' : w.objs[k]? = some f := hk
    simp only [World.param, hk', Option.bind_some]
    cases hq' : (params f)[q]? with
    | none => rfl
    | some pq =>
      have hne : p.1 ≠ pq.1 := by
        intro he
        obtain ⟨l1, g1⟩ := List.getElem?_eq_some_iff.mp (params_own hp)
        obtain ⟨l2, g2⟩ := List.getElem?_eq_some_iff.mp (params_own hq')
        exact hq ((hi.nodup hk').getElem_inj_iff.mp (g1.trans (he.trans g2.symm))).symm
      rw [Option.map_some, Option.map_some, getParam_congr (assign_agree ha (l := [pq.1]) (by simpa using hne))
        (List.mem_singleton.mpr rfl)]

/-- **C55.** Values sampled earlier are never changed by anything that happens later; a sample is the value of the
object at that moment. -/
theorem C55_samples (h : Heap) (cs₁ cs₂ : List Cmd) (k : ℕ)
    (hk : k < (World.run ⟨h, [], []⟩ cs₁).objs.length) :
    (World.run ⟨h, [], []⟩ (cs₁ ++ [.sample k] ++ cs₂)).samples[(World.run ⟨h, [], []⟩ cs₁).samples.length]? =
      some ((World.run ⟨h, [], []⟩ cs₁).value k) ∧
    (World.run ⟨h, [], []⟩ cs₁).samples <+: (World.run ⟨h, [], []⟩ (cs₁ ++ cs₂)).samples := by
  simp only [World.run, List.foldl_append, List.foldl_cons, List.foldl_nil]
  set w := List.foldl World.exec ⟨h, [], []⟩ cs₁ with hw
  have hk' : k < w.objs.length := hk
  refine ⟨?_, run_samples_prefix w cs₂⟩
  have h1 : w.exec (.sample k) = { w with samples := w.samples ++ [w.value k] } := by
    simp only [World.exec, List.getElem?_eq_getElem hk']
    congr 3
    funext x y
    simp [World.value, List.getElem?_eq_getElem hk']
  obtain ⟨t, ht⟩ := run_samples_prefix (w.exec (.sample k)) cs₂
  have ht' : (List.foldl World.exec (w.exec (.sample k)) cs₂).samples = (w.exec (.sample k)).samples ++ t := ht.symm
  rw [ht', h1]
  simp

/-- C55: two profiles, their sum is composed before the first one is changed.  The sum changes, the second profile
does not. -/
example (h : Heap) : let cs₁ : List Cmd := [.new (.const (.real 1)), .new (.const (.real 5))]
    let cs₂ : List Cmd := [.binary .add (.obj 0) (.obj 1), .sample 2]
    0 < (World.run ⟨h, [], []⟩ cs₁).objs.length ∧ (∀ c ∈ cs₂, c.Independent 0 0) ∧
      0 ∉ (World.runDeps h cs₁).2.getD 1 ∅ ∧
      (World.run ⟨h, [], []⟩ (cs₁ ++ cs₂)).value 2 0 0 = some 6 ∧
      (World.run ⟨h, [], []⟩ (cs₁ ++ cs₂ ++ [.set 0 0 (.real 2)])).value 2 0 0 = some 7 := by
  refine ⟨by simp [World.run, World.exec, New.run], by simp [Cmd.Independent], ?_, ?_, ?_⟩
  · simp [World.runDeps, World.depsStep, World.exec, New.run, Cmd.deps]
  · show some (((Function.update (Function.update h.re h.next 1) (h.next + 1) 5 h.next : ℝ) : ℂ) +
      ((Function.update (Function.update h.re h.next 1) (h.next + 1) 5 (h.next + 1) : ℝ) : ℂ)) = some 6
    simp
    norm_num
  · show some (((Function.update (Function.update (Function.update h.re h.next 1) (h.next + 1) 5) h.next 2 h.next : ℝ) : ℂ) +
      ((Function.update (Function.update (Function.update h.re h.next 1) (h.next + 1) 5) h.next 2 (h.next + 1) : ℝ) : ℂ)) = some 7
    simp
    norm_num

/-- C55: a getter and a setter. -/
example (h : Heap) : (World.run ⟨h, [], []⟩ [.new (.circ 1 2 3)]).objs[0]? = some (.circ h.next (h.next + 1) (h.next + 2)) ∧
    (params (.circ h.next (h.next + 1) (h.next + 2)))[2]? = some (h.next + 2, .real) ∧
    ((PyNum.real 4).kind = .cplx → Kind.real = Kind.cplx) := by
  refine ⟨rfl, rfl, fun h => ?_⟩
  cases h

end PySLM2.Profile
