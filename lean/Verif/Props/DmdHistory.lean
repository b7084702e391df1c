import Verif.Lemmas.DmdHistory
import Verif.Props.Grating
import Verif.Props.ModeMatching

/-!
# C37 - C40, C42, C43: histories of DMD updates
-/

noncomputable section

namespace PySLM2.DMD

open Lib

/-! ## One call -/

theorem call_patch_cases (d : DMD) (h : Profile.Heap) (cur : StateArr) (i j : ℝ) (amp pin pout : ProfArg) (dia : ℝ)
    (method : String) (kw : Lib.Kwargs) (draw : ℕ → ℕ → ℝ) :
    (∃ e, d.circularPatch h cur i j amp pin pout dia method kw draw = ⟨.none, .error e⟩) ∨
    ∃ g, d.gratingOfArgs h amp pin pout method kw draw = .ok g ∧ g.shape = .mat d.slm.Ny d.slm.Nx ∧
      cur.shape = .mat d.slm.Ny d.slm.Nx ∧ d.circularPatch h cur i j amp pin pout dia method kw draw =
        ⟨.inplace (assignMasked (circularMask i j dia) cur g), .ok ()⟩ := by
  unfold circularPatch
  cases hg : d.gratingOfArgs h amp pin pout method kw draw with
  | error e => exact Or.inl ⟨e, rfl⟩
  | ok g =>
    simp only
    by_cases hc : g.shape = .mat d.slm.Ny d.slm.Nx ∧ cur.shape = .mat d.slm.Ny d.slm.Nx
    · rw [if_pos hc]
      exact Or.inr ⟨g, rfl, hc.1, hc.2, rfl⟩
    · rw [if_neg hc]
      exact Or.inl ⟨_, rfl⟩

/-- Every call leaves an array of the shape of the device. -/
theorem call_shape {d : DMD} (hx : d.slm.Nx ≠ 1) (hy : d.slm.Ny ≠ 1) {cur : StateArr}
    (hc : cur.shape = .mat d.slm.Ny d.slm.Nx) (c : Call) :
    ((d.call cur c).state cur).shape = .mat d.slm.Ny d.slm.Nx := by
  cases c with
  | off => rfl
  | on => rfl
  | setGrating h amp pin pout method kw draw =>
    unfold call setDmdGratingState
    simp only
    cases hg : d.gratingOfArgs h amp pin pout method kw draw with
    | error e => exact hc
    | ok g =>
      obtain ⟨ta, ti, tj, h1⟩ := gratingOfArgs_ok hg
      exact grating_shape hx hy h1
  | patch h i j amp pin pout dia method kw draw =>
    unfold call
    simp only
    rcases call_patch_cases d h cur i j amp pin pout dia method kw draw with ⟨e, he⟩ | ⟨g, -, -, -, hg⟩
    · rw [he]; exact hc
    · rw [hg]; exact (assignMasked_shape _ _ _).trans hc
  | calculate h inp target method window kw draw =>
    unfold call calculateDmdState
    simp only
    cases hg : d.calcGrating h inp target method window kw draw with
    | error e => exact hc
    | ok g =>
      obtain ⟨ta, ti, tj, kw', h1⟩ := calcGrating_ok hg
      exact grating_shape hx hy h1

/-- A call that returns normally leaves an array of the announced dtype. -/
theorem call_dtype {d : DMD} {cur : StateArr} {c : Call} (hok : (d.call cur c).result = .ok ()) :
    ((d.call cur c).state cur).isFloat = (wholeUpdate c).getD cur.isFloat := by
  cases c with
  | off => rfl
  | on => rfl
  | setGrating h amp pin pout method kw draw =>
    unfold call setDmdGratingState at hok ⊢
    simp only at hok ⊢
    cases hg : d.gratingOfArgs h amp pin pout method kw draw with
    | error e => rw [hg] at hok; cases hok
    | ok g =>
      obtain ⟨ta, ti, tj, h1⟩ := gratingOfArgs_ok hg
      exact grating_isFloat h1
  | patch h i j amp pin pout dia method kw draw =>
    unfold call at hok ⊢
    simp only at hok ⊢
    rcases call_patch_cases d h cur i j amp pin pout dia method kw draw with ⟨e, he⟩ | ⟨g, -, -, -, hg⟩
    · rw [he]; rfl
    · rw [hg]; exact assignMasked_isFloat _ _ _
  | calculate h inp target method window kw draw =>
    unfold call calculateDmdState at hok ⊢
    simp only at hok ⊢
    cases hg : d.calcGrating h inp target method window kw draw with
    | error e => rw [hg] at hok; cases hok
    | ok g =>
      obtain ⟨ta, ti, tj, kw', h1⟩ := calcGrating_ok hg
      exact grating_isFloat h1

/-! ## C37 -/

/-- **C37**, shape: after every history of calls with any arguments - successful or not - `dmd_state` has the
shape of the device (unless the device has one row or column only). -/
theorem C37_shape {d : DMD} (hx : d.slm.Nx ≠ 1) (hy : d.slm.Ny ≠ 1) (cs : List Call) :
    (d.runCalls d.initialState cs).shape = .mat d.slm.Ny d.slm.Nx := by
  have : ∀ (cur : StateArr), cur.shape = .mat d.slm.Ny d.slm.Nx →
      (d.runCalls cur cs).shape = .mat d.slm.Ny d.slm.Nx := by
    induction cs with
    | nil => exact fun _ h => h
    | cons c cs ih => exact fun cur hc => ih _ (call_shape hx hy hc c)
  exact this _ rfl

/-- **C37**, dtype: after every history of successful calls, `dmd_state` is a float array if the last call
that assigned the whole array used method `ideal`, and boolean otherwise. -/
theorem C37_dtype {d : DMD} {cs : List Call} (hs : d.Succeeds d.initialState cs) :
    (d.runCalls d.initialState cs).isFloat = (cs.filterMap wholeUpdate).getLastD false := by
  have : ∀ (cur : StateArr), d.Succeeds cur cs →
      (d.runCalls cur cs).isFloat = (cs.filterMap wholeUpdate).getLastD cur.isFloat := by
    clear hs
    induction cs with
    | nil => exact fun _ _ => rfl
    | cons c cs ih =>
      intro cur hs
      unfold runCalls
      rw [ih _ hs.2, call_dtype hs.1]
      cases hw : wholeUpdate c with
      | none => rw [List.filterMap_cons_none hw]; rfl
      | some b => rw [List.filterMap_cons_some hw, List.getLastD_cons]; rfl
  exact this _ hs

/-! ## C38, C39 -/

/-- **C38.** `circular_patch(i, j, ..., d)` returns normally exactly if `set_dmd_grating_state` with the same
arguments does.  Afterwards the state has the same dtype and shape; no mirror at distance `|d|/2` or more from
`(i, j)` has changed; and if the dtypes agree, the mirrors inside the disc are those `set_dmd_grating_state`
would have set. -/
theorem C38_patch {d : DMD} (hx : d.slm.Nx ≠ 1) (hy : d.slm.Ny ≠ 1) {cur : StateArr}
    (hc : cur.shape = .mat d.slm.Ny d.slm.Nx) (h : Profile.Heap) (i j : ℝ) (amp pin pout : ProfArg) (dia : ℝ)
    (method : String) (kw : Lib.Kwargs) (draw : ℕ → ℕ → ℝ) :
    (∃ e, d.setDmdGratingState h amp pin pout method kw draw = ⟨.none, .error e⟩ ∧
      d.circularPatch h cur i j amp pin pout dia method kw draw = ⟨.none, .error e⟩) ∨
    ∃ g new, d.setDmdGratingState h amp pin pout method kw draw = ⟨.rebind g, .ok ()⟩ ∧
      d.circularPatch h cur i j amp pin pout dia method kw draw = ⟨.inplace new, .ok ()⟩ ∧
      new.shape = cur.shape ∧ new.isFloat = cur.isFloat ∧
      (∀ a b : ℕ, |dia| / 2 ≤ DMD.dist a b i j → new.entry a b = cur.entry a b) ∧
      (cur.isFloat = g.isFloat → ∀ a b : ℕ, DMD.dist a b i j < |dia| / 2 → new.entry a b = g.entry a b) := by
  unfold setDmdGratingState circularPatch
  cases hg : d.gratingOfArgs h amp pin pout method kw draw with
  | error e => exact Or.inl ⟨e, rfl, rfl⟩
  | ok g =>
    obtain ⟨ta, ti, tj, h1⟩ := gratingOfArgs_ok hg
    right
    refine ⟨g, _, rfl, if_pos ⟨grating_shape hx hy h1, hc⟩, assignMasked_shape _ _ _, assignMasked_isFloat _ _ _,
      fun a b hab => assignMasked_out _ _ ?_, fun hk a b hab => assignMasked_in hk ?_⟩
    · rw [circularMask_iff]; exact not_lt.mpr hab
    · rw [circularMask_iff]; exact hab

/-- **C38**, mixed dtypes: a binary patch on a grey-scale state writes 1 for a mirror that is on and 0 for
one that is off; a grey-scale patch on a binary state switches on exactly the mirrors whose value is not 0. -/
theorem C38_mixed {d : DMD} {h : Profile.Heap} {cur new g : StateArr} {i j dia : ℝ} {amp pin pout : ProfArg}
    {method : String} {kw : Lib.Kwargs} {draw : ℕ → ℕ → ℝ}
    (hg : d.setDmdGratingState h amp pin pout method kw draw = ⟨.rebind g, .ok ()⟩)
    (hp : d.circularPatch h cur i j amp pin pout dia method kw draw = ⟨.inplace new, .ok ()⟩)
    {a b : ℕ} (hab : DMD.dist a b i j < |dia| / 2) :
    (∀ n : Bool, cur.isFloat = true → g.entry a b = .inl n →
      new.entry a b = .inr (.fin (if n then 1 else 0))) ∧
    (∀ x : XR, cur.isFloat = false → g.entry a b = .inr x →
      ∃ v, new.entry a b = .inl v ∧ (v = true ↔ x ≠ .fin 0)) := by
  rw [← circularMask_iff] at hab
  unfold setDmdGratingState at hg
  unfold circularPatch at hp
  cases hga : d.gratingOfArgs h amp pin pout method kw draw with
  | error e => rw [hga] at hg; simp only [fail] at hg; injection hg with h1 h2; cases h2
  | ok g' =>
    rw [hga] at hg hp
    simp only at hg hp
    injection hg with h1 h2
    injection h1 with h1
    subst h1
    split_ifs at hp with hsh
    · injection hp with h3 h4
      injection h3 with h3
      subst h3
      refine ⟨fun n hc hn => ?_, fun x hc hx => ?_⟩
      · cases cur <;> cases g' <;> simp_all [StateArr.isFloat, StateArr.entry, assignMasked, castToFloat]
      · cases cur <;> cases g' <;> simp_all [StateArr.isFloat, StateArr.entry, assignMasked, castToBool]
        cases x <;> simp [XR.truthy]
    · injection hp with h3 h4
      cases h4

/-- **C38**, commutation: two `circular_patch` calls whose discs have no mirror in common can be exchanged,
whatever state they start from (also if one of them raises). -/
theorem C38_commute (d : DMD) (cur : StateArr) (h h' : Profile.Heap)
    {i j dia i' j' dia' : ℝ} {amp pin pout amp' pin' pout' : ProfArg} {method method' : String} {kw kw' : Lib.Kwargs}
    {draw draw' : ℕ → ℕ → ℝ}
    (hdisj : ∀ a < d.slm.Ny, ∀ b < d.slm.Nx, ¬(DMD.dist a b i j < |dia| / 2 ∧ DMD.dist a b i' j' < |dia'| / 2)) :
    (d.runCalls cur [.patch h i j amp pin pout dia method kw draw,
        .patch h' i' j' amp' pin' pout' dia' method' kw' draw']).Same
      (d.runCalls cur [.patch h' i' j' amp' pin' pout' dia' method' kw' draw',
        .patch h i j amp pin pout dia method kw draw]) := by
  have key : ∀ (h : Profile.Heap) (i j : ℝ) (amp pin pout : ProfArg) (dia : ℝ) (method : String) (kw : Lib.Kwargs)
      (draw : ℕ → ℕ → ℝ) (cur : StateArr),
      (d.call cur (.patch h i j amp pin pout dia method kw draw)).state cur =
        match d.gratingOfArgs h amp pin pout method kw draw with
        | .error _ => cur
        | .ok g => if g.shape = .mat d.slm.Ny d.slm.Nx ∧ cur.shape = .mat d.slm.Ny d.slm.Nx then
            assignMasked (circularMask i j dia) cur g else cur := by
    intro h i j amp pin pout dia method kw draw cur
    unfold call circularPatch
    simp only
    cases d.gratingOfArgs h amp pin pout method kw draw with
    | error e => rfl
    | ok g =>
      simp only
      split_ifs <;> rfl
  unfold runCalls runCalls runCalls
  rw [key, key, key, key]
  cases d.gratingOfArgs h amp pin pout method kw draw with
  | error e => exact same_refl _
  | ok g =>
    cases d.gratingOfArgs h' amp' pin' pout' method' kw' draw' with
    | error e => exact same_refl _
    | ok g' =>
      simp only
      by_cases hc : cur.shape = .mat d.slm.Ny d.slm.Nx
      · by_cases hg : g.shape = .mat d.slm.Ny d.slm.Nx
        · by_cases hg' : g'.shape = .mat d.slm.Ny d.slm.Nx
          · simp only [hc, hg, hg', assignMasked_shape, and_self, if_true]
            refine same_of_entry (M := d.slm.Ny) (N := d.slm.Nx) (by simp only [assignMasked_shape, hc])
              (by simp only [assignMasked_shape, hc]) (by simp only [assignMasked_isFloat]) fun a ha b hb => ?_
            by_cases m1 : circularMask i j dia a b
            · have m2 : ¬circularMask i' j' dia' a b := by
                intro m2
                rw [circularMask_iff] at m1 m2
                exact hdisj a ha b hb ⟨m1, m2⟩
              rw [assignMasked_out _ _ m2]
              exact assignMasked_in' _ _ _ (assignMasked_isFloat _ _ _).symm m1
            · rw [assignMasked_out (mask := circularMask i j dia) (assignMasked _ cur g') g m1]
              by_cases m2 : circularMask i' j' dia' a b
              · exact assignMasked_in' _ _ _ (assignMasked_isFloat _ _ _) m2
              · rw [assignMasked_out _ _ m2, assignMasked_out _ _ m1, assignMasked_out _ _ m2]
          · simp only [hg', false_and, if_false]; exact same_refl _
        · simp only [hg, false_and, if_false]; exact same_refl _
      · simp only [hc, and_false, if_false]; exact same_refl _

/-- **C38**: discs whose centres are at least the sum of the radii apart have no mirror in common. -/
theorem C38_disjoint {i j dia i' j' dia' : ℝ} (h : |dia| / 2 + |dia'| / 2 ≤ DMD.dist i j i' j') (a b : ℝ) :
    ¬(DMD.dist a b i j < |dia| / 2 ∧ DMD.dist a b i' j' < |dia'| / 2) := by
  rintro ⟨h1, h2⟩
  have e : ∀ x y x' y' : ℝ, DMD.dist x y x' y' = Dist.dist (!₂[x, y] : EuclideanSpace ℝ (Fin 2)) !₂[x', y'] := by
    intro x y x' y'
    rw [EuclideanSpace.dist_eq]
    simp [DMD.dist, Real.dist_eq, sq_abs]
  rw [e] at h h1 h2
  have := dist_triangle_left (!₂[i, j] : EuclideanSpace ℝ (Fin 2)) !₂[i', j'] !₂[a, b]
  linarith

/-- **C39**, negation: on a DMD whose state is boolean - for instance every freshly constructed one - a patch
with method `ideal` writes `True` wherever the ideal grating is not exactly zero; the state stays boolean, so
no grey value is ever shown. -/
theorem C39_refuted {d : DMD} {h : Profile.Heap} {amp pin pout : ProfArg} {A φin φout : ℕ → ℕ → ℝ}
    (ga : GratingArgs d h amp pin pout A φin φout) (hx : d.slm.Nx ≠ 1) (hy : d.slm.Ny ≠ 1)
    {cur : Tensor Bool} (hc : cur.shape = .mat d.slm.Ny d.slm.Nx) (i j dia : ℝ) (kw : Lib.Kwargs)
    (draw : ℕ → ℕ → ℝ) :
    ∃ (ideal : Tensor XR) (new : Tensor Bool),
      d.setDmdGratingState h amp pin pout "ideal" kw draw = ⟨.rebind (.float ideal), .ok ()⟩ ∧
      d.circularPatch h (.bool cur) i j amp pin pout dia "ideal" kw draw = ⟨.inplace (.bool new), .ok ()⟩ ∧
      ∀ a b : ℕ, DMD.dist a b i j < |dia| / 2 → (new.get a b = true ↔ ideal.get a b ≠ .fin 0) := by
  classical
  obtain ⟨ta, ti, tj, g1, g2, g3, g4⟩ := setGrating_of_grating ga
  obtain ⟨⟨tid, i1, i2, i3⟩, -, -⟩ := grating_elementwise g1 g2 g3 kw draw
  have hgo : d.gratingOfArgs h amp pin pout "ideal" kw draw = .ok (.float tid) := by
    have := g4 "ideal" kw draw
    rw [i1] at this
    unfold setDmdGratingState at this
    cases hg : d.gratingOfArgs h amp pin pout "ideal" kw draw with
    | error e => rw [hg] at this; simp only [fail] at this; injection this with a b; cases a
    | ok g =>
      rw [hg] at this; simp only at this; injection this with a b
      injection a with a; rw [a]
  refine ⟨tid, ⟨cur.shape, fun a b => if circularMask i j dia a b then castToBool (tid.get a b) else cur.get a b⟩,
    by rw [g4, i1], ?_, fun a b hab => ?_⟩
  · unfold circularPatch
    rw [hgo]
    exact if_pos ⟨i2, hc⟩
  · rw [← circularMask_iff] at hab
    simp only [if_pos hab]
    unfold castToBool
    rw [decide_eq_true_iff]
    cases tid.get a b with
    | fin x => simp [XR.truthy]
    | pinf => simp [XR.truthy]
    | ninf => simp [XR.truthy]
    | nan => simp [XR.truthy]

/-- **C39** (proved part): on a DMD that already holds a grey-scale state, a patch with method `ideal` writes
the ideal grating values into the disc.  Missing: the same for boolean states, which is false
(`C39_refuted`). -/
theorem C39_partial {d : DMD} {h : Profile.Heap} {amp pin pout : ProfArg} {A φin φout : ℕ → ℕ → ℝ}
    (ga : GratingArgs d h amp pin pout A φin φout) (hp : d.p ≠ 0)
    {cur : Tensor XR} (hc : cur.shape = .mat d.slm.Ny d.slm.Nx) (i j dia : ℝ) (kw : Lib.Kwargs)
    (draw : ℕ → ℕ → ℝ) :
    ∃ new : Tensor XR,
      d.circularPatch h (.float cur) i j amp pin pout dia "ideal" kw draw = ⟨.inplace (.float new), .ok ()⟩ ∧
      ∀ a < d.slm.Ny, ∀ b < d.slm.Nx, DMD.dist a b i j < |dia| / 2 →
        new.get a b = .fin (A a b * (Real.cos (d.detuning φin φout a b) / 2 + 1 / 2)) := by
  classical
  obtain ⟨ta, ti, tj, g1, g2, g3, g4⟩ := setGrating_of_grating ga
  obtain ⟨⟨tid, i1, i2, i3⟩, -, -⟩ := grating_elementwise g1 g2 g3 kw draw
  have hgo : d.gratingOfArgs h amp pin pout "ideal" kw draw = .ok (.float tid) := by
    have := g4 "ideal" kw draw
    rw [i1] at this
    unfold setDmdGratingState at this
    cases hg : d.gratingOfArgs h amp pin pout "ideal" kw draw with
    | error e => rw [hg] at this; simp only [fail] at this; injection this with a b; cases a
    | ok g =>
      rw [hg] at this; simp only at this; injection this with a b
      injection a with a; rw [a]
  refine ⟨⟨cur.shape, fun a b => if circularMask i j dia a b then tid.get a b else cur.get a b⟩, ?_,
    fun a ha b hb hab => ?_⟩
  · unfold circularPatch
    rw [hgo]
    exact if_pos ⟨i2, hc⟩
  · rw [← circularMask_iff] at hab
    simp only [if_pos hab]
    rw [i3 a ha b hb]
    exact idealPixel_eq d hp A φin φout a b

/-! ## C40 -/

/-- **C40**: whenever `set_dmd_grating_state` or `circular_patch` raises, `dmd_state` is untouched; whenever
`calculate_dmd_state` raises, it is untouched unless the exception is the `ZeroDivisionError` of the final
efficiency (C27). -/
theorem C40_failed_updates (d : DMD) (cur : StateArr) (c : Call) {e : PyErr}
    (he : (d.call cur c).result = .error e) :
    (d.call cur c).effect = .none ∨
      (e = .zeroDivisionError ∧ ∃ h inp target method window kw draw,
        c = .calculate h inp target method window kw draw) := by
  cases c with
  | off => cases he
  | on => cases he
  | setGrating h amp pin pout method kw draw =>
    unfold call setDmdGratingState at he ⊢
    simp only at he ⊢
    cases hg : d.gratingOfArgs h amp pin pout method kw draw with
    | error e => exact Or.inl rfl
    | ok g => rw [hg] at he; cases he
  | patch h i j amp pin pout dia method kw draw =>
    unfold call at he ⊢
    simp only at he ⊢
    rcases call_patch_cases d h cur i j amp pin pout dia method kw draw with ⟨e, h1⟩ | ⟨g, -, -, -, hg⟩
    · rw [h1]; exact Or.inl rfl
    · rw [hg] at he; cases he
  | calculate h inp target method window kw draw =>
    unfold call calculateDmdState at he ⊢
    simp only at he ⊢
    cases hg : d.calcGrating h inp target method window kw draw with
    | error e => exact Or.inl rfl
    | ok g =>
      rw [hg] at he
      refine Or.inr ⟨?_, _, _, _, _, _, _, _, rfl⟩
      simp only at he
      unfold etaOf at he
      split_ifs at he with h1
      · exact (Except.error.inj he).symm
      · cases hm : g.2 with
        | fin x =>
          rw [hm] at he
          simp only at he
          split_ifs at he with h2
          · exact (Except.error.inj he).symm
          · cases he
        | pinf => rw [hm] at he; cases he
        | ninf => rw [hm] at he; cases he
        | nan => rw [hm] at he; cases he

/-- **C40**: an unknown method never touches the state, and raises `ValueError` if the other arguments are
well formed. -/
theorem C40_unknown_method (d : DMD) (cur : StateArr) {method : String} (hm : ¬Known method) (h : Profile.Heap)
    (draw : ℕ → ℕ → ℝ) :
    (∀ amp pin pout kw, (∃ e, d.setDmdGratingState h amp pin pout method kw draw = ⟨.none, .error e⟩) ∧
      ∀ A φin φout, GratingArgs d h amp pin pout A φin φout →
        d.setDmdGratingState h amp pin pout method kw draw = ⟨.none, .error .valueError⟩) ∧
    (∀ i j dia amp pin pout kw,
      (∃ e, d.circularPatch h cur i j amp pin pout dia method kw draw = ⟨.none, .error e⟩) ∧
      ∀ A φin φout, GratingArgs d h amp pin pout A φin φout →
        d.circularPatch h cur i j amp pin pout dia method kw draw = ⟨.none, .error .valueError⟩) ∧
    (∀ inp target window kw,
      (∃ e, d.calculateDmdState h inp target method window kw draw = ⟨.none, .error e⟩) ∧
      ∀ u T w, Matching d h inp target window u T w →
        d.calculateDmdState h inp target method window kw draw = ⟨.none, .error .valueError⟩) := by
  have hg : ∀ amp pin pout kw, ∃ e, d.gratingOfArgs h amp pin pout method kw draw = .error e := by
    intro amp pin pout kw
    cases hg : d.gratingOfArgs h amp pin pout method kw draw with
    | error e => exact ⟨e, rfl⟩
    | ok g =>
      obtain ⟨ta, ti, tj, h1⟩ := gratingOfArgs_ok hg
      rw [grating_unknown hm] at h1
      cases h1
  have hv : ∀ amp pin pout kw A φin φout, GratingArgs d h amp pin pout A φin φout →
      d.gratingOfArgs h amp pin pout method kw draw = .error .valueError := by
    rintro amp pin pout kw A φin φout ⟨⟨t1, h1, -⟩, ⟨t2, h2, -⟩, ⟨t3, h3, -⟩⟩
    unfold gratingOfArgs
    rw [h1]; simp only
    rw [h2]; simp only
    rw [h3]; simp only
    exact grating_unknown hm
  have hif : method ≠ "ifta" := fun hc => hm (Or.inr (Or.inr (Or.inr hc)))
  refine ⟨fun amp pin pout kw => ⟨?_, fun A φin φout ga => ?_⟩, fun i j dia amp pin pout kw => ⟨?_, fun A φin φout ga => ?_⟩,
    fun inp target window kw => ⟨?_, fun u T w m => ?_⟩⟩
  · obtain ⟨e, he⟩ := hg amp pin pout kw
    exact ⟨e, by unfold setDmdGratingState; rw [he]; rfl⟩
  · unfold setDmdGratingState; rw [hv _ _ _ _ _ _ _ ga]; rfl
  · obtain ⟨e, he⟩ := hg amp pin pout kw
    exact ⟨e, by unfold circularPatch; rw [he]; rfl⟩
  · unfold circularPatch; rw [hv _ _ _ _ _ _ _ ga]; rfl
  · cases hc : d.calcGrating h inp target method window kw draw with
    | error e => exact ⟨e, calculate_of_error hc⟩
    | ok g =>
      obtain ⟨ta, ti, tj, kw', h1⟩ := calcGrating_ok hc
      rw [grating_unknown hm] at h1
      cases h1
  · obtain ⟨tin, amp, pin, pout, h1, h2, h3, h4, h5, h6⟩ := calcGrating_eq m method kw draw
    have h7 : d.forwardKwargs h tin method kw = .ok { r := kw.r, N := kw.N, s := kw.s } := by
      unfold forwardKwargs
      rw [if_neg hif]
    rw [h7] at h6
    simp only at h6
    rw [grating_unknown hm] at h6
    exact calculate_of_error h6

/-- **C40**: method `ifta` without a signal window raises `KeyError` and does not touch the state. -/
theorem C40_missing_window {d : DMD} {h : Profile.Heap} {inp target : ProfArg} {window : Option ProfArg}
    {u T w : ℕ → ℕ → ℂ} (m : Matching d h inp target window u T w) {kw : CalcKwargs} (hk : kw.signalWindow = none)
    (draw : ℕ → ℕ → ℝ) :
    d.calculateDmdState h inp target "ifta" window kw draw = ⟨.none, .error .keyError⟩ := by
  obtain ⟨tin, amp, pin, pout, h1, h2, h3, h4, h5, h6⟩ := calcGrating_eq m "ifta" kw draw
  have h7 : d.forwardKwargs h tin "ifta" kw = .error .keyError := by
    unfold forwardKwargs
    rw [if_pos rfl, hk]
  rw [h7] at h6
  exact calculate_of_error h6

/-! ## C42 -/

/-- **C42**: `pack_dmd_state` raises `TypeError` exactly if the state is not boolean, and returns bytes
otherwise; after a history of successful calls it raises exactly if the last call that assigned the whole
array used method `ideal`. -/
theorem C42_type_error :
    (∀ st : StateArr, (packDmdState st = .error .typeError ↔ st.isFloat = true) ∧
      (st.isFloat = false → ∃ bytes, packDmdState st = .ok bytes)) ∧
    ∀ (d : DMD) (cs : List Call), d.Succeeds d.initialState cs →
      (packDmdState (d.runCalls d.initialState cs) = .error .typeError ↔
        (cs.filterMap wholeUpdate).getLast? = some true) := by
  have h1 : ∀ st : StateArr, (packDmdState st = .error .typeError ↔ st.isFloat = true) ∧
      (st.isFloat = false → ∃ bytes, packDmdState st = .ok bytes) := by
    intro st
    cases st with
    | bool t =>
      unfold packDmdState
      simp only
      cases t.shape with
      | scalar => simp [StateArr.isFloat]
      | mat M N => simp [StateArr.isFloat]
    | float t => simp [packDmdState, StateArr.isFloat]
  refine ⟨h1, fun d cs hs => ?_⟩
  rw [(h1 _).1, C37_dtype hs, List.getLastD_eq_getLast?]
  cases (cs.filterMap wholeUpdate).getLast? with
  | none => simp
  | some b => simp

/-! ## C43 -/

/-- **C43**, one call: `circular_patch` keeps the array object and changes no other; every other call that
changes the state installs a new array object and changes no existing one. -/
theorem C43_call (d : DMD) (m : Memory) (c : Call) (hm : m.cur < m.next) :
    (c.isPatch → (d.callMem m c).cur = m.cur ∧ (d.callMem m c).next = m.next ∧
      (d.callMem m c).arrays m.cur = (d.call (m.arrays m.cur) c).state (m.arrays m.cur) ∧
      ∀ a, a ≠ m.cur → (d.callMem m c).arrays a = m.arrays a) ∧
    (¬c.isPatch → (∀ a < m.next, (d.callMem m c).arrays a = m.arrays a) ∧
      (d.callMem m c = m ∨ ∀ a < m.next, (d.callMem m c).cur ≠ a)) := by
  constructor
  · intro hp
    cases c with
    | patch h i j amp pin pout dia method kw draw =>
      unfold callMem call
      simp only
      rcases call_patch_cases d h (m.arrays m.cur) i j amp pin pout dia method kw draw with
        ⟨e, he⟩ | ⟨g, -, -, -, hg⟩
      · rw [he]
        exact ⟨rfl, rfl, rfl, fun _ _ => rfl⟩
      · rw [hg]
        refine ⟨rfl, rfl, ?_, fun a ha => ?_⟩
        · simp only [Function.update_self]; rfl
        · simp only [Function.update_of_ne ha]
    | _ => exact absurd hp (fun h => h)
  · intro hp
    have hne : ∀ a, (d.call (m.arrays m.cur) c).effect ≠ .inplace a := by
      intro a
      cases c with
      | off => exact fun h => by cases h
      | on => exact fun h => by cases h
      | setGrating h amp pin pout method kw draw =>
        unfold call setDmdGratingState
        simp only
        cases d.gratingOfArgs h amp pin pout method kw draw <;> exact fun h => by cases h
      | patch => exact absurd trivial hp
      | calculate h inp target method window kw draw =>
        unfold call calculateDmdState
        simp only
        cases d.calcGrating h inp target method window kw draw <;> exact fun h => by cases h
    unfold callMem
    cases he : (d.call (m.arrays m.cur) c).effect with
    | none => exact ⟨fun _ _ => rfl, Or.inl rfl⟩
    | rebind s =>
      refine ⟨fun a ha => ?_, Or.inr fun a ha => ?_⟩
      · simp only [Function.update_of_ne (Nat.ne_of_lt ha)]
      · simp only; omega
    | inplace s => exact absurd he (hne s)

/-- One call: the current array holds the state, and memory stays well formed. -/
theorem callMem_state (d : DMD) (m : Memory) (c : Call) (hm : m.cur < m.next) :
    (d.callMem m c).arrays (d.callMem m c).cur = (d.call (m.arrays m.cur) c).state (m.arrays m.cur) ∧
    (d.callMem m c).cur < (d.callMem m c).next ∧ m.next ≤ (d.callMem m c).next := by
  unfold callMem Outcome.state
  cases (d.call (m.arrays m.cur) c).effect with
  | none => exact ⟨rfl, hm, le_refl _⟩
  | rebind s => exact ⟨by simp, by simp, by simp⟩
  | inplace s => exact ⟨by simp, hm, le_refl _⟩

/-- **C43**, histories: in every history of calls and of assignments of held arrays to `dmd_state`, an array
object that is not assigned to `dmd_state` at the start nor by an assignment keeps its contents.  In particular
an array obtained from `dmd_state` is never changed again once another call has replaced it, unless the program
assigns it back. -/
theorem C43_history (d : DMD) (m : Memory) (hm : m.cur < m.next) (as : List Act)
    (hid : ∀ id, Act.assign id ∈ as → id < m.next) {a : ℕ} (ha : a < m.next) (hcur : m.cur ≠ a)
    (hnot : Act.assign a ∉ as) : (d.runMem m as).arrays a = m.arrays a ∧ (d.runMem m as).cur ≠ a := by
  induction as generalizing m with
  | nil => exact ⟨rfl, hcur⟩
  | cons c cs ih =>
    unfold runMem
    cases c with
    | call c =>
      obtain ⟨-, h2, h3⟩ := callMem_state d m c hm
      have h1 : (d.callMem m c).arrays a = m.arrays a ∧ (d.callMem m c).cur ≠ a := by
        by_cases hp : c.isPatch
        · obtain ⟨e1, -, -, e2⟩ := (C43_call d m c hm).1 hp
          exact ⟨e2 a (Ne.symm hcur), by rw [e1]; exact hcur⟩
        · obtain ⟨e1, e2⟩ := (C43_call d m c hm).2 hp
          refine ⟨e1 a ha, ?_⟩
          rcases e2 with e2 | e2
          · rw [e2]; exact hcur
          · exact e2 a ha
      have := ih (d.callMem m c) h2 (fun id hi => lt_of_lt_of_le (hid id (List.mem_cons_of_mem _ hi)) h3)
        (lt_of_lt_of_le ha h3) h1.2 (fun hc => hnot (List.mem_cons_of_mem _ hc))
      exact ⟨this.1.trans h1.1, this.2⟩
    | assign id =>
      have hne : id ≠ a := fun hc => hnot (by rw [hc]; exact List.mem_cons_self)
      exact ih { m with cur := id } (hid id List.mem_cons_self) (fun i hi => hid i (List.mem_cons_of_mem _ hi)) ha hne
        (fun hc => hnot (List.mem_cons_of_mem _ hc))

/-- **C43**, refinement: the contents of `dmd_state` after a history of calls are those computed without
tracking identities. -/
theorem C43_refines (d : DMD) (m : Memory) (hm : m.cur < m.next) (cs : List Call) :
    (d.runMem m (cs.map .call)).arrays (d.runMem m (cs.map .call)).cur = d.runCalls (m.arrays m.cur) cs := by
  induction cs generalizing m with
  | nil => rfl
  | cons c cs ih =>
    obtain ⟨h1, h2, -⟩ := callMem_state d m c hm
    simp only [List.map_cons]
    unfold runMem runCalls
    show (d.runMem (d.callMem m c) _).arrays (d.runMem (d.callMem m c) _).cur = _
    rw [ih _ h2, h1]

/-- **C43**, patches are seen by every holder of the array: after any number of `circular_patch` calls the
attribute refers to the same array object, whose contents are the patched state. -/
theorem C43_patches_shared (d : DMD) (m : Memory) (hm : m.cur < m.next) (cs : List Call)
    (hp : ∀ c ∈ cs, c.isPatch) :
    (d.runMem m (cs.map .call)).cur = m.cur ∧
      (d.runMem m (cs.map .call)).arrays m.cur = d.runCalls (m.arrays m.cur) cs := by
  have h : (d.runMem m (cs.map .call)).cur = m.cur := by
    induction cs generalizing m with
    | nil => rfl
    | cons c cs ih =>
      obtain ⟨e1, -, -, -⟩ := (C43_call d m c hm).1 (hp c List.mem_cons_self)
      obtain ⟨-, h2, -⟩ := callMem_state d m c hm
      simp only [List.map_cons]
      unfold runMem
      exact (ih (d.callMem m c) h2 fun c hc => hp c (List.mem_cons_of_mem _ hc)).trans e1
  refine ⟨h, ?_⟩
  have := C43_refines d m hm cs
  rwa [h] at this

/-! ## The hypotheses are satisfiable -/

/-- C37, C42: histories of successful calls ending in each of the dtypes. -/
example (h : Profile.Heap) (draw : ℕ → ℕ → ℝ) :
    let a : ProfArg := .num (.real 1)
    let cs : List Call := [.on, .setGrating h a a a "ideal" {} draw, .patch h 1 1 a a a 2 "simple" {} draw]
    exGrating.Succeeds exGrating.initialState cs ∧ (cs.filterMap wholeUpdate).getLast? = some true ∧
    exGrating.Succeeds exGrating.initialState [.setGrating h a a a "simple" {} draw] := by
  refine ⟨⟨rfl, rfl, rfl, trivial⟩, by simp [wholeUpdate, List.filterMap_cons], rfl, trivial⟩

/-- C38: a device, a state of its shape, and two discs that do not overlap. -/
example : exGrating.slm.Nx ≠ 1 ∧ exGrating.slm.Ny ≠ 1 ∧
    exGrating.initialState.shape = .mat exGrating.slm.Ny exGrating.slm.Nx ∧
    |(2 : ℝ)| / 2 + |(-2 : ℝ)| / 2 ≤ DMD.dist 0 0 0 3 := by
  refine ⟨by decide, by decide, rfl, ?_⟩
  unfold DMD.dist
  rw [show ((0 : ℝ) - 0) ^ 2 + (0 - 3) ^ 2 = 3 ^ 2 by norm_num, Real.sqrt_sq (by norm_num)]
  norm_num

/-- C38, mixed dtypes: a binary patch on a grey state and a grey patch on the initial, binary state. -/
example (h : Profile.Heap) (draw : ℕ → ℕ → ℝ) :
    let a : ProfArg := .num (.real 1)
    let grey : StateArr := .float ⟨.mat exGrating.slm.Ny exGrating.slm.Nx, fun _ _ => .fin (1 / 2)⟩
    (∃ g new n, exGrating.setDmdGratingState h a a a "simple" {} draw = ⟨.rebind g, .ok ()⟩ ∧
      exGrating.circularPatch h grey 1 1 a a a 2 "simple" {} draw = ⟨.inplace new, .ok ()⟩ ∧
      grey.isFloat = true ∧ g.entry 1 1 = .inl n) ∧
    (∃ g new x, exGrating.setDmdGratingState h a a a "ideal" {} draw = ⟨.rebind g, .ok ()⟩ ∧
      exGrating.circularPatch h exGrating.initialState 1 1 a a a 2 "ideal" {} draw = ⟨.inplace new, .ok ()⟩ ∧
      exGrating.initialState.isFloat = false ∧ g.entry 1 1 = .inr x) ∧
    DMD.dist ((1 : ℕ) : ℝ) ((1 : ℕ) : ℝ) 1 1 < |(2 : ℝ)| / 2 :=
  ⟨⟨_, _, _, rfl, rfl, rfl, rfl⟩, ⟨_, _, _, rfl, rfl, rfl, rfl⟩, by simp [DMD.dist]⟩

/-- C39: a concrete patch of the centre of a fresh DMD asks for the value 1/2 and shows `True`. -/
example (h : Profile.Heap) : GratingArgs (DMD.new ⟨3, 5, 4, 2, 2⟩ 4 0 false) h (.num (.real 1)) (.num (.real 0))
    (.num (.real (Real.pi / 2))) (fun _ _ => 1) (fun _ _ => 0) (fun _ _ => Real.pi / 2) :=
  ⟨⟨_, rfl, rfl, fun _ _ _ _ => rfl⟩, ⟨_, rfl, rfl, fun _ _ _ _ => rfl⟩, ⟨_, rfl, rfl, fun _ _ _ _ => rfl⟩⟩

/-- C40: a misspelt method. -/
example : ¬Known "Random" := by unfold Known; decide

/-- C43: memory with the initial state of a DMD and one further array. -/
example : let m : Memory := ⟨fun _ => exGrating.initialState, 0, 2⟩
    m.cur < m.next ∧ 1 < m.next ∧ m.cur ≠ 1 ∧ Act.assign 1 ∉ [Act.call .on, Act.assign 0, Act.call .off] ∧
    ∀ id, Act.assign id ∈ [Act.call .on, Act.assign 0, Act.call .off] → id < m.next := by
  simp

end PySLM2.DMD
