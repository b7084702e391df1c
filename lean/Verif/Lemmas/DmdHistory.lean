import Verif.Spec.DmdHistory

/-!
# Lemmas on shapes and dtypes of gratings
-/

noncomputable section

namespace PySLM2

open Lib

theorem bcastDim_right {a n r : ℕ} (hn : n ≠ 1) (h : bcastDim a n = some r) : r = n := by
  unfold bcastDim at h
  split_ifs at h with h1 h2
  · rw [← h1]; exact (Option.some.inj h).symm
  · exact (Option.some.inj h).symm

theorem bcast_right {s t : Shape} {m n : ℕ} (hm : m ≠ 1) (hn : n ≠ 1) (h : bcast s (.mat m n) = some t) :
    t = .mat m n := by
  cases s with
  | scalar => exact (Option.some.inj h).symm
  | mat r c =>
    simp only [bcast] at h
    cases h1 : bcastDim r m with
    | none => rw [h1] at h; cases h
    | some r' =>
      cases h2 : bcastDim c n with
      | none => rw [h1, h2] at h; cases h
      | some c' =>
        rw [h1, h2, bcastDim_right hm h1, bcastDim_right hn h2] at h
        exact (Option.some.inj h).symm

namespace DMD

theorem gratingShape_eq {d : DMD} (hx : d.slm.Nx ≠ 1) (hy : d.slm.Ny ≠ 1) {amp : Tensor XR}
    {pin pout : Tensor ℝ} {s : Shape}
    (h : gratingShape amp pin pout d.slm.fourierGrid.1 d.slm.fourierGrid.2 = some s) :
    s = .mat d.slm.Ny d.slm.Nx := by
  unfold gratingShape bcastAll at h
  have h0 : bcastAll [d.slm.fourierGrid.1.shape, d.slm.fourierGrid.2.shape] =
      some (.mat d.slm.Ny d.slm.Nx) := by
    simp [bcastAll, bcast, SLM.fourierGrid, bcastDim]
  unfold bcastAll at h
  cases h1 : bcastAll [pout.shape, d.slm.fourierGrid.1.shape, d.slm.fourierGrid.2.shape] with
  | none => rw [h1] at h; cases h
  | some t =>
    rw [h1] at h
    unfold bcastAll at h1
    rw [h0] at h1
    have ht := bcast_right hy hx h1
    subst ht
    simp only at h
    cases h2 : bcast pin.shape (.mat d.slm.Ny d.slm.Nx) with
    | none => rw [h2] at h; cases h
    | some t' =>
      rw [h2, bcast_right hy hx h2] at h
      exact bcast_right hy hx h

theorem gratingIfta_ok {amp : Tensor XR} {pin pout x y : Tensor ℝ} {p theta : ℝ} {neg : Bool}
    {inp window : Option (Tensor ℂ)} {steps : ℕ} {s : ℝ} {g : StateArr}
    (h : gratingIfta amp pin pout x y p theta neg inp window steps s = .ok g) :
    ∃ sh f, gratingShape amp pin pout x y = some sh ∧ g = .bool ⟨sh, f⟩ := by
  unfold gratingIfta at h
  split at h
  · split at h
    · rename_i hs
      split at h
      · cases h
      · simp only at h
        split at h
        · injection h with h; exact ⟨_, _, hs, h.symm⟩
        · split at h
          · injection h with h; exact ⟨_, _, hs, h.symm⟩
          · injection h with h; exact ⟨_, _, hs, h.symm⟩
    · cases h
  · cases h

theorem grating_ok {amp : Tensor XR} {pin pout x y : Tensor ℝ} {p theta : ℝ} {neg : Bool} {method : String}
    {kw : Lib.Kwargs} {draw : ℕ → ℕ → ℝ} {g : StateArr}
    (h : calculateDmdGrating amp pin pout x y p theta method neg kw draw = .ok g) :
    Known method ∧ gratingShape amp pin pout x y = some g.shape ∧ g.isFloat = decide (method = "ideal") := by
  unfold calculateDmdGrating at h
  simp only at h
  by_cases h1 : method = "ideal"
  · rw [if_pos h1] at h
    split at h
    · injection h with h; subst h
      exact ⟨Or.inl h1, by assumption, by simp [h1, StateArr.isFloat]⟩
    · cases h
  · rw [if_neg h1] at h
    rw [decide_eq_false h1]
    split_ifs at h with h2 h3 h4
    · split at h
      · injection h with h; subst h; exact ⟨Or.inr (Or.inl h2), by assumption, rfl⟩
      · cases h
    · split at h
      · injection h with h; subst h; exact ⟨Or.inr (Or.inr (Or.inl h3)), by assumption, rfl⟩
      · cases h
    · obtain ⟨sh, f, h5, h6⟩ := gratingIfta_ok h
      subst h6
      exact ⟨Or.inr (Or.inr (Or.inr h4)), h5, rfl⟩

theorem grating_shape {d : DMD} (hx : d.slm.Nx ≠ 1) (hy : d.slm.Ny ≠ 1) {amp : Tensor XR}
    {pin pout : Tensor ℝ} {method : String} {kw : Lib.Kwargs} {draw : ℕ → ℕ → ℝ} {g : StateArr}
    (h : d.grating amp pin pout method kw draw = .ok g) : g.shape = .mat d.slm.Ny d.slm.Nx :=
  gratingShape_eq hx hy (grating_ok h).2.1

theorem grating_isFloat {d : DMD} {amp : Tensor XR}
    {pin pout : Tensor ℝ} {method : String} {kw : Lib.Kwargs} {draw : ℕ → ℕ → ℝ} {g : StateArr}
    (h : d.grating amp pin pout method kw draw = .ok g) : g.isFloat = decide (method = "ideal") :=
  (grating_ok h).2.2

theorem grating_unknown {d : DMD} {amp : Tensor XR} {pin pout : Tensor ℝ} {method : String} {kw : Lib.Kwargs}
    {draw : ℕ → ℕ → ℝ} (h : ¬Known method) : d.grating amp pin pout method kw draw = .error .valueError := by
  unfold Known at h
  push Not at h
  unfold grating calculateDmdGrating
  simp only
  rw [if_neg h.1, if_neg h.2.1, if_neg h.2.2.1, if_neg h.2.2.2]

/-- What a successful conversion and grating computation consists of. -/
theorem gratingOfArgs_ok {d : DMD} {h : Profile.Heap} {amp pin pout : ProfArg} {method : String}
    {kw : Lib.Kwargs} {draw : ℕ → ℕ → ℝ} {g : StateArr}
    (hg : d.gratingOfArgs h amp pin pout method kw draw = .ok g) :
    ∃ ta ti tj, d.grating ta ti tj method kw draw = .ok g := by
  unfold gratingOfArgs at hg
  split at hg
  · cases hg
  · split at hg
    · cases hg
    · split at hg
      · cases hg
      · exact ⟨_, _, _, hg⟩

theorem calcGrating_ok {d : DMD} {h : Profile.Heap} {inp target : ProfArg} {method : String}
    {window : Option ProfArg} {kw : CalcKwargs} {draw : ℕ → ℕ → ℝ} {g : StateArr × XR}
    (hg : d.calcGrating h inp target method window kw draw = .ok g) :
    ∃ ta ti tj kw', d.grating ta ti tj method kw' draw = .ok g.1 := by
  unfold calcGrating at hg
  split at hg
  · cases hg
  · split at hg
    · cases hg
    · split at hg
      · cases hg
      · split at hg
        · cases hg
        · split at hg
          · cases hg
          · split at hg
            · cases hg
            · rename_i hgr
              injection hg with hg
              subst hg
              exact ⟨_, _, _, _, hgr⟩

theorem assignMasked_shape (mask : ℕ → ℕ → Prop) (o n : StateArr) : (assignMasked mask o n).shape = o.shape := by
  cases o <;> cases n <;> rfl

theorem assignMasked_isFloat (mask : ℕ → ℕ → Prop) (o n : StateArr) :
    (assignMasked mask o n).isFloat = o.isFloat := by
  cases o <;> cases n <;> rfl

theorem assignMasked_out {mask : ℕ → ℕ → Prop} (o n : StateArr) {a b : ℕ} (h : ¬mask a b) :
    (assignMasked mask o n).entry a b = o.entry a b := by
  cases o <;> cases n <;> simp [assignMasked, StateArr.entry, h]

theorem assignMasked_in {mask : ℕ → ℕ → Prop} {o n : StateArr} (hk : o.isFloat = n.isFloat) {a b : ℕ} (h : mask a b) :
    (assignMasked mask o n).entry a b = n.entry a b := by
  cases o <;> cases n <;> simp_all [assignMasked, StateArr.entry, StateArr.isFloat]

theorem assignMasked_in' {mask : ℕ → ℕ → Prop} (o o' n : StateArr) (hk : o.isFloat = o'.isFloat) {a b : ℕ}
    (h : mask a b) : (assignMasked mask o n).entry a b = (assignMasked mask o' n).entry a b := by
  cases o <;> cases n <;> cases o' <;> simp_all [assignMasked, StateArr.entry, StateArr.isFloat]

theorem same_of_entry {o o' : StateArr} {M N : ℕ} (hs : o.shape = .mat M N) (hs' : o'.shape = .mat M N)
    (hk : o.isFloat = o'.isFloat) (h : ∀ a < M, ∀ b < N, o.entry a b = o'.entry a b) : o.Same o' := by
  cases o with
  | bool t =>
    cases o' with
    | bool t' =>
      change t.shape = _ at hs
      change t'.shape = _ at hs'
      refine ⟨by rw [hs, hs'], ?_⟩
      rw [hs]
      exact fun a ha b hb => Sum.inl.inj (h a ha b hb)
    | float t' => cases hk
  | float t =>
    cases o' with
    | bool t' => cases hk
    | float t' =>
      change t.shape = _ at hs
      change t'.shape = _ at hs'
      refine ⟨by rw [hs, hs'], ?_⟩
      rw [hs]
      exact fun a ha b hb => Sum.inr.inj (h a ha b hb)

theorem same_refl (o : StateArr) : o.Same o := by
  cases o with
  | bool t => refine ⟨rfl, ?_⟩; split <;> intros <;> rfl
  | float t => refine ⟨rfl, ?_⟩; split <;> intros <;> rfl

theorem circularMask_iff (i j dia : ℝ) (a b : ℕ) :
    circularMask i j dia a b ↔ DMD.dist a b i j < |dia| / 2 := by
  unfold circularMask DMD.dist
  have h0 : 0 ≤ |dia| / 2 := by positivity
  have h1 : (|dia| / 2) ^ 2 = (dia / 2) ^ 2 := by rw [div_pow, sq_abs, div_pow]
  have h2 : 0 ≤ ((a : ℝ) - i) ^ 2 + ((b : ℝ) - j) ^ 2 := by positivity
  rw [Real.sqrt_lt h2 h0, h1, add_comm]

end DMD

end PySLM2
