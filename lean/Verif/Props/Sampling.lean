import Verif.Model.Slm
import Verif.Lemmas.Profile
import Verif.Spec.ProfileHistory

/-!
# Sampling of profiles (C64)
-/

noncomputable section

namespace PySLM2

open Profile

namespace Profile

/-- A profile built from constants only has the same value everywhere. -/
theorem eval_rankZero (h : Heap) (f : Prof) (hf : rankZero f = true) : ∀ x y, eval h f x y = eval h f 0 0 := by
  induction f with
  | const k c => intro x y; cases k <;> rfl
  | lit c => intro x y; rfl
  | hg | lg | sg | zernike | rect | circ => cases hf
  | bin attr f g ihf ihg =>
    simp only [rankZero, Bool.and_eq_true] at hf
    intro x y
    simp only [eval]
    rw [ihf hf.1 x y, ihg hf.2 x y]
  | binNum attr f c ih =>
    intro x y
    simp only [eval]
    rw [ih hf x y]
  | rotate f t ih =>
    intro x y
    simp only [eval]
    rw [ih hf, ih hf (_ * 0 - _)]
  | shift f dx dy ih =>
    intro x y
    simp only [eval]
    rw [ih hf, ih hf (0 - _)]
  | rescaleX f c ih =>
    intro x y
    simp only [eval]
    split_ifs
    · rfl
    · rw [ih hf, ih hf (0 / _)]
  | rescaleY f c ih =>
    intro x y
    simp only [eval]
    split_ifs
    · rfl
    · rw [ih hf, ih hf 0 (0 / _)]
  | asComplex f ih =>
    intro x y
    simp only [eval]
    rw [ih hf x y]

end Profile

/-- The grid of the requested plane, as returned by `fourier_plane_grid` / `image_plane_grid`. -/
def SLM.planeGrid (s : SLM) (atFourier : Bool) : Except PyErr (Tensor ℝ × Tensor ℝ) :=
  if atFourier then .ok s.fourierGrid else s.imageGrid

/-- `v` as an entry of the requested dtype: complex, or real with the imaginary part dropped. -/
def entry (cplx : Bool) (v : ℂ) : ℂ := if cplx then v else (v.re : ℂ)

theorem castTo_shape (b : Bool) (t : Tensor ℂ) : (castTo b t).shape = t.shape := by cases b <;> rfl
theorem castTo_get (b : Bool) (t : Tensor ℂ) (i j : ℕ) : (castTo b t).get i j = entry b (t.get i j) := by cases b <;> rfl
theorem castTo_at (b : Bool) (t : Tensor ℂ) (i j : ℕ) : (castTo b t).at_ i j = entry b (t.at_ i j) := by
  unfold Tensor.at_
  rw [castTo_shape]
  cases t.shape <;> simp only [castTo_get]

/-- What `sample` returns. -/
theorem sample_spec {h : Heap} {f : Prof} {x y : Tensor ℝ} {M N : ℕ} (hx : x.shape = .mat M N) {t : Tensor ℂ}
    (ht : sample h f x y = .ok t) :
    t.shape = (if rankZero f then .scalar else .mat M N) ∧
      ∀ i < M, ∀ j < N, eval h f (x.get i j) (y.get i j) = some (t.at_ i j) := by
  unfold sample at ht
  by_cases hf : rankZero f = true
  · rw [if_pos hf] at ht ⊢
    cases hv : eval h f 0 0 with
    | none => rw [hv] at ht; cases ht
    | some v =>
      rw [hv] at ht
      injection ht with ht
      subst ht
      refine ⟨rfl, fun i _ j _ => ?_⟩
      rw [eval_rankZero h f hf, hv]
      rfl
  · rw [if_neg hf, hx] at ht
    rw [if_neg hf]
    simp only at ht
    split_ifs at ht with hall
    injection ht with ht
    subst ht
    refine ⟨rfl, fun i hi j hj => ?_⟩
    have hi' : (if M = 1 then 0 else i) = i := by split_ifs <;> omega
    have hj' : (if N = 1 then 0 else j) = j := by split_ifs <;> omega
    simp only [Tensor.at_, hi', hj']
    obtain ⟨v, hv⟩ := Option.isSome_iff_exists.mp (hall i hi j hj)
    rw [hv]
    rfl

theorem imageGrid_shape {s : SLM} {g : Tensor ℝ × Tensor ℝ} (hg : s.imageGrid = .ok g) : g.1.shape = .mat s.Ny s.Nx := by
  unfold SLM.imageGrid imageGridOf at hg
  split_ifs at hg
  injection hg with hg
  rw [← hg]

theorem planeGrid_shape {s : SLM} {b : Bool} {g : Tensor ℝ × Tensor ℝ} (hg : s.planeGrid b = .ok g) :
    g.1.shape = .mat s.Ny s.Nx := by
  unfold SLM.planeGrid at hg
  cases b with
  | true => injection hg with hg; rw [← hg]; rfl
  | false => exact imageGrid_shape hg

theorem profileToTensor_prof (s : SLM) (h : Heap) (f : Prof) (b cplx : Bool) :
    s.profileToTensor h (.prof f) b cplx = match s.planeGrid b with
      | .error e => .error e
      | .ok g => match sample h f g.1 g.2 with
        | .ok t => .ok (castTo cplx t)
        | .error e => .error e := by
  cases b <;> rfl

/-- **C64, profiles (partial).** A profile is sampled at the coordinates of the requested plane, pixel by pixel, in
the requested dtype.  Missing: a profile built from constants only yields a rank-0 tensor instead of one of the shape
of the grids (its one entry is the value at every pixel). -/
theorem C64_profile_partial (s : SLM) (h : Heap) (f : Prof) (atFourier cplx : Bool) :
    (∀ t, s.profileToTensor h (.prof f) atFourier cplx = .ok t → ∃ g, s.planeGrid atFourier = .ok g ∧
      g.1.shape = .mat s.Ny s.Nx ∧
      (t.shape = .mat s.Ny s.Nx ∨ (t.shape = .scalar ∧ ∀ x y x' y', eval h f x y = eval h f x' y')) ∧
      ∀ i < s.Ny, ∀ j < s.Nx, ∃ v, eval h f (g.1.get i j) (g.2.get i j) = some v ∧ t.at_ i j = entry cplx v) ∧
    (∀ g, s.planeGrid atFourier = .ok g → 0 < s.Nx → 0 < s.Ny →
      (∀ i < s.Ny, ∀ j < s.Nx, (eval h f (g.1.get i j) (g.2.get i j)).isSome) →
      ∃ t, s.profileToTensor h (.prof f) atFourier cplx = .ok t) := by
  rw [profileToTensor_prof]
  constructor
  · intro t ht
    cases hg : s.planeGrid atFourier with
    | error e => rw [hg] at ht; cases ht
    | ok g =>
      rw [hg] at ht
      simp only at ht
      cases hs : sample h f g.1 g.2 with
      | error e => rw [hs] at ht; cases ht
      | ok t' =>
        rw [hs] at ht
        injection ht with ht
        subst ht
        have hsh := planeGrid_shape hg
        obtain ⟨h1, h2⟩ := sample_spec hsh hs
        refine ⟨g, rfl, hsh, ?_, fun i hi j hj => ⟨_, h2 i hi j hj, castTo_at _ _ _ _⟩⟩
        rw [castTo_shape, h1]
        by_cases hf : rankZero f = true
        · right
          rw [if_pos hf]
          exact ⟨rfl, fun x y x' y' => by rw [eval_rankZero h f hf x y, eval_rankZero h f hf x' y']⟩
        · left
          rw [if_neg hf]
  · intro g hg hx hy hall
    rw [hg]
    have hsh := planeGrid_shape hg
    have : ∃ t, sample h f g.1 g.2 = .ok t := by
      unfold sample
      by_cases hf : rankZero f = true
      · rw [if_pos hf]
        have := hall 0 hy 0 hx
        rw [eval_rankZero h f hf] at this
        obtain ⟨v, hv⟩ := Option.isSome_iff_exists.mp this
        rw [hv]
        exact ⟨_, rfl⟩
      · rw [if_neg hf, hsh]
        simp only
        rw [if_pos hall]
        exact ⟨_, rfl⟩
    obtain ⟨t, ht⟩ := this
    simp only [ht]
    exact ⟨_, rfl⟩

/-- **C64, arrays and numbers (partial).** Tensors and arrays are passed through with their own shape (not checked
against the grid), converted to the requested dtype.  Numbers become rank-0 tensors; a python `complex` asked as a
real tensor raises `TypeError` instead of keeping its real part. -/
theorem C64_array_partial (s : SLM) (h : Heap) (k : Kind) (t : Tensor ℂ) (c : PyNum) (atFourier cplx : Bool) :
    (∀ a, a = ProfArg.tensor k t ∨ a = ProfArg.ndarray k t → ∃ t', s.profileToTensor h a atFourier cplx = .ok t' ∧
      t'.shape = t.shape ∧ ∀ i j, t'.get i j = entry cplx (t.get i j)) ∧
    (c.kind = .cplx ∧ cplx = false → s.profileToTensor h (.num c) atFourier cplx = .error .typeError) ∧
    (¬ (c.kind = .cplx ∧ cplx = false) → ∃ t', s.profileToTensor h (.num c) atFourier cplx = .ok t' ∧
      t'.shape = .scalar ∧ ∀ i j, t'.at_ i j = c.val) := by
  refine ⟨?_, ?_, ?_⟩
  · rintro a (rfl | rfl) <;> exact ⟨_, rfl, castTo_shape _ _, fun i j => castTo_get _ _ _ _⟩
  · rintro ⟨hc, rfl⟩
    cases c with
    | real r => cases hc
    | cplx z => rfl
  · intro hc
    cases c with
    | real r => exact ⟨_, rfl, rfl, fun i j => rfl⟩
    | cplx z =>
      cases cplx with
      | true => exact ⟨_, rfl, rfl, fun i j => rfl⟩
      | false => exact absurd ⟨rfl, rfl⟩ hc

/-- **C64 is false of the code**: `profile_to_tensor(ConstantProfile(c))` and `profile_to_tensor(c)` return rank-0
tensors on every device, not tensors of the shape of the grids. -/
theorem C64_refuted (s : SLM) (h : Heap) (c : ℝ) (cplx : Bool) :
    (∃ r, New.run h (.const (.real c)) = .ok r ∧
      ∃ t, s.profileToTensor r.1 (.prof r.2) true cplx = .ok t ∧ t.shape ≠ s.fourierGrid.1.shape) ∧
    ∃ t, s.profileToTensor h (.num (.real c)) true cplx = .ok t ∧ t.shape ≠ s.fourierGrid.1.shape := by
  refine ⟨⟨_, rfl, ?_⟩, ⟨_, rfl, by simp [Tensor.scalar, SLM.fourierGrid]⟩⟩
  rw [profileToTensor_prof]
  simp only [SLM.planeGrid, if_true, newConstant, allocRe, sample, rankZero, eval]
  exact ⟨_, rfl, by rw [castTo_shape]; simp [Tensor.scalar, SLM.fourierGrid]⟩

/-- C64: sampling a window on a 4x3 device in both planes. -/
example (h : Heap) (b cplx : Bool) : ∃ r, New.run h (.rect 0 0 1 2) = .ok r ∧
    ∃ t, (⟨1, 1, 4, 3, 1⟩ : SLM).profileToTensor r.1 (.prof r.2) b cplx = .ok t := by
  refine ⟨_, rfl, ?_⟩
  have hg : ∃ g, (⟨1, 1, 4, 3, 1⟩ : SLM).planeGrid b = .ok g := by
    cases b with
    | true => exact ⟨_, rfl⟩
    | false =>
      simp only [SLM.planeGrid, SLM.imageGrid, imageGridOf]
      norm_num
  obtain ⟨g, hg⟩ := hg
  exact (C64_profile_partial _ _ _ b cplx).2 g hg (by norm_num) (by norm_num) (fun i _ j _ => by
    simp [newRect, eval])

end PySLM2
