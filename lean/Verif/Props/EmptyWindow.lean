import Verif.Props.Scripts

/-!
# C148: MRAF with a signal window that misses the image plane
-/

noncomputable section

open Complex

namespace PySLM2.LCOS

open Lib

/-- One MRAF iteration with an empty window: back to the field the iteration started with, up to the factor `1 - m`. -/
theorem mrafStep_empty {M N : ℕ} {inp target window : ℕ → ℕ → ℂ} (hw : ∀ a < M, ∀ b < N, window a b = 0) (m : ℝ)
    (φ : ℕ → ℕ → ℝ) {i j : ℕ} (hi : i < M) (hj : j < N) :
    mrafStep M N inp target window m φ i j = arg (((1 - m : ℝ) : ℂ) * (inp i j * cexp (I * φ i j))) := by
  unfold mrafStep
  rw [dft2_congr (v := fun a b => ((1 - m : ℝ) : ℂ) * idft2 M N (modulate inp φ) a b) fun a ha b hb => by
    rw [hw a ha b hb, mrafCorrect]; ring, dft2_smul, dft2_idft2 _ hi hj]
  rfl

theorem norm_expI_arg_mul {c A : ℂ} (hc : c ≠ 0) (hA : A ≠ 0) (x : ℝ) :
    cexp (I * (arg (c * (A * cexp (I * x))) : ℂ)) = cexp (I * x) * (c / ‖c‖ * (A / ‖A‖)) := by
  have hc' : (‖c‖ : ℂ) ≠ 0 := by exact_mod_cast (norm_pos_iff.mpr hc).ne'
  have hA' : (‖A‖ : ℂ) ≠ 0 := by exact_mod_cast (norm_pos_iff.mpr hA).ne'
  have h := mul_expI_arg (c * (A * cexp (I * x)))
  rw [norm_mul, norm_mul, norm_expI, mul_one] at h
  push_cast at h
  rw [div_mul_div_comm, mul_div_assoc', eq_div_iff (mul_ne_zero hc' hA')]
  calc _ = (‖c‖ : ℂ) * ‖A‖ * cexp (I * (arg (c * (A * cexp (I * x))) : ℂ)) := by ring
    _ = _ := by rw [h]; ring

/-- **C148.** A signal window that is 0 at all pixels of the image plane makes method `mraf` ignore the target: the
calculation succeeds, and after `N` iterations each illuminated pixel shows its random initial phase, to which every iteration has
added the phase of the input field there (and π if the mixing factor exceeds 1).  Dark pixels show phase 0 if `N > 0`. -/
theorem C148_empty {l : LCOS} {h : Profile.Heap} {inp target : ProfArg} {A : ℕ → ℕ → ℂ} {T : ℕ → ℕ → ℝ}
    (ha : HologramArgs l.slm h inp target A T) {sw : ProfArg} (hw : DMD.TargetArg l.slm h sw fun _ _ => 0) {kw : Kwargs}
    (hk : kw.signalWindow = some sw) (hm : kw.mixingFactor.getD 0.4 ≠ 1) (u : ℕ → ℕ → ℝ) :
    (l.calculateHologram h inp target "mraf" kw u).2 = .ok () ∧
    ∃ φ : ℕ → ℕ → ℝ, Shows (after l h inp target "mraf" kw u) φ ∧
      ∀ i < l.slm.Ny, ∀ j < l.slm.Nx,
        (A i j ≠ 0 → cexp (I * φ i j) = cexp (I * (2 * Real.pi * u i j : ℝ)) *
          ((if kw.mixingFactor.getD 0.4 < 1 then 1 else -1) * (A i j / ‖A i j‖)) ^ kw.N.getD 200) ∧
        (A i j = 0 → kw.N.getD 200 ≠ 0 → φ i j = 0) := by
  obtain ⟨A', B', W', hA', -, hW', e⟩ := calculate_mraf ha hw
  rw [after, e kw u hk]
  refine ⟨rfl, _, shows_phaseState _ _, fun i hi j hj => ?_⟩
  generalize kw.mixingFactor.getD 0.4 = m at hm ⊢
  generalize kw.N.getD 200 = N
  have hz : ∀ a < l.slm.Ny, ∀ b < l.slm.Nx, W' a b = 0 := fun a ha b hb => by rw [hW' a ha b hb]; rfl
  have hc : ((1 - m : ℝ) : ℂ) ≠ 0 := by exact_mod_cast sub_ne_zero.mpr hm.symm
  have hs : ((1 - m : ℝ) : ℂ) / ‖((1 - m : ℝ) : ℂ)‖ = if m < 1 then 1 else -1 := by
    rw [Complex.norm_real, Real.norm_eq_abs]
    split_ifs with h1
    · rw [abs_of_pos (by linarith), div_self hc]
    · have h2 : 1 - m < 0 := lt_of_le_of_ne (by linarith) (by exact_mod_cast hc)
      rw [abs_of_neg h2, ofReal_neg, div_neg, div_self hc]
  constructor
  · intro hA
    induction N with
    | zero => simp [mrafLoop, initialPhase]
    | succ N ih =>
      rw [mrafLoop, mrafStep_empty hz m _ hi hj, hA' i hi j hj, norm_expI_arg_mul hc hA, hs, ih, pow_succ, mul_assoc]
  · intro hA hN
    obtain ⟨n, rfl⟩ := Nat.exists_eq_succ_of_ne_zero hN
    rw [mrafLoop, mrafStep_empty hz m _ hi hj, hA' i hi j hj, hA, zero_mul, mul_zero, arg_zero]

/-- **C148.** In particular, under an input of positive values the displayed phase factors are those of the random draw, for
every target, every number of iterations and every mixing factor below 1 (such as the default): no iteration changes anything. -/
theorem C148_random {l : LCOS} {h : Profile.Heap} {inp target : ProfArg} {A : ℕ → ℕ → ℝ} {T : ℕ → ℕ → ℝ}
    (ha : HologramArgs l.slm h inp target (fun i j => A i j) T) (hA : ∀ i < l.slm.Ny, ∀ j < l.slm.Nx, 0 < A i j) {sw : ProfArg}
    (hw : DMD.TargetArg l.slm h sw fun _ _ => 0) {kw : Kwargs} (hk : kw.signalWindow = some sw)
    (hm : kw.mixingFactor.getD 0.4 < 1) (u : ℕ → ℕ → ℝ) :
    (l.calculateHologram h inp target "mraf" kw u).2 = .ok () ∧
    ∃ φ : ℕ → ℕ → ℝ, Shows (after l h inp target "mraf" kw u) φ ∧
      ∀ i < l.slm.Ny, ∀ j < l.slm.Nx, cexp (I * φ i j) = cexp (I * (2 * Real.pi * u i j : ℝ)) := by
  obtain ⟨h1, φ, h2, h3⟩ := C148_empty ha hw hk hm.ne u
  refine ⟨h1, φ, h2, fun i hi j hj => ?_⟩
  have hp := hA i hi j hj
  have hp' : ((A i j : ℝ) : ℂ) ≠ 0 := by exact_mod_cast hp.ne'
  rw [(h3 i hi j hj).1 hp', if_pos hm, Complex.norm_real, Real.norm_eq_abs, abs_of_pos hp, div_self hp', one_mul, one_pow, mul_one]

/-- **C148.** With mixing factor 1 an empty window gives the hologram that is 0 everywhere after any positive number of
iterations. -/
theorem C148_one {l : LCOS} {h : Profile.Heap} {inp target : ProfArg} {A : ℕ → ℕ → ℂ} {T : ℕ → ℕ → ℝ}
    (ha : HologramArgs l.slm h inp target A T) {sw : ProfArg} (hw : DMD.TargetArg l.slm h sw fun _ _ => 0) {kw : Kwargs}
    (hk : kw.signalWindow = some sw) (hm : kw.mixingFactor = some 1) (hN : kw.N.getD 200 ≠ 0) (u : ℕ → ℕ → ℝ) :
    (l.calculateHologram h inp target "mraf" kw u).2 = .ok () ∧ Shows (after l h inp target "mraf" kw u) fun _ _ => 0 := by
  obtain ⟨A', B', W', -, -, hW', e⟩ := calculate_mraf ha hw
  rw [after, e kw u hk]
  refine ⟨rfl, ?_⟩
  obtain ⟨h1, h2, h3⟩ := shows_phaseState l (mrafLoop l.slm.Ny l.slm.Nx A' B' W' (kw.mixingFactor.getD 0.4) (initialPhase u) (kw.N.getD 200))
  refine ⟨h1, h2, fun i hi j hj => (h3 i hi j hj).trans ?_⟩
  obtain ⟨n, hn⟩ := Nat.exists_eq_succ_of_ne_zero hN
  rw [hn, mrafLoop, mrafStep_empty (fun a ha b hb => by rw [hW' a ha b hb]; rfl) _ _ hi hj, hm]
  simp

/-- The hypotheses are met by a window of zeros. -/
example : ∃ (h : Profile.Heap) (inp target : ProfArg) (A T : ℕ → ℕ → ℝ) (sw : ProfArg),
    HologramArgs (⟨1, 1, 2, 2, 1⟩ : SLM) h inp target (fun i j => A i j) T ∧ (∀ i j, 0 < A i j) ∧
      DMD.TargetArg (⟨1, 1, 2, 2, 1⟩ : SLM) h sw fun _ _ => 0 := by
  have h0 : Profile.Heap := ⟨fun _ => 0, fun _ => 0, 0⟩
  refine ⟨h0, .tensor .cplx ⟨.mat 2 2, fun _ _ => 1⟩, .tensor .cplx ⟨.mat 2 2, fun i _ => i⟩, fun _ _ => 1, fun i _ => i,
    .tensor .cplx ⟨.mat 2 2, fun _ _ => 0⟩, ⟨by norm_num, by norm_num, ⟨_, rfl, rfl, ?_⟩, ⟨_, rfl, rfl, ?_⟩⟩, fun _ _ => by norm_num, ⟨_, rfl, rfl, ?_⟩⟩ <;>
  · intro i _ j _
    simp [castTo, Tensor.map]

end PySLM2.LCOS
