import Verif.Spec.Mraf
import Verif.Lemmas.Lcos

/-!
# MRAF as alternating projections
-/

noncomputable section

open Complex Finset

namespace PySLM2.LCOS

open Lib

/-- The error inside the window in the order of indices of the algorithm. -/
def rawWindowError (M N : ℕ) (A : ℕ → ℕ → ℂ) (B : ℕ → ℕ → ℝ) (S : ℕ → ℕ → Bool) (φ : ℕ → ℕ → ℝ) : ℝ :=
  ∑ a ∈ range M, ∑ b ∈ range N, if S a b then (‖idft2 M N (modulate A φ) a b‖ - B a b) ^ 2 else 0

theorem windowError_eq (s : SLM) (A : ℕ → ℕ → ℂ) (T : ℕ → ℕ → ℝ) (S : ℕ → ℕ → Bool) (φ : ℕ → ℕ → ℝ) :
    windowError s A T S φ = rawWindowError s.Ny s.Nx A (ifftshift2 s.Ny s.Nx T) (ifftshift2 s.Ny s.Nx S) φ := by
  unfold windowError rawWindowError
  rw [← sum2_ifftshift (fun a b => if ifftshift2 s.Ny s.Nx S a b then
    (‖idft2 s.Ny s.Nx (modulate A φ) a b‖ - ifftshift2 s.Ny s.Nx T a b) ^ 2 else 0)]
  refine Finset.sum_congr rfl fun k hk => Finset.sum_congr rfl fun l hl => ?_
  rw [predicted_eq _ (mem_range.mp hk) (mem_range.mp hl)]
  unfold ifftshift2
  rw [ifftshift_fftshift (mem_range.mp hk), ifftshift_fftshift (mem_range.mp hl)]
  rfl

theorem rawWindowError_congr {M N : ℕ} {A A' : ℕ → ℕ → ℂ} {B : ℕ → ℕ → ℝ} {S : ℕ → ℕ → Bool} {φ : ℕ → ℕ → ℝ}
    (hA : ∀ a < M, ∀ b < N, A a b = A' a b) : rawWindowError M N A B S φ = rawWindowError M N A' B S φ := by
  unfold rawWindowError
  rw [idft2_congr (v := modulate A' φ) fun a ha b hb => by unfold modulate; rw [hA a ha b hb]]

/-- The image `g` with the modulus in the window replaced by `B`. -/
def project (B : ℕ → ℕ → ℝ) (S : ℕ → ℕ → Bool) (g : ℕ → ℕ → ℂ) (a b : ℕ) : ℂ :=
  if S a b then B a b * cexp (I * (arg (g a b) : ℂ)) else g a b

/-- With `0 < m < 1` the phases of the corrected field of MRAF are those of the image with its modulus in the window replaced
by `m / (1 - m)` times the target. -/
theorem mrafStep_project {M N : ℕ} {inp target window : ℕ → ℕ → ℂ} {B : ℕ → ℕ → ℝ} {S : ℕ → ℕ → Bool} {m : ℝ} (hm1 : m < 1)
    (htg : ∀ a < M, ∀ b < N, target a b = B a b) (hw : ∀ a < M, ∀ b < N, window a b = if S a b then 1 else 0)
    (φ : ℕ → ℕ → ℝ) (a b : ℕ) :
    mrafStep M N inp target window m φ a b =
      arg (dft2 M N (project (fun a b => m / (1 - m) * B a b) S (idft2 M N (modulate inp φ))) a b) := by
  have hm : (0 : ℝ) < 1 - m := by linarith
  have hmc : ((1 : ℂ) - m) ≠ 0 := by
    have : ((1 - m : ℝ) : ℂ) ≠ 0 := by exact_mod_cast hm.ne'
    simpa using this
  show arg (dft2 M N (fun a b => mrafCorrect m (target a b) (window a b) (idft2 M N (modulate inp φ) a b)) a b) = _
  rw [dft2_congr (v := fun a b => ((1 - m : ℝ) : ℂ) *
    project (fun a b => m / (1 - m) * B a b) S (idft2 M N (modulate inp φ)) a b), dft2_smul, Complex.arg_real_mul _ hm]
  intro a ha b hb
  unfold mrafCorrect project
  rw [hw a ha b hb, htg a ha b hb]
  split_ifs
  · push_cast
    field_simp
    ring
  · push_cast
    ring

/-- One MRAF step lowers the error in the window at least by the weighted phase changes, if the phase of the input is
uniform. -/
theorem mrafStep_drop {M N : ℕ} {inp target window : ℕ → ℕ → ℂ} {A B : ℕ → ℕ → ℝ} {S : ℕ → ℕ → Bool} {m : ℝ} (hm0 : 0 < m)
    (hm1 : m < 1) {c : ℂ} (hc : ‖c‖ = 1)
    (hinp : ∀ a < M, ∀ b < N, inp a b = c * A a b)
    (htg : ∀ a < M, ∀ b < N, target a b = B a b) (hw : ∀ a < M, ∀ b < N, window a b = if S a b then 1 else 0)
    (hB : ∀ a < M, ∀ b < N, 0 ≤ B a b) (φ : ℕ → ℕ → ℝ) :
    rawWindowError M N inp (fun a b => m / (1 - m) * B a b) S (mrafStep M N inp target window m φ) +
      (∑ a ∈ range M, ∑ b ∈ range N, A a b *
        ‖dft2 M N (project (fun a b => m / (1 - m) * B a b) S (idft2 M N (modulate inp φ))) a b‖ *
        ‖c * cexp (I * φ a b) - cexp (I * mrafStep M N inp target window m φ a b)‖ ^ 2) / (M * N) ≤
      rawWindowError M N inp (fun a b => m / (1 - m) * B a b) S φ := by
  set B' : ℕ → ℕ → ℝ := fun a b => m / (1 - m) * B a b with hB'
  have hBn : ∀ a < M, ∀ b < N, 0 ≤ B' a b := fun a ha b hb =>
    mul_nonneg (div_nonneg hm0.le (by linarith)) (hB a ha b hb)
  set g := idft2 M N (modulate inp φ) with hg
  set G := project B' S g with hG
  set h := dft2 M N G with hh
  set φ' := mrafStep M N inp target window m φ with hφ'
  have hφ'' : ∀ a b, φ' a b = arg (h a b) := fun a b => mrafStep_project hm1 htg hw φ a b
  clear_value φ'
  set g' := idft2 M N (modulate inp φ') with hg'
  rcases Nat.eq_zero_or_pos M with hM | hM
  · subst hM; simp [rawWindowError]
  rcases Nat.eq_zero_or_pos N with hN | hN
  · subst hN; simp [rawWindowError]
  have hMN : (0 : ℝ) < M * N := by positivity
  have hcc : (starRingEnd ℂ) c * c = 1 := by
    rw [mul_comm, Complex.mul_conj, Complex.normSq_eq_norm_sq, hc]; simp
  have hcn : ‖(starRingEnd ℂ) c‖ = 1 := by rw [Complex.norm_conj, hc]
  -- differences in the image plane and on the SLM
  have e1 : (M * N : ℝ) * ∑ a ∈ range M, ∑ b ∈ range N, ‖(starRingEnd ℂ) c * g' a b - G a b‖ ^ 2 =
      ∑ a ∈ range M, ∑ b ∈ range N, ‖(starRingEnd ℂ) c * modulate inp φ' a b - h a b‖ ^ 2 := by
    rw [← idft2_parseval M N (fun a b => (starRingEnd ℂ) c * modulate inp φ' a b - h a b)]
    refine congrArg _ (Finset.sum_congr rfl fun a ha => Finset.sum_congr rfl fun b hb => ?_)
    have := idft2_add M N (fun a b => (starRingEnd ℂ) c * modulate inp φ' a b) (fun a b => (-1) * h a b) a b
    rw [idft2_smul, idft2_smul, hh, idft2_dft2 G (mem_range.mp ha) (mem_range.mp hb)] at this
    rw [show (fun a b => (starRingEnd ℂ) c * modulate inp φ' a b - dft2 M N G a b) =
      fun a b => (starRingEnd ℂ) c * modulate inp φ' a b + (-1) * dft2 M N G a b by funext a b; ring, this]
    congr 2
    ring
  have e2 : (M * N : ℝ) * ∑ a ∈ range M, ∑ b ∈ range N, ‖g a b - G a b‖ ^ 2 =
      ∑ a ∈ range M, ∑ b ∈ range N, ‖modulate inp φ a b - h a b‖ ^ 2 := by
    rw [← idft2_parseval M N (fun a b => modulate inp φ a b - h a b)]
    refine congrArg _ (Finset.sum_congr rfl fun a ha => Finset.sum_congr rfl fun b hb => ?_)
    have := idft2_add M N (fun a b => modulate inp φ a b) (fun a b => (-1) * h a b) a b
    rw [idft2_smul, hh, idft2_dft2 G (mem_range.mp ha) (mem_range.mp hb)] at this
    rw [show (fun a b => modulate inp φ a b - dft2 M N G a b) =
      fun a b => modulate inp φ a b + (-1) * dft2 M N G a b by funext a b; ring, this]
    congr 2
    ring
  set D := ∑ a ∈ range M, ∑ b ∈ range N, A a b * ‖h a b‖ * ‖c * cexp (I * φ a b) - cexp (I * φ' a b)‖ ^ 2 with hD
  have e3 : ∑ a ∈ range M, ∑ b ∈ range N, ‖(starRingEnd ℂ) c * modulate inp φ' a b - h a b‖ ^ 2 + D =
      ∑ a ∈ range M, ∑ b ∈ range N, ‖modulate inp φ a b - h a b‖ ^ 2 := by
    rw [hD, ← Finset.sum_add_distrib]
    refine Finset.sum_congr rfl fun a ha => ?_
    rw [← Finset.sum_add_distrib]
    refine Finset.sum_congr rfl fun b hb => ?_
    have ha := mem_range.mp ha
    have hb := mem_range.mp hb
    have h1 : (starRingEnd ℂ) c * modulate inp φ' a b = (A a b : ℂ) * cexp (I * (arg (h a b) : ℂ)) := by
      unfold modulate
      rw [hinp a ha b hb, hφ'', ← mul_assoc, ← mul_assoc, hcc, one_mul]
    have h2 : modulate inp φ a b = (A a b : ℂ) * (c * cexp (I * φ a b)) := by
      unfold modulate
      rw [hinp a ha b hb]
      ring
    rw [h1, h2, hφ'']
    exact nearest_drop _ _ _ (by rw [norm_mul, hc, norm_expI, one_mul])
  have e4 : ∑ a ∈ range M, ∑ b ∈ range N, ‖(starRingEnd ℂ) c * g' a b - G a b‖ ^ 2 + D / (M * N) =
      ∑ a ∈ range M, ∑ b ∈ range N, ‖g a b - G a b‖ ^ 2 := by
    rw [← e1, ← e2] at e3
    rw [← mul_right_inj' hMN.ne', ← e3, mul_add, mul_div_cancel₀ _ hMN.ne']
  have e5 : rawWindowError M N inp B' S φ = ∑ a ∈ range M, ∑ b ∈ range N, ‖g a b - G a b‖ ^ 2 := by
    refine Finset.sum_congr rfl fun a ha => Finset.sum_congr rfl fun b hb => ?_
    simp only [hG, project]
    split_ifs with hS
    · have h1 : g a b - B' a b * cexp (I * (arg (g a b) : ℂ)) = ((‖g a b‖ - B' a b : ℝ) : ℂ) * cexp (I * (arg (g a b) : ℂ)) := by
        push_cast
        rw [sub_mul, mul_expI_arg]
      rw [h1, norm_mul, norm_expI, mul_one, Complex.norm_real, Real.norm_eq_abs, sq_abs]
    · rw [sub_self, norm_zero]; norm_num
  rw [e5, ← e4]
  refine add_le_add ?_ le_rfl
  refine Finset.sum_le_sum fun a ha => Finset.sum_le_sum fun b hb => ?_
  have ha := mem_range.mp ha
  have hb := mem_range.mp hb
  split_ifs with hS
  · have hGn : B' a b = ‖G a b‖ := by
      simp only [hG, project]
      rw [if_pos hS, norm_mul, norm_expI, Complex.norm_real, Real.norm_eq_abs, abs_of_nonneg (hBn a ha b hb), mul_one]
    have h1 : ‖idft2 M N (modulate inp φ') a b‖ = ‖(starRingEnd ℂ) c * g' a b‖ := by
      rw [norm_mul, hcn, one_mul]
    rw [h1, hGn, ← sq_abs]
    exact pow_le_pow_left₀ (abs_nonneg _) (abs_norm_sub_norm_le _ _) 2
  · positivity

end PySLM2.LCOS
