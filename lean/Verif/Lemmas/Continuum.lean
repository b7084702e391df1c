import Verif.Lemmas.RiemannLine
import Verif.Lemmas.SimulationMore
import Verif.Spec.Continuum

/-!
# The diffraction sum and the diffraction integral
-/

noncomputable section

open MeasureTheory Finset Complex

namespace PySLM2.Riemann

/-- The double sum over the pixels of a Lipschitz function. -/
theorem lipschitz2 {G : ℝ → ℝ → ℂ} {a b h Kx Ky : ℝ} (hh : 0 ≤ h) {N M : ℕ} (hKx : 0 ≤ Kx) (hKy : 0 ≤ Ky)
    (hGx : ∀ s ∈ Set.Icc a (a + N * h), ∀ s' ∈ Set.Icc a (a + N * h), ∀ t ∈ Set.Icc b (b + M * h),
      ‖G s t - G s' t‖ ≤ Kx * |s - s'|)
    (hGy : ∀ s ∈ Set.Icc a (a + N * h), ∀ t ∈ Set.Icc b (b + M * h), ∀ t' ∈ Set.Icc b (b + M * h),
      ‖G s t - G s t'‖ ≤ Ky * |t - t'|)
    {p q : ℕ → ℝ} (hp : ∀ k < N, p k ∈ Set.Icc (a + k * h) (a + (k + 1) * h))
    (hq : ∀ k < M, q k ∈ Set.Icc (b + k * h) (b + (k + 1) * h)) :
    ‖∑ j ∈ range N, ∑ i ∈ range M, (h : ℂ) ^ 2 * G (p j) (q i) - ∫ x in a..a + N * h, ∫ y in b..b + M * h, G x y‖ ≤
      (N * h) * (M * h) * h * (Kx + Ky) := by
  have hM : b ≤ b + M * h := by nlinarith [mul_nonneg (Nat.cast_nonneg (α := ℝ) M) hh]
  have hcont : ∀ s ∈ Set.Icc a (a + N * h), ContinuousOn (G s) (Set.Icc b (b + M * h)) := by
    intro s hs
    refine LipschitzOnWith.continuousOn (K := Ky.toNNReal) (LipschitzOnWith.of_dist_le_mul fun t ht t' ht' => ?_)
    rw [dist_eq_norm, Real.coe_toNNReal _ hKy, Real.dist_eq]
    exact hGy s hs t ht t' ht'
  have hint : ∀ s ∈ Set.Icc a (a + N * h), IntervalIntegrable (G s) volume b (b + M * h) := fun s hs =>
    ContinuousOn.intervalIntegrable (by rw [Set.uIcc_of_le hM]; exact hcont s hs)
  have hpm : ∀ k < N, p k ∈ Set.Icc a (a + N * h) := by
    intro k hk
    have h1 : (0 : ℝ) ≤ k * h := by positivity
    have h2 : ((k : ℝ) + 1) * h ≤ N * h := mul_le_mul_of_nonneg_right (by exact_mod_cast hk) hh
    have := hp k hk
    exact ⟨by linarith [this.1], by linarith [this.2]⟩
  have h1 : ∀ j < N, ‖∑ i ∈ range M, (h : ℂ) * G (p j) (q i) - ∫ y in b..b + M * h, G (p j) y‖ ≤ M * h * (Ky * h) :=
    fun j hj => lipschitz hh hKy (fun t ht t' ht' => hGy _ (hpm j hj) t ht t' ht') hq
  have h2 : ‖∑ j ∈ range N, (h : ℂ) * (∫ y in b..b + M * h, G (p j) y) - ∫ x in a..a + N * h, ∫ y in b..b + M * h, G x y‖ ≤
      N * h * ((Kx * (M * h)) * h) := by
    refine lipschitz (F := fun x => ∫ y in b..b + M * h, G x y) hh (by positivity) (fun s hs s' hs' => ?_) hp
    rw [← intervalIntegral.integral_sub (hint s hs) (hint s' hs')]
    have := intervalIntegral.norm_integral_le_of_norm_le_const (a := b) (b := b + M * h) (C := Kx * |s - s'|)
      (f := fun y => G s y - G s' y) (by
        intro t ht
        rw [Set.uIoc_of_le hM] at ht
        exact hGx s hs s' hs' t ⟨ht.1.le, ht.2⟩)
    refine this.trans_eq ?_
    rw [add_sub_cancel_left, abs_of_nonneg (show (0 : ℝ) ≤ M * h by positivity)]
    ring
  have e : ∑ j ∈ range N, ∑ i ∈ range M, (h : ℂ) ^ 2 * G (p j) (q i) -
      ∫ x in a..a + N * h, ∫ y in b..b + M * h, G x y =
      ∑ j ∈ range N, (h : ℂ) * (∑ i ∈ range M, (h : ℂ) * G (p j) (q i) - ∫ y in b..b + M * h, G (p j) y) +
      (∑ j ∈ range N, (h : ℂ) * (∫ y in b..b + M * h, G (p j) y) - ∫ x in a..a + N * h, ∫ y in b..b + M * h, G x y) := by
    rw [← add_sub_assoc, ← sum_add_distrib]
    congr 1
    refine sum_congr rfl fun j _ => ?_
    rw [← mul_add, sub_add_cancel, mul_sum]
    refine sum_congr rfl fun i _ => ?_
    ring
  rw [e]
  refine (norm_add_le _ _).trans ?_
  have h3 : ‖∑ j ∈ range N, (h : ℂ) * (∑ i ∈ range M, (h : ℂ) * G (p j) (q i) - ∫ y in b..b + M * h, G (p j) y)‖ ≤
      ∑ j ∈ range N, h * (M * h * (Ky * h)) := by
    refine norm_sum_le_of_le _ fun j hj => ?_
    rw [norm_mul, norm_real, Real.norm_eq_abs, abs_of_nonneg hh]
    exact mul_le_mul_of_nonneg_left (h1 j (mem_range.mp hj)) hh
  rw [sum_const, card_range, nsmul_eq_mul] at h3
  refine (add_le_add h3 h2).trans_eq ?_
  ring

theorem norm_exp_sub_le (α β : ℝ) : ‖cexp (I * α) - cexp (I * β)‖ ≤ |α - β| := by
  have e : cexp (I * α) - cexp (I * β) = cexp (I * β) * (cexp (I * ((α - β : ℝ) : ℂ)) - 1) := by
    rw [mul_sub, ← Complex.exp_add, mul_one]
    congr 2
    push_cast
    ring
  rw [e, norm_mul, mul_comm I (β : ℂ), norm_exp_ofReal_mul_I, one_mul]
  exact Real.norm_exp_I_mul_ofReal_sub_one_le

end PySLM2.Riemann

namespace PySLM2.Sim

open Riemann Spec

/-- The diffraction sum written as a sum over pixel positions that increase along both axes. -/
theorem fraunhofer_eq (s : SLM) (U : ℕ → ℕ → ℂ) (E : ℝ → ℝ → ℂ)
    (hU : ∀ i < s.Ny, ∀ j < s.Nx, U i j = E (s.fourierGrid.1.get i j) (s.fourierGrid.2.get i j)) (ξ η : ℝ) :
    fraunhofer s U ξ η = ((1 / s.scaling : ℝ) : ℂ) * ∑ j ∈ range s.Nx, ∑ i ∈ range s.Ny, (s.ps : ℂ) ^ 2 *
      (fun x y : ℝ => E x y * cexp (2 * Real.pi * I * ((ξ * x + η * y : ℝ) : ℂ) / ((s.scaling : ℝ) : ℂ)))
        (-(s.Nx * s.ps / 2) + j * s.ps) (-(s.Ny * s.ps / 2) + (i + 1) * s.ps) := by
  unfold fraunhofer
  have e : ∀ c : ℂ, ((s.ps ^ 2 / (s.wavelength * s.focal) : ℝ) : ℂ) * c = ((1 / s.scaling : ℝ) : ℂ) * ((s.ps : ℂ) ^ 2 * c) := by
    intro c
    rw [← mul_assoc, ← ofReal_pow, ← ofReal_mul]
    congr 2
    unfold SLM.scaling
    ring
  rw [e, mul_sum]
  congr 1
  rw [← sum_range_reflect]
  refine Eq.trans ?_ sum_comm
  refine sum_congr rfl fun i hi => ?_
  rw [mul_sum]
  refine sum_congr rfl fun j hj => ?_
  have hi' := mem_range.mp hi
  rw [hU _ (by omega) _ (mem_range.mp hj)]
  have ex : s.fourierGrid.1.get (s.Ny - 1 - i) j = -(s.Nx * s.ps / 2) + j * s.ps := by
    simp only [SLM.fourierGrid, SLM.fourierX, SLM.indexToCoord]
    ring
  have ey : s.fourierGrid.2.get (s.Ny - 1 - i) j = -(s.Ny * s.ps / 2) + (i + 1) * s.ps := by
    simp only [SLM.fourierGrid, SLM.fourierY, SLM.indexToCoord]
    rw [Nat.sub_sub, Nat.cast_sub (by omega)]
    push_cast
    ring
  rw [ex, ey]
  rfl

end PySLM2.Sim
