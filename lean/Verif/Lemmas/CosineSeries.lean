import Mathlib.Analysis.Fourier.AddCircle
import Mathlib.Analysis.Calculus.ContDiff.Deriv
import Mathlib.Analysis.SpecialFunctions.Trigonometric.InverseDeriv
import Mathlib.MeasureTheory.Integral.IntervalIntegral.IntegrationByParts
import Mathlib.Analysis.PSeries

/-!
# Cosine series of a smooth function of the distance to the nearest multiple of `2 pi`
-/

noncomputable section

open MeasureTheory Complex

namespace PySLM2.CosineSeries

/-- Coefficient `n` of the cosine series. -/
def coef (g : ℝ → ℝ) (n : ℤ) : ℝ := 1 / Real.pi * ∫ t in (0 : ℝ)..Real.pi, g t * Real.cos (n * t)

theorem sin_int_pi (n : ℤ) : Real.sin (n * Real.pi) = 0 := Real.sin_int_mul_pi n

/-- Two integrations by parts. -/
theorem coef_decay {g : ℝ → ℝ} (hg : ContDiff ℝ 2 g) : ∃ K : ℝ, ∀ n : ℤ, n ≠ 0 → |coef g n| ≤ K * (1 / (n : ℝ) ^ 2) := by
  have hpi := Real.pi_pos
  have hg1 : ContDiff ℝ 1 (deriv g) := ((contDiff_succ_iff_deriv (n := 1)).mp hg).2.2
  have hd1 : ∀ t, HasDerivAt g (deriv g t) t := fun t => ((hg.differentiable (by norm_num)) t).hasDerivAt
  have hd2 : ∀ t, HasDerivAt (deriv g) (deriv (deriv g) t) t := fun t => ((hg1.differentiable (by norm_num)) t).hasDerivAt
  have hc1 : Continuous (deriv g) := hg1.continuous
  have hc2 : Continuous (deriv (deriv g)) := hg1.continuous_deriv (by norm_num)
  refine ⟨1 / Real.pi * (|deriv g Real.pi| + |deriv g 0| + ∫ t in (0 : ℝ)..Real.pi, |deriv (deriv g) t|), fun n hn => ?_⟩
  have hn' : (n : ℝ) ≠ 0 := by exact_mod_cast hn
  have hs : ∀ t : ℝ, HasDerivAt (fun t => Real.sin (n * t) / n) (Real.cos (n * t)) t := fun t => by
    have := ((Real.hasDerivAt_sin (n * t)).comp t ((hasDerivAt_id t).const_mul (n : ℝ))).div_const (n : ℝ)
    simpa [hn'] using this
  have hc : ∀ t : ℝ, HasDerivAt (fun t => -Real.cos (n * t) / n) (Real.sin (n * t)) t := fun t => by
    have := (((Real.hasDerivAt_cos (n * t)).comp t ((hasDerivAt_id t).const_mul (n : ℝ))).neg).div_const (n : ℝ)
    simpa [hn'] using this
  have i1 : ∫ t in (0 : ℝ)..Real.pi, g t * Real.cos (n * t) = -(1 / n) * ∫ t in (0 : ℝ)..Real.pi, deriv g t * Real.sin (n * t) := by
    rw [intervalIntegral.integral_mul_deriv_eq_deriv_mul (fun t _ => hd1 t) (fun t _ => hs t) (hc1.intervalIntegrable _ _)
      ((by fun_prop : Continuous fun t : ℝ => Real.cos (n * t)).intervalIntegrable _ _)]
    simp only [mul_zero, Real.sin_zero, zero_div, sub_zero, sin_int_pi, zero_sub]
    rw [← intervalIntegral.integral_neg, ← intervalIntegral.integral_const_mul]
    exact intervalIntegral.integral_congr fun t _ => by ring
  have i2 : ∫ t in (0 : ℝ)..Real.pi, deriv g t * Real.sin (n * t) =
      1 / n * (deriv g 0 - deriv g Real.pi * Real.cos (n * Real.pi) + ∫ t in (0 : ℝ)..Real.pi, deriv (deriv g) t * Real.cos (n * t)) := by
    rw [intervalIntegral.integral_mul_deriv_eq_deriv_mul (fun t _ => hd2 t) (fun t _ => hc t) (hc2.intervalIntegrable _ _)
      ((by fun_prop : Continuous fun t : ℝ => Real.sin (n * t)).intervalIntegrable _ _)]
    rw [mul_add, ← intervalIntegral.integral_const_mul, sub_eq_add_neg, ← intervalIntegral.integral_neg]
    congr 1
    · simp only [mul_zero, Real.cos_zero]; ring
    · exact intervalIntegral.integral_congr fun t _ => by ring
  have b : |∫ t in (0 : ℝ)..Real.pi, deriv (deriv g) t * Real.cos (n * t)| ≤ ∫ t in (0 : ℝ)..Real.pi, |deriv (deriv g) t| := by
    refine (intervalIntegral.abs_integral_le_integral_abs hpi.le).trans ?_
    refine intervalIntegral.integral_mono_on hpi.le ((by fun_prop : Continuous fun t : ℝ => |deriv (deriv g) t * Real.cos (n * t)|).intervalIntegrable _ _)
      (hc2.abs.intervalIntegrable _ _) fun t _ => ?_
    rw [abs_mul]
    exact mul_le_of_le_one_right (abs_nonneg _) (Real.abs_cos_le_one _)
  unfold coef
  rw [i1, i2]
  have e : ∀ z : ℝ, 1 / Real.pi * (-(1 / n) * (1 / n * z)) = -(1 / Real.pi * z * (1 / (n : ℝ) ^ 2)) := fun z => by field_simp
  rw [e, abs_neg, abs_mul, abs_mul, abs_of_pos (by positivity : (0 : ℝ) < 1 / Real.pi), abs_of_nonneg (by positivity : (0 : ℝ) ≤ 1 / (n : ℝ) ^ 2)]
  gcongr
  have h1 : |deriv g Real.pi * Real.cos (n * Real.pi)| ≤ |deriv g Real.pi| := by
    rw [abs_mul]; exact mul_le_of_le_one_right (abs_nonneg _) (Real.abs_cos_le_one _)
  have h2 := abs_sub (deriv g 0) (deriv g Real.pi * Real.cos (n * Real.pi))
  refine (abs_add_le _ _).trans ?_
  linarith

theorem summable_coef {g : ℝ → ℝ} (hg : ContDiff ℝ 2 g) : Summable (coef g) := by
  obtain ⟨K, hK⟩ := coef_decay hg
  have h1 : Summable fun n : ℤ => K * (1 / (n : ℝ) ^ 2) := (Real.summable_one_div_int_pow.mpr one_lt_two).mul_left K
  refine Summable.of_norm_bounded_eventually h1 ?_
  rw [Filter.eventually_cofinite]
  refine (Set.finite_singleton (0 : ℤ)).subset fun n hn => ?_
  by_contra h0
  exact hn (hK n h0)

/-- The series. -/
theorem hasSum {g : ℝ → ℝ} (hg : ContDiff ℝ 2 g) (t : ℝ) :
    HasSum (fun n : ℤ => (coef g n : ℂ) * cexp ((n * t : ℝ) * I)) (g (Real.arccos (Real.cos t)) : ℂ) := by
  have hpi := Real.pi_pos
  haveI : Fact (0 < 2 * Real.pi) := ⟨by positivity⟩
  have hper : Function.Periodic (fun t : ℝ => (g (Real.arccos (Real.cos t)) : ℂ)) (2 * Real.pi) := fun t => by
    simp only [Real.cos_add_two_pi]
  have hcont : Continuous fun t : ℝ => (g (Real.arccos (Real.cos t)) : ℂ) :=
    Complex.continuous_ofReal.comp (hg.continuous.comp (Real.continuous_arccos.comp Real.continuous_cos))
  let f : C(AddCircle (2 * Real.pi), ℂ) := ⟨hper.lift, continuous_coinduced_dom.mpr hcont⟩
  have hf : ∀ t : ℝ, f (t : AddCircle (2 * Real.pi)) = (g (Real.arccos (Real.cos t)) : ℂ) := fun t => rfl
  have hfour : ∀ (n : ℤ) (t : ℝ), fourier n (t : AddCircle (2 * Real.pi)) = cexp ((n * t : ℝ) * I) := fun n t => by
    rw [fourier_coe_apply]
    congr 1
    have : (Real.pi : ℂ) ≠ 0 := by exact_mod_cast hpi.ne'
    push_cast
    field_simp
  have hcoef : ∀ n, fourierCoeff f n = (coef g n : ℂ) := by
    intro n
    rw [fourierCoeff_eq_intervalIntegral _ _ (-Real.pi), show -Real.pi + 2 * Real.pi = Real.pi by ring]
    have hi : ∀ a b : ℝ, IntervalIntegrable (fun x : ℝ => fourier (-n) (x : AddCircle (2 * Real.pi)) • f x) volume a b := fun a b => by
      refine Continuous.intervalIntegrable ?_ _ _
      simp only [hfour, hf, smul_eq_mul]
      fun_prop
    rw [← intervalIntegral.integral_add_adjacent_intervals (hi _ 0) (hi 0 _)]
    have hneg := intervalIntegral.integral_comp_neg (a := 0) (b := Real.pi) fun x : ℝ => fourier (-n) (x : AddCircle (2 * Real.pi)) • f x
    rw [neg_zero] at hneg
    have hi2 : IntervalIntegrable (fun x : ℝ => fourier (-n) ((-x : ℝ) : AddCircle (2 * Real.pi)) • f ((-x : ℝ) : AddCircle (2 * Real.pi))) volume 0 Real.pi := by
      refine Continuous.intervalIntegrable ?_ _ _
      simp only [hfour, hf, smul_eq_mul]
      fun_prop
    rw [← hneg, ← intervalIntegral.integral_add hi2 (hi _ _)]
    rw [intervalIntegral.integral_congr (g := fun t : ℝ => ((2 * (g t * Real.cos (n * t)) : ℝ) : ℂ))]
    · rw [intervalIntegral.integral_ofReal, intervalIntegral.integral_const_mul]
      unfold coef
      rw [Complex.real_smul, ← Complex.ofReal_mul]
      congr 1
      field_simp
    · intro t ht
      rw [Set.uIcc_of_le hpi.le] at ht
      simp only [hfour, hf, smul_eq_mul]
      rw [Real.cos_neg, Real.arccos_cos ht.1 ht.2]
      push_cast
      rw [Complex.cos, show (-(n : ℂ) * -(t : ℂ)) * I = (n * t) * I by ring, show (-(n : ℂ) * t) * I = -(n * t) * I by ring]
      ring
  have hsum : Summable (fourierCoeff f) := by
    have : fourierCoeff f = fun n => (coef g n : ℂ) := funext hcoef
    rw [this]
    exact Complex.ofRealCLM.summable (summable_coef hg)
  have := has_pointwise_sum_fourier_series_of_summable hsum (t : AddCircle (2 * Real.pi))
  simpa only [hcoef, hfour, hf, smul_eq_mul] using this

end PySLM2.CosineSeries
