import Verif.Lemmas.Modes
import Mathlib.Analysis.SpecialFunctions.Gaussian.GaussianIntegral
import Mathlib.MeasureTheory.Integral.IntegralEqImproper

/-!
# Orthogonality of the Hermite polynomials
-/

noncomputable section

open Polynomial MeasureTheory

namespace PySLM2.Profile

/-- A polynomial times a Gaussian is integrable. -/
theorem integrable_poly_gauss (q : ℤ[X]) : Integrable fun t : ℝ => aeval t q * Real.exp (-t ^ 2) := by
  have hm : ∀ k : ℕ, Integrable fun t : ℝ => t ^ k * Real.exp (-t ^ 2) := fun k => by
    have := integrable_rpow_mul_exp_neg_mul_sq (b := 1) one_pos (s := k) (by have := Nat.cast_nonneg (α := ℝ) k; linarith)
    simpa [Real.rpow_natCast] using this
  induction q using Polynomial.induction_on' with
  | add p q hp hq =>
    simp only [map_add, add_mul]
    exact hp.add hq
  | monomial n a =>
    simp only [aeval_monomial, mul_assoc]
    exact (hm n).const_mul _

theorem integrable_hermite (n m : ℕ) : Integrable fun t : ℝ => hermiteFun n t * hermiteFun m t * Real.exp (-t ^ 2) := by
  have := integrable_poly_gauss (physHermite n * physHermite m)
  simp only [map_mul] at this
  exact this

theorem hermiteFun_deriv_succ (n : ℕ) (t : ℝ) :
    HasDerivAt (hermiteFun (n + 1)) (2 * ((n : ℝ) + 1) * hermiteFun n t) t := by
  have h := Polynomial.hasDerivAt_aeval (physHermite (n + 1)) t
  rw [physHermite_derivative] at h
  simpa [aeval_two, hermiteFun] using! h

theorem hermite_gauss_deriv (n : ℕ) (t : ℝ) :
    HasDerivAt (fun t => hermiteFun n t * Real.exp (-t ^ 2)) (-(hermiteFun (n + 1) t * Real.exp (-t ^ 2))) t := by
  have h1 : HasDerivAt (fun s : ℝ => -s ^ 2) (-(2 * t)) t := by
    simpa using! (hasDerivAt_pow 2 t).neg
  refine ((hermiteFun_deriv n t).mul h1.exp).congr_deriv ?_
  ring

/-- Moving a derivative from one factor to the other. -/
theorem hermite_step (n m : ℕ) :
    ∫ t : ℝ, hermiteFun (m + 1) t * hermiteFun (n + 1) t * Real.exp (-t ^ 2) =
      2 * ((m : ℝ) + 1) * ∫ t : ℝ, hermiteFun m t * hermiteFun n t * Real.exp (-t ^ 2) := by
  have h := integral_mul_deriv_eq_deriv_mul_of_integrable (u := hermiteFun (m + 1))
    (v := fun t => hermiteFun n t * Real.exp (-t ^ 2)) (u' := fun t => 2 * ((m : ℝ) + 1) * hermiteFun m t)
    (v' := fun t => -(hermiteFun (n + 1) t * Real.exp (-t ^ 2)))
    (fun t _ => hermiteFun_deriv_succ m t) (fun t _ => hermite_gauss_deriv n t) ?_ ?_ ?_
  · simp only [mul_neg, integral_neg, neg_inj] at h
    simp only [mul_assoc] at h ⊢
    rw [h, ← integral_const_mul, ← integral_const_mul]
  · refine (integrable_hermite (m + 1) (n + 1)).neg.congr (Filter.Eventually.of_forall fun t => ?_)
    simp only [Pi.mul_apply, Pi.neg_apply]
    ring
  · refine ((integrable_hermite m n).const_mul (2 * ((m : ℝ) + 1))).congr (Filter.Eventually.of_forall fun t => ?_)
    simp only [Pi.mul_apply]
    ring
  · refine (integrable_hermite (m + 1) n).congr (Filter.Eventually.of_forall fun t => ?_)
    simp only [Pi.mul_apply]
    ring

theorem hermite_zero (n : ℕ) : ∫ t : ℝ, hermiteFun 0 t * hermiteFun (n + 1) t * Real.exp (-t ^ 2) = 0 := by
  have h0 : ∀ t, hermiteFun 0 t = 1 := fun t => by simp [hermiteFun, physHermite]
  have h := integral_mul_deriv_eq_deriv_mul_of_integrable (u := hermiteFun 0)
    (v := fun t => hermiteFun n t * Real.exp (-t ^ 2)) (u' := fun _ => 0)
    (v' := fun t => -(hermiteFun (n + 1) t * Real.exp (-t ^ 2)))
    (fun t _ => ?_) (fun t _ => hermite_gauss_deriv n t) ?_ ?_ ?_
  · simp only [mul_neg, integral_neg, zero_mul, integral_zero, neg_zero, neg_eq_zero] at h
    simpa only [mul_assoc] using h
  · have : hermiteFun 0 = fun _ => 1 := funext h0
    rw [this]
    exact hasDerivAt_const t 1
  · refine (integrable_hermite 0 (n + 1)).neg.congr (Filter.Eventually.of_forall fun t => ?_)
    simp only [Pi.mul_apply, Pi.neg_apply]
    ring
  · refine (integrable_zero ℝ ℝ volume).congr (Filter.Eventually.of_forall fun t => ?_)
    simp
  · refine (integrable_hermite 0 n).congr (Filter.Eventually.of_forall fun t => ?_)
    simp only [Pi.mul_apply]
    ring

theorem hermite_ortho : ∀ n m : ℕ, ∫ t : ℝ, hermiteFun n t * hermiteFun m t * Real.exp (-t ^ 2) =
    if n = m then 2 ^ n * (n.factorial : ℝ) * √Real.pi else 0
  | 0, 0 => by
    have h0 : ∀ t, hermiteFun 0 t = 1 := fun t => by simp [hermiteFun, physHermite]
    have := integral_gaussian 1
    simp only [h0]
    simpa using this
  | 0, m + 1 => by rw [hermite_zero, if_neg (by omega)]
  | n + 1, 0 => by
    rw [if_neg (by omega), ← hermite_zero n]
    simp only [mul_comm (hermiteFun (n + 1) _)]
  | n + 1, m + 1 => by
    rw [hermite_step, hermite_ortho n m]
    by_cases h : n = m
    · subst h
      rw [if_pos rfl, if_pos rfl, Nat.factorial_succ]
      push_cast
      ring
    · rw [if_neg h, if_neg (by omega), mul_zero]

/-- The overlap of two one-dimensional modes of width `w`. -/
theorem hermite_ortho_scaled {w : ℝ} (hw : w ≠ 0) (x0 : ℝ) (n m : ℕ) :
    ∫ x : ℝ, Spec.rodrigues n (√2 * (x - x0) / w) * Spec.rodrigues m (√2 * (x - x0) / w) *
      Real.exp (-(2 * (x - x0) ^ 2 / w ^ 2)) =
    if n = m then |w| / √2 * (2 ^ n * (n.factorial : ℝ) * √Real.pi) else 0 := by
  have h2 : √2 ≠ 0 := by positivity
  have e : ∀ x : ℝ, Spec.rodrigues n (√2 * (x - x0) / w) * Spec.rodrigues m (√2 * (x - x0) / w) *
      Real.exp (-(2 * (x - x0) ^ 2 / w ^ 2)) =
      (fun t : ℝ => hermiteFun n t * hermiteFun m t * Real.exp (-t ^ 2)) ((√2 / w) * (x - x0)) := by
    intro x
    simp only [← hermiteFun_rodrigues]
    have h3 : √2 * (x - x0) / w = √2 / w * (x - x0) := by ring
    have h4 : (√2 / w * (x - x0)) ^ 2 = 2 * (x - x0) ^ 2 / w ^ 2 := by
      rw [mul_pow, div_pow, Real.sq_sqrt (by norm_num)]; ring
    rw [h3, h4]
  simp only [e]
  rw [integral_sub_right_eq_self (fun y : ℝ => (fun t : ℝ => hermiteFun n t * hermiteFun m t * Real.exp (-t ^ 2)) ((√2 / w) * y)) x0,
    Measure.integral_comp_mul_left (fun t : ℝ => hermiteFun n t * hermiteFun m t * Real.exp (-t ^ 2)), hermite_ortho]
  rw [inv_div, abs_div, abs_of_pos (by positivity : 0 < √2)]
  split_ifs
  · rw [smul_eq_mul]
  · rw [smul_zero]

end PySLM2.Profile
