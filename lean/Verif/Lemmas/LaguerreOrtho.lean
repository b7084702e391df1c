import Verif.Lemmas.HermiteOrtho
import Verif.Lemmas.ZernikeCode
import Mathlib.Algebra.Group.ForwardDiff
import Mathlib.MeasureTheory.Integral.Gamma
import Mathlib.RingTheory.Polynomial.Pochhammer
import Mathlib.Analysis.SpecialFunctions.Integrals.Basic

/-!
# Orthogonality of the Laguerre polynomials and of the Laguerre-Gaussian modes
-/

noncomputable section

open MeasureTheory Finset Polynomial
open scoped Nat

namespace PySLM2.Profile

/-- Coefficients of `genlaguerre(p, k)`. -/
def lagCoef (p k i : ℕ) : ℝ := (-1 : ℝ) ^ i * (Nat.choose (p + k) (p - i) : ℝ) / (i ! : ℝ)

theorem polyval_laguerre (p k : ℕ) (x : ℝ) :
    polyval (genlaguerreCoef p k) x = ∑ i ∈ range (p + 1), lagCoef p k i * x ^ i :=
  polyval_sum (lagCoef p k) x (p + 1)

/-- Alternating binomial sums annihilate polynomials of lower degree. -/
theorem alt_sum (p : ℕ) (P : ℝ[X]) :
    (P.natDegree < p → ∑ i ∈ range (p + 1), (-1 : ℝ) ^ i * (p.choose i) * P.eval (i : ℝ) = 0) ∧
    (P.natDegree = p → ∑ i ∈ range (p + 1), (-1 : ℝ) ^ i * (p.choose i) * P.eval (i : ℝ) =
      (-1) ^ p * (P.leadingCoeff * p !)) := by
  have key : ∑ i ∈ range (p + 1), (-1 : ℝ) ^ i * (p.choose i) * P.eval (i : ℝ) =
      (-1) ^ p * ((fwdDiff (1 : ℝ))^[p] P.eval) 0 := by
    rw [fwdDiff_iter_eq_sum_shift, mul_sum]
    refine sum_congr rfl fun i hi => ?_
    have hi' : i ≤ p := Nat.lt_succ_iff.mp (mem_range.mp hi)
    obtain ⟨d, rfl⟩ := Nat.exists_eq_add_of_le hi'
    simp only [Nat.add_sub_cancel_left, zero_add, nsmul_eq_mul, mul_one, zsmul_eq_mul]
    push_cast
    rw [pow_add]
    have : ((-1 : ℝ) ^ d) * (-1) ^ d = 1 := by rw [← mul_pow]; norm_num
    linear_combination (-((-1 : ℝ) ^ i * ((i + d).choose i) * Polynomial.eval (i : ℝ) P)) * this
  refine ⟨fun h => ?_, fun h => ?_⟩
  · rw [key, Polynomial.fwdDiff_iter_eq_zero_of_degree_lt h]
    simp
  · rw [key, ← h, Polynomial.fwdDiff_iter_degree_eq_factorial]
    simp

theorem laguerre_moment {p j : ℕ} (k : ℕ) (hj : j ≤ p) :
    ∑ i ∈ range (p + 1), lagCoef p k i * ((k + i + j)! : ℝ) = if j = p then (-1) ^ p * ((p + k)! : ℝ) else 0 := by
  set P : ℝ[X] := (ascPochhammer ℝ j).comp (X + C ((k : ℝ) + 1)) with hP
  have hPe : ∀ i : ℕ, P.eval (i : ℝ) = ((k + i + j)! : ℝ) / ((k + i)! : ℝ) := by
    intro i
    rw [hP, eval_comp]
    have e : Polynomial.eval (i : ℝ) (X + C ((k : ℝ) + 1)) = ((k + i + 1 : ℕ) : ℝ) := by simp; ring
    rw [e, ascPochhammer_nat_eq_natCast_ascFactorial ℝ, eq_div_iff (by exact_mod_cast (Nat.factorial_pos _).ne')]
    rw [mul_comm]
    exact_mod_cast Nat.factorial_mul_ascFactorial (k + i) j
  have hPm : P.Monic := (monic_ascPochhammer ℝ j).comp (monic_X_add_C _) (by rw [natDegree_X_add_C]; norm_num)
  have hPd : P.natDegree = j := by rw [hP, natDegree_comp, ascPochhammer_natDegree, natDegree_X_add_C, mul_one]
  have e : ∀ i ∈ range (p + 1), lagCoef p k i * ((k + i + j)! : ℝ) =
      ((p + k)! / (p ! : ℝ)) * ((-1 : ℝ) ^ i * (p.choose i) * P.eval (i : ℝ)) := by
    intro i hi
    have hi' : i ≤ p := Nat.lt_succ_iff.mp (mem_range.mp hi)
    obtain ⟨d, rfl⟩ := Nat.exists_eq_add_of_le hi'
    rw [hPe]
    unfold lagCoef
    rw [Nat.add_sub_cancel_left]
    have h1 : ((i + d + k).choose d : ℝ) = ((i + d + k)! : ℝ) / (d ! * (k + i)! : ℝ) := by
      rw [Nat.cast_choose ℝ (by omega)]
      congr 3
      congr 1
      omega
    have h2 : ((i + d).choose i : ℝ) = ((i + d)! : ℝ) / (i ! * d ! : ℝ) := by
      rw [Nat.cast_choose ℝ (by omega), Nat.add_sub_cancel_left]
    rw [h1, h2]
    have := fun n : ℕ => (by exact_mod_cast (Nat.factorial_pos n).ne' : (n ! : ℝ) ≠ 0)
    have a1 := this i; have a2 := this d; have a3 := this (k + i); have a4 := this (i + d)
    field_simp
  rw [sum_congr rfl e, ← mul_sum]
  have hf : (p ! : ℝ) ≠ 0 := by exact_mod_cast (Nat.factorial_pos p).ne'
  split_ifs with hjp
  · rw [(alt_sum p P).2 (hPd.trans hjp), hPm.leadingCoeff]
    field_simp
  · rw [(alt_sum p P).1 (by omega), mul_zero]

/-- Algebraic orthogonality: `∑∑ c_i c'_j (k+i+j)!`. -/
theorem laguerre_gram (p q k : ℕ) :
    ∑ i ∈ range (p + 1), ∑ j ∈ range (q + 1), lagCoef p k i * lagCoef q k j * ((k + i + j)! : ℝ) =
      if p = q then ((p + k)! : ℝ) / (p ! : ℝ) else 0 := by
  have half : ∀ p q : ℕ, q ≤ p →
      ∑ i ∈ range (p + 1), ∑ j ∈ range (q + 1), lagCoef p k i * lagCoef q k j * ((k + i + j)! : ℝ) =
      if p = q then ((p + k)! : ℝ) / (p ! : ℝ) else 0 := by
    intro p q hqp
    rw [sum_comm]
    have e : ∀ j ∈ range (q + 1), ∑ i ∈ range (p + 1), lagCoef p k i * lagCoef q k j * ((k + i + j)! : ℝ) =
        lagCoef q k j * (if j = p then (-1) ^ p * ((p + k)! : ℝ) else 0) := by
      intro j hj
      have hj' : j ≤ q := Nat.lt_succ_iff.mp (mem_range.mp hj)
      rw [← laguerre_moment k (hj'.trans hqp), mul_sum]
      exact sum_congr rfl fun i _ => by ring
    rw [sum_congr rfl e]
    split_ifs with h
    · subst h
      rw [sum_eq_single p (fun j _ hj => by rw [if_neg hj, mul_zero]) (fun h => absurd (self_mem_range_succ p) h), if_pos rfl]
      unfold lagCoef
      simp only [Nat.sub_self, Nat.choose_zero_right, Nat.cast_one, mul_one]
      have : ((-1 : ℝ) ^ p) * (-1) ^ p = 1 := by rw [← mul_pow]; norm_num
      rw [div_mul_eq_mul_div, ← mul_assoc, this, one_mul]
    · refine sum_eq_zero fun j hj => ?_
      have hj' : j ≤ q := Nat.lt_succ_iff.mp (mem_range.mp hj)
      rw [if_neg (by omega), mul_zero]
  rcases le_total q p with h | h
  · exact half p q h
  · have := half q p h
    rw [sum_comm]
    have e : ∀ j ∈ range (q + 1), ∀ i ∈ range (p + 1), lagCoef p k i * lagCoef q k j * ((k + i + j)! : ℝ) =
        lagCoef q k j * lagCoef p k i * ((k + j + i)! : ℝ) := by
      intro j _ i _
      rw [show k + i + j = k + j + i by omega]
      ring
    rw [sum_congr rfl fun j hj => sum_congr rfl (e j hj), this]
    by_cases hpq : p = q
    · subst hpq; rfl
    · rw [if_neg hpq, if_neg (Ne.symm hpq)]

/-! ## Radial integrals -/

theorem radial_moment {b : ℝ} (hb : 0 < b) (n : ℕ) :
    ∫ r in Set.Ioi (0 : ℝ), r * (b * r ^ 2) ^ n * Real.exp (-(b * r ^ 2)) = (n ! : ℝ) / (2 * b) := by
  have h := integral_rpow_mul_exp_neg_mul_rpow (p := 2) (q := 2 * n + 1) (b := b) (by norm_num)
    (by have := Nat.cast_nonneg (α := ℝ) n; linarith) hb
  have e : ∀ r ∈ Set.Ioi (0 : ℝ), r * (b * r ^ 2) ^ n * Real.exp (-(b * r ^ 2)) =
      b ^ n * (r ^ ((2 : ℝ) * n + 1) * Real.exp (-b * r ^ (2 : ℝ))) := by
    intro r hr
    have : r ^ ((2 : ℝ) * n + 1) = r ^ (2 * n + 1) := by
      rw [← Real.rpow_natCast]; push_cast; rfl
    rw [this, Real.rpow_two, neg_mul, mul_pow, ← pow_mul]
    ring
  rw [setIntegral_congr_fun measurableSet_Ioi e, integral_const_mul, h]
  have g : ((2 : ℝ) * n + 1 + 1) / 2 = n + 1 := by ring
  have g2 : -((2 : ℝ) * n + 1 + 1) / 2 = -((n + 1 : ℕ) : ℝ) := by push_cast; ring
  rw [g2, g, Real.Gamma_nat_eq_factorial, Real.rpow_neg hb.le, Real.rpow_natCast]
  field_simp
  ring

theorem radial_integrable {b : ℝ} (hb : 0 < b) (n : ℕ) :
    IntegrableOn (fun r : ℝ => r * (b * r ^ 2) ^ n * Real.exp (-(b * r ^ 2))) (Set.Ioi 0) := by
  have := integrable_rpow_mul_exp_neg_mul_sq (b := b) hb (s := (2 * n + 1 : ℕ))
    (by have := Nat.cast_nonneg (α := ℝ) (2 * n + 1); linarith)
  have h2 := (this.const_mul (b ^ n)).integrableOn (s := Set.Ioi 0)
  refine h2.congr_fun (fun r _ => ?_) measurableSet_Ioi
  simp only [Real.rpow_natCast]
  rw [mul_pow, ← pow_mul, neg_mul]
  ring

/-- The radial overlap of two Laguerre-Gaussian modes with the same `|l|`. -/
theorem laguerre_radial {b : ℝ} (hb : 0 < b) (p q k : ℕ) :
    ∫ r in Set.Ioi (0 : ℝ), r * ((b * r ^ 2) ^ k * Real.exp (-(b * r ^ 2)) *
      (polyval (genlaguerreCoef p k) (b * r ^ 2) * polyval (genlaguerreCoef q k) (b * r ^ 2))) =
      if p = q then ((p + k)! : ℝ) / (p ! : ℝ) / (2 * b) else 0 := by
  have e : ∀ r : ℝ, r * ((b * r ^ 2) ^ k * Real.exp (-(b * r ^ 2)) *
      (polyval (genlaguerreCoef p k) (b * r ^ 2) * polyval (genlaguerreCoef q k) (b * r ^ 2))) =
      ∑ i ∈ range (p + 1), ∑ j ∈ range (q + 1), lagCoef p k i * lagCoef q k j *
        (r * (b * r ^ 2) ^ (k + i + j) * Real.exp (-(b * r ^ 2))) := by
    intro r
    rw [polyval_laguerre, polyval_laguerre, sum_mul_sum, mul_sum, mul_sum]
    refine sum_congr rfl fun i _ => ?_
    rw [mul_sum, mul_sum]
    refine sum_congr rfl fun j _ => ?_
    rw [pow_add, pow_add]
    ring
  simp only [e]
  rw [integral_finset_sum _ fun i _ => integrable_finset_sum _ fun j _ => (radial_integrable hb _).const_mul _]
  have e2 : ∀ i ∈ range (p + 1), ∫ r in Set.Ioi (0 : ℝ), ∑ j ∈ range (q + 1), lagCoef p k i * lagCoef q k j *
        (r * (b * r ^ 2) ^ (k + i + j) * Real.exp (-(b * r ^ 2))) =
      ∑ j ∈ range (q + 1), lagCoef p k i * lagCoef q k j * ((k + i + j)! : ℝ) / (2 * b) := by
    intro i _
    rw [integral_finset_sum _ fun j _ => (radial_integrable hb _).const_mul _]
    refine sum_congr rfl fun j _ => ?_
    rw [integral_const_mul, radial_moment hb]
    ring
  rw [sum_congr rfl e2]
  simp only [← sum_div]
  rw [laguerre_gram]
  split_ifs <;> simp

/-! ## The whole plane in polar coordinates -/

theorem plane_integral (A : ℝ → ℂ) (B : ℝ → ℂ) (f : ℝ × ℝ → ℂ)
    (hf : ∀ r t : ℝ, 0 < r → t ∈ Set.Ioo (-Real.pi) Real.pi → f (r * Real.cos t, r * Real.sin t) = A r * B t) :
    ∫ z : ℝ × ℝ, f z = (∫ r in Set.Ioi (0 : ℝ), (r : ℂ) * A r) * ∫ t in (-Real.pi)..Real.pi, B t := by
  rw [← integral_comp_polarCoord_symm]
  have htarget : polarCoord.target = Set.Ioi (0 : ℝ) ×ˢ Set.Ioo (-Real.pi) Real.pi := rfl
  rw [htarget]
  have hpt : ∀ p ∈ Set.Ioi (0 : ℝ) ×ˢ Set.Ioo (-Real.pi) Real.pi,
      p.1 • f (polarCoord.symm p) = ((p.1 : ℂ) * A p.1) * B p.2 := by
    rintro ⟨r, t⟩ ⟨hr, ht⟩
    simp only [polarCoord_symm_apply, Complex.real_smul]
    rw [hf r t hr ht]
    ring
  rw [setIntegral_congr_fun (measurableSet_Ioi.prod measurableSet_Ioo) hpt, Measure.volume_eq_prod,
    setIntegral_prod_mul (fun r : ℝ => (r : ℂ) * A r) B]
  congr 1
  rw [intervalIntegral.integral_of_le (by linarith [Real.pi_pos]), integral_Ioc_eq_integral_Ioo]

theorem angular_integral (l : ℤ) :
    ∫ t in (-Real.pi)..Real.pi, Complex.exp (Complex.I * l * t) = if l = 0 then 2 * (Real.pi : ℂ) else 0 := by
  split_ifs with h
  · subst h
    simp
    ring
  · have hc : Complex.I * l ≠ 0 := mul_ne_zero Complex.I_ne_zero (by exact_mod_cast h)
    rw [integral_exp_mul_complex hc]
    have : Complex.exp (Complex.I * l * (Real.pi : ℝ)) = Complex.exp (Complex.I * l * ((-Real.pi : ℝ) : ℂ)) := by
      rw [Complex.exp_eq_exp_iff_exists_int]
      exact ⟨l, by push_cast; ring⟩
    rw [this, sub_self, zero_div]

end PySLM2.Profile
