import Verif.Lemmas.Modes
import Verif.Spec.Zernike
import Mathlib.Algebra.Group.ForwardDiff
import Mathlib.RingTheory.Polynomial.Pochhammer
import Mathlib.Algebra.Polynomial.FieldDivision
import Mathlib.Analysis.SpecialFunctions.Integrals.Basic

/-!
# Lemmas on Zernike polynomials
-/

noncomputable section

open Polynomial Nat

namespace PySLM2.Profile

/-! ## Radial polynomials -/

/-- The coefficient of `ρ^(m+2i)` in `R_{m+2p}^m`. -/
def radCoef (p m i : ℕ) : ℝ := (-1) ^ (p - i) * ((p + m + i)! : ℝ) / (((p - i)! : ℝ) * ((m + i)! : ℝ) * (i ! : ℝ))

theorem radial_eq (p m : ℕ) (ρ : ℝ) :
    Spec.radial (m + 2 * p) m ρ = ∑ i ∈ Finset.range (p + 1), radCoef p m i * ρ ^ (m + 2 * i) := by
  unfold Spec.radial
  have e1 : (m + 2 * p - m) / 2 = p := by omega
  have e2 : (m + 2 * p + m) / 2 = m + p := by omega
  rw [e1, e2, ← Finset.sum_range_reflect]
  refine Finset.sum_congr rfl fun i hi => ?_
  have hi' : i ≤ p := by simpa [Nat.lt_succ_iff] using hi
  have e3 : p + 1 - 1 - i = p - i := by omega
  rw [e3, radCoef]
  have e4 : m + 2 * p - (p - i) = p + m + i := by omega
  have e5 : m + p - (p - i) = m + i := by omega
  have e6 : p - (p - i) = i := by omega
  have e7 : m + 2 * p - 2 * (p - i) = m + 2 * i := by omega
  rw [e4, e5, e6, e7]

theorem radCoef_asc {p m i : ℕ} (hi : i ≤ p) :
    radCoef p m i = (-1) ^ (p - i) * (p.choose i : ℝ) * ((ascPochhammer ℝ p).eval ((m : ℝ) + 1 + i)) / (p ! : ℝ) := by
  have h1 : ((m : ℝ) + 1 + i) = ((m + i + 1 : ℕ) : ℝ) := by push_cast; ring
  rw [h1, ascPochhammer_nat_eq_natCast_ascFactorial]
  have h2 : (m + i)! * (m + i + 1).ascFactorial p = (m + i + p)! := Nat.factorial_mul_ascFactorial (m + i) p
  have h3 : p.choose i * i ! * (p - i)! = p ! := Nat.choose_mul_factorial_mul_factorial hi
  have h4 : p + m + i = m + i + p := by ring
  rw [radCoef, h4, ← h2, ← h3]
  have n1 : ((m + i)! : ℝ) ≠ 0 := by exact_mod_cast Nat.factorial_ne_zero _
  have n2 : ((p - i)! : ℝ) ≠ 0 := by exact_mod_cast Nat.factorial_ne_zero _
  have n3 : (i ! : ℝ) ≠ 0 := by exact_mod_cast Nat.factorial_ne_zero _
  have n4 : ((p.choose i : ℕ) : ℝ) ≠ 0 := by exact_mod_cast (Nat.choose_pos hi).ne'
  push_cast
  field_simp

theorem diff_sum (P : ℝ[X]) (p : ℕ) (y : ℝ) :
    (fwdDiff (1 : ℝ))^[p] P.eval y = ∑ i ∈ Finset.range (p + 1), (-1) ^ (p - i) * (p.choose i : ℝ) * P.eval (y + i) := by
  rw [fwdDiff_iter_eq_sum_shift]
  refine Finset.sum_congr rfl fun i _ => ?_
  simp [zsmul_eq_mul]

/-- **Normalisation at the edge.** -/
theorem radial_one (p m : ℕ) : Spec.radial (m + 2 * p) m 1 = 1 := by
  rw [radial_eq]
  have hd : (ascPochhammer ℝ p).natDegree = p := ascPochhammer_natDegree ℝ p
  have h := congrFun (Polynomial.fwdDiff_iter_degree_eq_factorial (ascPochhammer ℝ p)) ((m : ℝ) + 1)
  rw [hd, diff_sum, (monic_ascPochhammer ℝ p).leadingCoeff] at h
  have h' : ∑ i ∈ Finset.range (p + 1), (-1) ^ (p - i) * (p.choose i : ℝ) * (ascPochhammer ℝ p).eval ((m : ℝ) + 1 + i) = (p ! : ℝ) := by
    rw [h]; simp
  have hp : (p ! : ℝ) ≠ 0 := by exact_mod_cast Nat.factorial_ne_zero _
  refine Eq.trans ?_ ((congrArg (· / (p ! : ℝ)) h').trans (div_self hp))
  rw [Finset.sum_div]
  refine Finset.sum_congr rfl fun i hi => ?_
  rw [one_pow, mul_one, radCoef_asc (Nat.lt_succ_iff.mp (Finset.mem_range.mp hi))]

/-- Beta-type sum. -/
theorem beta_sum (p : ℕ) : ∀ N : ℕ, 1 ≤ N →
    ∑ i ∈ Finset.range (p + 1), (-1) ^ i * (p.choose i : ℝ) / ((N : ℝ) + i) = (p ! : ℝ) / (N.ascFactorial (p + 1) : ℝ) := by
  induction p with
  | zero =>
    intro N hN
    simp [Nat.ascFactorial]
  | succ p ih =>
    intro N hN
    have h1 := ih N hN
    have h2 := ih (N + 1) (by omega)
    have hsplit : ∑ i ∈ Finset.range (p + 1 + 1), (-1) ^ i * ((p + 1).choose i : ℝ) / ((N : ℝ) + i) =
        ∑ i ∈ Finset.range (p + 1), (-1) ^ i * (p.choose i : ℝ) / ((N : ℝ) + i) -
          ∑ i ∈ Finset.range (p + 1), (-1) ^ i * (p.choose i : ℝ) / (((N + 1 : ℕ) : ℝ) + i) := by
      rw [Finset.sum_range_succ' _ (p + 1)]
      have e : ∀ i, (-1 : ℝ) ^ (i + 1) * ((p + 1).choose (i + 1) : ℝ) / ((N : ℝ) + ((i + 1 : ℕ) : ℝ)) =
          (-1) ^ (i + 1) * (p.choose (i + 1) : ℝ) / ((N : ℝ) + ((i + 1 : ℕ) : ℝ)) -
            (-1) ^ i * (p.choose i : ℝ) / (((N + 1 : ℕ) : ℝ) + i) := by
        intro i
        rw [Nat.choose_succ_succ]
        have : (N : ℝ) + ((i + 1 : ℕ) : ℝ) = ((N + 1 : ℕ) : ℝ) + i := by push_cast; ring
        rw [this]
        push_cast
        ring
      rw [Finset.sum_congr rfl fun i _ => e i, Finset.sum_sub_distrib]
      have e0 : (-1 : ℝ) ^ 0 * ((p + 1).choose 0 : ℝ) / ((N : ℝ) + ((0 : ℕ) : ℝ)) = (-1) ^ 0 * (p.choose 0 : ℝ) / ((N : ℝ) + ((0 : ℕ) : ℝ)) := by simp
      rw [e0]
      have e1 : ∑ i ∈ Finset.range (p + 1), (-1 : ℝ) ^ (i + 1) * (p.choose (i + 1) : ℝ) / ((N : ℝ) + ((i + 1 : ℕ) : ℝ)) +
          (-1) ^ 0 * (p.choose 0 : ℝ) / ((N : ℝ) + ((0 : ℕ) : ℝ)) =
          ∑ i ∈ Finset.range (p + 1), (-1) ^ i * (p.choose i : ℝ) / ((N : ℝ) + i) := by
        rw [← Finset.sum_range_succ' (fun i => (-1 : ℝ) ^ i * (p.choose i : ℝ) / ((N : ℝ) + (i : ℕ))) (p + 1), Finset.sum_range_succ]
        simp
      rw [← e1]
      ring
    rw [hsplit, h1, h2]
    have hN0 : (N : ℝ) ≠ 0 := by exact_mod_cast (by omega : N ≠ 0)
    have a1 : (N.ascFactorial (p + 1 + 1) : ℝ) = N.ascFactorial (p + 1) * (N + (p + 1)) := by
      rw [Nat.ascFactorial_succ (n := N) (k := p + 1)]
      push_cast
      ring
    have a2 : (N : ℝ) * ((N + 1).ascFactorial (p + 1) : ℝ) = (N + (p + 1)) * N.ascFactorial (p + 1) := by
      exact_mod_cast Nat.succ_ascFactorial N (p + 1)
    have n1 : (N.ascFactorial (p + 1) : ℝ) ≠ 0 := by
      obtain ⟨M, rfl⟩ := Nat.exists_eq_add_of_le' hN
      exact_mod_cast (Nat.ascFactorial_pos M (p + 1)).ne'
    have n2 : ((N + 1).ascFactorial (p + 1) : ℝ) ≠ 0 := by exact_mod_cast (Nat.ascFactorial_pos N (p + 1)).ne'
    have n3 : ((N : ℝ) + (p + 1)) ≠ 0 := by positivity
    have a3 : ((N + 1).ascFactorial (p + 1) : ℝ) = (N + (p + 1)) * N.ascFactorial (p + 1) / N := by
      rw [← a2]; field_simp
    rw [a1, a3, Nat.factorial_succ]
    push_cast
    field_simp
    ring

/-- The moments of a radial polynomial. -/
theorem moment (p m j : ℕ) (hj : j ≤ p) :
    ∑ i ∈ Finset.range (p + 1), radCoef p m i / ((m : ℝ) + 1 + i + j) =
      if j = p then (p ! : ℝ) / ((m + p + 1).ascFactorial (p + 1) : ℝ) else 0 := by
  set A := ascPochhammer ℝ p with hA
  set Q := A /ₘ (X - C (-(j : ℝ))) with hQ
  have hdec : ∀ x : ℝ, A.eval x = (x + j) * Q.eval x + A.eval (-(j : ℝ)) := by
    intro x
    have h := Polynomial.X_sub_C_mul_divByMonic_eq_sub_modByMonic A (-(j : ℝ))
    rw [Polynomial.modByMonic_X_sub_C_eq_C_eval] at h
    have h' := congrArg (Polynomial.eval x) h
    simp only [eval_mul, eval_sub, eval_X, eval_C, sub_neg_eq_add] at h'
    linarith
  have hzero : ∑ i ∈ Finset.range (p + 1), (-1) ^ (p - i) * (p.choose i : ℝ) * Q.eval ((m : ℝ) + 1 + i) = 0 := by
    rcases Nat.eq_zero_or_pos p with h0 | hp
    · subst h0
      have : Q = 0 := by
        rw [hQ, hA, ascPochhammer_zero, Polynomial.divByMonic_eq_zero_iff (monic_X_sub_C _), degree_one, degree_X_sub_C]
        exact zero_lt_one
      simp [this]
    · have hd : Q.natDegree < p := by
        rw [hQ, Polynomial.natDegree_divByMonic _ (monic_X_sub_C _), hA, ascPochhammer_natDegree, natDegree_X_sub_C]
        omega
      rw [← diff_sum, Polynomial.fwdDiff_iter_eq_zero_of_degree_lt hd]
      rfl
  have hpos : ∀ i : ℕ, (m : ℝ) + 1 + i + j ≠ 0 := fun i => by positivity
  have hp : (p ! : ℝ) ≠ 0 := by exact_mod_cast Nat.factorial_ne_zero _
  have hsum : ∑ i ∈ Finset.range (p + 1), radCoef p m i / ((m : ℝ) + 1 + i + j) =
      (∑ i ∈ Finset.range (p + 1), (-1) ^ (p - i) * (p.choose i : ℝ) * Q.eval ((m : ℝ) + 1 + i)) / (p ! : ℝ) +
        A.eval (-(j : ℝ)) / (p ! : ℝ) * ∑ i ∈ Finset.range (p + 1), (-1) ^ (p - i) * (p.choose i : ℝ) / ((m : ℝ) + 1 + i + j) := by
    rw [Finset.sum_div, Finset.mul_sum, ← Finset.sum_add_distrib]
    refine Finset.sum_congr rfl fun i hi => ?_
    rw [radCoef_asc (Nat.lt_succ_iff.mp (Finset.mem_range.mp hi)), ← hA, hdec]
    have := hpos i
    field_simp
  rw [hsum, hzero, zero_div, zero_add]
  split_ifs with hjp
  · subst hjp
    have hev : A.eval (-(j : ℝ)) = (-1) ^ j * (j ! : ℝ) := by
      rw [hA, ascPochhammer_eval_neg_eq_descPochhammer, descPochhammer_eval_eq_descFactorial, Nat.descFactorial_self]
    have hb := beta_sum j (m + j + 1) (by omega)
    rw [← hb, hev, mul_div_assoc, div_self hp, mul_one, Finset.mul_sum]
    refine Finset.sum_congr rfl fun i hi => ?_
    have hi' := Nat.lt_succ_iff.mp (Finset.mem_range.mp hi)
    have hs : (-1 : ℝ) ^ j * (-1) ^ (j - i) = (-1) ^ i := by
      rw [← pow_add]
      have : j + (j - i) = i + 2 * (j - i) := by omega
      rw [this, pow_add, pow_mul]
      simp
    have hd : (m : ℝ) + 1 + i + j = ((m + j + 1 : ℕ) : ℝ) + i := by push_cast; ring
    rw [hd, ← hs]
    ring
  · rw [hA, ascPochhammer_eval_neg_coe_nat_of_lt (lt_of_le_of_ne hj hjp)]
    simp

/-- **Orthogonality of the radial polynomials.** -/
theorem radial_orth_le (p p' m : ℕ) (hp : p' ≤ p) :
    ∫ s in (0 : ℝ)..1, Spec.radial (m + 2 * p) m s * Spec.radial (m + 2 * p') m s * s =
      if p' = p then 1 / (2 * (((m + 2 * p : ℕ) : ℝ) + 1)) else 0 := by
  have h1 : ∀ s : ℝ, Spec.radial (m + 2 * p) m s * Spec.radial (m + 2 * p') m s * s =
      ∑ j ∈ Finset.range (p' + 1), ∑ i ∈ Finset.range (p + 1), radCoef p' m j * radCoef p m i * s ^ (2 * (m + i + j) + 1) := by
    intro s
    rw [radial_eq, radial_eq, Finset.sum_mul_sum, Finset.sum_comm, Finset.sum_mul]
    refine Finset.sum_congr rfl fun j _ => ?_
    rw [Finset.sum_mul]
    refine Finset.sum_congr rfl fun i _ => ?_
    ring
  simp_rw [h1]
  rw [intervalIntegral.integral_finset_sum fun j _ => Continuous.intervalIntegrable (by fun_prop) _ _]
  have h2 : ∀ j ∈ Finset.range (p' + 1),
      ∫ s in (0 : ℝ)..1, ∑ i ∈ Finset.range (p + 1), radCoef p' m j * radCoef p m i * s ^ (2 * (m + i + j) + 1) =
        radCoef p' m j / 2 * if j = p then (p ! : ℝ) / ((m + p + 1).ascFactorial (p + 1) : ℝ) else 0 := by
    intro j hj
    rw [← moment p m j (by have := Finset.mem_range.mp hj; omega),
      intervalIntegral.integral_finset_sum fun i _ => Continuous.intervalIntegrable (by fun_prop) _ _, Finset.mul_sum]
    refine Finset.sum_congr rfl fun i _ => ?_
    rw [intervalIntegral.integral_const_mul, integral_pow]
    have : ((2 * (m + i + j) + 1 : ℕ) : ℝ) + 1 = 2 * ((m : ℝ) + 1 + i + j) := by push_cast; ring
    rw [this]
    have hpos : (m : ℝ) + 1 + i + j ≠ 0 := by positivity
    field_simp
    simp
  rw [Finset.sum_congr rfl h2]
  by_cases hpp : p' = p
  · subst hpp
    rw [if_pos rfl, Finset.sum_eq_single p' (fun j _ hj => by rw [if_neg hj, mul_zero]) (fun h => by simp at h), if_pos rfl]
    have hf : ((m + p')! : ℝ) * ((m + p' + 1).ascFactorial (p' + 1) : ℝ) = ((m + p' + (p' + 1))! : ℝ) := by
      exact_mod_cast Nat.factorial_mul_ascFactorial (m + p') (p' + 1)
    have hg : m + p' + (p' + 1) = (p' + m + p') + 1 := by ring
    rw [hg, Nat.factorial_succ] at hf
    have n1 : ((m + p')! : ℝ) ≠ 0 := by exact_mod_cast Nat.factorial_ne_zero _
    have n2 : ((m + p' + 1).ascFactorial (p' + 1) : ℝ) ≠ 0 := by exact_mod_cast (Nat.ascFactorial_pos (m + p') (p' + 1)).ne'
    have n3 : (p' ! : ℝ) ≠ 0 := by exact_mod_cast Nat.factorial_ne_zero _
    have n4 : ((p' + m + p')! : ℝ) ≠ 0 := by exact_mod_cast Nat.factorial_ne_zero _
    have n5 : ((p' + m + p' : ℕ) : ℝ) + 1 ≠ 0 := by positivity
    rw [radCoef, Nat.sub_self, pow_zero, Nat.factorial_zero]
    push_cast at hf n5 ⊢
    rw [one_mul, one_mul, div_div, _root_.div_mul_div_comm, div_eq_div_iff (by positivity) (by positivity)]
    linear_combination (-2 * (p' ! : ℝ)) * hf
  · rw [if_neg hpp]
    refine Finset.sum_eq_zero fun j hj => ?_
    rw [if_neg (by have := Finset.mem_range.mp hj; omega), mul_zero]

theorem radial_orth (p p' m : ℕ) :
    ∫ s in (0 : ℝ)..1, Spec.radial (m + 2 * p) m s * Spec.radial (m + 2 * p') m s * s =
      if p' = p then 1 / (2 * (((m + 2 * p : ℕ) : ℝ) + 1)) else 0 := by
  rcases le_total p' p with h | h
  · exact radial_orth_le p p' m h
  · have := radial_orth_le p' p m h
    rw [show (fun s => Spec.radial (m + 2 * p) m s * Spec.radial (m + 2 * p') m s * s) =
      fun s => Spec.radial (m + 2 * p') m s * Spec.radial (m + 2 * p) m s * s from funext fun s => by ring, this]
    by_cases hp : p = p'
    · subst hp; rfl
    · rw [if_neg hp, if_neg (Ne.symm hp)]

/-! ## Azimuthal factors -/

theorem integral_cos_int (k : ℤ) : ∫ t in (-Real.pi)..Real.pi, Real.cos (k * t) = if k = 0 then 2 * Real.pi else 0 := by
  split_ifs with hk
  · subst hk
    simp
    ring
  · have hk' : (k : ℝ) ≠ 0 := by exact_mod_cast hk
    rw [intervalIntegral.integral_comp_mul_left _ hk', integral_cos, mul_neg, Real.sin_neg, Real.sin_int_mul_pi]
    simp

theorem integral_sin_int (k : ℤ) : ∫ t in (-Real.pi)..Real.pi, Real.sin (k * t) = 0 := by
  by_cases hk : k = 0
  · subst hk
    simp
  · have hk' : (k : ℝ) ≠ 0 := by exact_mod_cast hk
    rw [intervalIntegral.integral_comp_mul_left _ hk', integral_sin, mul_neg, Real.cos_neg]
    simp

theorem angular_orth (m m' : ℤ) :
    ∫ t in (-Real.pi)..Real.pi, Spec.angular m t * Spec.angular m' t =
      if m = m' then (if m = 0 then 2 * Real.pi else Real.pi) else 0 := by
  have ic : ∀ k : ℤ, IntervalIntegrable (fun t : ℝ => Real.cos (k * t)) MeasureTheory.volume (-Real.pi) Real.pi :=
    fun k => Continuous.intervalIntegrable (by fun_prop) _ _
  have is : ∀ k : ℤ, IntervalIntegrable (fun t : ℝ => Real.sin (k * t)) MeasureTheory.volume (-Real.pi) Real.pi :=
    fun k => Continuous.intervalIntegrable (by fun_prop) _ _
  have neg : ∀ k : ℤ, ¬ 0 ≤ k → ∀ t : ℝ, Spec.angular k t = Real.sin ((-k : ℤ) * t) := by
    intro k hk t
    rw [Spec.angular, if_neg hk]
    have : ((k.natAbs : ℕ) : ℝ) = ((-k : ℤ) : ℝ) := by
      rw [← Int.cast_natCast, Int.ofNat_natAbs_of_nonpos (by omega)]
    rw [this]
  have pos : ∀ k : ℤ, 0 ≤ k → ∀ t : ℝ, Spec.angular k t = Real.cos (k * t) := by
    intro k hk t
    rw [Spec.angular, if_pos hk]
  by_cases h1 : 0 ≤ m <;> by_cases h2 : 0 ≤ m'
  · have e : ∀ t : ℝ, Spec.angular m t * Spec.angular m' t = (Real.cos ((m - m' : ℤ) * t) + Real.cos ((m + m' : ℤ) * t)) / 2 := by
      intro t
      rw [pos m h1, pos m' h2]
      push_cast
      rw [sub_mul, add_mul, Real.cos_sub, Real.cos_add]
      ring
    simp_rw [e]
    rw [intervalIntegral.integral_div, intervalIntegral.integral_add (ic _) (ic _), integral_cos_int, integral_cos_int]
    split_ifs <;> first | omega | ring
  · have e : ∀ t : ℝ, Spec.angular m t * Spec.angular m' t = (Real.sin ((-m' + m : ℤ) * t) + Real.sin ((-m' - m : ℤ) * t)) / 2 := by
      intro t
      rw [pos m h1, neg m' h2]
      push_cast
      rw [sub_mul, add_mul, Real.sin_sub, Real.sin_add]
      ring
    simp_rw [e]
    rw [intervalIntegral.integral_div, intervalIntegral.integral_add (is _) (is _), integral_sin_int, integral_sin_int]
    split_ifs <;> first | omega | ring
  · have e : ∀ t : ℝ, Spec.angular m t * Spec.angular m' t = (Real.sin ((-m + m' : ℤ) * t) + Real.sin ((-m - m' : ℤ) * t)) / 2 := by
      intro t
      rw [neg m h1, pos m' h2]
      push_cast
      rw [sub_mul, add_mul, Real.sin_sub, Real.sin_add]
      ring
    simp_rw [e]
    rw [intervalIntegral.integral_div, intervalIntegral.integral_add (is _) (is _), integral_sin_int, integral_sin_int]
    split_ifs <;> first | omega | ring
  · have e : ∀ t : ℝ, Spec.angular m t * Spec.angular m' t = (Real.cos ((-m - -m' : ℤ) * t) - Real.cos ((-m + -m' : ℤ) * t)) / 2 := by
      intro t
      rw [neg m h1, neg m' h2]
      push_cast
      rw [sub_mul, add_mul, Real.cos_sub, Real.cos_add]
      ring
    simp_rw [e]
    rw [intervalIntegral.integral_div, intervalIntegral.integral_sub (ic _) (ic _), integral_cos_int, integral_cos_int]
    split_ifs <;> first | omega | ring

end PySLM2.Profile
