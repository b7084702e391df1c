import Verif.Model.Profile
import Verif.Spec.Modes
import Mathlib.Algebra.Polynomial.Derivative
import Mathlib.Analysis.Calculus.Deriv.Polynomial
import Mathlib.Algebra.Polynomial.AlgebraMap
import Mathlib.Tactic.LinearCombination

/-!
# Lemmas on the polynomials of the beam profiles
-/

noncomputable section

open Polynomial

namespace PySLM2.Profile

theorem foldl_horner (c : ℕ → ℝ) (x : ℝ) (n : ℕ) (p : ℝ) :
    (((List.range n).reverse.map c).foldl (fun p c => c + p * x) p) =
      p * x ^ n + ∑ k ∈ Finset.range n, c k * x ^ k := by
  induction n generalizing p with
  | zero => simp
  | succ n ih =>
    rw [List.range_succ, List.reverse_append, List.map_append]
    simp only [List.reverse_cons, List.reverse_nil, List.nil_append, List.map_cons, List.map_nil,
      List.cons_append, List.foldl_cons]
    rw [ih, Finset.sum_range_succ]
    ring

/-- Horner's rule on coefficients listed from the highest power downwards. -/
theorem polyval_sum (c : ℕ → ℝ) (x : ℝ) (n : ℕ) :
    polyval ((List.range n).reverse.map c) x = ∑ k ∈ Finset.range n, c k * x ^ k := by
  cases n with
  | zero => simp [polyval]
  | succ n =>
    have h := foldl_horner c x n (c n)
    rw [List.range_succ, List.reverse_append, List.map_append]
    simp only [List.reverse_cons, List.reverse_nil, List.nil_append, List.map_cons, List.map_nil,
      List.cons_append, polyval]
    rw [h, Finset.sum_range_succ, add_comm]

theorem physHermite_natDegree : ∀ n, (physHermite n).natDegree ≤ n
  | 0 => by simp [physHermite]
  | 1 => by
    rw [physHermite]
    exact (natDegree_mul_le).trans (by simp)
  | n + 2 => by
    rw [physHermite]
    refine (natDegree_sub_le _ _).trans (max_le ?_ ?_)
    · refine natDegree_mul_le.trans ?_
      have h1 := physHermite_natDegree (n + 1)
      have h2 : (2 * X : ℤ[X]).natDegree ≤ 1 := natDegree_mul_le.trans (by simp)
      omega
    · refine natDegree_mul_le.trans ?_
      have h1 := physHermite_natDegree n
      have h2 : (2 * ((n : ℤ[X]) + 1)).natDegree ≤ 0 := by
        have : (2 * ((n : ℤ[X]) + 1)) = ((2 * (n + 1) : ℕ) : ℤ[X]) := by push_cast; ring
        rw [this, natDegree_natCast]
      omega

/-- The Hermite polynomial as a function. -/
def hermiteFun (n : ℕ) (t : ℝ) : ℝ := aeval t (physHermite n)

theorem polyval_hermite (n : ℕ) (t : ℝ) : polyval (hermiteCoef n) t = hermiteFun n t := by
  unfold hermiteCoef hermiteFun
  rw [polyval_sum, aeval_eq_sum_range' (Nat.lt_succ_of_le (physHermite_natDegree n))]
  refine Finset.sum_congr rfl fun k _ => ?_
  simp

theorem physHermite_derivative : ∀ n, derivative (physHermite (n + 1)) = 2 * ((n : ℤ[X]) + 1) * physHermite n
  | 0 => by simp [physHermite]
  | 1 => by
    simp only [physHermite]
    simp
    ring
  | n + 2 => by
    have h1 := physHermite_derivative (n + 1)
    have h2 := physHermite_derivative n
    rw [physHermite, derivative_sub, derivative_mul, derivative_mul, h1]
    rw [derivative_mul (f := 2 * (((n + 1 : ℕ) : ℤ[X]) + 1)), h2]
    have e : physHermite (n + 2) = 2 * X * physHermite (n + 1) - 2 * ((n : ℤ[X]) + 1) * physHermite n := by rw [physHermite]
    rw [e]
    have d2 : derivative (2 : ℤ[X]) = 0 := by rw [derivative_ofNat]
    have d3 : derivative (2 * (((n + 1 : ℕ) : ℤ[X]) + 1)) = 0 := by
      have : (2 * (((n + 1 : ℕ) : ℤ[X]) + 1)) = ((2 * (n + 2) : ℕ) : ℤ[X]) := by push_cast; ring
      rw [this, derivative_natCast]
    rw [d2, d3, derivative_X]
    push_cast
    ring

theorem aeval_two (t : ℝ) : aeval t (2 : ℤ[X]) = 2 := map_ofNat _ 2

theorem hermiteFun_deriv (n : ℕ) (t : ℝ) :
    HasDerivAt (hermiteFun n) (2 * t * hermiteFun n t - hermiteFun (n + 1) t) t := by
  have h := Polynomial.hasDerivAt_aeval (physHermite n) t
  have e : hermiteFun (n + 1) t = 2 * t * hermiteFun n t - aeval t (derivative (physHermite n)) := by
    unfold hermiteFun
    cases n with
    | zero => simp [physHermite, aeval_two]
    | succ n =>
      rw [physHermite_derivative, physHermite]
      simp [aeval_two]
  rw [e]
  have : 2 * t * hermiteFun n t - (2 * t * hermiteFun n t - aeval t (derivative (physHermite n))) = aeval t (derivative (physHermite n)) := by ring
  rw [this]
  exact h

theorem iteratedDeriv_gauss (n : ℕ) :
    iteratedDeriv n (fun s : ℝ => Real.exp (-s ^ 2)) = fun t => (-1) ^ n * hermiteFun n t * Real.exp (-t ^ 2) := by
  induction n with
  | zero =>
    rw [iteratedDeriv_zero]
    funext t
    simp [hermiteFun, physHermite]
  | succ n ih =>
    rw [iteratedDeriv_succ, ih]
    funext t
    have h1 : HasDerivAt (fun s : ℝ => -s ^ 2) (-(2 * t)) t := by
      simpa using! (hasDerivAt_pow 2 t).neg
    have h2 := h1.exp
    have h3 := ((hermiteFun_deriv n t).const_mul ((-1) ^ n)).mul h2
    refine h3.deriv.trans ?_
    ring

theorem hermiteFun_rodrigues (n : ℕ) (t : ℝ) : hermiteFun n t = Spec.rodrigues n t := by
  unfold Spec.rodrigues
  rw [iteratedDeriv_gauss]
  have h1 : Real.exp (t ^ 2) * Real.exp (-t ^ 2) = 1 := by rw [← Real.exp_add]; simp
  have h2 : ((-1 : ℝ) ^ n) * (-1) ^ n = 1 := by rw [← mul_pow]; norm_num
  linear_combination (-(hermiteFun n t)) * ((-1 : ℝ) ^ n * (-1) ^ n) * h1 - hermiteFun n t * h2

theorem hermiteFun_neg : ∀ n (t : ℝ), hermiteFun n (-t) = (-1) ^ n * hermiteFun n t
  | 0, t => by simp [hermiteFun, physHermite]
  | 1, t => by simp [hermiteFun, physHermite, aeval_two]
  | n + 2, t => by
    have h1 := hermiteFun_neg (n + 1) t
    have h2 := hermiteFun_neg n t
    unfold hermiteFun at h1 h2 ⊢
    rw [physHermite]
    simp only [map_sub, map_mul, h1, h2, aeval_X, aeval_two, map_add, map_natCast, map_one]
    ring

/-! ## Freshly constructed profiles -/

theorem eval_newHg (h : Heap) (x0 y0 a w : ℝ) (n m : ℕ) (x y : ℝ) :
    eval (newHermiteGaussian h x0 y0 a w n m).1 (newHermiteGaussian h x0 y0 a w n m).2 x y =
      (hgFunc x0 y0 a w n m x y).map Complex.ofReal := by
  simp only [newHermiteGaussian, allocRe, eval]
  rw [Function.update_of_ne (a := h.next) (by omega), Function.update_of_ne (a := h.next) (by omega),
    Function.update_of_ne (a := h.next) (by omega), Function.update_self, Function.update_of_ne (a := h.next + 1) (by omega),
    Function.update_of_ne (a := h.next + 1) (by omega), Function.update_self, Function.update_of_ne (a := h.next + 1 + 1) (by omega),
    Function.update_self, Function.update_self]

theorem eval_newLg (h : Heap) (x0 y0 a w : ℝ) (l : ℤ) (p : ℕ) (x y : ℝ) :
    eval (newLaguerreGaussian h x0 y0 a w l p).1 (newLaguerreGaussian h x0 y0 a w l p).2 x y =
      lgFunc x0 y0 a w l p x y := by
  simp only [newLaguerreGaussian, allocRe, eval]
  rw [Function.update_of_ne (a := h.next) (by omega), Function.update_of_ne (a := h.next) (by omega),
    Function.update_of_ne (a := h.next) (by omega), Function.update_self, Function.update_of_ne (a := h.next + 1) (by omega),
    Function.update_of_ne (a := h.next + 1) (by omega), Function.update_self, Function.update_of_ne (a := h.next + 1 + 1) (by omega),
    Function.update_self, Function.update_self]

theorem eval_newSg (h : Heap) (x0 y0 a w p : ℝ) (x y : ℝ) :
    eval (newSuperGaussian h x0 y0 a w p).1 (newSuperGaussian h x0 y0 a w p).2 x y =
      (sgFunc x0 y0 a w p x y).map Complex.ofReal := by
  simp only [newSuperGaussian, allocRe, eval]
  rw [Function.update_of_ne (a := h.next) (by omega), Function.update_of_ne (a := h.next) (by omega),
    Function.update_of_ne (a := h.next) (by omega), Function.update_of_ne (a := h.next) (by omega), Function.update_self,
    Function.update_of_ne (a := h.next + 1) (by omega), Function.update_of_ne (a := h.next + 1) (by omega),
    Function.update_of_ne (a := h.next + 1) (by omega), Function.update_self, Function.update_of_ne (a := h.next + 1 + 1) (by omega),
    Function.update_of_ne (a := h.next + 1 + 1) (by omega), Function.update_self,
    Function.update_of_ne (a := h.next + 1 + 1 + 1) (by omega), Function.update_self, Function.update_self]

theorem eval_newRect (h : Heap) (x0 y0 a w : ℝ) (x y : ℝ) :
    eval (newRect h x0 y0 a w).1 (newRect h x0 y0 a w).2 x y = some ((rectFunc x0 y0 a w x y : ℝ) : ℂ) := by
  simp only [newRect, allocRe, eval]
  rw [Function.update_of_ne (a := h.next) (by omega), Function.update_of_ne (a := h.next) (by omega),
    Function.update_of_ne (a := h.next) (by omega), Function.update_self, Function.update_of_ne (a := h.next + 1) (by omega),
    Function.update_of_ne (a := h.next + 1) (by omega), Function.update_self, Function.update_of_ne (a := h.next + 1 + 1) (by omega),
    Function.update_self, Function.update_self]

theorem eval_newCirc (h : Heap) (x0 y0 r : ℝ) (x y : ℝ) :
    eval (newCirc h x0 y0 r).1 (newCirc h x0 y0 r).2 x y = some ((circFunc x0 y0 r x y : ℝ) : ℂ) := by
  simp only [newCirc, allocRe, eval]
  rw [Function.update_of_ne (a := h.next) (by omega), Function.update_of_ne (a := h.next) (by omega),
    Function.update_self, Function.update_of_ne (a := h.next + 1) (by omega), Function.update_self, Function.update_self]

/-! ## Formulas -/

theorem hgFunc_eq {w : ℝ} (hw : w ≠ 0) (x0 y0 a : ℝ) (n m : ℕ) (x y : ℝ) :
    hgFunc x0 y0 a w n m x y = some (Spec.hermiteGauss x0 y0 a w n m x y) := by
  unfold hgFunc Spec.hermiteGauss
  rw [if_neg hw]
  simp only [polyval_hermite, hermiteFun_rodrigues, mul_div_assoc]
  congr 3
  field_simp

theorem powReal_one {s : ℝ} (hs : 0 ≤ s) : powReal s 1 = some s := by
  unfold powReal
  rcases hs.lt_or_eq with h | h
  · rw [if_pos h, Real.rpow_one]
  · rw [if_neg (by rw [← h]; exact lt_irrefl _), if_pos h.symm, if_pos one_pos, h]

end PySLM2.Profile
