import Verif.Lemmas.ModeConversion
import Verif.Props.LaguerreSpot
import Verif.Props.ModeOverlap

/-!
# C154: conversion between Hermite-Gaussian and Laguerre-Gaussian modes
-/

noncomputable section

open Complex Finset

namespace PySLM2.Profile

theorem hermiteGauss_mode {x0 y0 a w : ℝ} (n m : ℕ) (x y : ℝ) :
    (Spec.hermiteGauss x0 y0 a w n m x y : ℂ) = a * modeFun (hermite2 n m) (√2 / w * (x - x0)) (√2 / w * (y - y0)) := by
  rw [modeFun_hermite]
  unfold Spec.hermiteGauss hermiteGaussFun
  rw [hermiteFun_rodrigues, hermiteFun_rodrigues]
  have e2 : -((x - x0) ^ 2 + (y - y0) ^ 2) / w ^ 2 = -((√2 / w * (x - x0)) ^ 2 / 2) + -((√2 / w * (y - y0)) ^ 2 / 2) := by
    rw [mul_pow, mul_pow, div_pow, Real.sq_sqrt (by norm_num)]; ring
  rw [e2, Real.exp_add, show √2 * (x - x0) / w = √2 / w * (x - x0) by ring, show √2 * (y - y0) / w = √2 / w * (y - y0) by ring]
  push_cast
  ring

theorem modeFun_sum {ι : Type} (s : Finset ι) (c : ι → ℂ) (q : ι → Poly2) (u v : ℝ) :
    modeFun (∑ i ∈ s, c i • q i) u v = ∑ i ∈ s, c i * modeFun (q i) u v := by
  unfold modeFun
  rw [map_sum, sum_mul]
  refine sum_congr rfl fun i _ => ?_
  rw [MvPolynomial.smul_eval, mul_assoc]

/-- **C154.** A `LaguerreGaussian` beam is at every point the sum of the `HermiteGaussian` beams of the same total order `2p + |l|`,
amplitude, centre and waist, with explicit coefficients. -/
theorem C154_laguerre (h : Heap) (x0 y0 a w : ℝ) (hw : w ≠ 0) (l : ℤ) (p : ℕ) {r : Heap × Prof} (hr : New.run h (.lg x0 y0 a w l p) = .ok r)
    (hg : ℕ → Heap × Prof) (hhg : ∀ k ≤ 2 * p + l.natAbs, New.run h (.hg x0 y0 a w (2 * p + l.natAbs - k) k) = .ok (hg k)) (x y : ℝ) :
    cplxValue r x y = ∑ k ∈ range (2 * p + l.natAbs + 1), Spec.hermiteShare l p k * cplxValue (hg k) x y := by
  have hv : ∀ k ∈ range (2 * p + l.natAbs + 1), Spec.hermiteShare l p k * cplxValue (hg k) x y =
      a * (Spec.hermiteShare l p k * modeFun (hermite2 (2 * p + l.natAbs - k) k) (√2 / w * (x - x0)) (√2 / w * (y - y0))) := by
    intro k hk
    rw [cplxValue, C56_formula h x0 y0 a w _ _ hw (hhg k (Nat.lt_succ_iff.1 (mem_range.1 hk))), Option.getD_some, hermiteGauss_mode]
    ring
  rw [sum_congr rfl hv, ← mul_sum, ← modeFun_sum, cplxValue, C113_formula h x0 y0 a w l p hw hr, Option.getD_some, laguerreGauss_mode hw]
  congr 2
  have key := laguerre2_combo (unit_sq l) p l.natAbs
  have hne : ((-1) ^ p * (p.factorial : ℂ) * 2 ^ (2 * p + l.natAbs)) ≠ 0 :=
    mul_ne_zero (mul_ne_zero (pow_ne_zero _ (by norm_num)) (by exact_mod_cast p.factorial_ne_zero)) (pow_ne_zero _ two_ne_zero)
  have e := congrArg (fun q => ((-1) ^ p * (p.factorial : ℂ) * 2 ^ (2 * p + l.natAbs))⁻¹ • q) key
  simp only [smul_smul, inv_mul_cancel₀ hne, one_smul] at e
  rw [e]
  unfold combo
  rw [smul_sum]
  refine sum_congr rfl fun k _ => ?_
  rw [smul_smul]
  congr 1
  unfold Spec.hermiteShare
  have hu : unit l = if 0 ≤ l then I else -I := rfl
  rw [← hu]
  have hs : ((-1 : ℂ) ^ p)⁻¹ = (-1) ^ p := by rw [← inv_pow]; norm_num
  rw [mul_inv, mul_inv, hs, div_eq_mul_inv, mul_inv]
  simp only [map_one, map_neg, neg_mul, ← sub_eq_add_neg]
  ring

/-- **C154.** A `HermiteGaussian` beam is at every point the sum of the `LaguerreGaussian` beams of the same total order `n + m`,
amplitude, centre and waist, with explicit coefficients. -/
theorem C154_hermite (h : Heap) (x0 y0 a w : ℝ) (hw : w ≠ 0) (n m : ℕ) {r : Heap × Prof} (hr : New.run h (.hg x0 y0 a w n m) = .ok r)
    (lg : ℕ → Heap × Prof)
    (hlg : ∀ k ≤ n + m, New.run h (.lg x0 y0 a w ((n + m : ℕ) - 2 * k) (min k (n + m - k))) = .ok (lg k)) (x y : ℝ) :
    cplxValue r x y = ∑ k ∈ range (n + m + 1), Spec.laguerreShare n m k * cplxValue (lg k) x y := by
  have hv : ∀ k ∈ range (n + m + 1), Spec.laguerreShare n m k * cplxValue (lg k) x y =
      a * (Spec.laguerreShare n m k * modeFun (laguerre2 (unit ((n + m : ℕ) - 2 * k)) (min k (n + m - k)) ((n + m : ℕ) - 2 * k : ℤ).natAbs)
        (√2 / w * (x - x0)) (√2 / w * (y - y0))) := by
    intro k hk
    rw [cplxValue, C113_formula h x0 y0 a w _ _ hw (hlg k (Nat.lt_succ_iff.1 (mem_range.1 hk))), Option.getD_some, laguerreGauss_mode hw]
    ring
  rw [sum_congr rfl hv, ← mul_sum, ← modeFun_sum, cplxValue, C56_formula h x0 y0 a w n m hw hr, Option.getD_some, hermiteGauss_mode,
    hermite2_laguerre n m]
  rfl

/-- The hypotheses of the theorems are met, by every mode; for instance a vortex of charge -2 with a node, and the mode (1, 1), which is a
difference of two vortices. -/
example (h : Heap) : ∃ (r : Heap × Prof) (hg : ℕ → Heap × Prof), New.run h (.lg 1 2 3 4 (-2) 1) = .ok r ∧
    (∀ k ≤ 4, New.run h (.hg 1 2 3 4 (4 - k) k) = .ok (hg k)) ∧
    ∀ x y, cplxValue r x y = ∑ k ∈ range 5, Spec.hermiteShare (-2) 1 k * cplxValue (hg k) x y :=
  ⟨_, fun k => newHermiteGaussian h 1 2 3 4 (4 - k) k, rfl, fun _ _ => rfl,
    C154_laguerre h 1 2 3 4 (by norm_num) (-2) 1 rfl _ fun _ _ => rfl⟩

example (h : Heap) (x y : ℝ) : cplxValue (newHermiteGaussian h 1 2 3 4 1 1) x y =
    I * (cplxValue (newLaguerreGaussian h 1 2 3 4 2 0) x y - cplxValue (newLaguerreGaussian h 1 2 3 4 (-2) 0) x y) := by
  have key := C154_hermite h 1 2 3 4 (by norm_num) 1 1 rfl (fun k => newLaguerreGaussian h 1 2 3 4 ((2 : ℕ) - 2 * k) (min k (2 - k)))
    (fun _ _ => rfl) x y
  rw [key, sum_range_succ, sum_range_succ, sum_range_one]
  have e : ((Polynomial.X + 1) ^ 1 * (Polynomial.X - 1) ^ 1 : Polynomial ℂ) = Polynomial.X ^ 2 - Polynomial.C 1 := by
    rw [map_one]; ring
  have e0 : Spec.laguerreShare 1 1 0 = I := by
    unfold Spec.laguerreShare
    rw [e]
    simp
  have e1 : Spec.laguerreShare 1 1 1 = 0 := by
    unfold Spec.laguerreShare
    rw [e]
    simp [Polynomial.coeff_X_pow, Polynomial.coeff_one]
  have e2 : Spec.laguerreShare 1 1 2 = -I := by
    unfold Spec.laguerreShare
    rw [e]
    simp [Polynomial.coeff_X_pow, Polynomial.coeff_one]
  rw [e0, e1, e2]
  have t0 : ((2 : ℕ) : ℤ) - 2 * ((0 : ℕ) : ℤ) = 2 := by norm_num
  have t2 : ((2 : ℕ) : ℤ) - 2 * ((2 : ℕ) : ℤ) = -2 := by norm_num
  simp only [t0, t2]
  show I * cplxValue (newLaguerreGaussian h 1 2 3 4 2 0) x y + _ + -I * cplxValue (newLaguerreGaussian h 1 2 3 4 (-2) 0) x y = _
  ring

end PySLM2.Profile
