import Mathlib.Analysis.SpecialFunctions.Exp
import Mathlib.Analysis.Complex.ExponentialBounds
import Mathlib.Analysis.InnerProductSpace.PiL2

/-! Relative errors: `x'` is `x` up to a relative error `exp c - 1`. -/

noncomputable section

open Finset

namespace PySLM2

/-- `x'` is `x` up to a relative error of `exp c - 1`. -/
def Near {E : Type*} [NormedAddCommGroup E] (c : ℝ) (x x' : E) : Prop := ‖x' - x‖ ≤ (Real.exp c - 1) * ‖x‖

section
variable {E : Type*} [NormedAddCommGroup E] {a b : ℝ} {x y z : E}

theorem exp_sub_nonneg (h : 0 ≤ a) : 0 ≤ Real.exp a - 1 := sub_nonneg.mpr (Real.one_le_exp h)

theorem Near.norm_le (h : Near a x y) : ‖y‖ ≤ Real.exp a * ‖x‖ := by
  have h1 : ‖y‖ ≤ ‖y - x‖ + ‖x‖ := by simpa using norm_add_le (y - x) x
  unfold Near at h
  linarith

theorem Near.mono (h : Near a x y) (hab : a ≤ b) : Near b x y :=
  le_trans h (mul_le_mul_of_nonneg_right (sub_le_sub_right (Real.exp_le_exp.mpr hab) 1) (norm_nonneg _))

theorem Near.refl (h : 0 ≤ a) (x : E) : Near a x x := by
  unfold Near
  rw [sub_self, norm_zero]
  exact mul_nonneg (exp_sub_nonneg h) (norm_nonneg _)

theorem Near.trans (h1 : Near a x y) (h2 : Near b y z) (hb : 0 ≤ b) : Near (a + b) x z := by
  have h3 : ‖z - x‖ ≤ ‖z - y‖ + ‖y - x‖ := by simpa using norm_add_le (z - y) (y - x)
  have h4 : (Real.exp b - 1) * ‖y‖ ≤ (Real.exp b - 1) * (Real.exp a * ‖x‖) :=
    mul_le_mul_of_nonneg_left h1.norm_le (exp_sub_nonneg hb)
  unfold Near at h1 h2 ⊢
  rw [Real.exp_add]
  linarith

theorem near_of_rel {u : ℝ} (h : ‖y - x‖ ≤ u * ‖x‖) : Near u x y :=
  le_trans h (mul_le_mul_of_nonneg_right (by have := Real.add_one_le_exp u; linarith) (norm_nonneg _))

/-- Squares of norms. -/
theorem Near.normSq (h : Near a x y) (ha : 0 ≤ a) : Near (2 * a) (‖x‖ ^ 2) (‖y‖ ^ 2) := by
  have h1 := h.norm_le
  have h2 := abs_norm_sub_norm_le y x
  unfold Near at h ⊢
  rw [Real.norm_eq_abs, Real.norm_of_nonneg (sq_nonneg _), two_mul, Real.exp_add, sq_sub_sq, abs_mul,
    abs_of_nonneg (by positivity : 0 ≤ ‖y‖ + ‖x‖)]
  have h3 : |‖y‖ - ‖x‖| ≤ (Real.exp a - 1) * ‖x‖ := h2.trans h
  calc (‖y‖ + ‖x‖) * |‖y‖ - ‖x‖| ≤ ((Real.exp a + 1) * ‖x‖) * ((Real.exp a - 1) * ‖x‖) := by
        refine mul_le_mul (by linarith) h3 (abs_nonneg _) ?_
        have := Real.exp_pos a
        positivity
    _ = (Real.exp a * Real.exp a - 1) * ‖x‖ ^ 2 := by ring

end

section
variable {K : Type*} [NormedField K] {a b : ℝ} {x x' y y' : K}

theorem Near.mul (h1 : Near a x x') (h2 : Near b y y') (ha : 0 ≤ a) (_hb : 0 ≤ b) : Near (a + b) (x * y) (x' * y') := by
  have h3 := h2.norm_le
  unfold Near at h1 h2 ⊢
  have e : x' * y' - x * y = (x' - x) * y' + x * (y' - y) := by ring
  have h4 := norm_add_le ((x' - x) * y') (x * (y' - y))
  rw [norm_mul, norm_mul] at h4
  rw [e, Real.exp_add, norm_mul]
  have h5 : ‖x' - x‖ * ‖y'‖ ≤ ((Real.exp a - 1) * ‖x‖) * (Real.exp b * ‖y‖) :=
    mul_le_mul h1 h3 (norm_nonneg _) (mul_nonneg (exp_sub_nonneg ha) (norm_nonneg _))
  have h6 : ‖x‖ * ‖y' - y‖ ≤ ‖x‖ * ((Real.exp b - 1) * ‖y‖) := mul_le_mul_of_nonneg_left h2 (norm_nonneg _)
  nlinarith

theorem exp_quarter : Real.exp (1 / 4) ≤ 3 / 2 := by
  have h1 : Real.exp (1 / 4) ^ 4 = Real.exp 1 := by rw [← Real.exp_nat_mul]; norm_num
  by_contra h
  push Not at h
  have h2 : (3 / 2 : ℝ) ^ 4 ≤ Real.exp (1 / 4) ^ 4 := pow_le_pow_left₀ (by norm_num) h.le 4
  rw [h1] at h2
  have := Real.exp_one_lt_d9
  norm_num at h2
  linarith

/-- A number that is off by a small relative error is not much smaller. -/
theorem Near.le_norm {E : Type*} [NormedAddCommGroup E] {x y : E} (h : Near a x y) (ha : 0 ≤ a) (ha' : a ≤ 1 / 4) :
    ‖x‖ ≤ Real.exp (2 * a) * ‖y‖ := by
  have h1 : ‖x‖ ≤ ‖y - x‖ + ‖y‖ := by
    have := norm_add_le (x - y) y
    rw [sub_add_cancel, norm_sub_rev] at this
    exact this
  unfold Near at h
  set t := Real.exp a
  have ht1 : 1 ≤ t := Real.one_le_exp ha
  have ht2 : t ≤ 3 / 2 := (Real.exp_le_exp.mpr ha').trans exp_quarter
  have h2 : (2 - t) * ‖x‖ ≤ ‖y‖ := by linarith
  rw [two_mul, Real.exp_add]
  have h4 : 0 ≤ (t - 1) * (1 + t - t * t) := mul_nonneg (by linarith) (by nlinarith)
  have h3 : 1 ≤ t * t * (2 - t) := by linarith [show (t - 1) * (1 + t - t * t) = t * t * (2 - t) - 1 by ring]
  calc ‖x‖ = 1 * ‖x‖ := (one_mul _).symm
    _ ≤ t * t * (2 - t) * ‖x‖ := mul_le_mul_of_nonneg_right h3 (norm_nonneg _)
    _ = t * t * ((2 - t) * ‖x‖) := by ring
    _ ≤ t * t * ‖y‖ := mul_le_mul_of_nonneg_left h2 (by positivity)

theorem Near.inv (h : Near a y y') (ha : 0 ≤ a) (ha' : a ≤ 1 / 4) : Near (2 * a) y⁻¹ y'⁻¹ := by
  by_cases hy : y = 0
  · have h0 : y' = 0 := by
      unfold Near at h
      rw [hy, norm_zero, mul_zero, sub_zero] at h
      exact norm_le_zero_iff.mp h
    rw [hy, h0]
    exact Near.refl (by linarith) _
  have hle := h.le_norm ha ha'
  have hyp : 0 < ‖y‖ := norm_pos_iff.mpr hy
  have hy' : y' ≠ 0 := by
    rintro rfl
    rw [norm_zero, mul_zero] at hle
    linarith
  have hyp' : 0 < ‖y'‖ := norm_pos_iff.mpr hy'
  have h1 : ‖y‖ ≤ ‖y' - y‖ + ‖y'‖ := by
    have := norm_add_le (y - y') y'
    rw [sub_add_cancel, norm_sub_rev] at this
    exact this
  unfold Near at h ⊢
  have e : y'⁻¹ - y⁻¹ = (y - y') * y⁻¹ * y'⁻¹ := by field_simp
  rw [e, norm_mul, norm_mul, norm_sub_rev, norm_inv, norm_inv]
  rw [two_mul, Real.exp_add] at hle ⊢
  set t := Real.exp a
  have ht1 : 1 ≤ t := Real.one_le_exp ha
  have ht2 : t ≤ 3 / 2 := (Real.exp_le_exp.mpr ha').trans exp_quarter
  have h2 : (2 - t) * ‖y‖ ≤ ‖y'‖ := by linarith
  have key : ‖y' - y‖ ≤ (t * t - 1) * ‖y'‖ := by
    have h4 : 0 ≤ (t - 1) * (1 + t - t * t) := mul_nonneg (by linarith) (by nlinarith)
    have h3 : t - 1 ≤ (t * t - 1) * (2 - t) := by
      linarith [show (t - 1) * (1 + t - t * t) = (t * t - 1) * (2 - t) - (t - 1) by ring]
    calc ‖y' - y‖ ≤ (t - 1) * ‖y‖ := h
      _ ≤ (t * t - 1) * (2 - t) * ‖y‖ := mul_le_mul_of_nonneg_right h3 hyp.le
      _ = (t * t - 1) * ((2 - t) * ‖y‖) := by ring
      _ ≤ (t * t - 1) * ‖y'‖ := mul_le_mul_of_nonneg_left h2 (by nlinarith)
  calc ‖y' - y‖ * ‖y‖⁻¹ * ‖y'‖⁻¹ ≤ (t * t - 1) * ‖y'‖ * ‖y‖⁻¹ * ‖y'‖⁻¹ := by gcongr
    _ = (t * t - 1) * ‖y‖⁻¹ := by field_simp

theorem Near.div (h1 : Near a x x') (h2 : Near b y y') (ha : 0 ≤ a) (hb : 0 ≤ b) (hb' : b ≤ 1 / 4) :
    Near (a + 2 * b) (x / y) (x' / y') := by
  rw [div_eq_mul_inv, div_eq_mul_inv]
  exact h1.mul (h2.inv hb hb') ha (by linarith)

end

/-- Sums of non-negative numbers. -/
theorem near_add {a x x' y y' : ℝ} (h1 : Near a x x') (h2 : Near a y y') (hx : 0 ≤ x) (hy : 0 ≤ y) :
    Near a (x + y) (x' + y') := by
  unfold Near at h1 h2 ⊢
  rw [Real.norm_of_nonneg hx] at h1
  rw [Real.norm_of_nonneg hy] at h2
  rw [Real.norm_of_nonneg (by linarith : 0 ≤ x + y), show x' + y' - (x + y) = (x' - x) + (y' - y) by ring]
  refine (norm_add_le _ _).trans ?_
  linarith

theorem near_sum {ι : Type*} {a : ℝ} {s : Finset ι} {f f' : ι → ℝ} (h : ∀ i ∈ s, Near a (f i) (f' i)) (h0 : ∀ i ∈ s, 0 ≤ f i) :
    Near a (∑ i ∈ s, f i) (∑ i ∈ s, f' i) := by
  unfold Near at h ⊢
  rw [Real.norm_of_nonneg (sum_nonneg h0), ← sum_sub_distrib, mul_sum]
  refine (norm_sum_le _ _).trans (sum_le_sum fun i hi => ?_)
  have := h i hi
  rwa [Real.norm_of_nonneg (h0 i hi)] at this

/-- A complex array as a vector. -/
def vec (M N : ℕ) (f : ℕ → ℕ → ℂ) : EuclideanSpace ℂ (Fin M × Fin N) := WithLp.toLp 2 fun p => f p.1 p.2

theorem vec_normSq (M N : ℕ) (f : ℕ → ℕ → ℂ) : ‖vec M N f‖ ^ 2 = ∑ i ∈ range M, ∑ j ∈ range N, ‖f i j‖ ^ 2 := by
  rw [EuclideanSpace.norm_sq_eq, Fintype.sum_prod_type, ← Fin.sum_univ_eq_sum_range (fun i => ∑ j ∈ range N, ‖f i j‖ ^ 2)]
  refine sum_congr rfl fun i _ => ?_
  rw [← Fin.sum_univ_eq_sum_range (fun j => ‖f i j‖ ^ 2)]
  rfl

theorem vec_sub (M N : ℕ) (f g : ℕ → ℕ → ℂ) : vec M N f - vec M N g = vec M N fun i j => f i j - g i j := rfl

theorem vec_near_iff {M N : ℕ} {c : ℝ} (hc : 0 ≤ c) {f g : ℕ → ℕ → ℂ} : Near c (vec M N f) (vec M N g) ↔
    ∑ i ∈ range M, ∑ j ∈ range N, ‖g i j - f i j‖ ^ 2 ≤ (Real.exp c - 1) ^ 2 * ∑ i ∈ range M, ∑ j ∈ range N, ‖f i j‖ ^ 2 := by
  unfold Near
  rw [← abs_of_nonneg (norm_nonneg (vec M N g - vec M N f)),
    ← abs_of_nonneg (mul_nonneg (exp_sub_nonneg hc) (norm_nonneg (vec M N f))), ← sq_le_sq, mul_pow, vec_sub, vec_normSq, vec_normSq]

theorem vec_near {M N : ℕ} {c : ℝ} (hc : 0 ≤ c) {f g : ℕ → ℕ → ℂ} (h : ∀ i < M, ∀ j < N, Near c (f i j) (g i j)) :
    Near c (vec M N f) (vec M N g) := by
  rw [vec_near_iff hc, mul_sum]
  refine sum_le_sum fun i hi => ?_
  rw [mul_sum]
  refine sum_le_sum fun j hj => ?_
  rw [← mul_pow]
  exact pow_le_pow_left₀ (norm_nonneg _) (h i (mem_range.mp hi) j (mem_range.mp hj)) 2

end PySLM2
