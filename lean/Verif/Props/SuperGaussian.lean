import Verif.Props.ModeOverlap
import Mathlib.MeasureTheory.Integral.Gamma

/-!
# C100: the super-Gaussian beam
-/

noncomputable section

open MeasureTheory Complex Filter Topology

namespace PySLM2.Profile

/-- **C100**, formula: for a positive power the profile is `a exp(-(d²/w²)^p)` at the distance `d` from the centre. -/
theorem C100_formula (h : Heap) (x0 y0 a w p : ℝ) (hw : w ≠ 0) (hp : 0 < p) {r : Heap × Prof}
    (hr : New.run h (.sg x0 y0 a w p) = .ok r) (x y : ℝ) :
    eval r.1 r.2 x y = some ((a * Real.exp (-((((x - x0) ^ 2 + (y - y0) ^ 2) / w ^ 2) ^ p)) : ℝ) : ℂ) := by
  injection hr with hr
  subst hr
  have g : ((x - x0) / w) ^ 2 + ((y - y0) / w) ^ 2 = ((x - x0) ^ 2 + (y - y0) ^ 2) / w ^ 2 := by field_simp
  have hn : 0 ≤ ((x - x0) ^ 2 + (y - y0) ^ 2) / w ^ 2 := by positivity
  rw [eval_newSg]
  simp only [sgFunc, if_neg hw, g]
  rcases hn.lt_or_eq with h1 | h1
  · rw [powReal, if_pos h1, Option.map_some, Option.map_some]
  · rw [← h1, powReal, if_neg (lt_irrefl _), if_pos rfl, if_pos hp, Option.map_some, Option.map_some, Real.zero_rpow hp.ne']

/-- **C100**, top hat: as the power grows, the profile tends to `a` at every point closer than `|w|` to the centre and to
0 at every point further away; at the distance `|w|` it is always `a/e`. -/
theorem C100_top_hat (h : Heap) (x0 y0 a w : ℝ) (hw : w ≠ 0) (x y : ℝ) (r : ℝ → Heap × Prof)
    (hr : ∀ p, New.run h (.sg x0 y0 a w p) = .ok (r p)) :
    ((x - x0) ^ 2 + (y - y0) ^ 2 < w ^ 2 → Tendsto (fun p => cplxValue (r p) x y) atTop (𝓝 a)) ∧
    (w ^ 2 < (x - x0) ^ 2 + (y - y0) ^ 2 → Tendsto (fun p => cplxValue (r p) x y) atTop (𝓝 0)) ∧
    ((x - x0) ^ 2 + (y - y0) ^ 2 = w ^ 2 → ∀ p, cplxValue (r p) x y = ((a / Real.exp 1 : ℝ) : ℂ)) := by
  have hw2 : 0 < w ^ 2 := by positivity
  have hn : 0 ≤ ((x - x0) ^ 2 + (y - y0) ^ 2) / w ^ 2 := by positivity
  have hval : (fun p : ℝ => ((a * Real.exp (-((((x - x0) ^ 2 + (y - y0) ^ 2) / w ^ 2) ^ p)) : ℝ) : ℂ)) =ᶠ[atTop]
      fun p => cplxValue (r p) x y := by
    filter_upwards [eventually_gt_atTop (0 : ℝ)] with p hp
    unfold cplxValue
    rw [C100_formula h x0 y0 a w p hw hp (hr p) x y, Option.getD_some]
  refine ⟨fun hlt => ?_, fun hlt => ?_, fun he p => ?_⟩
  · refine Tendsto.congr' hval ?_
    have h1 := tendsto_rpow_atTop_of_base_lt_one _ (by linarith) ((div_lt_one hw2).mpr hlt)
    have h2 : Tendsto (fun p : ℝ => a * Real.exp (-((((x - x0) ^ 2 + (y - y0) ^ 2) / w ^ 2) ^ p))) atTop (𝓝 (a * Real.exp (-0))) :=
      ((Real.continuous_exp.tendsto _).comp h1.neg).const_mul a
    rw [neg_zero, Real.exp_zero, mul_one] at h2
    exact (continuous_ofReal.tendsto _).comp h2
  · refine Tendsto.congr' hval ?_
    have h1 := tendsto_rpow_atTop_of_base_gt_one _ ((one_lt_div hw2).mpr hlt)
    have h2 : Tendsto (fun p : ℝ => a * Real.exp (-((((x - x0) ^ 2 + (y - y0) ^ 2) / w ^ 2) ^ p))) atTop (𝓝 (a * 0)) :=
      (Real.tendsto_exp_neg_atTop_nhds_zero.comp h1).const_mul a
    rw [mul_zero] at h2
    have := (continuous_ofReal.tendsto _).comp h2
    rw [ofReal_zero] at this
    exact this
  · unfold cplxValue
    rw [C57_super h x0 y0 a w p hw (hr p) x y he, Option.getD_some]

/-- The integral of `exp(-b |z|^p)` over the plane, for every `p > 0`. -/
theorem integral_exp_neg_mul_norm_rpow {p b : ℝ} (hp : 0 < p) (hb : 0 < b) :
    ∫ x : ℂ, Real.exp (-b * ‖x‖ ^ p) = Real.pi * b ^ (-2 / p) * Real.Gamma (2 / p + 1) := by
  calc
    _ = ∫ x in Set.Ioi (0 : ℝ) ×ˢ Set.Ioo (-Real.pi) Real.pi, x.1 * Real.exp (-b * |x.1| ^ p) := by
      rw [← Complex.integral_comp_polarCoord_symm, polarCoord_target]
      simp_rw [Complex.norm_polarCoord_symm, smul_eq_mul]
    _ = (∫ x in Set.Ioi (0 : ℝ), x * Real.exp (-b * |x| ^ p)) * ∫ _ in Set.Ioo (-Real.pi) Real.pi, 1 := by
      rw [← setIntegral_prod_mul, Measure.volume_eq_prod]
      simp_rw [mul_one]
    _ = 2 * Real.pi * ∫ x in Set.Ioi (0 : ℝ), x * Real.exp (-b * |x| ^ p) := by
      simp_rw [integral_const, measureReal_restrict_apply MeasurableSet.univ, Set.univ_inter,
        Real.volume_real_Ioo_of_le (a := -Real.pi) (b := Real.pi) (by linarith [Real.pi_nonneg]),
        sub_neg_eq_add, ← two_mul, smul_eq_mul, mul_one, mul_comm]
    _ = 2 * Real.pi * ∫ x in Set.Ioi (0 : ℝ), x ^ (1 : ℝ) * Real.exp (-b * x ^ p) := by
      congr 1
      refine setIntegral_congr_fun measurableSet_Ioi (fun x hx => ?_)
      rw [Set.mem_Ioi] at hx
      rw [abs_eq_self.mpr hx.le, Real.rpow_one]
    _ = Real.pi * b ^ (-2 / p) * Real.Gamma (2 / p + 1) := by
      rw [_root_.integral_rpow_mul_exp_neg_mul_rpow hp (by norm_num) hb, one_add_one_eq_two,
        Real.Gamma_add_one (by positivity)]
      field_simp

/-- **C100**, power: for every `p > 0` the power of the beam is `a² π w² 2^(-1/p) Γ(1 + 1/p)`. -/
theorem C100_power (h : Heap) (x0 y0 a w p : ℝ) (hw : w ≠ 0) (hp0 : 0 < p) {r : Heap × Prof}
    (hr : New.run h (.sg x0 y0 a w p) = .ok r) :
    overlap r r = ((a ^ 2 * Real.pi * w ^ 2 * 2 ^ (-1 / p) * Real.Gamma (1 + 1 / p) : ℝ) : ℂ) := by
  have hw2 : 0 < w ^ 2 := by positivity
  set b : ℝ := 2 / (w ^ 2) ^ p with hb
  have hb0 : 0 < b := by positivity
  have e : ∀ z : ℝ × ℝ, cplxValue r z.1 z.2 * (starRingEnd ℂ) (cplxValue r z.1 z.2) =
      ((a ^ 2 * Real.exp (-b * ((z.1 - x0) ^ 2 + (z.2 - y0) ^ 2) ^ p) : ℝ) : ℂ) := by
    intro z
    unfold cplxValue
    rw [C100_formula h x0 y0 a w p hw hp0 hr, Option.getD_some, Complex.conj_ofReal, ← ofReal_mul]
    congr 1
    rw [show ∀ v : ℝ, a * v * (a * v) = a ^ 2 * (v * v) by intro v; ring, ← Real.exp_add]
    congr 2
    rw [Real.div_rpow (by positivity) hw2.le, hb]
    ring
  unfold overlap
  simp only [e]
  rw [integral_complex_ofReal, integral_const_mul]
  congr 1
  have h1 : ∫ z : ℝ × ℝ, Real.exp (-b * ((z.1 - x0) ^ 2 + (z.2 - y0) ^ 2) ^ p) =
      ∫ z : ℝ × ℝ, Real.exp (-b * (z.1 ^ 2 + z.2 ^ 2) ^ p) :=
    integral_sub_right_eq_self (fun z : ℝ × ℝ => Real.exp (-b * (z.1 ^ 2 + z.2 ^ 2) ^ p)) ((x0, y0) : ℝ × ℝ)
  have h2 : ∫ z : ℝ × ℝ, Real.exp (-b * (z.1 ^ 2 + z.2 ^ 2) ^ p) = ∫ z : ℂ, Real.exp (-b * ‖z‖ ^ (2 * p)) := by
    rw [← Complex.volume_preserving_equiv_real_prod.integral_comp']
    refine integral_congr_ae (ae_of_all _ fun z => ?_)
    simp only [Complex.measurableEquivRealProd_apply]
    rw [Real.rpow_mul (norm_nonneg _), Real.rpow_two, Complex.sq_norm, Complex.normSq_apply, sq, sq]
  rw [h1, h2, integral_exp_neg_mul_norm_rpow (by linarith) hb0]
  have h3 : b ^ (-2 / (2 * p)) = 2 ^ (-1 / p) * w ^ 2 := by
    rw [show -2 / (2 * p) = -1 / p by field_simp, hb, Real.div_rpow (by norm_num) (by positivity), ← Real.rpow_mul hw2.le,
      show p * (-1 / p) = -1 by field_simp, Real.rpow_neg_one, div_inv_eq_mul]
  rw [h3, show 2 / (2 * p) + 1 = 1 + 1 / p by field_simp; ring]
  ring

/-- C100: profiles of every power exist; a point inside and one outside. -/
example (h : Heap) : (∀ p, ∃ r, New.run h (.sg 1 2 3 (1 / 2) p) = .ok r) ∧
    ((1.25 : ℝ) - 1) ^ 2 + (2.25 - 2) ^ 2 < (1 / 2) ^ 2 ∧ (1 / 2 : ℝ) ^ 2 < (1.5 - 1) ^ 2 + (2.25 - 2) ^ 2 := by
  refine ⟨fun p => ⟨_, rfl⟩, by norm_num, by norm_num⟩

end PySLM2.Profile
