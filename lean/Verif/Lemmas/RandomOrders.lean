import Verif.Lemmas.CosineSeries
import Verif.Lemmas.FirstOrder
import Verif.Lemmas.ModeMatching3
import Verif.Spec.RandomOrders

/-!
# Lemmas for the orders of the random method
-/

noncomputable section

open Complex Filter Topology MeasureTheory

namespace PySLM2.DMD

/-- Half the difference of two edges. -/
def edges (r w t : ℝ) : ℝ := (Real.tanh (r * (t + w)) - Real.tanh (r * (t - w))) / 2

theorem contDiff_tanh : ContDiff ℝ 2 Real.tanh := by
  have : Real.tanh = fun x => Real.sinh x / Real.cosh x := by funext x; exact Real.tanh_eq_sinh_div_cosh x
  rw [this]
  exact Real.contDiff_sinh.div Real.contDiff_cosh fun x => (Real.cosh_pos x).ne'

theorem contDiff_edges (r w : ℝ) : ContDiff ℝ 2 (edges r w) := by
  unfold edges
  refine ContDiff.div_const (ContDiff.sub ?_ ?_) 2
  · exact contDiff_tanh.comp (contDiff_const.mul (contDiff_id.add contDiff_const))
  · exact contDiff_tanh.comp (contDiff_const.mul (contDiff_id.sub contDiff_const))

theorem orderAmplitude_eq (r a : ℝ) (n : ℤ) : orderAmplitude r a n = CosineSeries.coef (edges r (Real.arcsin a)) n := rfl

theorem pulse_hasSum (r a t : ℝ) :
    HasSum (fun n : ℤ => (orderAmplitude r a n : ℂ) * cexp ((n * t : ℝ) * I)) (pulse r (Real.arcsin a) t : ℂ) :=
  CosineSeries.hasSum (contDiff_edges r (Real.arcsin a)) t

/-- Sharp edges. -/
theorem orderAmplitude_tendsto {a : ℝ} (h0 : 0 ≤ a) (n : ℤ) (hn : n ≠ 0) :
    Tendsto (fun r => orderAmplitude r a n) atTop (𝓝 (Real.sin (n * Real.arcsin a) / (n * Real.pi))) := by
  have hpi := Real.pi_pos
  have hw0 : 0 ≤ Real.arcsin a := Real.arcsin_nonneg.mpr h0
  have hw1 : Real.arcsin a ≤ Real.pi := (Real.arcsin_le_pi_div_two a).trans (by linarith)
  have hn' : (n : ℝ) ≠ 0 := by exact_mod_cast hn
  simp only [orderAmplitude_eq, CosineSeries.coef]
  generalize Real.arcsin a = w at hw0 hw1 ⊢
  have hlim : Tendsto (fun r => ∫ t in (0 : ℝ)..Real.pi, edges r w t * Real.cos (n * t)) atTop
      (𝓝 (∫ t in (0 : ℝ)..Real.pi, rect w t * Real.cos (n * t))) := by
    refine intervalIntegral.tendsto_integral_filter_of_dominated_convergence (fun _ => 1) ?_ ?_ ?_ ?_
    · refine Eventually.of_forall fun r => Continuous.aestronglyMeasurable ?_
      exact (contDiff_edges r w).continuous.mul (by fun_prop)
    · refine Eventually.of_forall fun r => Eventually.of_forall fun t ht => ?_
      rw [Set.uIoc_of_le hpi.le] at ht
      have h1 : edges r w t = pulse r w t := by
        unfold pulse edges; rw [Real.arccos_cos ht.1.le ht.2]
      rw [norm_mul, h1, Real.norm_eq_abs, Real.norm_eq_abs]
      exact mul_le_one₀ (abs_pulse_le r w t) (abs_nonneg _) (Real.abs_cos_le_one _)
    · exact intervalIntegrable_const
    · have hcount : ∀ᵐ t : ℝ, t ∉ ({w} : Set ℝ) := (Set.countable_singleton w).ae_notMem _
      filter_upwards [hcount] with t ht hmem
      rw [Set.uIoc_of_le hpi.le] at hmem
      have ha : |t| = t := abs_of_pos hmem.1
      refine Tendsto.mul_const _ ?_
      refine (tendsto_pulse hw0 (by rw [ha]; exact hmem.2) (by rw [ha]; exact ht)).congr fun r => ?_
      unfold pulse edges; rw [Real.arccos_cos hmem.1.le hmem.2]
  have hint : ∫ t in (0 : ℝ)..Real.pi, rect w t * Real.cos (n * t) = Real.sin (n * w) / n := by
    have h1 : IntervalIntegrable (fun t => rect w t * Real.cos (n * t)) volume 0 w := by
      refine (((by fun_prop : Continuous fun t : ℝ => Real.cos (n * t)).intervalIntegrable 0 w).congr_ae ?_)
      have hcount : ∀ᵐ t : ℝ, t ∉ ({w} : Set ℝ) := (Set.countable_singleton w).ae_notMem _
      refine (ae_restrict_iff' measurableSet_uIoc).mpr ?_
      filter_upwards [hcount] with t ht hmem
      rw [Set.uIoc_of_le hw0] at hmem
      have : |t| < w := by rw [abs_of_pos hmem.1]; exact lt_of_le_of_ne hmem.2 ht
      simp only [rect, if_pos this, one_mul]
    have h2 : ∀ t ∈ Set.uIcc w Real.pi, rect w t * Real.cos (n * t) = (0 : ℝ) := fun t ht => by
      rw [Set.uIcc_of_le hw1] at ht
      have : ¬|t| < w := by rw [abs_of_nonneg (hw0.trans ht.1)]; exact not_lt.mpr ht.1
      simp only [rect, if_neg this, zero_mul]
    have h3 : IntervalIntegrable (fun t => rect w t * Real.cos (n * t)) volume w Real.pi := by
      refine IntervalIntegrable.congr (f := fun _ => (0 : ℝ)) (fun t ht => (h2 t (Set.uIoc_subset_uIcc ht)).symm) intervalIntegrable_const
    rw [← intervalIntegral.integral_add_adjacent_intervals h1 h3, intervalIntegral.integral_congr h2, intervalIntegral.integral_zero, add_zero]
    rw [intervalIntegral.integral_congr_ae (g := fun t => Real.cos (n * t))]
    · rw [intervalIntegral.integral_comp_mul_left (fun t => Real.cos t) hn', integral_cos]
      simp [div_eq_inv_mul]
    · have hcount : ∀ᵐ t : ℝ, t ∉ ({w} : Set ℝ) := (Set.countable_singleton w).ae_notMem _
      filter_upwards [hcount] with t ht hmem
      rw [Set.uIoc_of_le hw0] at hmem
      have : |t| < w := by rw [abs_of_pos hmem.1]; exact lt_of_le_of_ne hmem.2 ht
      simp only [rect, if_pos this, one_mul]
  rw [hint] at hlim
  have e : 1 / Real.pi * (Real.sin (n * w) / n) = Real.sin (n * w) / (n * Real.pi) := by field_simp
  have := hlim.const_mul (1 / Real.pi)
  rw [e] at this
  exact this

theorem fieldAt_hasSum (s : SLM) {U : ℤ → ℕ → ℕ → ℂ} {V : ℕ → ℕ → ℂ}
    (h : ∀ i < s.Ny, ∀ j < s.Nx, HasSum (fun n => U n i j) (V i j)) (x y : ℝ) :
    HasSum (fun n => Sim.fieldAt s (U n) x y) (Sim.fieldAt s V x y) := by
  unfold Sim.fieldAt
  refine HasSum.mul_left _ (hasSum_sum fun i hi => hasSum_sum fun j hj => HasSum.mul_right _ ?_)
  exact h i (Finset.mem_range.mp hi) j (Finset.mem_range.mp hj)

theorem fieldAt_tendsto (s : SLM) {U : ℝ → ℕ → ℕ → ℂ} {V : ℕ → ℕ → ℂ}
    (h : ∀ i < s.Ny, ∀ j < s.Nx, Tendsto (fun r => U r i j) atTop (𝓝 (V i j))) (x y : ℝ) :
    Tendsto (fun r => Sim.fieldAt s (U r) x y) atTop (𝓝 (Sim.fieldAt s V x y)) := by
  unfold Sim.fieldAt
  refine Tendsto.const_mul _ (tendsto_finset_sum _ fun i hi => tendsto_finset_sum _ fun j hj => Tendsto.mul_const _ ?_)
  exact h i (Finset.mem_range.mp hi) j (Finset.mem_range.mp hj)

end PySLM2.DMD
