import Mathlib.Probability.Moments.Variance
import Mathlib.Analysis.SpecialFunctions.Complex.Circle

/-!
# Sums of independent mirrors
-/

noncomputable section

open MeasureTheory ProbabilityTheory Finset Complex

namespace PySLM2.Dither

variable {Ω : Type} [MeasurableSpace Ω] {μ : Measure Ω} [IsProbabilityMeasure μ] {ι : Type}

/-- 1 if the draw is below the threshold. -/
def bit (U : Ω → ℝ) (p : ℝ) (ω : Ω) : ℝ := if U ω < p then 1 else 0

theorem bit_measurable {U : Ω → ℝ} (hU : Measurable U) (p : ℝ) : Measurable (bit U p) :=
  Measurable.ite (measurableSet_lt hU measurable_const) measurable_const measurable_const

theorem bit_memLp {U : Ω → ℝ} (hU : Measurable U) (p : ℝ) (q : ENNReal) : MemLp (bit U p) q μ :=
  MemLp.of_bound (bit_measurable hU p).aestronglyMeasurable 1 (Filter.Eventually.of_forall fun ω => by
    unfold bit; split_ifs <;> simp)

theorem bit_integrable {U : Ω → ℝ} (hU : Measurable U) (p : ℝ) : Integrable (bit U p) μ :=
  memLp_one_iff_integrable.mp (bit_memLp hU p 1)

theorem bit_integral {U : Ω → ℝ} (hU : Measurable U) {p : ℝ} (hp0 : 0 ≤ p) (hp1 : p ≤ 1)
    (hu : μ.map U = volume.restrict (Set.Ico 0 1)) : ∫ ω, bit U p ω ∂μ = p := by
  have e : bit U p = (U ⁻¹' Set.Iio p).indicator fun _ => (1 : ℝ) := by
    funext ω
    unfold bit
    simp [Set.indicator, Set.mem_preimage]
  rw [e, integral_indicator (hU measurableSet_Iio)]
  simp only [integral_const, MeasurableSet.univ, smul_eq_mul, mul_one, measureReal_restrict_apply, Set.univ_inter]
  have : μ (U ⁻¹' Set.Iio p) = ENNReal.ofReal p := by
    rw [← Measure.map_apply hU measurableSet_Iio, hu, Measure.restrict_apply measurableSet_Iio]
    have h2 : Set.Iio p ∩ Set.Ico 0 1 = Set.Ico 0 p := by
      ext x
      simp only [Set.mem_inter_iff, Set.mem_Iio, Set.mem_Ico]
      constructor
      · rintro ⟨a, b, c⟩; exact ⟨b, a⟩
      · rintro ⟨a, b⟩; exact ⟨b, a, by linarith⟩
    rw [h2, Real.volume_Ico, sub_zero]
  rw [measureReal_def, this, ENNReal.toReal_ofReal hp0]

theorem bit_variance {U : Ω → ℝ} (hU : Measurable U) {p : ℝ} (hp0 : 0 ≤ p) (hp1 : p ≤ 1)
    (hu : μ.map U = volume.restrict (Set.Ico 0 1)) : variance (bit U p) μ = p * (1 - p) := by
  rw [variance_eq_sub (bit_memLp hU p 2)]
  have e : bit U p ^ 2 = bit U p := by
    funext ω
    simp only [Pi.pow_apply, bit]
    split_ifs <;> simp
  rw [e, bit_integral hU hp0 hp1 hu]
  ring

/-- Mean of a linear combination. -/
theorem mean (s : Finset ι) (c : ι → ℂ) (p : ι → ℝ) (U : ι → Ω → ℝ) (hU : ∀ i ∈ s, Measurable (U i))
    (hp : ∀ i ∈ s, 0 ≤ p i ∧ p i ≤ 1) (hu : ∀ i ∈ s, μ.map (U i) = volume.restrict (Set.Ico 0 1)) :
    ∫ ω, ∑ i ∈ s, c i * (bit (U i) (p i) ω : ℂ) ∂μ = ∑ i ∈ s, c i * (p i : ℂ) := by
  have hi : ∀ i ∈ s, Integrable (fun ω => c i * (bit (U i) (p i) ω : ℂ)) μ := fun i hi =>
    (bit_integrable (hU i hi) (p i)).ofReal.const_mul (c i)
  rw [integral_finsetSum _ hi]
  refine sum_congr rfl fun i hi => ?_
  rw [integral_const_mul, integral_complex_ofReal, bit_integral (hU i hi) (hp i hi).1 (hp i hi).2 (hu i hi)]

/-- Mean squared deviation of a real linear combination of pairwise independent mirrors. -/
theorem real_variance (s : Finset ι) (a : ι → ℝ) (p : ι → ℝ) (U : ι → Ω → ℝ) (hU : ∀ i ∈ s, Measurable (U i))
    (hp : ∀ i ∈ s, 0 ≤ p i ∧ p i ≤ 1) (hu : ∀ i ∈ s, μ.map (U i) = volume.restrict (Set.Ico 0 1))
    (hind : ∀ i ∈ s, ∀ j ∈ s, i ≠ j → IndepFun (U i) (U j) μ) :
    Integrable (fun ω => (∑ i ∈ s, a i * (bit (U i) (p i) ω - p i)) ^ 2) μ ∧
    ∫ ω, (∑ i ∈ s, a i * (bit (U i) (p i) ω - p i)) ^ 2 ∂μ = ∑ i ∈ s, a i ^ 2 * (p i * (1 - p i)) := by
  have hL : ∀ i ∈ s, MemLp (fun ω => a i * bit (U i) (p i) ω) 2 μ := fun i hi => (bit_memLp (hU i hi) (p i) 2).const_mul (a i)
  have hv := IndepFun.variance_sum (X := fun i ω => a i * bit (U i) (p i) ω) (s := s) (μ := μ) hL (by
    intro i hi j hj hij
    have hm : ∀ i, Measurable fun x : ℝ => a i * (if x < p i then (1 : ℝ) else 0) := fun i =>
      (Measurable.ite measurableSet_Iio measurable_const measurable_const).const_mul _
    exact (hind i hi j hj hij).comp (hm i) (hm j))
  have hsL : MemLp (∑ i ∈ s, fun ω => a i * bit (U i) (p i) ω) 2 μ := memLp_finset_sum' s hL
  have hmean : μ[∑ i ∈ s, fun ω => a i * bit (U i) (p i) ω] = ∑ i ∈ s, a i * p i := by
    have : (∑ i ∈ s, fun ω => a i * bit (U i) (p i) ω) = fun ω => ∑ i ∈ s, a i * bit (U i) (p i) ω := by
      funext ω
      rw [Finset.sum_apply]
    rw [this, integral_finsetSum _ fun i hi => (bit_integrable (hU i hi) (p i)).const_mul (a i)]
    refine sum_congr rfl fun i hi => ?_
    rw [integral_const_mul, bit_integral (hU i hi) (hp i hi).1 (hp i hi).2 (hu i hi)]
  have e : (fun ω => (∑ i ∈ s, a i * (bit (U i) (p i) ω - p i)) ^ 2) =
      fun ω => ((∑ i ∈ s, fun ω => a i * bit (U i) (p i) ω) ω - μ[∑ i ∈ s, fun ω => a i * bit (U i) (p i) ω]) ^ 2 := by
    funext ω
    rw [hmean, Finset.sum_apply, ← sum_sub_distrib]
    simp only [mul_sub]
  rw [variance_eq_integral hsL.aemeasurable] at hv
  rw [e]
  refine ⟨?_, hv.trans (sum_congr rfl fun i hi => ?_)⟩
  · exact (hsL.sub (memLp_const _)).integrable_sq
  · rw [variance_const_mul, bit_variance (hU i hi) (hp i hi).1 (hp i hi).2 (hu i hi)]

/-- Mean squared deviation of a complex linear combination of pairwise independent mirrors. -/
theorem complex_variance (s : Finset ι) (c : ι → ℂ) (p : ι → ℝ) (U : ι → Ω → ℝ) (hU : ∀ i ∈ s, Measurable (U i))
    (hp : ∀ i ∈ s, 0 ≤ p i ∧ p i ≤ 1) (hu : ∀ i ∈ s, μ.map (U i) = volume.restrict (Set.Ico 0 1))
    (hind : ∀ i ∈ s, ∀ j ∈ s, i ≠ j → IndepFun (U i) (U j) μ) :
    ∫ ω, ‖∑ i ∈ s, c i * (bit (U i) (p i) ω : ℂ) - ∑ i ∈ s, c i * (p i : ℂ)‖ ^ 2 ∂μ =
      ∑ i ∈ s, ‖c i‖ ^ 2 * (p i * (1 - p i)) := by
  obtain ⟨i1, e1⟩ := real_variance s (fun i => (c i).re) p U hU hp hu hind
  obtain ⟨i2, e2⟩ := real_variance s (fun i => (c i).im) p U hU hp hu hind
  have e : ∀ ω, ‖∑ i ∈ s, c i * (bit (U i) (p i) ω : ℂ) - ∑ i ∈ s, c i * (p i : ℂ)‖ ^ 2 =
      (∑ i ∈ s, (c i).re * (bit (U i) (p i) ω - p i)) ^ 2 + (∑ i ∈ s, (c i).im * (bit (U i) (p i) ω - p i)) ^ 2 := by
    intro ω
    rw [← sum_sub_distrib]
    simp only [← mul_sub, ← ofReal_sub]
    rw [← normSq_eq_norm_sq, normSq_apply, re_sum, im_sum]
    simp only [re_mul_ofReal, im_mul_ofReal]
    ring
  simp only [e]
  rw [integral_add i1 i2, e1, e2, ← sum_add_distrib]
  refine sum_congr rfl fun i _ => ?_
  rw [← normSq_eq_norm_sq, normSq_apply]
  ring

end PySLM2.Dither
