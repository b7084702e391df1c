import Verif.Lemmas.Dither
import Mathlib.Probability.Moments.SubGaussian

/-!
# Tails of sums of independent mirrors
-/

noncomputable section

open MeasureTheory ProbabilityTheory Finset Complex

namespace PySLM2.Dither

variable {Ω : Type} [MeasurableSpace Ω] {μ : Measure Ω} [IsProbabilityMeasure μ] {ι : Type}

/-- Hoeffding's inequality for a real combination of mirrors. -/
theorem real_tail (s : Finset ι) (a : ι → ℝ) (p : ι → ℝ) (U : ι → Ω → ℝ) (hU : ∀ i, Measurable (U i))
    (hp : ∀ i, 0 ≤ p i ∧ p i ≤ 1) (hu : ∀ i, μ.map (U i) = volume.restrict (Set.Ico 0 1))
    (hind : iIndepFun U μ) {ε : ℝ} (hε : 0 ≤ ε) :
    μ.real {ω | ε ≤ ∑ i ∈ s, a i * (bit (U i) (p i) ω - p i)} ≤ Real.exp (-(2 * ε ^ 2) / ∑ i ∈ s, a i ^ 2) := by
  have hm : ∀ i, Measurable fun x : ℝ => a i * ((if x < p i then (1 : ℝ) else 0) - p i) := fun i =>
    ((Measurable.ite measurableSet_Iio measurable_const measurable_const).sub_const _).const_mul _
  have hi := hind.comp (fun i x => a i * ((if x < p i then (1 : ℝ) else 0) - p i)) hm
  have hs : ∀ i ∈ s, HasSubgaussianMGF (fun ω => a i * (bit (U i) (p i) ω - p i)) ((‖a i‖₊ / 2) ^ 2) μ := by
    intro i _
    have hb : ∀ᵐ ω ∂μ, a i * (bit (U i) (p i) ω - p i) ∈ Set.Icc (min (a i * (0 - p i)) (a i * (1 - p i)))
        (max (a i * (0 - p i)) (a i * (1 - p i))) := by
      refine Filter.Eventually.of_forall fun ω => ?_
      unfold bit
      split_ifs
      · exact ⟨min_le_right _ _, le_max_right _ _⟩
      · exact ⟨min_le_left _ _, le_max_left _ _⟩
    have h0 : ∫ ω, a i * (bit (U i) (p i) ω - p i) ∂μ = 0 := by
      rw [integral_const_mul, integral_sub (bit_integrable (hU i) _) (integrable_const _),
        bit_integral (hU i) (hp i).1 (hp i).2 (hu i)]
      simp
    have := hasSubgaussianMGF_of_mem_Icc_of_integral_eq_zero
      (((bit_measurable (hU i) (p i)).sub_const _).const_mul _).aemeasurable hb h0
    have e : ‖max (a i * (0 - p i)) (a i * (1 - p i)) - min (a i * (0 - p i)) (a i * (1 - p i))‖₊ = ‖a i‖₊ := by
      rw [← NNReal.coe_inj, coe_nnnorm, coe_nnnorm, max_sub_min_eq_abs, Real.norm_eq_abs, Real.norm_eq_abs, abs_abs]
      congr 1
      ring
    rwa [e] at this
  have key := HasSubgaussianMGF.measure_sum_ge_le_of_iIndepFun (X := fun i ω => a i * (bit (U i) (p i) ω - p i)) hi hs hε
  refine key.trans (le_of_eq ?_)
  congr 1
  push_cast
  have : ∑ i ∈ s, (‖a i‖ / 2) ^ 2 = (∑ i ∈ s, a i ^ 2) / 4 := by
    rw [sum_div]
    refine sum_congr rfl fun i _ => ?_
    rw [div_pow, Real.norm_eq_abs, sq_abs]
    norm_num
  rw [this]
  by_cases h0 : ∑ i ∈ s, a i ^ 2 = 0
  · simp [h0]
  · field_simp
    ring

/-- The same for a complex combination. -/
theorem complex_tail (s : Finset ι) (c : ι → ℂ) (p : ι → ℝ) (U : ι → Ω → ℝ) (hU : ∀ i, Measurable (U i))
    (hp : ∀ i, 0 ≤ p i ∧ p i ≤ 1) (hu : ∀ i, μ.map (U i) = volume.restrict (Set.Ico 0 1))
    (hind : iIndepFun U μ) {ε : ℝ} (hε : 0 ≤ ε) :
    μ.real {ω | ε ≤ ‖∑ i ∈ s, c i * (bit (U i) (p i) ω : ℂ) - ∑ i ∈ s, c i * (p i : ℂ)‖} ≤
      4 * Real.exp (-(ε ^ 2) / ∑ i ∈ s, ‖c i‖ ^ 2) := by
  set E := ∑ i ∈ s, ‖c i‖ ^ 2 with hE
  set Z : Ω → ℂ := fun ω => ∑ i ∈ s, c i * (bit (U i) (p i) ω : ℂ) - ∑ i ∈ s, c i * (p i : ℂ) with hZ
  by_cases hE0 : E = 0
  · rw [hE0, div_zero, Real.exp_zero]
    exact measureReal_le_one.trans (by norm_num)
  have hEpos : 0 < E := lt_of_le_of_ne (sum_nonneg fun _ _ => by positivity) (Ne.symm hE0)
  have hZ' : ∀ ω, Z ω = ∑ i ∈ s, c i * ((bit (U i) (p i) ω - p i : ℝ) : ℂ) := by
    intro ω
    simp only [hZ]
    rw [← sum_sub_distrib]
    refine sum_congr rfl fun i _ => ?_
    push_cast; ring
  have hre : ∀ ω, (Z ω).re = ∑ i ∈ s, (c i).re * (bit (U i) (p i) ω - p i) := by
    intro ω; rw [hZ', re_sum]; simp
  have him : ∀ ω, (Z ω).im = ∑ i ∈ s, (c i).im * (bit (U i) (p i) ω - p i) := by
    intro ω; rw [hZ', im_sum]; simp
  have bound : ∀ a : ι → ℝ, (∀ i, a i ^ 2 ≤ ‖c i‖ ^ 2) →
      μ.real {ω | ε / √2 ≤ ∑ i ∈ s, a i * (bit (U i) (p i) ω - p i)} ≤ Real.exp (-(ε ^ 2) / E) := by
    intro a ha
    have h2 : (2 : ℝ) * (ε / √2) ^ 2 = ε ^ 2 := by rw [div_pow, Real.sq_sqrt (by norm_num)]; ring
    have h1 := real_tail (μ := μ) s a p U hU hp hu hind (ε := ε / √2) (by positivity)
    rw [h2] at h1
    have hle : ∑ i ∈ s, a i ^ 2 ≤ E := sum_le_sum fun i _ => ha i
    rcases (sum_nonneg fun i _ => sq_nonneg (a i) : 0 ≤ ∑ i ∈ s, a i ^ 2).eq_or_lt with h0 | h0
    · -- the combination vanishes
      have hz : ∀ i ∈ s, a i = 0 := fun i hi => by
        have := (sum_eq_zero_iff_of_nonneg fun i _ => sq_nonneg (a i)).mp h0.symm i hi
        exact pow_eq_zero_iff (two_ne_zero) |>.mp this
      rcases hε.eq_or_lt with he | he
      · rw [← he]
        simp only [ne_eq, OfNat.ofNat_ne_zero, not_false_eq_true, zero_pow, neg_zero, zero_div, Real.exp_zero]
        exact measureReal_le_one
      · have : {ω | ε / √2 ≤ ∑ i ∈ s, a i * (bit (U i) (p i) ω - p i)} = ∅ := by
          ext ω
          simp only [Set.mem_setOf_eq, Set.mem_empty_iff_false, iff_false, not_le]
          rw [sum_eq_zero fun i hi => by rw [hz i hi, zero_mul]]
          positivity
        rw [this, measureReal_empty]
        exact (Real.exp_pos _).le
    · refine h1.trans (Real.exp_le_exp.mpr ?_)
      rw [neg_div, neg_div, neg_le_neg_iff]
      exact div_le_div_of_nonneg_left (by positivity) h0 hle
  have hsub : {ω | ε ≤ ‖Z ω‖} ⊆
      ({ω | ε / √2 ≤ ∑ i ∈ s, (c i).re * (bit (U i) (p i) ω - p i)} ∪ {ω | ε / √2 ≤ ∑ i ∈ s, -(c i).re * (bit (U i) (p i) ω - p i)}) ∪
      ({ω | ε / √2 ≤ ∑ i ∈ s, (c i).im * (bit (U i) (p i) ω - p i)} ∪ {ω | ε / √2 ≤ ∑ i ∈ s, -(c i).im * (bit (U i) (p i) ω - p i)}) := by
    intro ω hω
    have hω : ε ≤ ‖Z ω‖ := hω
    simp only [Set.mem_union, Set.mem_setOf_eq, neg_mul, sum_neg_distrib, ← hre, ← him]
    by_contra hc
    push Not at hc
    obtain ⟨⟨h1, h2⟩, h3, h4⟩ := hc
    have hr : (Z ω).re ^ 2 < ε ^ 2 / 2 := by
      have : |(Z ω).re| < ε / √2 := abs_lt.mpr ⟨by linarith, h1⟩
      have := pow_lt_pow_left₀ this (abs_nonneg _) two_ne_zero
      rwa [sq_abs, div_pow, Real.sq_sqrt (by norm_num)] at this
    have hi : (Z ω).im ^ 2 < ε ^ 2 / 2 := by
      have : |(Z ω).im| < ε / √2 := abs_lt.mpr ⟨by linarith, h3⟩
      have := pow_lt_pow_left₀ this (abs_nonneg _) two_ne_zero
      rwa [sq_abs, div_pow, Real.sq_sqrt (by norm_num)] at this
    have hn : ‖Z ω‖ ^ 2 = (Z ω).re ^ 2 + (Z ω).im ^ 2 := by
      rw [← Complex.normSq_eq_norm_sq, Complex.normSq_apply]; ring
    have := pow_le_pow_left₀ hε hω 2
    linarith
  have hsq : ∀ z : ℂ, z.re ^ 2 ≤ ‖z‖ ^ 2 ∧ z.im ^ 2 ≤ ‖z‖ ^ 2 := by
    intro z
    have hn : ‖z‖ ^ 2 = z.re ^ 2 + z.im ^ 2 := by
      rw [← Complex.normSq_eq_norm_sq, Complex.normSq_apply]; ring
    constructor <;> nlinarith [sq_nonneg z.re, sq_nonneg z.im]
  refine (measureReal_mono hsub).trans ?_
  refine (measureReal_union_le _ _).trans ?_
  have b1 := bound (fun i => (c i).re) fun i => (hsq (c i)).1
  have b2 := bound (fun i => -(c i).re) fun i => by rw [neg_sq]; exact (hsq (c i)).1
  have b3 := bound (fun i => (c i).im) fun i => (hsq (c i)).2
  have b4 := bound (fun i => -(c i).im) fun i => by rw [neg_sq]; exact (hsq (c i)).2
  have u1 := (measureReal_union_le {ω | ε / √2 ≤ ∑ i ∈ s, (c i).re * (bit (U i) (p i) ω - p i)}
    {ω | ε / √2 ≤ ∑ i ∈ s, -(c i).re * (bit (U i) (p i) ω - p i)} (μ := μ))
  have u2 := (measureReal_union_le {ω | ε / √2 ≤ ∑ i ∈ s, (c i).im * (bit (U i) (p i) ω - p i)}
    {ω | ε / √2 ≤ ∑ i ∈ s, -(c i).im * (bit (U i) (p i) ω - p i)} (μ := μ))
  linarith

end PySLM2.Dither
