import Verif.Lemmas.Dither
import Mathlib.Probability.StrongLaw
import Mathlib.Probability.Independence.InfinitePi

/-!
# Independent frames
-/

noncomputable section

open MeasureTheory ProbabilityTheory Finset Filter Topology

namespace PySLM2.Dither

variable {Ω : Type} [MeasurableSpace Ω] {μ : Measure Ω} [IsProbabilityMeasure μ] {ι : Type} [Fintype ι]
  {E : Type} [NormedAddCommGroup E] [NormedSpace ℝ E] [CompleteSpace E] [MeasurableSpace E] [BorelSpace E]
  [SecondCountableTopology E]

/-- The strong law of large numbers for a bounded function of the draws of one frame. -/
theorem frames_average (V : ℕ → ι → Ω → ℝ) (hm : ∀ n i, Measurable (V n i))
    (hu : ∀ n i, μ.map (V n i) = volume.restrict (Set.Ico 0 1))
    (hind : iIndepFun (fun (p : ℕ × ι) => V p.1 p.2) μ) (G : (ι → ℝ) → E) (hG : Measurable G) {C : ℝ}
    (hC : ∀ v, ‖G v‖ ≤ C) :
    ∀ᵐ ω ∂μ, Tendsto (fun n : ℕ => (n : ℝ)⁻¹ • ∑ k ∈ range n, G fun i => V k i ω) atTop
      (𝓝 (∫ ω, G (fun i => V 0 i ω) ∂μ)) := by
  classical
  have hvec : ∀ n, Measurable fun ω i => V n i ω := fun n => measurable_pi_lambda _ fun i => hm n i
  refine strong_law_ae (fun k ω => G fun i => V k i ω) ?_ ?_ ?_
  · exact Integrable.of_bound (hG.comp (hvec 0)).aestronglyMeasurable C (Eventually.of_forall fun ω => hC _)
  · intro n m hnm
    have hdis : Disjoint (({n} : Finset ℕ) ×ˢ (univ : Finset ι)) (({m} : Finset ℕ) ×ˢ (univ : Finset ι)) := by
      rw [Finset.disjoint_left]
      intro p hp hp'
      simp only [mem_product, mem_singleton, mem_univ, and_true] at hp hp'
      exact hnm (hp ▸ hp')
    have h0 := hind.indepFun_finset _ _ hdis fun p => hm p.1 p.2
    have hsel : ∀ n : ℕ, ∀ i : ι, (n, i) ∈ (({n} : Finset ℕ) ×ˢ (univ : Finset ι)) := fun n i => by simp
    have hφ : ∀ n : ℕ, Measurable fun (v : (({n} : Finset ℕ) ×ˢ (univ : Finset ι)) → ℝ) => G fun i => v ⟨(n, i), hsel n i⟩ :=
      fun n => hG.comp (measurable_pi_lambda _ fun i => measurable_pi_apply _)
    exact h0.comp (hφ n) (hφ m)
  · intro n
    have hlaw : ∀ n, μ.map (fun ω i => V n i ω) = Measure.pi fun _ : ι => volume.restrict (Set.Ico (0 : ℝ) 1) := by
      intro n
      have h1 : iIndepFun (fun i => V n i) μ :=
        hind.precomp (g := fun i : ι => ((n, i) : ℕ × ι)) fun a b hab => (Prod.mk.inj hab).2
      rw [(iIndepFun_iff_map_fun_eq_pi_map fun i => (hm n i).aemeasurable).mp h1]
      congr 1
      funext i
      exact hu n i
    have h2 : IdentDistrib (fun ω i => V n i ω) (fun ω i => V 0 i ω) μ μ :=
      ⟨(hvec n).aemeasurable, (hvec 0).aemeasurable, by rw [hlaw, hlaw]⟩
    exact h2.comp hG

omit [Fintype ι] in
/-- Second moment of a combination of mirrors. -/
theorem second_moment (s : Finset ι) (c : ι → ℂ) (p : ι → ℝ) (U : ι → Ω → ℝ) (hU : ∀ i ∈ s, Measurable (U i))
    (hp : ∀ i ∈ s, 0 ≤ p i ∧ p i ≤ 1) (hu : ∀ i ∈ s, μ.map (U i) = volume.restrict (Set.Ico 0 1))
    (hind : ∀ i ∈ s, ∀ j ∈ s, i ≠ j → IndepFun (U i) (U j) μ) :
    ∫ ω, ‖∑ i ∈ s, c i * (bit (U i) (p i) ω : ℂ)‖ ^ 2 ∂μ =
      ‖∑ i ∈ s, c i * (p i : ℂ)‖ ^ 2 + ∑ i ∈ s, ‖c i‖ ^ 2 * (p i * (1 - p i)) := by
  set a : ℂ := ∑ i ∈ s, c i * (p i : ℂ) with ha
  have hX : Measurable fun ω => ∑ i ∈ s, c i * (bit (U i) (p i) ω : ℂ) :=
    Finset.measurable_sum _ fun i hi => (Complex.measurable_ofReal.comp (bit_measurable (hU i hi) (p i))).const_mul _
  have hB : ∀ ω, ‖∑ i ∈ s, c i * (bit (U i) (p i) ω : ℂ)‖ ≤ ∑ i ∈ s, ‖c i‖ := fun ω => by
    refine (norm_sum_le _ _).trans (sum_le_sum fun i _ => ?_)
    rw [norm_mul]
    refine mul_le_of_le_one_right (norm_nonneg _) ?_
    unfold bit
    split_ifs <;> simp
  have hi : Integrable (fun ω => ∑ i ∈ s, c i * (bit (U i) (p i) ω : ℂ)) μ :=
    Integrable.of_bound hX.aestronglyMeasurable _ (Eventually.of_forall hB)
  have hid : Integrable (fun ω => ‖∑ i ∈ s, c i * (bit (U i) (p i) ω : ℂ) - a‖ ^ 2) μ := by
    refine Integrable.of_bound ((hX.sub_const a).norm.pow_const 2).aestronglyMeasurable
      ((∑ i ∈ s, ‖c i‖ + ‖a‖) ^ 2) (Eventually.of_forall fun ω => ?_)
    rw [Real.norm_eq_abs, abs_of_nonneg (by positivity)]
    exact pow_le_pow_left₀ (norm_nonneg _) ((norm_sub_le _ _).trans (by gcongr; exact hB ω)) 2
  have hmean : ∫ ω, ∑ i ∈ s, c i * (bit (U i) (p i) ω : ℂ) ∂μ = a := mean s c p U hU hp hu
  have e : ∀ ω, ‖∑ i ∈ s, c i * (bit (U i) (p i) ω : ℂ)‖ ^ 2 =
      ‖∑ i ∈ s, c i * (bit (U i) (p i) ω : ℂ) - a‖ ^ 2 +
        (2 * (starRingEnd ℂ a * ∑ i ∈ s, c i * (bit (U i) (p i) ω : ℂ)).re - ‖a‖ ^ 2) := by
    intro ω
    generalize ∑ i ∈ s, c i * (bit (U i) (p i) ω : ℂ) = z
    rw [← Complex.normSq_eq_norm_sq, ← Complex.normSq_eq_norm_sq, ← Complex.normSq_eq_norm_sq, Complex.normSq_apply,
      Complex.normSq_apply, Complex.normSq_apply, Complex.mul_re, Complex.conj_re, Complex.conj_im, Complex.sub_re,
      Complex.sub_im]
    ring
  have hre : ∫ ω, (starRingEnd ℂ a * ∑ i ∈ s, c i * (bit (U i) (p i) ω : ℂ)).re ∂μ = ‖a‖ ^ 2 := by
    have h1 : ∫ ω, (starRingEnd ℂ a * ∑ i ∈ s, c i * (bit (U i) (p i) ω : ℂ)).re ∂μ =
        (∫ ω, starRingEnd ℂ a * ∑ i ∈ s, c i * (bit (U i) (p i) ω : ℂ) ∂μ).re :=
      integral_re (𝕜 := ℂ) (hi.const_mul _)
    rw [h1, integral_const_mul, hmean, mul_comm, Complex.mul_conj, Complex.ofReal_re, Complex.normSq_eq_norm_sq]
  have hir : Integrable (fun ω => (starRingEnd ℂ a * ∑ i ∈ s, c i * (bit (U i) (p i) ω : ℂ)).re) μ :=
    (hi.const_mul (starRingEnd ℂ a)).re
  have hs : Integrable (fun ω => 2 * (starRingEnd ℂ a * ∑ i ∈ s, c i * (bit (U i) (p i) ω : ℂ)).re - ‖a‖ ^ 2) μ :=
    (hir.const_mul 2).sub (integrable_const _)
  simp only [e]
  rw [integral_add hid hs, integral_sub (hir.const_mul 2) (integrable_const _),
    integral_const_mul, hre, complex_variance s c p U hU hp hu hind]
  simp only [integral_const, probReal_univ, smul_eq_mul, one_mul]
  ring

/-- Averages over frames of a combination of the mirrors and of its squared modulus. -/
theorem frames_combination (V : ℕ → ι → Ω → ℝ) (hm : ∀ n i, Measurable (V n i))
    (hu : ∀ n i, μ.map (V n i) = volume.restrict (Set.Ico 0 1))
    (hind : iIndepFun (fun (p : ℕ × ι) => V p.1 p.2) μ) (c : ι → ℂ) (p : ι → ℝ) (hp : ∀ i, 0 ≤ p i ∧ p i ≤ 1) :
    (∀ᵐ ω ∂μ,
      Tendsto (fun n : ℕ => (∑ f ∈ range n, ∑ i, c i * (bit (V f i) (p i) ω : ℂ)) / n) atTop (𝓝 (∑ i, c i * (p i : ℂ))) ∧
      Tendsto (fun n : ℕ => (∑ f ∈ range n, ‖∑ i, c i * (bit (V f i) (p i) ω : ℂ)‖ ^ 2) / n) atTop
        (𝓝 (‖∑ i, c i * (p i : ℂ)‖ ^ 2 + ∑ i, ‖c i‖ ^ 2 * (p i * (1 - p i))))) ∧
    ∀ n : ℕ, 0 < n →
      ∫ ω, ‖(∑ f ∈ range n, ∑ i, c i * (bit (V f i) (p i) ω : ℂ)) / n - ∑ i, c i * (p i : ℂ)‖ ^ 2 ∂μ =
        (∑ i, ‖c i‖ ^ 2 * (p i * (1 - p i))) / n := by
  classical
  constructor
  · set G : (ι → ℝ) → ℂ := fun v => ∑ i, c i * ((if v i < p i then 1 else 0 : ℝ) : ℂ) with hG
    have hGm : Measurable G := Finset.measurable_sum _ fun i _ =>
      (Complex.measurable_ofReal.comp (Measurable.ite (measurableSet_lt (measurable_pi_apply _) measurable_const)
        measurable_const measurable_const)).const_mul _
    have hGb : ∀ v, ‖G v‖ ≤ ∑ i, ‖c i‖ := by
      intro v
      refine (norm_sum_le _ _).trans (sum_le_sum fun i _ => ?_)
      rw [norm_mul]
      refine mul_le_of_le_one_right (norm_nonneg _) ?_
      split_ifs <;> simp
    have hL1 := frames_average V hm hu hind G hGm hGb
    have hL2 := frames_average V hm hu hind (fun v => ‖G v‖ ^ 2) (hGm.norm.pow_const 2) (C := (∑ i, ‖c i‖) ^ 2) (fun v => by
      rw [Real.norm_eq_abs, abs_of_nonneg (by positivity)]
      exact pow_le_pow_left₀ (norm_nonneg _) (hGb v) 2)
    have hi1 : ∫ ω, G (fun i => V 0 i ω) ∂μ = ∑ i, c i * (p i : ℂ) :=
      mean univ c p (V 0) (fun i _ => hm 0 i) (fun i _ => hp i) (fun i _ => hu 0 i)
    have hi2 : ∫ ω, ‖G (fun i => V 0 i ω)‖ ^ 2 ∂μ = ‖∑ i, c i * (p i : ℂ)‖ ^ 2 + ∑ i, ‖c i‖ ^ 2 * (p i * (1 - p i)) :=
      second_moment univ c p (V 0) (fun i _ => hm 0 i) (fun i _ => hp i) (fun i _ => hu 0 i) fun i _ j _ hne =>
        hind.indepFun (i := (0, i)) (j := (0, j)) fun hc => hne (Prod.mk.inj hc).2
    rw [hi1] at hL1
    rw [hi2] at hL2
    filter_upwards [hL1, hL2] with ω h1 h2
    constructor
    · refine h1.congr fun n => ?_
      rw [Complex.real_smul, Complex.ofReal_inv, Complex.ofReal_natCast, div_eq_inv_mul]
      rfl
    · refine h2.congr fun n => ?_
      rw [smul_eq_mul, div_eq_inv_mul]
      rfl
  · intro n hn
    have hn' : (n : ℂ) ≠ 0 := by exact_mod_cast hn.ne'
    have hn'' : (n : ℝ) ≠ 0 := by exact_mod_cast hn.ne'
    have hv := complex_variance (μ := μ) (range n ×ˢ univ) (fun x : ℕ × ι => c x.2 / n)
      (fun x => p x.2) (fun x => V x.1 x.2) (fun x _ => hm x.1 x.2) (fun x _ => hp x.2) (fun x _ => hu x.1 x.2)
      (fun x _ y _ hne => hind.indepFun hne)
    have hL : ∀ ω, (∑ f ∈ range n, ∑ i, c i * (bit (V f i) (p i) ω : ℂ)) / n = ∑ x ∈ range n ×ˢ univ,
        c x.2 / n * (bit (V x.1 x.2) (p x.2) ω : ℂ) := by
      intro ω
      rw [sum_product, sum_div]
      refine sum_congr rfl fun f _ => ?_
      rw [sum_div]
      exact sum_congr rfl fun i _ => by ring
    have hR : ∑ i, c i * (p i : ℂ) = ∑ x ∈ range n ×ˢ univ, c x.2 / n * (p x.2 : ℂ) := by
      rw [sum_product]
      simp only
      rw [sum_const, card_range, nsmul_eq_mul, mul_sum]
      refine sum_congr rfl fun i _ => ?_
      field_simp
    simp only [hL, hR]
    rw [hv, sum_product]
    simp only
    rw [sum_const, card_range, nsmul_eq_mul]
    simp only [norm_div, div_pow, Complex.norm_natCast]
    rw [mul_sum, sum_div]
    refine sum_congr rfl fun i _ => ?_
    field_simp

end PySLM2.Dither
