import Mathlib.Analysis.SpecialFunctions.Gaussian.FourierTransform
import Mathlib.MeasureTheory.Integral.IntervalIntegral.FundThmCalculus
import Mathlib.Tactic.FieldSimp

/-!
# Sums over equally spaced points and integrals
-/

noncomputable section

open MeasureTheory Finset Complex

namespace PySLM2.Riemann

/-- A sum over one point per cell differs from the integral by at most the oscillation in each cell. -/
theorem cells {F : ℝ → ℂ} {a h : ℝ} (hh : 0 ≤ h) {N : ℕ} (hF : ContinuousOn F (Set.Icc a (a + N * h))) {p : ℕ → ℝ} {b : ℕ → ℝ}
    (hb : ∀ k < N, ∀ t ∈ Set.Icc (a + k * h) (a + (k + 1) * h), ‖F (p k) - F t‖ ≤ b k) :
    ‖∑ k ∈ range N, (h : ℂ) * F (p k) - ∫ t in a..a + N * h, F t‖ ≤ h * ∑ k ∈ range N, b k := by
  have hmono : ∀ k : ℕ, a + k * h ≤ a + (k + 1 : ℕ) * h := fun k => by push_cast; nlinarith
  have hsub : ∀ k < N, Set.uIcc (a + k * h) (a + (k + 1 : ℕ) * h) ⊆ Set.Icc a (a + N * h) := by
    intro k hk t ht
    rw [Set.uIcc_of_le (hmono k)] at ht
    have h1 : (0 : ℝ) ≤ k * h := by positivity
    have h2 : ((k + 1 : ℕ) : ℝ) * h ≤ N * h := by
      apply mul_le_mul_of_nonneg_right _ hh
      exact_mod_cast hk
    exact ⟨by linarith [ht.1], by linarith [ht.2]⟩
  have hint : ∀ k < N, IntervalIntegrable F volume (a + k * h) (a + (k + 1 : ℕ) * h) := fun k hk =>
    (hF.mono (hsub k hk)).intervalIntegrable
  have hsum := intervalIntegral.sum_integral_adjacent_intervals (a := fun k : ℕ => a + k * h) hint
  simp only [Nat.cast_zero, zero_mul, add_zero] at hsum
  rw [← hsum, ← sum_sub_distrib, mul_sum]
  refine norm_sum_le_of_le _ fun k hk => ?_
  have hk' := mem_range.mp hk
  have e : (h : ℂ) * F (p k) - ∫ t in a + k * h..a + (k + 1 : ℕ) * h, F t =
      ∫ t in a + k * h..a + (k + 1 : ℕ) * h, (F (p k) - F t) := by
    rw [intervalIntegral.integral_sub intervalIntegrable_const (hint k hk'), intervalIntegral.integral_const]
    congr 1
    rw [Complex.real_smul]
    congr 2
    push_cast
    ring
  rw [e]
  have := intervalIntegral.norm_integral_le_of_norm_le_const (a := a + k * h) (b := a + (k + 1 : ℕ) * h) (C := b k)
    (f := fun t => F (p k) - F t) (by
      intro t ht
      rw [Set.uIoc_of_le (hmono k)] at ht
      refine hb k hk' t ⟨ht.1.le, ?_⟩
      have := ht.2
      push_cast at this
      exact this)
  refine this.trans_eq ?_
  have e2 : a + (k + 1 : ℕ) * h - (a + k * h) = h := by push_cast; ring
  rw [e2, abs_of_nonneg hh, mul_comm]

/-- For a Lipschitz function. -/
theorem lipschitz {F : ℝ → ℂ} {a h K : ℝ} (hh : 0 ≤ h) {N : ℕ} (hK : 0 ≤ K)
    (hF : ∀ s ∈ Set.Icc a (a + N * h), ∀ t ∈ Set.Icc a (a + N * h), ‖F s - F t‖ ≤ K * |s - t|) {p : ℕ → ℝ}
    (hp : ∀ k < N, p k ∈ Set.Icc (a + k * h) (a + (k + 1) * h)) :
    ‖∑ k ∈ range N, (h : ℂ) * F (p k) - ∫ t in a..a + N * h, F t‖ ≤ N * h * (K * h) := by
  have hsub : ∀ k < N, Set.Icc (a + k * h) (a + (k + 1) * h) ⊆ Set.Icc a (a + N * h) := by
    intro k hk t ht
    have h1 : (0 : ℝ) ≤ k * h := by positivity
    have h2 : ((k : ℝ) + 1) * h ≤ N * h := by
      apply mul_le_mul_of_nonneg_right _ hh
      exact_mod_cast hk
    exact ⟨by linarith [ht.1], by linarith [ht.2]⟩
  have hc : ContinuousOn F (Set.Icc a (a + N * h)) := by
    refine LipschitzOnWith.continuousOn (K := K.toNNReal) (LipschitzOnWith.of_dist_le_mul fun s hs t ht => ?_)
    rw [dist_eq_norm, Real.coe_toNNReal _ hK, Real.dist_eq]
    exact hF s hs t ht
  have := cells hh hc (p := p) (b := fun _ => K * h) (fun k hk t ht => by
    refine (hF _ (hsub k hk (hp k hk)) _ (hsub k hk ht)).trans (mul_le_mul_of_nonneg_left ?_ hK)
    rw [abs_le]
    have := hp k hk
    constructor <;> linarith [this.1, this.2, ht.1, ht.2])
  refine this.trans_eq ?_
  rw [sum_const, card_range, nsmul_eq_mul]
  ring

/-- For a function with integrable derivative. -/
theorem deriv_bound {g g' : ℝ → ℂ} (hg : ∀ t, HasDerivAt g (g' t) t) (hc : Continuous g') (hi : Integrable fun t => ‖g' t‖)
    {a h : ℝ} (hh : 0 ≤ h) {N : ℕ} {p : ℕ → ℝ} (hp : ∀ k < N, p k ∈ Set.Icc (a + k * h) (a + (k + 1) * h)) :
    ‖∑ k ∈ range N, (h : ℂ) * g (p k) - ∫ t in a..a + N * h, g t‖ ≤ h * ∫ t, ‖g' t‖ := by
  have hcg : Continuous g := continuous_iff_continuousAt.mpr fun t => (hg t).continuousAt
  have hmono : ∀ k : ℕ, a + k * h ≤ a + (k + 1) * h := fun k => by nlinarith
  have hb : ∀ k < N, ∀ t ∈ Set.Icc (a + k * h) (a + (k + 1) * h), ‖g (p k) - g t‖ ≤
      ∫ t in a + k * h..a + (k + 1) * h, ‖g' t‖ := by
    intro k hk t ht
    rw [← intervalIntegral.integral_eq_sub_of_hasDerivAt (fun x _ => hg x) (hc.intervalIntegrable t (p k))]
    refine intervalIntegral.norm_integral_le_abs_integral_norm.trans ?_
    have hle : 0 ≤ ∫ t in a + k * h..a + (k + 1) * h, ‖g' t‖ :=
      intervalIntegral.integral_nonneg (hmono k) fun _ _ => norm_nonneg _
    rw [← abs_of_nonneg hle]
    refine intervalIntegral.abs_integral_mono_interval ?_ (Filter.Eventually.of_forall fun _ => norm_nonneg _)
      (hc.norm.intervalIntegrable _ _)
    rw [Set.uIoc_of_le (hmono k)]
    intro s hs
    rw [Set.uIoc, Set.mem_Ioc] at hs
    have h1 := hp k hk
    exact ⟨lt_of_le_of_lt (le_min ht.1 h1.1) hs.1, hs.2.trans (max_le ht.2 h1.2)⟩
  refine (cells hh hcg.continuousOn hb).trans (mul_le_mul_of_nonneg_left ?_ hh)
  have hsum := intervalIntegral.sum_integral_adjacent_intervals (a := fun k : ℕ => a + k * h) (n := N) (μ := volume)
    (f := fun t => ‖g' t‖) (fun k _ => hc.norm.intervalIntegrable _ _)
  have e : ∑ k ∈ range N, ∫ t in a + k * h..a + (k + 1) * h, ‖g' t‖ =
      ∑ k ∈ range N, ∫ t in a + k * h..a + ((k + 1 : ℕ) : ℝ) * h, ‖g' t‖ := by
    refine sum_congr rfl fun k _ => ?_
    push_cast
    rfl
  rw [e, hsum]
  have hN : a + ((0 : ℕ) : ℝ) * h ≤ a + N * h := by
    have : (0 : ℝ) ≤ N * h := by positivity
    simpa
  rw [intervalIntegral.integral_of_le hN]
  exact setIntegral_le_integral hi (Filter.Eventually.of_forall fun _ => norm_nonneg _)

/-! ## Gaussians -/

/-- `exp(-(t - c)²/w²) exp(i κ t)` -/
def gauss (c w κ : ℝ) (t : ℝ) : ℂ := cexp (((-((t - c) ^ 2 / w ^ 2) : ℝ) : ℂ) + I * κ * t)

theorem norm_gauss (c w κ t : ℝ) : ‖gauss c w κ t‖ = Real.exp (-((t - c) ^ 2 / w ^ 2)) := by
  unfold gauss
  rw [Complex.norm_exp, add_re, ofReal_re]
  congr 1
  simp

theorem gauss_integral (c κ : ℝ) {w : ℝ} (hw : 0 < w) :
    ∫ t, gauss c w κ t = ((√Real.pi * w * Real.exp (-(w ^ 2 * κ ^ 2 / 4)) : ℝ) : ℂ) * cexp (I * κ * c) := by
  have h0 := fourierIntegral_gaussian (b := ((1 / w ^ 2 : ℝ) : ℂ)) (by rw [ofReal_re]; positivity) κ
  rw [← integral_add_right_eq_self (μ := (volume : Measure ℝ)) _ c]
  have e : ∀ t : ℝ, gauss c w κ (t + c) = cexp (I * κ * c) * (cexp (I * κ * t) * cexp (-((1 / w ^ 2 : ℝ) : ℂ) * t ^ 2)) := by
    intro t
    unfold gauss
    rw [← Complex.exp_add, ← Complex.exp_add]
    congr 1
    push_cast
    ring
  simp only [e]
  rw [integral_const_mul, h0, mul_comm]
  congr 1
  have e1 : ((Real.pi : ℂ) / ((1 / w ^ 2 : ℝ) : ℂ)) ^ (1 / 2 : ℂ) = ((√Real.pi * w : ℝ) : ℂ) := by
    have : ((Real.pi : ℂ) / ((1 / w ^ 2 : ℝ) : ℂ)) = (((√Real.pi * w) ^ 2 : ℝ) : ℂ) := by
      rw [mul_pow, Real.sq_sqrt Real.pi_pos.le]
      push_cast
      field_simp
    rw [this, show (1 / 2 : ℂ) = ((1 / 2 : ℝ) : ℂ) by push_cast; rfl, ← ofReal_cpow (by positivity), ← Real.sqrt_eq_rpow,
      Real.sqrt_sq (by positivity)]
  rw [e1, ofReal_mul (√Real.pi * w)]
  congr 1
  rw [ofReal_exp]
  congr 1
  push_cast
  have : (w : ℂ) ≠ 0 := by exact_mod_cast hw.ne'
  field_simp

theorem gauss_hasDeriv (c κ t : ℝ) {w : ℝ} :
    HasDerivAt (gauss c w κ) ((((-(2 * (t - c) / w ^ 2) : ℝ) : ℂ) + I * κ) * gauss c w κ t) t := by
  unfold gauss
  have h1 : HasDerivAt (fun t : ℝ => -((t - c) ^ 2 / w ^ 2)) (-(2 * (t - c) / w ^ 2)) t := by
    have := ((((hasDerivAt_id t).sub_const c).pow 2).div_const (w ^ 2)).neg
    convert! this using 1
    simp
  have h2 : HasDerivAt (fun t : ℝ => I * κ * (t : ℂ)) (I * κ) t := by
    simpa using (ofRealCLM.hasDerivAt (x := t)).const_mul (I * κ)
  have := (h1.ofReal_comp.add h2).cexp
  convert! this using 1
  rw [mul_comm]
  rfl

theorem integrable_gauss_real (c : ℝ) {w : ℝ} (hw : 0 < w) : Integrable fun t : ℝ => Real.exp (-((t - c) ^ 2 / w ^ 2)) := by
  have := (integrable_exp_neg_mul_sq (b := 1 / w ^ 2) (by positivity)).comp_sub_right c
  refine this.congr (Filter.Eventually.of_forall fun t => ?_)
  simp only
  congr 1
  ring

theorem integral_gauss_real (c : ℝ) {w : ℝ} (hw : 0 < w) : ∫ t : ℝ, Real.exp (-((t - c) ^ 2 / w ^ 2)) = √Real.pi * w := by
  have h := integral_gaussian (1 / w ^ 2)
  have e : ∀ t : ℝ, Real.exp (-((t - c) ^ 2 / w ^ 2)) = (fun t => Real.exp (-(1 / w ^ 2) * t ^ 2)) (t - c) := by
    intro t
    simp only
    congr 1
    ring
  simp only [e]
  rw [integral_sub_right_eq_self (fun t : ℝ => Real.exp (-(1 / w ^ 2) * t ^ 2)) c, h]
  rw [show Real.pi / (1 / w ^ 2) = (√Real.pi * w) ^ 2 by rw [mul_pow, Real.sq_sqrt Real.pi_pos.le]; field_simp,
    Real.sqrt_sq (by positivity)]

/-- Half of the first absolute moment: `∫ |t| exp(-t²/w²) = w²`. -/
theorem abs_moment (c : ℝ) {w : ℝ} (hw : 0 < w) :
    Integrable (fun t : ℝ => 2 * |t - c| / w ^ 2 * Real.exp (-((t - c) ^ 2 / w ^ 2))) ∧
    ∫ t : ℝ, 2 * |t - c| / w ^ 2 * Real.exp (-((t - c) ^ 2 / w ^ 2)) = 2 := by
  set f : ℝ → ℝ := fun t => 2 * t / w ^ 2 * Real.exp (-(t ^ 2 / w ^ 2)) with hf
  have e : ∀ t : ℝ, 2 * |t - c| / w ^ 2 * Real.exp (-((t - c) ^ 2 / w ^ 2)) = (fun s => f |s|) (t - c) := by
    intro t
    simp only [hf, sq_abs]
  have hd : ∀ x ∈ Set.Ici (0 : ℝ), HasDerivAt (fun t : ℝ => -Real.exp (-(t ^ 2 / w ^ 2))) (f x) x := by
    intro x _
    have h1 : HasDerivAt (fun t : ℝ => -(t ^ 2 / w ^ 2)) (-(2 * x / w ^ 2)) x := by
      have := (((hasDerivAt_id x).pow 2).div_const (w ^ 2)).neg
      convert! this using 1
      simp
    have := h1.exp.neg
    convert! this using 1
    simp only [hf]
    ring
  have hlim : Filter.Tendsto (fun t : ℝ => -Real.exp (-(t ^ 2 / w ^ 2))) Filter.atTop (nhds 0) := by
    rw [← neg_zero]
    refine (Real.tendsto_exp_atBot.comp ?_).neg
    refine Filter.tendsto_neg_atTop_atBot.comp ?_
    exact (Filter.tendsto_pow_atTop two_ne_zero).atTop_div_const (by positivity)
  have hnn : ∀ x ∈ Set.Ioi (0 : ℝ), 0 ≤ f x := fun x hx => by
    have : (0 : ℝ) < x := hx
    simp only [hf]
    positivity
  have hint := integral_Ioi_of_hasDerivAt_of_nonneg' hd hnn hlim
  simp only [e]
  refine ⟨?_, ?_⟩
  · have hab : Integrable fun s : ℝ => f |s| := by
      have h0 := ((integrable_mul_exp_neg_mul_sq (b := 1 / w ^ 2) (by positivity)).norm).const_mul (2 / w ^ 2)
      refine h0.congr (Filter.Eventually.of_forall fun s => ?_)
      simp only [hf, norm_mul, Real.norm_eq_abs, abs_of_pos (Real.exp_pos _), sq_abs]
      rw [show -(1 / w ^ 2) * s ^ 2 = -(s ^ 2 / w ^ 2) by ring]
      ring
    exact hab.comp_sub_right c
  · rw [integral_sub_right_eq_self (fun s : ℝ => f |s|) c, integral_comp_abs, hint]
    simp

theorem gauss_deriv_bound (c κ : ℝ) {w : ℝ} (hw : 0 < w) :
    Integrable (fun t => ‖(((-(2 * (t - c) / w ^ 2) : ℝ) : ℂ) + I * κ) * gauss c w κ t‖) ∧
    ∫ t, ‖(((-(2 * (t - c) / w ^ 2) : ℝ) : ℂ) + I * κ) * gauss c w κ t‖ ≤ 2 + |κ| * (√Real.pi * w) := by
  obtain ⟨hi, he⟩ := abs_moment c hw
  have hi2 := (integrable_gauss_real c hw).const_mul |κ|
  have hle : ∀ t : ℝ, ‖(((-(2 * (t - c) / w ^ 2) : ℝ) : ℂ) + I * κ) * gauss c w κ t‖ ≤
      2 * |t - c| / w ^ 2 * Real.exp (-((t - c) ^ 2 / w ^ 2)) + |κ| * Real.exp (-((t - c) ^ 2 / w ^ 2)) := by
    intro t
    rw [norm_mul, norm_gauss, ← add_mul]
    refine mul_le_mul_of_nonneg_right ((norm_add_le _ _).trans_eq ?_) (Real.exp_pos _).le
    rw [norm_real, norm_mul, norm_I, one_mul, norm_real, Real.norm_eq_abs, Real.norm_eq_abs, abs_neg, abs_div, abs_mul,
      abs_two, abs_of_pos (by positivity : (0 : ℝ) < w ^ 2)]
  have hcont : Continuous fun t => ‖(((-(2 * (t - c) / w ^ 2) : ℝ) : ℂ) + I * κ) * gauss c w κ t‖ := by
    unfold gauss
    fun_prop
  have hI : Integrable (fun t => ‖(((-(2 * (t - c) / w ^ 2) : ℝ) : ℂ) + I * κ) * gauss c w κ t‖) := by
    refine (hi.add hi2).mono' hcont.aestronglyMeasurable (Filter.Eventually.of_forall fun t => ?_)
    rw [norm_norm]
    exact hle t
  refine ⟨hI, (integral_mono hI (hi.add hi2) hle).trans_eq ?_⟩
  rw [integral_add' hi hi2, he, integral_const_mul, integral_gauss_real c hw]

theorem gauss_tail (c T : ℝ) {w : ℝ} (hw : 0 < w) (hT : 0 ≤ T) :
    ∫ t in Set.Ioi (c + T), Real.exp (-((t - c) ^ 2 / w ^ 2)) ≤ √Real.pi * w / 2 * Real.exp (-(T ^ 2 / w ^ 2)) := by
  have e1 : ∫ t in Set.Ioi (c + T), Real.exp (-((t - c) ^ 2 / w ^ 2)) =
      ∫ s in Set.Ioi (0 : ℝ), Real.exp (-((s + T) ^ 2 / w ^ 2)) := by
    have := (measurePreserving_add_right (volume : Measure ℝ) (c + T)).setIntegral_preimage_emb
      (measurableEmbedding_addRight (c + T)) (fun t => Real.exp (-((t - c) ^ 2 / w ^ 2))) (Set.Ioi (c + T))
    rw [← this, show (fun x : ℝ => x + (c + T)) ⁻¹' Set.Ioi (c + T) = Set.Ioi 0 by ext x; simp]
    refine integral_congr_ae (Filter.Eventually.of_forall fun s => ?_)
    simp only
    congr 3
    ring
  have hi : Integrable fun s : ℝ => Real.exp (-((s + T) ^ 2 / w ^ 2)) := by
    have := integrable_gauss_real (-T) hw
    simpa using this
  have hi0 := (integrable_gauss_real 0 hw).const_mul (Real.exp (-(T ^ 2 / w ^ 2)))
  rw [e1]
  refine (setIntegral_mono_on hi.integrableOn hi0.integrableOn measurableSet_Ioi fun s hs => ?_).trans_eq ?_
  · rw [← Real.exp_add, Real.exp_le_exp]
    have hs' : (0 : ℝ) < s := hs
    rw [sub_zero, ← neg_add, neg_le_neg_iff, ← add_div]
    gcongr
    nlinarith [mul_nonneg hs'.le hT]
  · rw [integral_const_mul]
    have h := integral_gaussian_Ioi (1 / w ^ 2)
    have : ∀ s : ℝ, Real.exp (-((s - 0) ^ 2 / w ^ 2)) = Real.exp (-(1 / w ^ 2) * s ^ 2) := by
      intro s
      congr 1
      rw [sub_zero]
      ring
    simp only [this]
    rw [h, show Real.pi / (1 / w ^ 2) = (√Real.pi * w) ^ 2 by rw [mul_pow, Real.sq_sqrt Real.pi_pos.le]; field_simp,
      Real.sqrt_sq (by positivity)]
    ring

/-- The sum of a Gaussian over the pixels of an interval that reaches at least `T` beyond its centre on both
sides. -/
theorem gauss_sum (c κ : ℝ) {w a h T : ℝ} (hw : 0 < w) (hh : 0 ≤ h) (hT : 0 ≤ T) {N : ℕ} {p : ℕ → ℝ}
    (hp : ∀ k < N, p k ∈ Set.Icc (a + k * h) (a + (k + 1) * h)) (hl : a ≤ c - T) (hr : c + T ≤ a + N * h) :
    ‖∑ k ∈ range N, (h : ℂ) * gauss c w κ (p k) -
      ((√Real.pi * w * Real.exp (-(w ^ 2 * κ ^ 2 / 4)) : ℝ) : ℂ) * cexp (I * κ * c)‖ ≤
      h * (2 + |κ| * (√Real.pi * w)) + √Real.pi * w * Real.exp (-(T ^ 2 / w ^ 2)) := by
  obtain ⟨hi', hb'⟩ := gauss_deriv_bound c κ hw
  have hcg : Continuous (gauss c w κ) := by unfold gauss; fun_prop
  have h1 := deriv_bound (g := gauss c w κ) (fun t => gauss_hasDeriv c κ t) (by unfold gauss; fun_prop) hi' hh hp
  have hint : Integrable (gauss c w κ) := by
    refine (integrable_gauss_real c hw).mono' hcg.aestronglyMeasurable (Filter.Eventually.of_forall fun t => ?_)
    rw [norm_gauss]
  have hle : a ≤ a + N * h := by linarith
  -- the part of the line outside
  have h2 : ‖(∫ t in a..a + N * h, gauss c w κ t) - ∫ t, gauss c w κ t‖ ≤ √Real.pi * w * Real.exp (-(T ^ 2 / w ^ 2)) := by
    rw [intervalIntegral.integral_of_le hle]
    have hsplit := integral_add_compl (μ := (volume : Measure ℝ)) (measurableSet_Ioc (a := a) (b := a + N * h)) hint
    rw [← hsplit, sub_add_cancel_left, norm_neg]
    have hcompl : (Set.Ioc a (a + N * h))ᶜ = Set.Iic a ∪ Set.Ioi (a + N * h) := by
      ext t
      simp only [Set.mem_compl_iff, Set.mem_Ioc, Set.mem_union, Set.mem_Iic, Set.mem_Ioi, not_and_or, not_lt, not_le]
    refine (norm_integral_le_integral_norm _).trans ?_
    simp only [norm_gauss]
    have hgi := integrable_gauss_real c hw
    rw [hcompl, setIntegral_union (by
        rw [Set.disjoint_left]
        intro t ht ht'
        have a1 : t ≤ a := ht
        have a2 : a + N * h < t := ht'
        linarith) measurableSet_Ioi hgi.integrableOn hgi.integrableOn]
    have r1 : ∫ t in Set.Ioi (a + N * h), Real.exp (-((t - c) ^ 2 / w ^ 2)) ≤ √Real.pi * w / 2 * Real.exp (-(T ^ 2 / w ^ 2)) := by
      refine (setIntegral_mono_set hgi.integrableOn (Filter.Eventually.of_forall fun _ => (Real.exp_pos _).le) ?_).trans
        (gauss_tail c T hw hT)
      exact Filter.Eventually.of_forall (Set.Ioi_subset_Ioi hr)
    have r2 : ∫ t in Set.Iic a, Real.exp (-((t - c) ^ 2 / w ^ 2)) ≤ √Real.pi * w / 2 * Real.exp (-(T ^ 2 / w ^ 2)) := by
      have hflip : ∫ t in Set.Iic (c - T), Real.exp (-((t - c) ^ 2 / w ^ 2)) =
          ∫ t in Set.Ioi (-c + T), Real.exp (-((t - -c) ^ 2 / w ^ 2)) := by
        have := integral_comp_neg_Iic (c - T) (fun t => Real.exp (-((t - -c) ^ 2 / w ^ 2)))
        rw [show -(c - T) = -c + T by ring] at this
        rw [← this]
        refine integral_congr_ae (Filter.Eventually.of_forall fun s => ?_)
        simp only
        congr 3
        ring
      have := hflip.trans_le (gauss_tail (-c) T hw hT)
      refine (setIntegral_mono_set hgi.integrableOn (Filter.Eventually.of_forall fun _ => (Real.exp_pos _).le)
        ?_).trans this
      exact Filter.Eventually.of_forall (Set.Iic_subset_Iic.mpr hl)
    linarith
  rw [← gauss_integral c κ hw]
  have h3 := norm_add_le (∑ k ∈ range N, (h : ℂ) * gauss c w κ (p k) - ∫ t in a..a + N * h, gauss c w κ t)
    ((∫ t in a..a + N * h, gauss c w κ t) - ∫ t, gauss c w κ t)
  rw [sub_add_sub_cancel] at h3
  refine h3.trans (add_le_add (h1.trans ?_) h2)
  exact mul_le_mul_of_nonneg_left hb' hh

theorem prod_error {S S' G G' : ℂ} {M ε ε' : ℝ} (hM : 0 ≤ M) (h : ‖S - G‖ ≤ ε) (h' : ‖S' - G'‖ ≤ ε') (hG : ‖G‖ ≤ M) (hG' : ‖G'‖ ≤ M) :
    ‖S * S' - G * G'‖ ≤ (M + ε) * (M + ε') - M ^ 2 := by
  have hε : 0 ≤ ε := (norm_nonneg _).trans h
  have hε' : 0 ≤ ε' := (norm_nonneg _).trans h'
  have e : S * S' - G * G' = (S - G) * (S' - G') + (S - G) * G' + G * (S' - G') := by ring
  rw [e]
  refine (norm_add₃_le).trans ?_
  rw [norm_mul, norm_mul, norm_mul]
  have a1 := mul_le_mul h h' (norm_nonneg _) hε
  have a2 := mul_le_mul h hG' (norm_nonneg _) hε
  have a3 := mul_le_mul hG h' (norm_nonneg _) hM
  linarith

end PySLM2.Riemann
