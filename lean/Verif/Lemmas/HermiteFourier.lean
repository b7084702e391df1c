import Verif.Lemmas.HermiteOrtho
import Verif.Lemmas.RiemannLine

/-!
# Fourier transform of the Hermite functions, and sums that approximate Fourier integrals
-/

noncomputable section

open Polynomial MeasureTheory Complex Finset

namespace PySLM2.Profile

/-- `H_n(t) exp(-t²/2)` -/
def hermiteGaussFun (n : ℕ) (t : ℝ) : ℝ := hermiteFun n t * Real.exp (-(t ^ 2 / 2))

theorem integrable_poly_gauss_half (q : ℤ[X]) : Integrable fun t : ℝ => aeval t q * Real.exp (-(t ^ 2 / 2)) := by
  have hm : ∀ k : ℕ, Integrable fun t : ℝ => t ^ k * Real.exp (-(t ^ 2 / 2)) := fun k => by
    have := integrable_rpow_mul_exp_neg_mul_sq (b := 1 / 2) (by norm_num) (s := k)
      (by have := Nat.cast_nonneg (α := ℝ) k; linarith)
    refine this.congr (Filter.Eventually.of_forall fun t => ?_)
    simp only [Real.rpow_natCast]
    congr 2
    ring
  induction q using Polynomial.induction_on' with
  | add p q hp hq =>
    simp only [map_add, add_mul]
    exact hp.add hq
  | monomial n a =>
    simp only [aeval_monomial, mul_assoc]
    exact (hm n).const_mul _

theorem integrable_hermiteGaussFun (n : ℕ) : Integrable (hermiteGaussFun n) := integrable_poly_gauss_half (physHermite n)

theorem integrable_mul_hermiteGaussFun (n : ℕ) : Integrable fun t : ℝ => t * hermiteGaussFun n t := by
  have := integrable_poly_gauss_half (X * physHermite n)
  refine this.congr (Filter.Eventually.of_forall fun t => ?_)
  simp only [map_mul, aeval_X, hermiteGaussFun, hermiteFun]
  ring

theorem continuous_hermiteFun (n : ℕ) : Continuous (hermiteFun n) :=
  continuous_iff_continuousAt.mpr fun t => (hermiteFun_deriv n t).continuousAt

theorem continuous_hermiteGaussFun (n : ℕ) : Continuous (hermiteGaussFun n) := by
  unfold hermiteGaussFun
  have := continuous_hermiteFun n
  fun_prop

theorem hermiteGaussFun_deriv (n : ℕ) (t : ℝ) :
    HasDerivAt (hermiteGaussFun n) (t * hermiteGaussFun n t - hermiteGaussFun (n + 1) t) t := by
  have h1 : HasDerivAt (fun s : ℝ => -(s ^ 2 / 2)) (-t) t := by
    have := ((hasDerivAt_pow 2 t).div_const 2).neg
    refine this.congr_deriv ?_
    push_cast
    ring
  refine ((hermiteFun_deriv n t).mul h1.exp).congr_deriv ?_
  unfold hermiteGaussFun
  ring

theorem hermiteGaussFun_succ (n : ℕ) (t : ℝ) :
    hermiteGaussFun (n + 2) t = 2 * t * hermiteGaussFun (n + 1) t - 2 * ((n : ℝ) + 1) * hermiteGaussFun n t := by
  unfold hermiteGaussFun hermiteFun
  rw [physHermite]
  simp [aeval_two]
  ring

/-- `∫ H_n(t) exp(-t²/2) exp(ikt) dt` -/
def hermiteFT (n : ℕ) (k : ℝ) : ℂ := ∫ t : ℝ, (hermiteGaussFun n t : ℂ) * cexp (I * k * t)

theorem norm_phase (k t : ℝ) : ‖cexp (I * k * t)‖ = 1 := by
  rw [show I * (k : ℂ) * t = ((k * t : ℝ) : ℂ) * I by push_cast; ring, norm_exp_ofReal_mul_I]

theorem integrable_phase {f : ℝ → ℂ} (hf : Integrable f) (k : ℝ) : Integrable fun t : ℝ => f t * cexp (I * k * t) := by
  refine hf.mul_bdd (c := 1) (Continuous.aestronglyMeasurable (by fun_prop)) (Filter.Eventually.of_forall fun t => ?_)
  rw [norm_phase]

theorem phase_deriv (k t : ℝ) : HasDerivAt (fun t : ℝ => cexp (I * k * t)) (I * k * cexp (I * k * t)) t := by
  have h1 : HasDerivAt (fun t : ℝ => I * (k : ℂ) * (t : ℂ)) (I * k) t := by
    simpa using (ofRealCLM.hasDerivAt (x := t)).const_mul (I * (k : ℂ))
  refine h1.cexp.congr_deriv ?_
  ring

theorem hermiteFT_parts (n : ℕ) (k : ℝ) :
    ∫ t : ℝ, ((t * hermiteGaussFun n t - hermiteGaussFun (n + 1) t : ℝ) : ℂ) * cexp (I * k * t) =
      -(I * k * hermiteFT n k) := by
  have hi : Integrable fun t : ℝ => (hermiteGaussFun n t : ℂ) := (integrable_hermiteGaussFun n).ofReal (𝕜 := ℂ)
  have hi' : Integrable fun t : ℝ => ((t * hermiteGaussFun n t - hermiteGaussFun (n + 1) t : ℝ) : ℂ) :=
    ((integrable_mul_hermiteGaussFun n).sub (integrable_hermiteGaussFun (n + 1))).ofReal (𝕜 := ℂ)
  have h := integral_mul_deriv_eq_deriv_mul_of_integrable (u := fun t : ℝ => (hermiteGaussFun n t : ℂ))
    (u' := fun t : ℝ => ((t * hermiteGaussFun n t - hermiteGaussFun (n + 1) t : ℝ) : ℂ))
    (v := fun t : ℝ => cexp (I * k * t)) (v' := fun t : ℝ => I * k * cexp (I * k * t))
    (fun t _ => (hermiteGaussFun_deriv n t).ofReal_comp) (fun t _ => phase_deriv k t) ?_ ?_ ?_
  · rw [← neg_eq_iff_eq_neg] at h
    rw [← h]
    unfold hermiteFT
    rw [← integral_const_mul]
    congr 1
    refine integral_congr_ae (Filter.Eventually.of_forall fun t => ?_)
    simp only
    ring
  · refine ((integrable_phase hi k).const_mul (I * k)).congr (Filter.Eventually.of_forall fun t => ?_)
    simp only [Pi.mul_apply]
    push_cast
    ring
  · exact integrable_phase hi' k
  · exact integrable_phase hi k

theorem hermiteFT_eq : ∀ (n : ℕ) (k : ℝ), hermiteFT n k = √(2 * Real.pi) * I ^ n * hermiteGaussFun n k
  | 0, k => by
    have h := Riemann.gauss_integral 0 k (w := √2) (by positivity)
    have e : ∀ t : ℝ, (hermiteGaussFun 0 t : ℂ) * cexp (I * k * t) = Riemann.gauss 0 (√2) k t := by
      intro t
      unfold hermiteGaussFun Riemann.gauss
      rw [Real.sq_sqrt (by norm_num), Complex.exp_add]
      simp [hermiteFun, physHermite]
    unfold hermiteFT
    simp only [e]
    rw [h]
    simp only [hermiteGaussFun, hermiteFun, physHermite]
    rw [Real.sq_sqrt (by norm_num), Real.sqrt_mul (by norm_num)]
    simp only [ofReal_zero, mul_zero, Complex.exp_zero, mul_one, pow_zero, map_one, one_mul]
    rw [← ofReal_mul]
    congr 1
    rw [mul_comm √Real.pi]
    congr 3
    ring
  | 1, k => by
    have h0 := hermiteFT_parts 0 k
    have e : ∀ t : ℝ, t * hermiteGaussFun 0 t - hermiteGaussFun (0 + 1) t = -(1 / 2) * hermiteGaussFun 1 t := by
      intro t
      simp [hermiteGaussFun, hermiteFun, physHermite, aeval_two]
      ring
    simp only [e] at h0
    rw [hermiteFT_eq 0 k] at h0
    have h1 : hermiteFT 1 k = -2 * ∫ t : ℝ, ((-(1 / 2) * hermiteGaussFun 1 t : ℝ) : ℂ) * cexp (I * k * t) := by
      unfold hermiteFT
      rw [← integral_const_mul]
      refine integral_congr_ae (Filter.Eventually.of_forall fun t => ?_)
      simp only
      push_cast
      ring
    rw [h1, h0]
    simp [hermiteGaussFun, hermiteFun, physHermite, aeval_two]
    ring
  | n + 2, k => by
    have h0 := hermiteFT_parts (n + 1) k
    have e : ∀ t : ℝ, t * hermiteGaussFun (n + 1) t - hermiteGaussFun (n + 1 + 1) t =
        ((n : ℝ) + 1) * hermiteGaussFun n t - 1 / 2 * hermiteGaussFun (n + 2) t := by
      intro t
      rw [show n + 1 + 1 = n + 2 from rfl, hermiteGaussFun_succ]
      ring
    simp only [e] at h0
    have h1 : ∫ t : ℝ, ((((n : ℝ) + 1) * hermiteGaussFun n t - 1 / 2 * hermiteGaussFun (n + 2) t : ℝ) : ℂ) * cexp (I * k * t) =
        ((n : ℂ) + 1) * hermiteFT n k - 1 / 2 * hermiteFT (n + 2) k := by
      unfold hermiteFT
      rw [← integral_const_mul, ← integral_const_mul, ← integral_sub]
      · refine integral_congr_ae (Filter.Eventually.of_forall fun t => ?_)
        simp only
        push_cast
        ring
      · exact (integrable_phase ((integrable_hermiteGaussFun n).ofReal (𝕜 := ℂ)) k).const_mul _
      · exact (integrable_phase ((integrable_hermiteGaussFun (n + 2)).ofReal (𝕜 := ℂ)) k).const_mul _
    rw [h1, hermiteFT_eq n k, hermiteFT_eq (n + 1) k] at h0
    rw [hermiteGaussFun_succ]
    have h2 : hermiteFT (n + 2) k = 2 * (((n : ℂ) + 1) * (√(2 * Real.pi) * I ^ n * hermiteGaussFun n k) +
        I * k * (√(2 * Real.pi) * I ^ (n + 1) * hermiteGaussFun (n + 1) k)) := by
      linear_combination (-2) * h0
    rw [h2]
    push_cast
    rw [pow_add I n 2, pow_succ, I_sq]
    linear_combination (2 * (k : ℂ) * √(2 * Real.pi) * I ^ n * hermiteGaussFun (n + 1) k) * I_sq

/-- The one-dimensional mode of waist `w` around `c`. -/
def line (n : ℕ) (c w t : ℝ) : ℝ := hermiteGaussFun n (√2 / w * (t - c))

theorem line_eq (n : ℕ) (c w t : ℝ) :
    line n c w t = Spec.rodrigues n (√2 * (t - c) / w) * Real.exp (-((t - c) ^ 2 / w ^ 2)) := by
  unfold line hermiteGaussFun
  rw [← hermiteFun_rodrigues]
  have h4 : (√2 / w * (t - c)) ^ 2 / 2 = (t - c) ^ 2 / w ^ 2 := by
    rw [mul_pow, div_pow, Real.sq_sqrt (by norm_num)]; ring
  rw [h4]
  congr 2
  ring

/-- The derivative of `line`. -/
def line' (n : ℕ) (c w t : ℝ) : ℝ :=
  √2 / w * ((√2 / w * (t - c)) * hermiteGaussFun n (√2 / w * (t - c)) - hermiteGaussFun (n + 1) (√2 / w * (t - c)))

theorem line_deriv (n : ℕ) (c w t : ℝ) : HasDerivAt (line n c w) (line' n c w t) t := by
  have h1 : HasDerivAt (fun t : ℝ => √2 / w * (t - c)) (√2 / w) t := by
    simpa using ((hasDerivAt_id t).sub_const c).const_mul (√2 / w)
  have := (hermiteGaussFun_deriv n (√2 / w * (t - c))).comp t h1
  refine this.congr_deriv ?_
  unfold line'
  ring

theorem continuous_line' (n : ℕ) (c w : ℝ) : Continuous (line' n c w) := by
  unfold line'
  have h1 := continuous_hermiteGaussFun n
  have h2 := continuous_hermiteGaussFun (n + 1)
  fun_prop

theorem integrable_comp {f : ℝ → ℝ} (hf : Integrable f) {w : ℝ} (hw : 0 < w) (c : ℝ) :
    Integrable fun t => f (√2 / w * (t - c)) :=
  (hf.comp_mul_left' (R := √2 / w) (by positivity)).comp_sub_right c

theorem integrable_line (n : ℕ) (c : ℝ) {w : ℝ} (hw : 0 < w) : Integrable (line n c w) :=
  integrable_comp (integrable_hermiteGaussFun n) hw c

theorem integrable_line' (n : ℕ) (c : ℝ) {w : ℝ} (hw : 0 < w) : Integrable (line' n c w) :=
  (integrable_comp ((integrable_mul_hermiteGaussFun n).sub (integrable_hermiteGaussFun (n + 1))) hw c).const_mul _

theorem line_fourier (n : ℕ) (c κ : ℝ) {w : ℝ} (hw : 0 < w) :
    ∫ t : ℝ, (line n c w t : ℂ) * cexp (I * κ * t) =
      √Real.pi * w * I ^ n * hermiteGaussFun n (κ * w / √2) * cexp (I * κ * c) := by
  have h2 : (√2 : ℝ) ≠ 0 := by positivity
  have e : ∀ t : ℝ, (line n c w t : ℂ) * cexp (I * κ * t) =
      (fun y : ℝ => (fun z : ℝ => cexp (I * κ * c) * ((hermiteGaussFun n z : ℂ) * cexp (I * ((κ * w / √2 : ℝ) : ℂ) * z)))
        ((√2 / w) * y)) (t - c) := by
    intro t
    simp only [line]
    have : cexp (I * κ * t) = cexp (I * κ * c) * cexp (I * ((κ * w / √2 : ℝ) : ℂ) * ((√2 / w * (t - c) : ℝ) : ℂ)) := by
      rw [← Complex.exp_add]
      congr 1
      have : (κ * w / √2 : ℝ) * (√2 / w * (t - c)) = κ * (t - c) := by field_simp
      rw [mul_assoc I ((κ * w / √2 : ℝ) : ℂ), ← ofReal_mul, this]
      push_cast
      ring
    rw [this]
    ring
  simp only [e]
  rw [integral_sub_right_eq_self (fun y : ℝ => (fun z : ℝ => cexp (I * κ * c) * ((hermiteGaussFun n z : ℂ) *
      cexp (I * ((κ * w / √2 : ℝ) : ℂ) * z))) ((√2 / w) * y)) c,
    Measure.integral_comp_mul_left (fun z : ℝ => cexp (I * κ * c) * ((hermiteGaussFun n z : ℂ) *
      cexp (I * ((κ * w / √2 : ℝ) : ℂ) * z))), integral_const_mul]
  have := hermiteFT_eq n (κ * w / √2)
  unfold hermiteFT at this
  rw [this, inv_div, abs_of_pos (by positivity), real_smul, Real.sqrt_mul (by norm_num)]
  have h2' : ((√2 : ℝ) : ℂ) ≠ 0 := by exact_mod_cast h2
  push_cast
  field_simp

/-- Sums over fine pixels that reach far enough approximate the Fourier integral, uniformly in the frequency. -/
theorem oscillating_sum {f f' : ℝ → ℂ} (hd : ∀ t, HasDerivAt f (f' t) t) (hc : Continuous f') (hf : Integrable f)
    (hf' : Integrable f') {ε K : ℝ} (hε : 0 < ε) :
    ∃ δ > 0, ∃ T : ℝ, 0 ≤ T ∧ ∀ (κ a h : ℝ) (N : ℕ) (p : ℕ → ℝ), |κ| ≤ K → 0 ≤ h → h ≤ δ →
      (∀ k < N, p k ∈ Set.Icc (a + k * h) (a + (k + 1) * h)) → a ≤ -T → T ≤ a + N * h →
      ‖∑ k ∈ range N, (h : ℂ) * (f (p k) * cexp (I * κ * p k)) - ∫ t : ℝ, f t * cexp (I * κ * t)‖ ≤ ε := by
  set V := ∫ t, ‖f' t‖
  set M := ∫ t, ‖f t‖
  have hV : 0 ≤ V := integral_nonneg fun _ => norm_nonneg _
  have hM : 0 ≤ M := integral_nonneg fun _ => norm_nonneg _
  have htail : ∃ T : ℝ, 0 ≤ T ∧ M - ∫ t in -T..T, ‖f t‖ ≤ ε / 2 := by
    have h1 : Filter.Tendsto (fun T : ℝ => ∫ t in -T..T, ‖f t‖) Filter.atTop (nhds M) :=
      intervalIntegral_tendsto_integral hf.norm Filter.tendsto_neg_atTop_atBot Filter.tendsto_id
    have h2 := (h1.eventually (lt_mem_nhds (show M - ε / 2 < M by linarith))).and (Filter.eventually_ge_atTop 0)
    obtain ⟨T, hT, hT'⟩ := h2.exists
    exact ⟨T, hT', by linarith⟩
  obtain ⟨T, hT, htail⟩ := htail
  refine ⟨ε / 2 / (V + |K| * M + 1), by positivity, T, hT, fun κ a h N p hκ hh hδ hp hl hr => ?_⟩
  have hcf : Continuous f := continuous_iff_continuousAt.mpr fun t => (hd t).continuousAt
  have hg : ∀ t, HasDerivAt (fun t : ℝ => f t * cexp (I * κ * t)) (f' t * cexp (I * κ * t) + f t * (I * κ * cexp (I * κ * t))) t :=
    fun t => (hd t).mul (phase_deriv κ t)
  have hcg : Continuous fun t : ℝ => f' t * cexp (I * κ * t) + f t * (I * κ * cexp (I * κ * t)) := by fun_prop
  have hle : ∀ t : ℝ, ‖f' t * cexp (I * κ * t) + f t * (I * κ * cexp (I * κ * t))‖ ≤ ‖f' t‖ + |K| * ‖f t‖ := by
    intro t
    refine (norm_add_le _ _).trans (add_le_add ?_ ?_)
    · rw [norm_mul, norm_phase, mul_one]
    · rw [norm_mul, norm_mul, norm_phase, mul_one, norm_mul, norm_I, one_mul, norm_real, Real.norm_eq_abs, mul_comm]
      exact mul_le_mul_of_nonneg_right (hκ.trans (le_abs_self K)) (norm_nonneg _)
  have hbound : Integrable fun t => ‖f' t‖ + |K| * ‖f t‖ := hf'.norm.add (hf.norm.const_mul _)
  have hi : Integrable fun t : ℝ => ‖f' t * cexp (I * κ * t) + f t * (I * κ * cexp (I * κ * t))‖ := by
    refine hbound.mono' hcg.norm.aestronglyMeasurable (Filter.Eventually.of_forall fun t => ?_)
    rw [norm_norm]
    exact hle t
  have h1 := Riemann.deriv_bound hg hcg hi hh hp
  have h2 : ∫ t : ℝ, ‖f' t * cexp (I * κ * t) + f t * (I * κ * cexp (I * κ * t))‖ ≤ V + |K| * M := by
    refine (integral_mono hi hbound hle).trans_eq ?_
    rw [integral_add hf'.norm (hf.norm.const_mul _), integral_const_mul]
  have h3 : h * ∫ t : ℝ, ‖f' t * cexp (I * κ * t) + f t * (I * κ * cexp (I * κ * t))‖ ≤ ε / 2 := by
    refine (mul_le_mul hδ h2 (integral_nonneg fun _ => norm_nonneg _) (by positivity)).trans ?_
    rw [div_mul_eq_mul_div, div_le_iff₀ (by positivity)]
    exact mul_le_mul_of_nonneg_left (by linarith) (by positivity)
  have hle' : a ≤ a + N * h := by have := mul_nonneg (Nat.cast_nonneg (α := ℝ) N) hh; linarith
  have h4 : ‖(∫ t in a..a + N * h, f t * cexp (I * κ * t)) - ∫ t : ℝ, f t * cexp (I * κ * t)‖ ≤ ε / 2 := by
    rw [intervalIntegral.integral_of_le hle']
    have hsplit := integral_add_compl (μ := (volume : Measure ℝ)) (measurableSet_Ioc (a := a) (b := a + N * h)) (integrable_phase hf κ)
    rw [← hsplit, sub_add_cancel_left, norm_neg]
    refine (norm_integral_le_integral_norm _).trans ?_
    simp only [norm_mul, norm_phase, mul_one]
    have hs2 := integral_add_compl (μ := (volume : Measure ℝ)) (measurableSet_Ioc (a := a) (b := a + N * h)) hf.norm
    have hs3 : ∫ t in -T..T, ‖f t‖ ≤ ∫ t in Set.Ioc a (a + N * h), ‖f t‖ := by
      rw [intervalIntegral.integral_of_le (by linarith)]
      exact setIntegral_mono_set hf.norm.integrableOn (Filter.Eventually.of_forall fun _ => norm_nonneg _)
        (Filter.Eventually.of_forall (Set.Ioc_subset_Ioc hl hr))
    have hM' : (∫ t in Set.Ioc a (a + N * h), ‖f t‖) + ∫ t in (Set.Ioc a (a + N * h))ᶜ, ‖f t‖ = M := hs2
    linarith
  calc _ = ‖(∑ k ∈ range N, (h : ℂ) * (f (p k) * cexp (I * κ * p k)) - ∫ t in a..a + N * h, f t * cexp (I * κ * t)) +
        ((∫ t in a..a + N * h, f t * cexp (I * κ * t)) - ∫ t : ℝ, f t * cexp (I * κ * t))‖ := by congr 1; ring
    _ ≤ ε / 2 + ε / 2 := (norm_add_le _ _).trans (add_le_add (h1.trans h3) h4)
    _ = ε := by ring

end PySLM2.Profile
