import Verif.Lemmas.RiemannLine
import Mathlib.Analysis.SpecialFunctions.Gaussian.PoissonSummation
import Mathlib.NumberTheory.ModularForms.JacobiTheta.TwoVariable
import Mathlib.Analysis.SumIntegralComparisons

/-!
# Sums of Gaussians over equidistant points
-/

noncomputable section

open MeasureTheory Finset Complex

namespace PySLM2.Riemann

/-- The `n`th aliasTerm of a Gaussian sampled at `s + kh` -/
def aliasTerm (c w κ s h : ℝ) (n : ℤ) : ℂ :=
  ((√Real.pi * w * Real.exp (-(w ^ 2 * (κ - 2 * Real.pi * n / h) ^ 2 / 4)) : ℝ) : ℂ) *
    cexp (I * ((κ * c + 2 * Real.pi * n * (s - c) / h : ℝ) : ℂ))

theorem norm_alias (c κ s h : ℝ) {w : ℝ} (hw : 0 < w) (n : ℤ) :
    ‖aliasTerm c w κ s h n‖ = √Real.pi * w * Real.exp (-(w ^ 2 * (κ - 2 * Real.pi * n / h) ^ 2 / 4)) := by
  unfold aliasTerm
  rw [norm_mul, mul_comm I, norm_exp_ofReal_mul_I, mul_one, norm_real, Real.norm_eq_abs, abs_of_nonneg (by positivity)]

theorem summable_gauss (c κ s : ℝ) {w h : ℝ} (hw : 0 < w) (hh : 0 < h) : Summable fun k : ℤ => gauss c w κ (s + k * h) := by
  have key := (summable_jacobiTheta₂_term_iff ((((-(2 * (s - c) * h / w ^ 2) : ℝ) : ℂ) + I * κ * h) / (2 * Real.pi * I))
    (((h ^ 2 / (Real.pi * w ^ 2) : ℝ) : ℂ) * I)).mpr (by
      rw [mul_I_im, ofReal_re]
      positivity)
  have := key.mul_left (gauss c w κ s)
  refine this.congr fun k => ?_
  unfold gauss jacobiTheta₂_term
  rw [← Complex.exp_add]
  congr 1
  have hp : (Real.pi : ℂ) ≠ 0 := by exact_mod_cast Real.pi_pos.ne'
  have hw' : (w : ℂ) ≠ 0 := by exact_mod_cast hw.ne'
  push_cast
  field_simp
  ring_nf
  rw [I_sq]
  ring

/-- Poisson summation -/
theorem gauss_tsum (c κ s : ℝ) {w h : ℝ} (hw : 0 < w) (hh : 0 < h) :
    (h : ℂ) * ∑' k : ℤ, gauss c w κ (s + k * h) = ∑' n : ℤ, aliasTerm c w κ s h n := by
  have hp : (Real.pi : ℂ) ≠ 0 := by exact_mod_cast Real.pi_pos.ne'
  have hw' : (w : ℂ) ≠ 0 := by exact_mod_cast hw.ne'
  have hh' : (h : ℂ) ≠ 0 := by exact_mod_cast hh.ne'
  set a : ℝ := h ^ 2 / (Real.pi * w ^ 2) with ha
  have ha0 : 0 < a := by positivity
  set b : ℂ := (((-(2 * (s - c) * h / w ^ 2) : ℝ) : ℂ) + I * κ * h) / (2 * Real.pi) with hb
  have P := Complex.tsum_exp_neg_quadratic (a := a) (by rwa [ofReal_re]) b
  have e1 : ∀ k : ℤ, gauss c w κ (s + k * h) = gauss c w κ s * cexp (-Real.pi * a * k ^ 2 + 2 * Real.pi * b * k) := by
    intro k
    unfold gauss
    rw [← Complex.exp_add, ha, hb]
    congr 1
    push_cast
    field_simp
    ring
  have e2 : ∀ n : ℤ, aliasTerm c w κ s h n = h * (gauss c w κ s * (1 / (a : ℂ) ^ (1 / 2 : ℂ) * cexp (-Real.pi / a * (n + I * b) ^ 2))) := by
    intro n
    have sq : (a : ℂ) ^ (1 / 2 : ℂ) = ((h / (√Real.pi * w) : ℝ) : ℂ) := by
      rw [show (1 / 2 : ℂ) = ((1 / 2 : ℝ) : ℂ) by push_cast; rfl, ← ofReal_cpow ha0.le, ← Real.sqrt_eq_rpow]
      congr 1
      rw [ha, show h ^ 2 / (Real.pi * w ^ 2) = (h / (√Real.pi * w)) ^ 2 by
        rw [div_pow, mul_pow, Real.sq_sqrt Real.pi_pos.le], Real.sqrt_sq (by positivity)]
    rw [sq]
    have e3 : cexp (((-(w ^ 2 * (κ - 2 * Real.pi * n / h) ^ 2 / 4) : ℝ) : ℂ)) *
        cexp (I * ((κ * c + 2 * Real.pi * n * (s - c) / h : ℝ) : ℂ)) = gauss c w κ s * cexp (-Real.pi / a * (n + I * b) ^ 2) := by
      unfold gauss
      rw [← Complex.exp_add, ← Complex.exp_add, ha, hb]
      congr 1
      push_cast
      field_simp
      ring_nf
      simp only [I_sq, I_pow_three, I_pow_four]
      ring
    unfold aliasTerm
    rw [ofReal_mul, ofReal_exp, mul_assoc, e3]
    have hs : ((√Real.pi : ℝ) : ℂ) ≠ 0 := by
      exact_mod_cast (Real.sqrt_pos.mpr Real.pi_pos).ne'
    push_cast
    field_simp
  simp only [e1, e2]
  rw [tsum_mul_left, tsum_mul_left, tsum_mul_left, tsum_mul_left, P]

/-- Samples beyond `T` on the right -/
theorem tail_sum (c : ℝ) {w h T t0 : ℝ} (hw : 0 < w) (hh : 0 < h) (hT : 0 ≤ T) (ht : c + T ≤ t0) :
    Summable (fun n : ℕ => h * Real.exp (-((t0 + (n + 1) * h - c) ^ 2 / w ^ 2))) ∧
    ∑' n : ℕ, h * Real.exp (-((t0 + (n + 1) * h - c) ^ 2 / w ^ 2)) ≤ ∫ t in Set.Ioi (c + T), Real.exp (-((t - c) ^ 2 / w ^ 2)) := by
  have hgi := integrable_gauss_real c hw
  have hb : ∀ N : ℕ, ∑ n ∈ range N, h * Real.exp (-((t0 + (n + 1) * h - c) ^ 2 / w ^ 2)) ≤
      ∫ t in Set.Ioi (c + T), Real.exp (-((t - c) ^ 2 / w ^ 2)) := by
    intro N
    have anti : AntitoneOn (fun x : ℝ => Real.exp (-((t0 + x * h - c) ^ 2 / w ^ 2))) (Set.Icc (0 : ℝ) (0 + N)) := by
      intro x hx y hy hxy
      simp only
      rw [Real.exp_le_exp, neg_le_neg_iff]
      have h1 : 0 ≤ t0 + x * h - c := by
        have := mul_nonneg hx.1 hh.le
        linarith
      gcongr
    have h1 := anti.sum_le_integral
    have h2 := intervalIntegral.integral_comp_mul_add (a := 0) (b := 0 + N) (fun t => Real.exp (-((t - c) ^ 2 / w ^ 2))) hh.ne' t0
    have h3 : ∫ x in (0 : ℝ)..0 + N, Real.exp (-((t0 + x * h - c) ^ 2 / w ^ 2)) =
        h⁻¹ * ∫ t in t0..h * N + t0, Real.exp (-((t - c) ^ 2 / w ^ 2)) := by
      rw [smul_eq_mul] at h2
      simp only [mul_zero, zero_add] at h2 ⊢
      rw [← h2]
      refine intervalIntegral.integral_congr fun x _ => ?_
      congr 3
      ring
    rw [h3] at h1
    have hle : t0 ≤ h * N + t0 := by
      have : 0 ≤ h * (N : ℝ) := by positivity
      linarith
    have h4 : ∫ t in t0..h * N + t0, Real.exp (-((t - c) ^ 2 / w ^ 2)) ≤ ∫ t in Set.Ioi (c + T), Real.exp (-((t - c) ^ 2 / w ^ 2)) := by
      rw [intervalIntegral.integral_of_le hle]
      refine setIntegral_mono_set hgi.integrableOn (Filter.Eventually.of_forall fun _ => (Real.exp_pos _).le) ?_
      exact Filter.Eventually.of_forall fun t htt => lt_of_le_of_lt ht htt.1
    rw [← mul_sum]
    have h5 := mul_le_mul_of_nonneg_left h1 hh.le
    rw [mul_inv_cancel_left₀ hh.ne'] at h5
    refine le_trans (le_of_eq ?_) (h5.trans h4)
    congr 1
    refine sum_congr rfl fun n _ => ?_
    push_cast
    rw [zero_add]
  have hnn : ∀ n : ℕ, 0 ≤ h * Real.exp (-((t0 + (n + 1) * h - c) ^ 2 / w ^ 2)) := fun n => by positivity
  exact ⟨summable_of_sum_range_le hnn hb, Real.tsum_le_of_sum_range_le hnn hb⟩

/-- The aliases other than the 0th -/
theorem alias_sum (c κ s : ℝ) {w h : ℝ} (hw : 0 < w) (hh : 0 < h) (hκ : |κ| * h ≤ Real.pi) :
    ‖∑' n : ℤ, aliasTerm c w κ s h n - aliasTerm c w κ s h 0‖ ≤
      √Real.pi * w * (2 * Real.exp (-(Real.pi * w / (2 * h)) ^ 2) / (1 - Real.exp (-(Real.pi * w / (2 * h)) ^ 2) ^ 4)) := by
  set q := Real.exp (-(Real.pi * w / (2 * h)) ^ 2) with hq
  have hpi := Real.pi_pos
  have hq1 : q < 1 := by
    rw [hq, Real.exp_lt_one_iff, neg_lt_zero]
    positivity
  have hq0 : 0 < q := Real.exp_pos _
  have hq4 : q ^ 4 < 1 := pow_lt_one₀ hq0.le hq1 (by norm_num)
  have hb : ∀ (m : ℕ) (n : ℤ), |(n : ℝ)| = m + 1 → ‖aliasTerm c w κ s h n‖ ≤ √Real.pi * w * q * (q ^ 4) ^ m := by
    intro m n hn
    rw [norm_alias c κ s h hw, mul_assoc (√Real.pi * w) q, ← pow_mul, ← pow_succ', hq, ← Real.exp_nat_mul]
    refine mul_le_mul_of_nonneg_left ?_ (by positivity)
    rw [Real.exp_le_exp]
    have h1 : (2 * m + 1) * (Real.pi / h) ≤ |κ - 2 * Real.pi * n / h| := by
      have h2 : |2 * Real.pi * n / h| = (2 * m + 2) * (Real.pi / h) := by
        rw [abs_div, abs_mul, hn, abs_of_pos hh, abs_of_pos (by positivity : (0 : ℝ) < 2 * Real.pi)]
        ring
      have h3 : |κ| ≤ Real.pi / h := by rwa [le_div_iff₀ hh]
      have h4 := abs_sub_abs_le_abs_sub (2 * Real.pi * n / h) κ
      rw [abs_sub_comm, h2] at h4
      linarith
    have h5 : ((2 * m + 1) * (Real.pi / h)) ^ 2 ≤ (κ - 2 * Real.pi * n / h) ^ 2 := by
      rw [← sq_abs (κ - _)]
      gcongr
    have h6 : ((4 * m + 1 : ℕ) : ℝ) * (Real.pi * w / (2 * h)) ^ 2 ≤ w ^ 2 * ((2 * m + 1) * (Real.pi / h)) ^ 2 / 4 := by
      have : w ^ 2 * ((2 * m + 1) * (Real.pi / h)) ^ 2 / 4 = (2 * m + 1) ^ 2 * (Real.pi * w / (2 * h)) ^ 2 := by
        field_simp
        ring
      rw [this]
      refine mul_le_mul_of_nonneg_right ?_ (sq_nonneg _)
      push_cast
      nlinarith [sq_nonneg (m : ℝ)]
    have h7 : w ^ 2 * ((2 * m + 1) * (Real.pi / h)) ^ 2 / 4 ≤ w ^ 2 * (κ - 2 * Real.pi * n / h) ^ 2 / 4 := by gcongr
    linarith
  have hg : HasSum (fun m : ℕ => √Real.pi * w * q * (q ^ 4) ^ m) (√Real.pi * w * q * (1 - q ^ 4)⁻¹) :=
    (hasSum_geometric_of_lt_one (by positivity) hq4).mul_left _
  have b1 : ∀ m : ℕ, ‖aliasTerm c w κ s h ((m : ℤ) + 1)‖ ≤ √Real.pi * w * q * (q ^ 4) ^ m := fun m =>
    hb m _ (by push_cast; exact abs_of_nonneg (by positivity))
  have b2 : ∀ m : ℕ, ‖aliasTerm c w κ s h (-((m : ℤ) + 1))‖ ≤ √Real.pi * w * q * (q ^ 4) ^ m := fun m =>
    hb m _ (by push_cast; rw [abs_neg]; exact abs_of_nonneg (by positivity))
  have s1 := Summable.of_norm_bounded hg.summable b1
  have s2 := Summable.of_norm_bounded hg.summable b2
  rw [tsum_of_add_one_of_neg_add_one s1 s2]
  have n1 := tsum_of_norm_bounded hg b1
  have n2 := tsum_of_norm_bounded hg b2
  generalize ∑' n : ℕ, aliasTerm c w κ s h ((n : ℤ) + 1) = A at *
  generalize ∑' n : ℕ, aliasTerm c w κ s h (-((n : ℤ) + 1)) = B at *
  rw [show A + aliasTerm c w κ s h 0 + B - aliasTerm c w κ s h 0 = A + B by ring]
  refine (norm_add_le _ _).trans ((add_le_add n1 n2).trans_eq ?_)
  field_simp
  ring

/-- Another bound of the tail -/
theorem mills (c : ℝ) {w T : ℝ} (hw : 0 < w) (hT : 0 < T) :
    ∫ t in Set.Ioi (c + T), Real.exp (-((t - c) ^ 2 / w ^ 2)) ≤ w ^ 2 / (2 * T) * Real.exp (-(T ^ 2 / w ^ 2)) := by
  have hd : ∀ x ∈ Set.Ici (c + T), HasDerivAt (fun t : ℝ => -(w ^ 2 / (2 * T)) * Real.exp (-((t - c) ^ 2 / w ^ 2)))
      ((x - c) / T * Real.exp (-((x - c) ^ 2 / w ^ 2))) x := by
    intro x _
    have h1 : HasDerivAt (fun t : ℝ => -((t - c) ^ 2 / w ^ 2)) (-(2 * (x - c) / w ^ 2)) x := by
      have := ((((hasDerivAt_id x).sub_const c).pow 2).div_const (w ^ 2)).neg
      convert! this using 1
      simp
    have := h1.exp.const_mul (-(w ^ 2 / (2 * T)))
    convert! this using 1
    field_simp
  have hlim : Filter.Tendsto (fun t : ℝ => -(w ^ 2 / (2 * T)) * Real.exp (-((t - c) ^ 2 / w ^ 2))) Filter.atTop (nhds 0) := by
    have h0 : Filter.Tendsto (fun t : ℝ => Real.exp (-((t - c) ^ 2 / w ^ 2))) Filter.atTop (nhds 0) := by
      refine Real.tendsto_exp_atBot.comp (Filter.tendsto_neg_atTop_atBot.comp ?_)
      refine Filter.Tendsto.atTop_div_const (by positivity) ((Filter.tendsto_pow_atTop two_ne_zero).comp ?_)
      exact Filter.tendsto_atTop_add_const_right _ (-c) Filter.tendsto_id
    simpa using h0.const_mul (-(w ^ 2 / (2 * T)))
  have hnn : ∀ x ∈ Set.Ioi (c + T), 0 ≤ (x - c) / T * Real.exp (-((x - c) ^ 2 / w ^ 2)) := fun x hx => by
    have : c + T < x := hx
    have : 0 ≤ x - c := by linarith
    positivity
  have hint := integral_Ioi_of_hasDerivAt_of_nonneg' hd hnn hlim
  have hI := integrableOn_Ioi_deriv_of_nonneg' hd hnn hlim
  refine (setIntegral_mono_on (integrable_gauss_real c hw).integrableOn hI measurableSet_Ioi fun x hx => ?_).trans_eq ?_
  · have h1 : c + T < x := hx
    refine le_mul_of_one_le_left (Real.exp_pos _).le ?_
    rw [one_le_div hT]
    linarith
  · rw [hint, add_sub_cancel_left]
    ring

/-- The sum over the samples in an interval that reaches at least `T` beyond the centre on both sides -/
theorem gauss_sum_poisson (c κ s : ℝ) {w h T : ℝ} (hw : 0 < w) (hh : 0 < h) (hT : 0 ≤ T) {N : ℕ} (hκ : |κ| * h ≤ Real.pi)
    (hl : s ≤ c - T) (hr : c + T ≤ s + (N - 1) * h) :
    ‖∑ k ∈ range N, (h : ℂ) * gauss c w κ (s + k * h) -
      ((√Real.pi * w * Real.exp (-(w ^ 2 * κ ^ 2 / 4)) : ℝ) : ℂ) * cexp (I * κ * c)‖ ≤
      2 * (∫ t in Set.Ioi T, Real.exp (-(t ^ 2 / w ^ 2))) +
      √Real.pi * w * (2 * Real.exp (-(Real.pi * w / (2 * h)) ^ 2) / (1 - Real.exp (-(Real.pi * w / (2 * h)) ^ 2) ^ 4)) := by
  have shift : ∀ c' : ℝ, ∫ t in Set.Ioi (c' + T), Real.exp (-((t - c') ^ 2 / w ^ 2)) = ∫ t in Set.Ioi T, Real.exp (-(t ^ 2 / w ^ 2)) := by
    intro c'
    have := (measurePreserving_add_right (volume : Measure ℝ) c').setIntegral_preimage_emb
      (measurableEmbedding_addRight c') (fun t => Real.exp (-((t - c') ^ 2 / w ^ 2))) (Set.Ioi (c' + T))
    rw [← this, show (fun x : ℝ => x + c') ⁻¹' Set.Ioi (c' + T) = Set.Ioi T by ext x; simp [add_comm]]
    simp
  have hs := summable_gauss c κ s hw hh
  have hsum : ∑' k : ℤ, gauss c w κ (s + k * h) = ∑ k ∈ range N, gauss c w κ (s + k * h) +
      ∑' n : ℕ, gauss c w κ (s + (N - 1) * h + (n + 1) * h) + ∑' n : ℕ, gauss c w κ (s - (n + 1) * h) := by
    have sn : Summable fun n : ℕ => gauss c w κ (s + ((n : ℤ) : ℝ) * h) := hs.comp_injective Nat.cast_injective
    have sm : Summable fun n : ℕ => gauss c w κ (s + ((-((n : ℤ) + 1) : ℤ) : ℝ) * h) :=
      hs.comp_injective (i := fun n : ℕ => -((n : ℤ) + 1)) fun a b hab => by
        have : -((a : ℤ) + 1) = -((b : ℤ) + 1) := hab
        omega
    rw [tsum_of_nat_of_neg_add_one (f := fun k : ℤ => gauss c w κ (s + k * h)) sn sm, ← sn.sum_add_tsum_nat_add N]
    congr 2
    · refine tsum_congr fun n => ?_
      congr 1
      push_cast
      ring
    · funext n
      congr 1
      push_cast
      ring
  obtain ⟨r1, r2⟩ := tail_sum c hw hh hT hr
  obtain ⟨l1, l2⟩ := tail_sum (-c) (t0 := -s) hw hh hT (by linarith)
  have n1 : ‖∑' n : ℕ, (h : ℂ) * gauss c w κ (s + (N - 1) * h + (n + 1) * h)‖ ≤ ∫ t in Set.Ioi T, Real.exp (-(t ^ 2 / w ^ 2)) := by
    rw [← shift c]
    refine (tsum_of_norm_bounded r1.hasSum fun n => ?_).trans r2
    rw [norm_mul, norm_real, Real.norm_eq_abs, abs_of_pos hh, norm_gauss]
  have n2 : ‖∑' n : ℕ, (h : ℂ) * gauss c w κ (s - (n + 1) * h)‖ ≤ ∫ t in Set.Ioi T, Real.exp (-(t ^ 2 / w ^ 2)) := by
    rw [← shift (-c)]
    refine (tsum_of_norm_bounded l1.hasSum fun n => ?_).trans l2
    rw [norm_mul, norm_real, Real.norm_eq_abs, abs_of_pos hh, norm_gauss]
    refine le_of_eq ?_
    congr 4
    ring
  have al := alias_sum c κ s hw hh hκ
  rw [← gauss_tsum c κ s hw hh, hsum] at al
  rw [tsum_mul_left] at n1 n2
  have a0 : aliasTerm c w κ s h 0 = ((√Real.pi * w * Real.exp (-(w ^ 2 * κ ^ 2 / 4)) : ℝ) : ℂ) * cexp (I * κ * c) := by
    unfold aliasTerm
    simp [mul_assoc]
  rw [← a0, ← mul_sum]
  generalize ∑ k ∈ range N, gauss c w κ (s + k * h) = S at *
  generalize ∑' n : ℕ, gauss c w κ (s + (N - 1) * h + (n + 1) * h) = R at *
  generalize ∑' n : ℕ, gauss c w κ (s - (n + 1) * h) = L at *
  generalize ∫ t in Set.Ioi T, Real.exp (-(t ^ 2 / w ^ 2)) = τ at *
  have e : (h : ℂ) * S - aliasTerm c w κ s h 0 = (h * (S + R + L) - aliasTerm c w κ s h 0) + (-(h * R) + -(h * L)) := by ring
  rw [e]
  refine (norm_add_le _ _).trans ?_
  have := norm_add_le (-((h : ℂ) * R)) (-(h * L))
  rw [norm_neg, norm_neg] at this
  linarith

end PySLM2.Riemann
