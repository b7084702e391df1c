import Verif.Lemmas.Riemann

/-!
# Sampled Zernike modes become orthonormal
-/

noncomputable section

open Finset MeasureTheory Filter Topology

namespace PySLM2.Analysis

open Spec

theorem zernikeMode_scale (n m : ℤ) {R : ℝ} (hR : 0 < R) (x y : ℝ) :
    zernikeMode n m R x y = zernikeMode n m 1 (x / R) (y / R) := by
  unfold zernikeMode
  have h1 : √((x / R) ^ 2 + (y / R) ^ 2) / 1 = √(x ^ 2 + y ^ 2) / R := by
    rw [div_pow, div_pow, ← add_div, Real.sqrt_div (by positivity), Real.sqrt_sq hR.le, div_one]
  have h2 : Complex.arg (((x / R : ℝ) : ℂ) + ((y / R : ℝ) : ℂ) * Complex.I) = Complex.arg (x + y * Complex.I) := by
    have : ((x / R : ℝ) : ℂ) + ((y / R : ℝ) : ℂ) * Complex.I = ((1 / R : ℝ) : ℂ) * (x + y * Complex.I) := by
      push_cast
      ring
    rw [this, Complex.arg_real_mul _ (by positivity)]
  rw [h1, h2]

theorem radial_bound (n m : ℕ) : ∃ C, 0 ≤ C ∧ ∀ ρ : ℝ, 0 ≤ ρ → ρ ≤ 1 → |radial n m ρ| ≤ C := by
  refine ⟨∑ k ∈ range ((n - m) / 2 + 1), |(-1) ^ k * ((n - k).factorial : ℝ) /
    ((k.factorial : ℝ) * (((n + m) / 2 - k).factorial : ℝ) * (((n - m) / 2 - k).factorial : ℝ))|,
    Finset.sum_nonneg fun _ _ => abs_nonneg _, fun ρ h0 h1 => ?_⟩
  unfold radial
  refine (Finset.abs_sum_le_sum_abs _ _).trans (Finset.sum_le_sum fun k _ => ?_)
  rw [abs_mul]
  refine mul_le_of_le_one_right (abs_nonneg _) ?_
  rw [abs_of_nonneg (pow_nonneg h0 _)]
  exact pow_le_one₀ h0 h1

theorem angular_bound (m : ℤ) (t : ℝ) : |angular m t| ≤ 1 := by
  unfold angular
  split_ifs
  · exact Real.abs_cos_le_one _
  · exact Real.abs_sin_le_one _

theorem mode_bound (n m : ℤ) : ∃ C, 0 ≤ C ∧ ∀ z ∈ unitDisc, |zernikeMode n m 1 z.1 z.2| ≤ C := by
  obtain ⟨C, hC0, hC⟩ := radial_bound n.toNat m.natAbs
  refine ⟨C, hC0, fun z hz => ?_⟩
  unfold zernikeMode
  rw [abs_mul]
  have h1 : √(z.1 ^ 2 + z.2 ^ 2) / 1 ≤ 1 := by
    rw [div_one]
    exact Real.sqrt_le_iff.mpr ⟨zero_le_one, by rw [one_pow]; exact le_of_lt hz⟩
  calc _ ≤ C * 1 := mul_le_mul (hC _ (by positivity) h1) (angular_bound _ _) (abs_nonneg _) hC0
    _ = C := mul_one C

theorem mode_continuousAt (n m : ℤ) {z : ℝ × ℝ} (hz : z.2 ≠ 0) :
    ContinuousAt (fun z : ℝ × ℝ => zernikeMode n m 1 z.1 z.2) z := by
  unfold zernikeMode
  have hs : ((z.1 : ℂ) + (z.2 : ℂ) * Complex.I) ∈ Complex.slitPlane := by
    rw [Complex.mem_slitPlane_iff]
    right
    simpa using hz
  have harg : ContinuousAt (fun z : ℝ × ℝ => Complex.arg ((z.1 : ℂ) + (z.2 : ℂ) * Complex.I)) z := by
    have hin : ContinuousAt (fun z : ℝ × ℝ => ((z.1 : ℂ) + (z.2 : ℂ) * Complex.I)) z := by fun_prop
    exact ContinuousAt.comp (g := Complex.arg) (Complex.continuousAt_arg hs) hin
  have hrad : Continuous (radial n.toNat m.natAbs) := by
    unfold radial
    fun_prop
  have hang : Continuous (angular m) := by
    unfold angular
    split_ifs <;> fun_prop
  refine ContinuousAt.mul ?_ ?_
  · exact hrad.continuousAt.comp (by fun_prop)
  · exact hang.continuousAt.comp harg

theorem ae_off_axis : ∀ᵐ z : ℝ × ℝ, z.2 ≠ 0 := by
  rw [ae_iff]
  have hset : {z : ℝ × ℝ | ¬ z.2 ≠ 0} = Set.univ ×ˢ {(0 : ℝ)} := by
    ext z
    simp
  rw [hset, Measure.volume_eq_prod, Measure.prod_prod]
  simp

/-- The averages of products of sampled modes. -/
theorem gram_limit {M N : ℕ → ℕ} {R : ℕ → ℝ} (hRt : Tendsto R atTop atTop) (hM : ∀ k, 2 * R k ≤ M k) (hN : ∀ k, 2 * R k ≤ N k)
    {n m n' m' : ℤ} (h : ZernikeIndex n m) (h' : ZernikeIndex n' m') :
    Tendsto (fun k => discMean (M k) (N k) (R k) (fun i j => sampledMode (M k) (N k) (R k) n m i j * sampledMode (M k) (N k) (R k) n' m' i j))
      atTop (𝓝 (if n = n' ∧ m = m' then 1 else 0)) := by
  have hpos : ∀ᶠ k in atTop, 0 < R k := hRt.eventually_gt_atTop 0
  have hsets : unitDisc =ᵐ[volume] {z : ℝ × ℝ | z.1 ^ 2 + z.2 ^ 2 ≤ 1 ^ 2} := by
    have hcirc : ∀ᵐ z : ℝ × ℝ, z.1 ^ 2 + z.2 ^ 2 ≠ 1 := by
      rw [ae_iff]
      simpa using circle_null
    filter_upwards [hcirc] with z hz
    refine propext ?_
    show z.1 ^ 2 + z.2 ^ 2 < 1 ↔ z.1 ^ 2 + z.2 ^ 2 ≤ 1 ^ 2
    rw [one_pow]
    exact ⟨le_of_lt, fun h => lt_of_le_of_ne h hz⟩
  have key : ∀ {n m n' m' : ℤ}, ZernikeIndex n m → ZernikeIndex n' m' →
      Tendsto (fun k => (∑ ij ∈ disc (M k) (N k) (R k), zernikeMode n m 1 (pixelX (N k) ij.2 / R k) (pixelY (M k) ij.1 / R k) *
        zernikeMode n' m' 1 (pixelX (N k) ij.2 / R k) (pixelY (M k) ij.1 / R k)) / R k ^ 2) atTop
        (𝓝 (if n = n' ∧ m = m' then Real.pi * 1 ^ 2 / zernikeNorm n m ^ 2 else 0)) := by
    intro n m n' m' h h'
    obtain ⟨C, hC0, hC⟩ := mode_bound n m
    obtain ⟨C', hC0', hC'⟩ := mode_bound n' m'
    have := riemann hRt hM hN (fun z => zernikeMode n m 1 z.1 z.2 * zernikeMode n' m' 1 z.1 z.2) (C := C * C')
      (fun z hz => by rw [abs_mul]; exact mul_le_mul (hC z hz) (hC' z hz) (abs_nonneg _) hC0)
      (by
        filter_upwards [ae_off_axis] with z hz
        exact (mode_continuousAt n m hz).mul (mode_continuousAt n' m' hz))
    rwa [setIntegral_congr_set hsets, Profile.disc_orth h h' one_pos] at this
  have hnum := key h h'
  have hden := key valid00 valid00
  have hN0 : zernikeNorm 0 0 = 1 := by simp [zernikeNorm]
  simp only [and_self, if_true, hN0, one_pow, mul_one, div_one, zernikeMode00, Finset.sum_const, nsmul_eq_mul] at hden
  have hquot := ((hnum.div hden Real.pi_ne_zero).const_mul (zernikeNorm n m * zernikeNorm n' m'))
  have hval : zernikeNorm n m * zernikeNorm n' m' * ((if n = n' ∧ m = m' then Real.pi * 1 ^ 2 / zernikeNorm n m ^ 2 else 0) / Real.pi) =
      if n = n' ∧ m = m' then 1 else 0 := by
    split_ifs with hc
    · obtain ⟨rfl, rfl⟩ := hc
      have hn : (0 : ℝ) ≤ n := by exact_mod_cast (abs_nonneg m).trans h.1
      have hnz : zernikeNorm n m ≠ 0 := by
        unfold zernikeNorm
        split_ifs
        · exact (Real.sqrt_pos.mpr (by linarith)).ne'
        · exact (Real.sqrt_pos.mpr (by linarith)).ne'
      have hpi := Real.pi_ne_zero
      field_simp
    · simp
  rw [hval] at hquot
  refine hquot.congr' ?_
  filter_upwards [hpos] with k hk
  unfold discMean
  have hk2 : R k ^ 2 ≠ 0 := by positivity
  rw [Pi.div_apply, div_div_div_cancel_right₀ hk2, ← mul_div_assoc, Finset.mul_sum]
  congr 1
  refine Finset.sum_congr rfl fun ij _ => ?_
  simp only [sampledMode]
  rw [zernikeMode_scale n m hk, zernikeMode_scale n' m' hk]
  ring

end PySLM2.Analysis
