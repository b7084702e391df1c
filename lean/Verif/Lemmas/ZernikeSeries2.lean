import Verif.Lemmas.ZernikeSeries
import Verif.Spec.ZernikeSeries
import Verif.Props.AnalysisLimit
import Mathlib.MeasureTheory.Function.ContinuousMapDense

/-!
# Averages over the disc and over the pixels
-/

noncomputable section

open Finset MeasureTheory Filter Topology

namespace PySLM2.Analysis

open Spec

theorem unit_closed {z : ℝ × ℝ} (hz : z ∈ unitDisc) : z ∈ closedDisc := le_of_lt (show z.1 ^ 2 + z.2 ^ 2 < 1 from hz)

theorem off_circle : ∀ᵐ z : ℝ × ℝ, z.1 ^ 2 + z.2 ^ 2 ≠ 1 := by
  rw [ae_iff]
  simpa using circle_null

theorem phase_indicator {φ : ℝ × ℝ → ℝ} (h : IsPhase φ) : ∀ᵐ z, ContinuousAt (Set.indicator unitDisc φ) z := by
  filter_upwards [h.continuous, off_circle] with p hp hne
  rcases lt_or_gt_of_ne hne with h | h
  · refine (hp h).congr ?_
    filter_upwards [unitDisc_open.mem_nhds h] with z hz
    rw [Set.indicator_of_mem hz]
  · have hopen : IsOpen {z : ℝ × ℝ | 1 < z.1 ^ 2 + z.2 ^ 2} := isOpen_lt continuous_const (by fun_prop)
    refine (continuousAt_const (y := (0 : ℝ))).congr ?_
    filter_upwards [hopen.mem_nhds h] with z hz
    rw [Set.indicator_of_notMem]
    intro hz'
    exact absurd hz' (not_lt.mpr (le_of_lt hz))

theorem scaled_mem {M N : ℕ} {R : ℝ} (hR : 0 < R) {ij : ℕ × ℕ} (hij : ij ∈ disc M N R) :
    ((pixelX N ij.2 / R, pixelY M ij.1 / R) : ℝ × ℝ) ∈ unitDisc := by
  show (pixelX N ij.2 / R) ^ 2 + (pixelY M ij.1 / R) ^ 2 < 1
  rw [div_pow, div_pow, ← add_div, div_lt_one (by positivity)]
  exact (mem_disc.mp hij).2

/-- Averages over the pixels of the aperture tend to averages over the disc. -/
theorem mean_limit {M N : ℕ → ℕ} {R : ℕ → ℝ} (hRt : Tendsto R atTop atTop) (hM : ∀ k, 2 * R k ≤ M k) (hN : ∀ k, 2 * R k ≤ N k)
    {F : ℝ × ℝ → ℝ} (hF : IsPhase F) :
    Tendsto (fun k => discMean (M k) (N k) (R k) (phaseMap F (M k) (N k) (R k))) atTop (𝓝 (discAverage F)) := by
  obtain ⟨C, hC⟩ := hF.bounded
  have hnum := riemann hRt hM hN (Set.indicator unitDisc F) (C := C)
    (fun z hz => by rw [Set.indicator_of_mem hz]; exact hC z hz) (phase_indicator hF)
  have hden := riemann hRt hM hN (fun _ => 1) (C := 1) (fun z _ => by simp) (Eventually.of_forall fun z => continuousAt_const)
  have hone : ∫ z in unitDisc, (1 : ℝ) = Real.pi := by
    have hsets : unitDisc =ᵐ[volume] {z : ℝ × ℝ | z.1 ^ 2 + z.2 ^ 2 ≤ 1 ^ 2} := by
      filter_upwards [off_circle] with z hz
      refine propext ?_
      show z.1 ^ 2 + z.2 ^ 2 < 1 ↔ z.1 ^ 2 + z.2 ^ 2 ≤ 1 ^ 2
      rw [one_pow]
      exact ⟨le_of_lt, fun h => lt_of_le_of_ne h hz⟩
    have h := Profile.disc_orth valid00 valid00 one_pos
    simp only [and_self, if_true, zernikeMode00, mul_one, one_pow] at h
    rw [setIntegral_congr_set hsets]
    rw [one_pow]
    rw [h]
    simp [zernikeNorm]
  rw [hone] at hden
  have hq := hnum.div hden Real.pi_ne_zero
  have hval : (∫ z in unitDisc, Set.indicator unitDisc F z) / Real.pi = discAverage F := by
    unfold discAverage
    rw [div_eq_inv_mul, ← one_div]
    congr 1
    exact setIntegral_congr_fun unitDisc_open.measurableSet fun z hz => Set.indicator_of_mem hz F
  rw [hval] at hq
  refine hq.congr' ?_
  filter_upwards [hRt.eventually_gt_atTop 0] with k hk
  have hk2 : R k ^ 2 ≠ 0 := by positivity
  rw [Pi.div_apply, div_div_div_cancel_right₀ hk2]
  unfold discMean
  congr 1
  · exact Finset.sum_congr rfl fun ij hij => Set.indicator_of_mem (scaled_mem hk hij) F
  · simp

theorem _root_.PySLM2.Spec.IsPhase.of_continuous {F : ℝ × ℝ → ℝ} (h : Continuous F) : IsPhase F := by
  refine ⟨?_, Eventually.of_forall fun z _ => h.continuousAt⟩
  obtain ⟨C, hC⟩ := closedDisc_compact.exists_bound_of_continuousOn h.continuousOn
  exact ⟨C, fun z hz => hC z (le_of_lt hz)⟩

theorem _root_.PySLM2.Spec.IsPhase.mul {F G : ℝ × ℝ → ℝ} (hF : IsPhase F) (hG : IsPhase G) : IsPhase fun z => F z * G z := by
  obtain ⟨C, hC⟩ := hF.bounded
  obtain ⟨D, hD⟩ := hG.bounded
  refine ⟨⟨C * D, fun z hz => ?_⟩, ?_⟩
  · rw [abs_mul]
    exact mul_le_mul (hC z hz) (hD z hz) (abs_nonneg _) ((abs_nonneg _).trans (hC z hz))
  · filter_upwards [hF.continuous, hG.continuous] with z h1 h2 hz
    exact (h1 hz).mul (h2 hz)

theorem _root_.PySLM2.Spec.IsPhase.sub {F G : ℝ × ℝ → ℝ} (hF : IsPhase F) (hG : IsPhase G) : IsPhase fun z => F z - G z := by
  obtain ⟨C, hC⟩ := hF.bounded
  obtain ⟨D, hD⟩ := hG.bounded
  refine ⟨⟨C + D, fun z hz => (abs_sub _ _).trans (add_le_add (hC z hz) (hD z hz))⟩, ?_⟩
  filter_upwards [hF.continuous, hG.continuous] with z h1 h2 hz
  exact (h1 hz).sub (h2 hz)

theorem _root_.PySLM2.Spec.IsPhase.sq {F : ℝ × ℝ → ℝ} (hF : IsPhase F) : IsPhase fun z => F z ^ 2 := by
  simp only [pow_two]
  exact hF.mul hF

theorem unitMode_phase (l : ℕ) : IsPhase (unitMode (ansi l).1 (ansi l).2) :=
  IsPhase.of_continuous (unitMode_continuous (C66_bijection.1 l))

/-- An array of `2k + 2` pixels with the inscribed aperture. -/
theorem arrays : Tendsto (fun k : ℕ => (k : ℝ) + 1) atTop atTop ∧ (∀ k : ℕ, 2 * ((k : ℝ) + 1) ≤ ((2 * k + 2 : ℕ) : ℝ)) :=
  ⟨tendsto_natCast_atTop_atTop.atTop_add tendsto_const_nhds, fun k => by push_cast; linarith⟩

theorem phase_measurable {φ : ℝ × ℝ → ℝ} (h : IsPhase φ) : AEStronglyMeasurable (Set.indicator unitDisc φ) volume := by
  have hpos : ∀ k : ℕ, (0 : ℝ) < (k : ℝ) + 1 := fun k => by positivity
  refine aestronglyMeasurable_of_tendsto_ae (atTop : Filter ℕ)
    (f := fun k => stepFun (2 * k + 2) (2 * k + 2) ((k : ℝ) + 1) φ)
    (fun k => stepFun_measurable (hpos k) (arrays.2 k) (arrays.2 k) φ) ?_
  filter_upwards [phase_indicator h] with p hp
  have hcen : Tendsto (fun k : ℕ => centre (2 * k + 2) (2 * k + 2) ((k : ℝ) + 1) p) atTop (𝓝 p) := by
    rw [tendsto_iff_dist_tendsto_zero]
    have h0 : Tendsto (fun k : ℕ => 1 / (2 * ((k : ℝ) + 1))) atTop (𝓝 0) := by
      have := (arrays.1.const_mul_atTop (show (0 : ℝ) < 2 by norm_num)).inv_tendsto_atTop
      refine this.congr fun k => ?_
      simp [one_div]
    exact squeeze_zero (fun k => dist_nonneg) (fun k => centre_dist (hpos k) p) h0
  exact hp.tendsto.comp hcen

/-- The average of the squares of the differences to a combination of modes. -/
theorem sq_expand {M N : ℕ} {R : ℝ} (f : ℕ → ℕ → ℝ) (z : ℕ → ℕ → ℕ → ℝ) (a : ℕ → ℝ) (T : ℕ) :
    discMean M N R (fun i j => (f i j - ∑ l ∈ range T, a l * z l i j) ^ 2) = discMean M N R (fun i j => f i j ^ 2)
      - 2 * ∑ l ∈ range T, a l * discMean M N R (fun i j => f i j * z l i j)
      + ∑ l ∈ range T, ∑ k ∈ range T, a l * a k * discMean M N R (fun i j => z l i j * z k i j) := by
  have e1 : ∑ l ∈ range T, a l * discMean M N R (fun i j => f i j * z l i j) =
      discMean M N R (fun i j => ∑ l ∈ range T, a l * (f i j * z l i j)) := by
    rw [discMean_sum]
    exact Finset.sum_congr rfl fun l _ => (discMean_mul _ _).symm
  have e2 : ∑ l ∈ range T, ∑ k ∈ range T, a l * a k * discMean M N R (fun i j => z l i j * z k i j) =
      discMean M N R (fun i j => ∑ l ∈ range T, ∑ k ∈ range T, a l * a k * (z l i j * z k i j)) := by
    rw [discMean_sum]
    refine Finset.sum_congr rfl fun l _ => ?_
    rw [discMean_sum]
    exact Finset.sum_congr rfl fun k _ => (discMean_mul _ _).symm
  rw [e1, e2, ← discMean_mul, ← discMean_sub, ← discMean_add]
  refine discMean_congr fun ij _ => ?_
  have h1 : ∑ l ∈ range T, a l * (f ij.1 ij.2 * z l ij.1 ij.2) = f ij.1 ij.2 * ∑ l ∈ range T, a l * z l ij.1 ij.2 := by
    rw [Finset.mul_sum]
    exact Finset.sum_congr rfl fun l _ => by ring
  have h2 : ∑ l ∈ range T, ∑ k ∈ range T, a l * a k * (z l ij.1 ij.2 * z k ij.1 ij.2) = (∑ l ∈ range T, a l * z l ij.1 ij.2) ^ 2 := by
    rw [pow_two, Finset.sum_mul_sum]
    exact Finset.sum_congr rfl fun l _ => Finset.sum_congr rfl fun k _ => by ring
  simp only [h1, h2]
  ring

theorem sampled_scale {M N : ℕ} {R : ℝ} (hR : 0 < R) (n m : ℤ) (i j : ℕ) :
    sampledMode M N R n m i j = phaseMap (unitMode n m) M N R i j := by
  unfold sampledMode phaseMap unitMode
  rw [zernikeMode_scale n m hR]

/-- The projections tend to the coefficients. -/
theorem proj_limit {M N : ℕ → ℕ} {R : ℕ → ℝ} (hRt : Tendsto R atTop atTop) (hM : ∀ k, 2 * R k ≤ M k) (hN : ∀ k, 2 * R k ≤ N k)
    {φ : ℝ × ℝ → ℝ} (hφ : IsPhase φ) (l : ℕ) :
    Tendsto (fun k => discMean (M k) (N k) (R k) (fun i j => phaseMap φ (M k) (N k) (R k) i j *
      sampledMode (M k) (N k) (R k) (ansi l).1 (ansi l).2 i j)) atTop (𝓝 (zernikeCoefficient φ (ansi l).1 (ansi l).2)) := by
  refine (mean_limit hRt hM hN (hφ.mul (unitMode_phase l))).congr' ?_
  filter_upwards [hRt.eventually_gt_atTop 0] with k hk
  refine discMean_congr fun ij _ => ?_
  rw [sampled_scale hk]
  rfl

/-- The mean square differences to combinations of modes whose coefficients converge. -/
theorem residual_limit {M N : ℕ → ℕ} {R : ℕ → ℝ} (hRt : Tendsto R atTop atTop) (hM : ∀ k, 2 * R k ≤ M k) (hN : ∀ k, 2 * R k ≤ N k)
    {φ : ℝ × ℝ → ℝ} (hφ : IsPhase φ) (T : ℕ) (a : ℕ → ℕ → ℝ) (b : ℕ → ℝ) (ha : ∀ l < T, Tendsto (fun k => a k l) atTop (𝓝 (b l))) :
    Tendsto (fun k => discMean (M k) (N k) (R k) (fun i j => (phaseMap φ (M k) (N k) (R k) i j -
      ∑ l ∈ range T, a k l * sampledMode (M k) (N k) (R k) (ansi l).1 (ansi l).2 i j) ^ 2)) atTop
      (𝓝 (discAverage (fun z => φ z ^ 2) - 2 * ∑ l ∈ range T, b l * zernikeCoefficient φ (ansi l).1 (ansi l).2 + ∑ l ∈ range T, b l ^ 2)) := by
  simp_rw [sq_expand]
  refine ((mean_limit hRt hM hN hφ.sq).sub (Tendsto.const_mul 2 (tendsto_finset_sum _ fun l hl =>
    (ha l (Finset.mem_range.mp hl)).mul (proj_limit hRt hM hN hφ l)))).add ?_
  have h : ∑ l ∈ range T, b l ^ 2 = ∑ l ∈ range T, ∑ k ∈ range T, b l * b k *
      if (ansi l).1 = (ansi k).1 ∧ (ansi l).2 = (ansi k).2 then (1 : ℝ) else 0 := by
    refine Finset.sum_congr rfl fun l hl => ?_
    rw [Finset.sum_eq_single_of_mem l hl]
    · simp [pow_two]
    · intro k _ hne
      rw [if_neg, mul_zero]
      rintro ⟨h4, h5⟩
      exact hne (C66_bijection.2.2.1 k l (Prod.ext h4.symm h5.symm))
  rw [h]
  exact tendsto_finset_sum _ fun l hl => tendsto_finset_sum _ fun k hk =>
    ((ha l (Finset.mem_range.mp hl)).mul (ha k (Finset.mem_range.mp hk))).mul (gram_limit hRt hM hN (C66_bijection.1 l) (C66_bijection.1 k))

/-- Continuous functions are close to phases in the mean. -/
theorem phase_near {φ : ℝ × ℝ → ℝ} (hφ : IsPhase φ) {ε : ℝ} (hε : 0 < ε) :
    ∃ g : ℝ × ℝ → ℝ, Continuous g ∧ discAverage (fun z => (φ z - g z) ^ 2) ≤ ε := by
  obtain ⟨C, hC⟩ := hφ.bounded
  have hlp : MemLp (Set.indicator unitDisc φ) (ENNReal.ofReal 2) volume := by
    have h1 : MemLp (fun z => Set.indicator unitDisc φ z) (ENNReal.ofReal 2) (volume.restrict closedDisc) := by
      haveI : IsFiniteMeasure (volume.restrict closedDisc) := ⟨by
        rw [Measure.restrict_apply_univ]
        exact closedDisc_compact.measure_lt_top⟩
      refine MemLp.of_bound (phase_measurable hφ).restrict C (Eventually.of_forall fun z => ?_)
      have hC0 : 0 ≤ C := (abs_nonneg _).trans (hC (0, 0) (by simp))
      by_cases hz : z ∈ unitDisc
      · rw [Set.indicator_of_mem hz]
        exact hC z hz
      · rw [Set.indicator_of_notMem hz, norm_zero]
        exact hC0
    have h2 := (memLp_indicator_iff_restrict (closedDisc_compact.measurableSet)).mpr h1
    have h3 : closedDisc.indicator (fun z => Set.indicator unitDisc φ z) = Set.indicator unitDisc φ := by
      rw [Set.indicator_indicator]
      congr 1
      exact Set.inter_eq_right.mpr fun z hz => unit_closed hz
    rwa [h3] at h2
  obtain ⟨g, -, hg, hgc, hgm⟩ := hlp.exists_hasCompactSupport_integral_rpow_sub_le (p := 2) (by norm_num) (ε := Real.pi * ε) (by positivity)
  refine ⟨g, hgc, ?_⟩
  unfold discAverage
  rw [one_div, inv_mul_le_iff₀ Real.pi_pos]
  refine le_trans ?_ hg
  have hi : Integrable (fun z => ‖Set.indicator unitDisc φ z - g z‖ ^ (2 : ℝ)) volume := by
    have := (hlp.sub hgm).integrable_norm_rpow (by simp) (by simp)
    simpa using this
  calc ∫ z in {z : ℝ × ℝ | z.1 ^ 2 + z.2 ^ 2 < 1}, (φ z - g z) ^ 2
      = ∫ z in unitDisc, ‖Set.indicator unitDisc φ z - g z‖ ^ (2 : ℝ) := by
        refine setIntegral_congr_fun unitDisc_open.measurableSet fun z hz => ?_
        simp only [Set.indicator_of_mem (show z ∈ unitDisc from hz)]
        rw [Real.rpow_two, Real.norm_eq_abs, sq_abs]
    _ ≤ ∫ z, ‖Set.indicator unitDisc φ z - g z‖ ^ (2 : ℝ) :=
        setIntegral_le_integral hi (Eventually.of_forall fun z => by positivity)

theorem discAverage_le {F G : ℝ × ℝ → ℝ} (hF : IsPhase F) (hG : IsPhase G) (h : ∀ z ∈ unitDisc, F z ≤ G z) : discAverage F ≤ discAverage G := by
  refine le_of_tendsto_of_tendsto (mean_limit arrays.1 arrays.2 arrays.2 hF) (mean_limit arrays.1 arrays.2 arrays.2 hG)
    (Eventually.of_forall fun k => ?_)
  exact div_le_div_of_nonneg_right (Finset.sum_le_sum fun ij hij => h _ (scaled_mem (by positivity) hij)) (Nat.cast_nonneg _)

/-- The mean square difference to any combination of modes. -/
theorem average_residual {φ : ℝ × ℝ → ℝ} (hφ : IsPhase φ) (T : ℕ) (b : ℕ → ℝ) :
    discAverage (fun z => (φ z - ∑ l ∈ range T, b l * unitMode (ansi l).1 (ansi l).2 z) ^ 2) =
      discAverage (fun z => φ z ^ 2) - 2 * ∑ l ∈ range T, b l * zernikeCoefficient φ (ansi l).1 (ansi l).2 + ∑ l ∈ range T, b l ^ 2 := by
  have hv : IsPhase fun z => ∑ l ∈ range T, b l * unitMode (ansi l).1 (ansi l).2 z :=
    IsPhase.of_continuous (continuous_finset_sum _ fun l _ => continuous_const.mul (unitMode_continuous (C66_bijection.1 l)))
  refine tendsto_nhds_unique (mean_limit arrays.1 arrays.2 arrays.2 (hφ.sub hv).sq)
    ((residual_limit arrays.1 arrays.2 arrays.2 hφ T (fun _ => b) b fun l _ => tendsto_const_nhds).congr fun k => ?_)
  refine discMean_congr fun ij _ => ?_
  simp only [sampled_scale (show (0 : ℝ) < (k : ℝ) + 1 by positivity)]
  rfl

/-- **The series converges to the phase in the mean.** -/
theorem series_complete {φ : ℝ × ℝ → ℝ} (hφ : IsPhase φ) {ε : ℝ} (hε : 0 < ε) :
    ∃ T0, ∀ T, T0 ≤ T → discAverage (fun z => φ z ^ 2) - ∑ l ∈ range T, zernikeCoefficient φ (ansi l).1 (ansi l).2 ^ 2 < ε := by
  obtain ⟨g, hgc, hg⟩ := phase_near hφ (ε := ε / 8) (by linarith)
  obtain ⟨T0, a, ha⟩ := modes_dense' hgc.continuousOn (ε := √(ε / 8)) (Real.sqrt_pos.mpr (by linarith))
  have hvc : Continuous fun z => ∑ l ∈ range T0, a l * unitMode (ansi l).1 (ansi l).2 z :=
    continuous_finset_sum _ fun l _ => continuous_const.mul (unitMode_continuous (C66_bijection.1 l))
  have hv := IsPhase.of_continuous hvc
  have hgp := IsPhase.of_continuous hgc
  have h1 : discAverage (fun z => (φ z - ∑ l ∈ range T0, a l * unitMode (ansi l).1 (ansi l).2 z) ^ 2) ≤
      ε / 2 := by
    have hsum : Tendsto (fun k : ℕ => 2 * discMean (2 * k + 2) (2 * k + 2) ((k : ℝ) + 1) (phaseMap (fun z => (φ z - g z) ^ 2) (2 * k + 2) (2 * k + 2) ((k : ℝ) + 1))
        + 2 * discMean (2 * k + 2) (2 * k + 2) ((k : ℝ) + 1) (phaseMap (fun _ => ε / 8) (2 * k + 2) (2 * k + 2) ((k : ℝ) + 1))) atTop
        (𝓝 (2 * discAverage (fun z => (φ z - g z) ^ 2) + 2 * discAverage (fun _ => ε / 8))) :=
      ((mean_limit arrays.1 arrays.2 arrays.2 (hφ.sub hgp).sq).const_mul 2).add
        ((mean_limit arrays.1 arrays.2 arrays.2 (IsPhase.of_continuous continuous_const)).const_mul 2)
    have hconst : discAverage (fun _ => ε / 8) = ε / 8 := by
      refine tendsto_nhds_unique (mean_limit arrays.1 arrays.2 arrays.2 (IsPhase.of_continuous continuous_const)) ?_
      refine tendsto_const_nhds.congr fun k => ?_
      refine (discMean_const (disc_ne_empty ?_ (arrays.2 k) (arrays.2 k)) (ε / 8)).symm
      have : (0 : ℝ) ≤ k := Nat.cast_nonneg k
      linarith
    refine (le_of_tendsto_of_tendsto (mean_limit arrays.1 arrays.2 arrays.2 (hφ.sub hv).sq) hsum (Eventually.of_forall fun k => ?_)).trans ?_
    · beta_reduce
      rw [← discMean_mul, ← discMean_mul, ← discMean_add]
      refine div_le_div_of_nonneg_right (Finset.sum_le_sum fun ij hij => ?_) (Nat.cast_nonneg _)
      have h2 := ha _ (unit_closed (scaled_mem (show (0 : ℝ) < (k : ℝ) + 1 by positivity) hij))
      unfold phaseMap
      beta_reduce
      generalize ((pixelX (2 * k + 2) ij.2 / ((k : ℝ) + 1), pixelY (2 * k + 2) ij.1 / ((k : ℝ) + 1)) : ℝ × ℝ) = z at h2 ⊢
      have h3 : (g z - ∑ l ∈ range T0, a l * unitMode (ansi l).1 (ansi l).2 z) ^ 2 ≤ ε / 8 := by
        rw [← sq_abs, ← Real.sq_sqrt (show 0 ≤ ε / 8 by linarith)]
        exact pow_le_pow_left₀ (abs_nonneg _) h2.le 2
      generalize (∑ l ∈ range T0, a l * unitMode (ansi l).1 (ansi l).2 z) = v at h3 ⊢
      nlinarith [sq_nonneg ((φ z - g z) - (g z - v))]
    · rw [hconst]
      linarith
  rw [average_residual hφ] at h1
  refine ⟨T0, fun T hT => ?_⟩
  have h2 : ∑ l ∈ range T0, zernikeCoefficient φ (ansi l).1 (ansi l).2 ^ 2 ≤ ∑ l ∈ range T, zernikeCoefficient φ (ansi l).1 (ansi l).2 ^ 2 :=
    Finset.sum_le_sum_of_subset_of_nonneg (Finset.range_mono hT) fun _ _ _ => sq_nonneg _
  have h3 : 0 ≤ ∑ l ∈ range T0, (a l - zernikeCoefficient φ (ansi l).1 (ansi l).2) ^ 2 := Finset.sum_nonneg fun _ _ => sq_nonneg _
  have h4 : ∑ l ∈ range T0, (a l - zernikeCoefficient φ (ansi l).1 (ansi l).2) ^ 2 = ∑ l ∈ range T0, a l ^ 2
      - 2 * ∑ l ∈ range T0, a l * zernikeCoefficient φ (ansi l).1 (ansi l).2 + ∑ l ∈ range T0, zernikeCoefficient φ (ansi l).1 (ansi l).2 ^ 2 := by
    rw [Finset.mul_sum, ← Finset.sum_sub_distrib, ← Finset.sum_add_distrib]
    exact Finset.sum_congr rfl fun l _ => by ring
  linarith

end PySLM2.Analysis
