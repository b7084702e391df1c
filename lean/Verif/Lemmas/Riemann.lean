import Verif.Lemmas.Analysis
import Mathlib.MeasureTheory.Integral.DominatedConvergence
import Mathlib.MeasureTheory.Measure.Lebesgue.VolumeOfBalls
import Mathlib.Analysis.SpecialFunctions.Complex.Arg

/-!
# Aperture sums as Riemann sums
-/

noncomputable section

open Finset MeasureTheory Filter Topology

namespace PySLM2.Analysis

open Spec

/-- The centre of the pixel containing the point `R p`, divided by `R`. -/
def centre (M N : ℕ) (R : ℝ) (p : ℝ × ℝ) : ℝ × ℝ :=
  (((⌊R * p.1 + N / 2⌋ : ℝ) - ((N : ℝ) - 1) / 2) / R, (((M : ℝ) - 1) / 2 - ⌊(M : ℝ) / 2 - R * p.2⌋) / R)

theorem centre_dist {M N : ℕ} {R : ℝ} (hR : 0 < R) (p : ℝ × ℝ) : dist (centre M N R p) p ≤ 1 / (2 * R) := by
  rw [Prod.dist_eq]
  refine max_le ?_ ?_
  · rw [Real.dist_eq]
    have h1 := Int.floor_le (R * p.1 + N / 2)
    have h2 := Int.lt_floor_add_one (R * p.1 + N / 2)
    have e : (centre M N R p).1 - p.1 = ((⌊R * p.1 + N / 2⌋ : ℝ) - ((N : ℝ) - 1) / 2 - R * p.1) / R := by
      simp only [centre]; field_simp
    rw [e, abs_div, abs_of_pos hR, div_le_div_iff₀ hR (by positivity)]
    have : |(⌊R * p.1 + N / 2⌋ : ℝ) - ((N : ℝ) - 1) / 2 - R * p.1| ≤ 1 / 2 := by
      rw [abs_le]; constructor <;> linarith
    nlinarith
  · rw [Real.dist_eq]
    have h1 := Int.floor_le ((M : ℝ) / 2 - R * p.2)
    have h2 := Int.lt_floor_add_one ((M : ℝ) / 2 - R * p.2)
    have e : (centre M N R p).2 - p.2 = (((M : ℝ) - 1) / 2 - ⌊(M : ℝ) / 2 - R * p.2⌋ - R * p.2) / R := by
      simp only [centre]; field_simp
    rw [e, abs_div, abs_of_pos hR, div_le_div_iff₀ hR (by positivity)]
    have : |((M : ℝ) - 1) / 2 - ⌊(M : ℝ) / 2 - R * p.2⌋ - R * p.2| ≤ 1 / 2 := by
      rw [abs_le]; constructor <;> linarith
    nlinarith

/-- The square of pixel `(i, j)`. -/
def cell (M N : ℕ) (R : ℝ) (ij : ℕ × ℕ) : Set (ℝ × ℝ) :=
  {p | ⌊R * p.1 + N / 2⌋ = (ij.2 : ℤ) ∧ ⌊(M : ℝ) / 2 - R * p.2⌋ = (ij.1 : ℤ)}

theorem cell_eq {M N : ℕ} {R : ℝ} (hR : 0 < R) (ij : ℕ × ℕ) : cell M N R ij =
    Set.Ico (((ij.2 : ℝ) - N / 2) / R) (((ij.2 : ℝ) - N / 2 + 1) / R) ×ˢ
      Set.Ioc (((M : ℝ) / 2 - ij.1 - 1) / R) (((M : ℝ) / 2 - ij.1) / R) := by
  ext p
  simp only [cell, Set.mem_setOf_eq, Set.mem_prod, Set.mem_Ico, Set.mem_Ioc, Int.floor_eq_iff, Int.cast_natCast,
    div_le_iff₀ hR, lt_div_iff₀ hR, div_lt_iff₀ hR, le_div_iff₀ hR]
  constructor
  · rintro ⟨⟨h1, h2⟩, h3, h4⟩
    refine ⟨⟨?_, ?_⟩, ?_, ?_⟩ <;> linarith
  · rintro ⟨⟨h1, h2⟩, h3, h4⟩
    refine ⟨⟨?_, ?_⟩, ?_, ?_⟩ <;> linarith

theorem cell_measurable {M N : ℕ} {R : ℝ} (hR : 0 < R) (ij : ℕ × ℕ) : MeasurableSet (cell M N R ij) := by
  rw [cell_eq hR]
  exact measurableSet_Ico.prod measurableSet_Ioc

theorem cell_volume {M N : ℕ} {R : ℝ} (hR : 0 < R) (ij : ℕ × ℕ) : volume.real (cell M N R ij) = 1 / R ^ 2 := by
  rw [cell_eq hR, Measure.real, Measure.volume_eq_prod, Measure.prod_prod, Real.volume_Ico, Real.volume_Ioc,
    ENNReal.toReal_mul]
  have e1 : ((ij.2 : ℝ) - N / 2 + 1) / R - ((ij.2 : ℝ) - N / 2) / R = 1 / R := by ring
  have e2 : ((M : ℝ) / 2 - ij.1) / R - ((M : ℝ) / 2 - ij.1 - 1) / R = 1 / R := by ring
  rw [e1, e2, ENNReal.toReal_ofReal (by positivity)]
  ring

theorem cell_finite {M N : ℕ} {R : ℝ} (hR : 0 < R) (ij : ℕ × ℕ) : volume (cell M N R ij) ≠ ⊤ := by
  rw [cell_eq hR, Measure.volume_eq_prod, Measure.prod_prod, Real.volume_Ico, Real.volume_Ioc]
  exact ENNReal.mul_ne_top ENNReal.ofReal_ne_top ENNReal.ofReal_ne_top

/-- The open unit disc. -/
def unitDisc : Set (ℝ × ℝ) := {z | z.1 ^ 2 + z.2 ^ 2 < 1}

theorem unitDisc_open : IsOpen unitDisc := isOpen_lt (by fun_prop) continuous_const

/-- The step function of the aperture sum. -/
def stepFun (M N : ℕ) (R : ℝ) (F : ℝ × ℝ → ℝ) (p : ℝ × ℝ) : ℝ :=
  Set.indicator unitDisc F (centre M N R p)

theorem stepFun_eq {M N : ℕ} {R : ℝ} (hR : 0 < R) (hM : 2 * R ≤ M) (hN : 2 * R ≤ N) (F : ℝ × ℝ → ℝ) (p : ℝ × ℝ) :
    stepFun M N R F p =
      ∑ ij ∈ disc M N R, Set.indicator (cell M N R ij) (fun _ => F (pixelX N ij.2 / R, pixelY M ij.1 / R)) p := by
  unfold stepFun
  have hsq : ∀ x y : ℝ, (x / R) ^ 2 + (y / R) ^ 2 < 1 ↔ x ^ 2 + y ^ 2 < R ^ 2 := by
    intro x y
    rw [div_pow, div_pow, ← add_div, div_lt_one (by positivity)]
  by_cases hc : centre M N R p ∈ unitDisc
  · rw [Set.indicator_of_mem hc]
    have hc' := hc
    simp only [unitDisc, centre, Set.mem_setOf_eq, hsq] at hc'
    have bx : |(⌊R * p.1 + N / 2⌋ : ℝ) - ((N : ℝ) - 1) / 2| < R := by
      rw [← sq_lt_sq₀ (abs_nonneg _) hR.le, sq_abs]
      nlinarith [sq_nonneg (((M : ℝ) - 1) / 2 - ⌊(M : ℝ) / 2 - R * p.2⌋)]
    have by_ : |((M : ℝ) - 1) / 2 - ⌊(M : ℝ) / 2 - R * p.2⌋| < R := by
      rw [← sq_lt_sq₀ (abs_nonneg _) hR.le, sq_abs]
      nlinarith [sq_nonneg ((⌊R * p.1 + N / 2⌋ : ℝ) - ((N : ℝ) - 1) / 2)]
    rw [abs_lt] at bx by_
    obtain ⟨j, hj⟩ : ∃ j : ℕ, ⌊R * p.1 + N / 2⌋ = (j : ℤ) := by
      refine Int.eq_ofNat_of_zero_le ?_
      have : (-1 : ℝ) < ⌊R * p.1 + N / 2⌋ := by linarith [bx.1]
      have : (-1 : ℤ) < ⌊R * p.1 + N / 2⌋ := by exact_mod_cast this
      omega
    obtain ⟨i, hi⟩ : ∃ i : ℕ, ⌊(M : ℝ) / 2 - R * p.2⌋ = (i : ℤ) := by
      refine Int.eq_ofNat_of_zero_le ?_
      have : (-1 : ℝ) < ⌊(M : ℝ) / 2 - R * p.2⌋ := by linarith [by_.2]
      have : (-1 : ℤ) < ⌊(M : ℝ) / 2 - R * p.2⌋ := by exact_mod_cast this
      omega
    rw [hj, hi] at hc'
    rw [hj] at bx
    rw [hi] at by_
    push_cast at hc' bx by_
    have hjN : j < N := by
      have : (j : ℝ) < N := by linarith [bx.2]
      exact_mod_cast this
    have hiM : i < M := by
      have : (i : ℝ) < M := by linarith [by_.1]
      exact_mod_cast this
    have hmem : (i, j) ∈ disc M N R := mem_disc.mpr ⟨⟨hiM, hjN⟩, hc'⟩
    rw [Finset.sum_eq_single_of_mem _ hmem]
    · rw [Set.indicator_of_mem (show p ∈ cell M N R (i, j) from ⟨hj, hi⟩)]
      simp only [centre, hj, hi, pixelX, pixelY, Int.cast_natCast]
    · rintro ⟨i', j'⟩ _ hne
      refine Set.indicator_of_notMem ?_ _
      rintro ⟨h1, h2⟩
      rw [hj] at h1
      rw [hi] at h2
      simp only [Nat.cast_inj] at h1 h2
      exact hne (by rw [h1, h2])
  · rw [Set.indicator_of_notMem hc, eq_comm]
    refine Finset.sum_eq_zero fun ij hij => Set.indicator_of_notMem ?_ _
    rintro ⟨h1, h2⟩
    refine hc ?_
    simp only [unitDisc, centre, h1, h2, Set.mem_setOf_eq, hsq, Int.cast_natCast]
    exact (mem_disc.mp hij).2

theorem stepFun_integral {M N : ℕ} {R : ℝ} (hR : 0 < R) (hM : 2 * R ≤ M) (hN : 2 * R ≤ N) (F : ℝ × ℝ → ℝ) :
    ∫ p, stepFun M N R F p = (∑ ij ∈ disc M N R, F (pixelX N ij.2 / R, pixelY M ij.1 / R)) / R ^ 2 := by
  simp only [stepFun_eq hR hM hN]
  rw [integral_finset_sum]
  · rw [Finset.sum_div]
    refine Finset.sum_congr rfl fun ij _ => ?_
    rw [integral_indicator_const _ (cell_measurable hR ij), cell_volume hR, smul_eq_mul]
    ring
  · intro ij _
    exact (integrable_indicator_iff (cell_measurable hR ij)).mpr (integrableOn_const (cell_finite hR ij))

theorem stepFun_measurable {M N : ℕ} {R : ℝ} (hR : 0 < R) (hM : 2 * R ≤ M) (hN : 2 * R ≤ N) (F : ℝ × ℝ → ℝ) :
    AEStronglyMeasurable (stepFun M N R F) volume := by
  have : stepFun M N R F = fun p => ∑ ij ∈ disc M N R, Set.indicator (cell M N R ij) (fun _ => F (pixelX N ij.2 / R, pixelY M ij.1 / R)) p :=
    funext fun p => stepFun_eq hR hM hN F p
  rw [this]
  refine Measurable.aestronglyMeasurable ?_
  exact Finset.measurable_sum _ fun ij _ => measurable_const.indicator (cell_measurable hR ij)

/-- The unit circle has no area. -/
theorem circle_null : volume {z : ℝ × ℝ | z.1 ^ 2 + z.2 ^ 2 = 1} = 0 := by
  have hmeas : MeasurableSet {z : ℝ × ℝ | z.1 ^ 2 + z.2 ^ 2 = 1} := measurableSet_eq_fun (by fun_prop) (by fun_prop)
  rw [Measure.volume_eq_prod, Measure.measure_prod_null hmeas]
  refine Eventually.of_forall fun x => ?_
  refine Set.Finite.measure_zero (Set.Finite.subset (Set.toFinite {√(1 - x ^ 2), -√(1 - x ^ 2)}) ?_) _
  intro y hy
  simp only [Set.mem_preimage, Set.mem_setOf_eq] at hy
  have hy' : y ^ 2 = 1 - x ^ 2 := by linarith
  rw [← hy', Real.sqrt_sq_eq_abs]
  rcases abs_cases y with ⟨h, _⟩ | ⟨h, _⟩ <;> simp [h]

/-- **Aperture sums converge to integrals over the disc.** -/
theorem riemann {M N : ℕ → ℕ} {R : ℕ → ℝ} (hRt : Tendsto R atTop atTop) (hM : ∀ k, 2 * R k ≤ M k) (hN : ∀ k, 2 * R k ≤ N k)
    (F : ℝ × ℝ → ℝ) {C : ℝ} (hC : ∀ z ∈ unitDisc, |F z| ≤ C) (hF : ∀ᵐ z, ContinuousAt F z) :
    Tendsto (fun k => (∑ ij ∈ disc (M k) (N k) (R k), F (pixelX (N k) ij.2 / R k, pixelY (M k) ij.1 / R k)) / R k ^ 2) atTop
      (𝓝 (∫ z in unitDisc, F z)) := by
  have hC0 : 0 ≤ C := (abs_nonneg _).trans (hC (0, 0) (by simp [unitDisc]))
  have hpos : ∀ᶠ k in atTop, 1 ≤ R k := hRt.eventually_ge_atTop 1
  have hlim : Tendsto (fun k => ∫ p, stepFun (M k) (N k) (R k) F p) atTop (𝓝 (∫ z, Set.indicator unitDisc F z)) := by
    refine tendsto_integral_filter_of_dominated_convergence
      (fun p => Set.indicator (Set.Icc (-2, -2) (2, 2)) (fun _ => C) p) ?_ ?_ ?_ ?_
    · filter_upwards [hpos] with k hk
      exact stepFun_measurable (by linarith) (hM k) (hN k) F
    · filter_upwards [hpos] with k hk
      refine Eventually.of_forall fun p => ?_
      unfold stepFun
      by_cases hc : centre (M k) (N k) (R k) p ∈ unitDisc
      · rw [Set.indicator_of_mem hc, Set.indicator_of_mem]
        · exact hC _ hc
        · have hd := centre_dist (M := M k) (N := N k) (R := R k) (by linarith) p
          have h2 : 1 / (2 * R k) ≤ 1 := by
            rw [div_le_one (by linarith)]
            linarith
          rw [Prod.dist_eq, max_le_iff, Real.dist_eq, Real.dist_eq] at hd
          have hc1 : |(centre (M k) (N k) (R k) p).1| ≤ 1 := by
            rw [← sq_le_one_iff_abs_le_one]
            have := hc
            simp only [unitDisc, Set.mem_setOf_eq] at this
            nlinarith [sq_nonneg (centre (M k) (N k) (R k) p).2]
          have hc2 : |(centre (M k) (N k) (R k) p).2| ≤ 1 := by
            rw [← sq_le_one_iff_abs_le_one]
            have := hc
            simp only [unitDisc, Set.mem_setOf_eq] at this
            nlinarith [sq_nonneg (centre (M k) (N k) (R k) p).1]
          rw [abs_le] at hc1 hc2
          have hd1 := abs_le.mp (hd.1.trans h2)
          have hd2 := abs_le.mp (hd.2.trans h2)
          refine ⟨⟨?_, ?_⟩, ⟨?_, ?_⟩⟩ <;> simp only <;> linarith [hc1.1, hc1.2, hc2.1, hc2.2, hd1.1, hd1.2, hd2.1, hd2.2]
      · rw [Set.indicator_of_notMem hc, norm_zero]
        exact Set.indicator_nonneg (fun _ _ => hC0) _
    · refine (integrable_indicator_iff measurableSet_Icc).mpr (integrableOn_const ?_)
      exact isCompact_Icc.measure_lt_top.ne
    · have hcirc : ∀ᵐ z : ℝ × ℝ, z.1 ^ 2 + z.2 ^ 2 ≠ 1 := by
        rw [ae_iff]
        simpa using circle_null
      filter_upwards [hF, hcirc] with p hp hne
      have hcen : Tendsto (fun k => centre (M k) (N k) (R k) p) atTop (𝓝 p) := by
        rw [tendsto_iff_dist_tendsto_zero]
        have h0 : Tendsto (fun k => 1 / (2 * R k)) atTop (𝓝 0) := by
          have := (hRt.const_mul_atTop (show (0 : ℝ) < 2 by norm_num)).inv_tendsto_atTop
          refine this.congr fun k => ?_
          simp [one_div]
        refine squeeze_zero' (Eventually.of_forall fun k => dist_nonneg) ?_ h0
        filter_upwards [hpos] with k hk
        exact centre_dist (by linarith) p
      have hcont : ContinuousAt (Set.indicator unitDisc F) p := by
        rcases lt_or_gt_of_ne hne with h | h
        · refine hp.congr ?_
          filter_upwards [unitDisc_open.mem_nhds h] with z hz
          rw [Set.indicator_of_mem hz]
        · have hopen : IsOpen {z : ℝ × ℝ | 1 < z.1 ^ 2 + z.2 ^ 2} := isOpen_lt continuous_const (by fun_prop)
          refine (continuousAt_const (y := (0 : ℝ))).congr ?_
          filter_upwards [hopen.mem_nhds h] with z hz
          rw [Set.indicator_of_notMem]
          intro hz'
          exact absurd hz' (not_lt.mpr (le_of_lt hz))
      exact hcont.tendsto.comp hcen
  rw [integral_indicator unitDisc_open.measurableSet] at hlim
  refine hlim.congr' ?_
  filter_upwards [hpos] with k hk
  exact stepFun_integral (by linarith) (hM k) (hN k) F

end PySLM2.Analysis
