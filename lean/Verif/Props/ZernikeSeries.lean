import Verif.Lemmas.ZernikeSeries2

/-!
# Zernike decomposition of arbitrary phases (C178)

`phaseMap φ M N R` is a phase `φ` on the unit disc, sampled on the pixels of an `M x N` array with an aperture of `R` pixels.
-/

noncomputable section

open Finset Filter Topology

namespace PySLM2.Analysis

open Spec

/-- The coefficients and the reconstructed map, inside the aperture. -/
theorem decomposition_value {M N : ℕ} {R : ℝ} (hR : 0 < R) {f : ℕ → ℕ → ℝ} {T : ℕ} {ex : Bool} {d : List ℝ × (ℕ → ℕ → ℝ)}
    (h : zernikeDecomposition M N R T ex f = some d) :
    (∀ l < T, d.1.getD l 0 = discMean M N R (fun i j => f i j * sampledMode M N R (ansi l).1 (ansi l).2 i j)) ∧
    ∀ ij ∈ disc M N R, d.2 ij.1 ij.2 = ∑ l ∈ range T, d.1.getD l 0 * sampledMode M N R (ansi l).1 (ansi l).2 ij.1 ij.2 := by
  obtain ⟨hlen, hval, hrec⟩ := (C71_structure hR f T ex).2 d h
  refine ⟨fun l hl => ?_, fun ij hij => ?_⟩
  · rw [List.getD_eq_getElem _ _ (by omega), hval]
  · rw [hrec, if_neg]
    rintro ⟨-, h2⟩
    exact absurd (mem_disc.mp hij).2 (not_lt.mpr h2.le)

variable {M N : ℕ → ℕ} {R : ℕ → ℝ}

/-- **C178.** For every phase, the coefficients that `zernike_decomposition` returns for its samples tend to the Zernike coefficients of the
phase as the radius (in pixels) grows. -/
theorem C178_coefficients (hpos : ∀ k, 0 < R k) (hRt : Tendsto R atTop atTop) (hM : ∀ k, 2 * R k ≤ M k) (hN : ∀ k, 2 * R k ≤ N k)
    {φ : ℝ × ℝ → ℝ} (hφ : IsPhase φ) (T : ℕ) (ex : Bool) (d : ℕ → List ℝ × (ℕ → ℕ → ℝ))
    (hd : ∀ k, zernikeDecomposition (M k) (N k) (R k) T ex (phaseMap φ (M k) (N k) (R k)) = some (d k)) {idx : ℕ} (hidx : idx < T) :
    Tendsto (fun k => (d k).1.getD idx 0) atTop (𝓝 (zernikeCoefficient φ (ansi idx).1 (ansi idx).2)) :=
  (proj_limit hRt hM hN hφ idx).congr fun k => ((decomposition_value (hpos k) (hd k)).1 idx hidx).symm

/-- **C178.** The mean square over the aperture of what the reconstructed map misses tends to the mean square of the phase minus the squares
of its Zernike coefficients. -/
theorem C178_residual (hpos : ∀ k, 0 < R k) (hRt : Tendsto R atTop atTop) (hM : ∀ k, 2 * R k ≤ M k) (hN : ∀ k, 2 * R k ≤ N k)
    {φ : ℝ × ℝ → ℝ} (hφ : IsPhase φ) (T : ℕ) (ex : Bool) (d : ℕ → List ℝ × (ℕ → ℕ → ℝ))
    (hd : ∀ k, zernikeDecomposition (M k) (N k) (R k) T ex (phaseMap φ (M k) (N k) (R k)) = some (d k)) :
    Tendsto (fun k => discMean (M k) (N k) (R k) (fun i j => (phaseMap φ (M k) (N k) (R k) i j - (d k).2 i j) ^ 2)) atTop
      (𝓝 (discAverage (fun z => φ z ^ 2) - ∑ l ∈ range T, zernikeCoefficient φ (ansi l).1 (ansi l).2 ^ 2)) := by
  have h := residual_limit hRt hM hN hφ T (fun k l => (d k).1.getD l 0) (fun l => zernikeCoefficient φ (ansi l).1 (ansi l).2)
    (fun l hl => C178_coefficients hpos hRt hM hN hφ T ex d hd hl)
  have e : discAverage (fun z => φ z ^ 2) - 2 * ∑ l ∈ range T, zernikeCoefficient φ (ansi l).1 (ansi l).2 * zernikeCoefficient φ (ansi l).1 (ansi l).2
      + ∑ l ∈ range T, zernikeCoefficient φ (ansi l).1 (ansi l).2 ^ 2 =
      discAverage (fun z => φ z ^ 2) - ∑ l ∈ range T, zernikeCoefficient φ (ansi l).1 (ansi l).2 ^ 2 := by
    have : ∑ l ∈ range T, zernikeCoefficient φ (ansi l).1 (ansi l).2 * zernikeCoefficient φ (ansi l).1 (ansi l).2 =
        ∑ l ∈ range T, zernikeCoefficient φ (ansi l).1 (ansi l).2 ^ 2 := Finset.sum_congr rfl fun l _ => (sq _).symm
    rw [this]
    ring
  rw [e] at h
  refine h.congr fun k => discMean_congr fun ij hij => ?_
  rw [(decomposition_value (hpos k) (hd k)).2 ij hij]

/-- **C178.** With enough terms and pixels the reconstructed map is as close to the phase as one likes. -/
theorem C178_complete (hpos : ∀ k, 0 < R k) (hRt : Tendsto R atTop atTop) (hM : ∀ k, 2 * R k ≤ M k) (hN : ∀ k, 2 * R k ≤ N k)
    {φ : ℝ × ℝ → ℝ} (hφ : IsPhase φ) {ε : ℝ} (hε : 0 < ε) : ∃ T0, ∀ T, T0 ≤ T → ∀ (ex : Bool) (d : ℕ → List ℝ × (ℕ → ℕ → ℝ)),
      (∀ k, zernikeDecomposition (M k) (N k) (R k) T ex (phaseMap φ (M k) (N k) (R k)) = some (d k)) →
      ∀ᶠ k in atTop, discMean (M k) (N k) (R k) (fun i j => (phaseMap φ (M k) (N k) (R k) i j - (d k).2 i j) ^ 2) < ε := by
  obtain ⟨T0, h0⟩ := series_complete hφ hε
  exact ⟨T0, fun T hT ex d hd => (C178_residual hpos hRt hM hN hφ T ex d hd).eventually_lt_const (h0 T hT)⟩

/-- **C178.** No combination of these modes is closer to the phase (in the mean over the disc) than the one with its Zernike coefficients. -/
theorem C178_best {φ : ℝ × ℝ → ℝ} (hφ : IsPhase φ) (T : ℕ) (b : ℕ → ℝ) :
    discAverage (fun z => φ z ^ 2) - ∑ l ∈ range T, zernikeCoefficient φ (ansi l).1 (ansi l).2 ^ 2 ≤
      discAverage (fun z => (φ z - ∑ l ∈ range T, b l * (zernikeNorm (ansi l).1 (ansi l).2 * zernikeMode (ansi l).1 (ansi l).2 1 z.1 z.2)) ^ 2) := by
  have h : discAverage (fun z => (φ z - ∑ l ∈ range T, b l * (zernikeNorm (ansi l).1 (ansi l).2 * zernikeMode (ansi l).1 (ansi l).2 1 z.1 z.2)) ^ 2) = _ :=
    average_residual hφ T b
  rw [h]
  have h3 : 0 ≤ ∑ l ∈ range T, (b l - zernikeCoefficient φ (ansi l).1 (ansi l).2) ^ 2 := Finset.sum_nonneg fun _ _ => sq_nonneg _
  have h4 : ∑ l ∈ range T, (b l - zernikeCoefficient φ (ansi l).1 (ansi l).2) ^ 2 = ∑ l ∈ range T, b l ^ 2
      - 2 * ∑ l ∈ range T, b l * zernikeCoefficient φ (ansi l).1 (ansi l).2 + ∑ l ∈ range T, zernikeCoefficient φ (ansi l).1 (ansi l).2 ^ 2 := by
    rw [Finset.mul_sum, ← Finset.sum_sub_distrib, ← Finset.sum_add_distrib]
    exact Finset.sum_congr rfl fun l _ => by ring
  linarith

/-- C178: the hypotheses hold for square arrays with the inscribed aperture and the phase step of a half plane (a phase with an edge). -/
example (T : ℕ) : IsPhase (fun z => if 0 ≤ z.1 then Real.pi else 0) ∧ (∀ k : ℕ, (0 : ℝ) < (k : ℝ) + 1) ∧
    Tendsto (fun k : ℕ => (k : ℝ) + 1) atTop atTop ∧ (∀ k : ℕ, 2 * ((k : ℝ) + 1) ≤ ((2 * k + 2 : ℕ) : ℝ)) ∧
    ∀ k : ℕ, ∃ d, zernikeDecomposition (2 * k + 2) (2 * k + 2) ((k : ℝ) + 1) T true
      (phaseMap (fun z => if 0 ≤ z.1 then Real.pi else 0) (2 * k + 2) (2 * k + 2) ((k : ℝ) + 1)) = some d := by
  refine ⟨⟨⟨Real.pi, fun z _ => ?_⟩, ?_⟩, fun k => by positivity, arrays.1, arrays.2, fun k => ?_⟩
  · split_ifs
    · rw [abs_of_pos Real.pi_pos]
    · rw [abs_zero]
      exact Real.pi_pos.le
  · have hax : ∀ᵐ z : ℝ × ℝ, z.1 ≠ 0 := by
      rw [MeasureTheory.ae_iff]
      have hset : {z : ℝ × ℝ | ¬ z.1 ≠ 0} = {(0 : ℝ)} ×ˢ Set.univ := by
        ext z
        simp
      rw [hset, MeasureTheory.Measure.volume_eq_prod, MeasureTheory.Measure.prod_prod]
      simp
    filter_upwards [hax] with z hz _
    rcases lt_or_gt_of_ne hz with h | h
    · refine (continuousAt_const (y := (0 : ℝ))).congr ?_
      filter_upwards [(isOpen_lt continuous_fst continuous_const : IsOpen {z : ℝ × ℝ | z.1 < 0}).mem_nhds h] with w hw
      rw [if_neg (not_le.mpr hw)]
    · refine (continuousAt_const (y := Real.pi)).congr ?_
      filter_upwards [(isOpen_lt continuous_const continuous_fst : IsOpen {z : ℝ × ℝ | 0 < z.1}).mem_nhds h] with w hw
      rw [if_pos (le_of_lt hw)]
  · have hk : (0 : ℝ) ≤ k := Nat.cast_nonneg k
    exact (C71_structure (by positivity) _ T true).1 (disc_ne_empty (by linarith) (arrays.2 k) (arrays.2 k))

end PySLM2.Analysis
