import Verif.Props.Analysis
import Verif.Lemmas.Gram

/-!
# Phase map analysis in the limit of fine pixels (C70, C72)
-/

noncomputable section

open Finset Filter Topology

namespace PySLM2.Analysis

open Spec

/-- **C70, limit.** For arrays that contain the aperture, what `remove_trivial_phase` leaves of a bounded tilt tends to
zero as the radius (in pixels) grows, whatever the phase maps and array sizes. -/
theorem C70_limit {M N : ℕ → ℕ} {R : ℕ → ℝ} (hpos : ∀ k, 0 < R k) (hRt : Tendsto R atTop atTop) (hM : ∀ k, 2 * R k ≤ M k)
    (hN : ∀ k, 2 * R k ≤ N k) {m : ℤ} (hm : m = 1 ∨ m = -1) (f r : ℕ → ℕ → ℕ → ℝ)
    (hr : ∀ k, removeTrivialPhase (M k) (N k) (R k) false (f k) = some (r k)) {B : ℝ}
    (hB : ∀ k, |discMean (M k) (N k) (R k) (fun i j => f k i j * sampledMode (M k) (N k) (R k) 1 m i j)| ≤ B) :
    Tendsto (fun k => discMean (M k) (N k) (R k) (fun i j => r k i j * sampledMode (M k) (N k) (R k) 1 m i j)) atTop (𝓝 0) := by
  have hv : ZernikeIndex 1 m := by rcases hm with rfl | rfl; exacts [valid1p, valid1m]
  have hg := gram_limit hRt hM hN hv hv
  rw [if_pos ⟨rfl, rfl⟩] at hg
  have hfac : Tendsto (fun k => 1 - discMean (M k) (N k) (R k) (fun i j => sampledMode (M k) (N k) (R k) 1 m i j ^ 2)) atTop (𝓝 0) := by
    have := hg.const_sub 1
    rw [sub_self] at this
    refine this.congr fun k => ?_
    congr 1
    exact discMean_congr fun ij _ => (sq _).symm
  have hprod : Tendsto (fun k => |1 - discMean (M k) (N k) (R k) (fun i j => sampledMode (M k) (N k) (R k) 1 m i j ^ 2)| * B) atTop (𝓝 0) := by
    have := hfac.abs.mul_const B
    simpa using this
  refine squeeze_zero_norm (fun k => ?_) hprod
  rw [C70_partial (hpos k) (f k) (hr k) hm, Real.norm_eq_abs, abs_mul]
  exact mul_le_mul_of_nonneg_left (hB k) (abs_nonneg _)

/-- **C72, limit.** For arrays that contain the aperture, the coefficients `zernike_decomposition` returns for
synthesised maps tend to the original ones as the radius (in pixels) grows: for every number of terms, every
coefficient vector, and every sequence of array sizes. -/
theorem C72_limit {M N : ℕ → ℕ} {R : ℕ → ℝ} (hpos : ∀ k, 0 < R k) (hRt : Tendsto R atTop atTop) (hM : ∀ k, 2 * R k ≤ M k)
    (hN : ∀ k, 2 * R k ≤ N k) (T : ℕ) (a : ℕ → ℝ) (ex : Bool) (d : ℕ → List ℝ × (ℕ → ℕ → ℝ))
    (hd : ∀ k, zernikeDecomposition (M k) (N k) (R k) T ex (synthesised (M k) (N k) (R k) T a) = some (d k))
    {idx : ℕ} (hidx : idx < T) : Tendsto (fun k => (d k).1.getD idx 0) atTop (𝓝 (a idx)) := by
  have h1 : ∀ k, (d k).1.getD idx 0 = _ := fun k => (C72_partial (hpos k) T a ex (hd k)).1 idx hidx
  simp only [h1]
  have h2 : Tendsto (fun k => ∑ l ∈ Finset.range T, a l * discMean (M k) (N k) (R k) (fun i j =>
      sampledMode (M k) (N k) (R k) (ansi l).1 (ansi l).2 i j * sampledMode (M k) (N k) (R k) (ansi idx).1 (ansi idx).2 i j)) atTop
      (𝓝 (∑ l ∈ Finset.range T, a l * if (ansi l).1 = (ansi idx).1 ∧ (ansi l).2 = (ansi idx).2 then 1 else 0)) :=
    tendsto_finset_sum _ fun l _ => (gram_limit hRt hM hN (C66_bijection.1 l) (C66_bijection.1 idx)).const_mul _
  have h3 : ∑ l ∈ Finset.range T, a l * (if (ansi l).1 = (ansi idx).1 ∧ (ansi l).2 = (ansi idx).2 then (1 : ℝ) else 0) = a idx := by
    rw [Finset.sum_eq_single_of_mem idx (Finset.mem_range.mpr hidx)]
    · simp
    · intro l _ hne
      rw [if_neg, mul_zero]
      rintro ⟨h4, h5⟩
      exact hne (C66_bijection.2.2.1 l idx (Prod.ext h4 h5))
  rwa [h3] at h2

/-- The aperture of a large array is not empty. -/
theorem disc_ne_empty {M N : ℕ} {R : ℝ} (hR : 1 ≤ R) (hM : 2 * R ≤ M) (hN : 2 * R ≤ N) : disc M N R ≠ ∅ := by
  refine Finset.ne_empty_of_mem (a := (M / 2, N / 2)) (mem_disc.mpr ?_)
  have hM0 : 0 < M := by
    have : (0 : ℝ) < M := by linarith
    exact_mod_cast this
  have hN0 : 0 < N := by
    have : (0 : ℝ) < N := by linarith
    exact_mod_cast this
  refine ⟨⟨by simp only; omega, by simp only; omega⟩, ?_⟩
  have half : ∀ n : ℕ, |((n / 2 : ℕ) : ℝ) - ((n : ℝ) - 1) / 2| ≤ 1 / 2 := by
    intro n
    rcases Nat.even_or_odd n with ⟨q, rfl⟩ | ⟨q, rfl⟩
    · have : (q + q) / 2 = q := by omega
      rw [this]
      push_cast
      rw [abs_le]
      constructor <;> linarith
    · have : (2 * q + 1) / 2 = q := by omega
      rw [this]
      push_cast
      rw [abs_le]
      constructor <;> linarith
  have h1 := half N
  have h2 := half M
  simp only [pixelX, pixelY]
  have h1' := sq_le_sq' (abs_le.mp h1).1 (abs_le.mp h1).2
  have h2' := sq_le_sq' (abs_le.mp h2).1 (abs_le.mp h2).2
  nlinarith

/-- C70, C72: the hypotheses hold for square arrays of `2k + 2` pixels with the inscribed aperture. -/
example (T : ℕ) (a : ℕ → ℝ) : (∀ k : ℕ, (0 : ℝ) < (k : ℝ) + 1) ∧ Tendsto (fun k : ℕ => (k : ℝ) + 1) atTop atTop ∧
    (∀ k : ℕ, 2 * ((k : ℝ) + 1) ≤ ((2 * k + 2 : ℕ) : ℝ)) ∧
    ∀ k : ℕ, ∃ d, zernikeDecomposition (2 * k + 2) (2 * k + 2) ((k : ℝ) + 1) T false
      (synthesised (2 * k + 2) (2 * k + 2) ((k : ℝ) + 1) T a) = some d := by
  refine ⟨fun k => by positivity, tendsto_natCast_atTop_atTop.atTop_add tendsto_const_nhds, fun k => by push_cast; linarith, fun k => ?_⟩
  have hk : (0 : ℝ) ≤ k := Nat.cast_nonneg k
  refine (C71_structure (by positivity) _ T false).1 (disc_ne_empty (by linarith) ?_ ?_) <;> (push_cast; linarith)

end PySLM2.Analysis
