import Verif.Model.Analysis
import Verif.Spec.Analysis
import Mathlib.Tactic.Linarith
import Mathlib.Tactic.Positivity
import Mathlib.Tactic.NormNum

/-!
# The ANSI index
-/

noncomputable section

namespace PySLM2.Analysis

/-- Every index lies in exactly one row `n(n+1)/2 ≤ idx ≤ n(n+3)/2` of the triangle. -/
theorem row_exists (idx : ℕ) : ∃ n : ℕ, n * (n + 1) ≤ 2 * idx ∧ 2 * idx ≤ n * (n + 3) := by
  induction idx with
  | zero => exact ⟨0, by omega, by omega⟩
  | succ k ih =>
    obtain ⟨n, h1, h2⟩ := ih
    by_cases h : 2 * (k + 1) ≤ n * (n + 3)
    · exact ⟨n, by omega, h⟩
    · have e : (n + 1) * (n + 1 + 1) = n * (n + 3) + 2 := by ring
      have e' : (n + 1) * (n + 1 + 3) = n * (n + 3) + 2 * n + 4 := by ring
      obtain ⟨t, ht⟩ : ∃ t, n * (n + 3) = 2 * t := by
        rcases Nat.even_or_odd n with ⟨q, rfl⟩ | ⟨q, rfl⟩
        · exact ⟨q * (q + q + 3), by ring⟩
        · exact ⟨(2 * q + 1) * (q + 2), by ring⟩
      exact ⟨n + 1, by omega, by omega⟩

/-- The rows do not overlap. -/
theorem row_unique {idx n n' : ℕ} (h1 : n * (n + 1) ≤ 2 * idx) (h2 : 2 * idx ≤ n * (n + 3))
    (h1' : n' * (n' + 1) ≤ 2 * idx) (h2' : 2 * idx ≤ n' * (n' + 3)) : n = n' := by
  by_contra hne
  rcases Nat.lt_or_gt_of_ne hne with h | h
  · have : n * (n + 3) + 2 ≤ n' * (n' + 1) := by nlinarith
    omega
  · have : n' * (n' + 3) + 2 ≤ n * (n + 1) := by nlinarith
    omega

/-- The result of `ansi_j_to_n_m`, whenever the last step of the computation lands in `(n - 1, n]`. -/
theorem ansiWith_eq {rnd : ℝ → ℝ} {idx n : ℕ}
    (h : (n : ℝ) - 1 < rnd (rnd (-3 + rnd (Real.sqrt (rnd (9 + 8 * (idx : ℝ))))) / 2))
    (h' : rnd (rnd (-3 + rnd (Real.sqrt (rnd (9 + 8 * (idx : ℝ))))) / 2) ≤ n) :
    ansiWith rnd idx = ((n : ℤ), 2 * (idx : ℤ) - n * (n + 2)) := by
  unfold ansiWith
  have : ⌈rnd (rnd (-3 + rnd (Real.sqrt (rnd (9 + 8 * (idx : ℝ))))) / 2)⌉ = (n : ℤ) := by
    rw [Int.ceil_eq_iff]
    push_cast
    exact ⟨h, h'⟩
  simp only [this]

theorem sqrt_bounds {idx n : ℕ} (h1 : n * (n + 1) ≤ 2 * idx) (h2 : 2 * idx ≤ n * (n + 3)) :
    (2 * (n : ℝ) + 1) ^ 2 + 8 ≤ 9 + 8 * (idx : ℝ) ∧ 9 + 8 * (idx : ℝ) ≤ (2 * n + 3) ^ 2 := by
  have h1' : (n : ℝ) * (n + 1) ≤ 2 * idx := by exact_mod_cast h1
  have h2' : (2 : ℝ) * idx ≤ n * (n + 3) := by exact_mod_cast h2
  constructor <;> nlinarith

/-- Exact arithmetic. -/
theorem ansi_eq {idx n : ℕ} (h1 : n * (n + 1) ≤ 2 * idx) (h2 : 2 * idx ≤ n * (n + 3)) :
    ansi idx = ((n : ℤ), 2 * (idx : ℤ) - n * (n + 2)) := by
  obtain ⟨hl, hu⟩ := sqrt_bounds h1 h2
  refine ansiWith_eq ?_ ?_
  · simp only [id]
    have : 2 * (n : ℝ) + 1 < √(9 + 8 * (idx : ℝ)) := Real.lt_sqrt_of_sq_lt (by linarith)
    linarith
  · simp only [id]
    have : √(9 + 8 * (idx : ℝ)) ≤ 2 * n + 3 := Real.sqrt_le_iff.mpr ⟨by positivity, hu⟩
    linarith

open Spec in
/-- Double precision. -/
theorem ansiWith_exact {rnd : ℝ → ℝ} (hr : Rounding rnd) {idx : ℕ} (hidx : idx < 2 ^ 50) :
    ansiWith rnd idx = ansi idx := by
  obtain ⟨n, h1, h2⟩ := row_exists idx
  rw [ansi_eq h1 h2]
  have hn : n < 47453133 := by
    by_contra hc
    push Not at hc
    have : 47453133 * (47453133 + 1) ≤ n * (n + 1) := Nat.mul_le_mul hc (by omega)
    norm_num at this hidx
    omega
  obtain ⟨hl, hu⟩ := sqrt_bounds h1 h2
  have hnR : (n : ℝ) ≤ 47453132 := by exact_mod_cast Nat.le_of_lt_succ hn
  -- multiples of 2^-26 below 2^27 are doubles
  have dbl : ∀ k : ℤ, |k| ≤ 2 ^ 53 → rnd (k * (2 : ℝ) ^ (-26 : ℤ)) = k * (2 : ℝ) ^ (-26 : ℤ) := fun k hk =>
    hr.exact _ ⟨k, -26, hk, by norm_num, by norm_num, rfl⟩
  have p26 : (2 : ℝ) ^ (-26 : ℤ) = 1 / 67108864 := by norm_num
  have fix : ∀ a b : ℤ, |a * 67108864 + b| ≤ 2 ^ 53 → rnd ((a : ℝ) + b / 67108864) = a + b / 67108864 := by
    intro a b hab
    have := dbl (a * 67108864 + b) hab
    rw [p26] at this
    have e : ((a * 67108864 + b : ℤ) : ℝ) * (1 / 67108864) = a + b / 67108864 := by push_cast; ring
    rwa [e] at this
  have bnd : ∀ a b : ℤ, -3 ≤ a → a ≤ 94906270 → 0 ≤ b → b ≤ 2 → |a * 67108864 + b| ≤ 2 ^ 53 := by
    intro a b h1 h2 h3 h4
    rw [abs_le]
    constructor <;> norm_num <;> omega
  -- the integer argument
  have harg : (2 * (n : ℝ) + 1) ^ 2 + 7 ≤ rnd (9 + 8 * (idx : ℝ)) ∧ rnd (9 + 8 * (idx : ℝ)) ≤ (2 * n + 3) ^ 2 := by
    by_cases hlast : idx = 2 ^ 50 - 1
    · have hn' : n = 47453132 := by
        refine row_unique h1 h2 ?_ ?_ <;> subst hlast <;> norm_num
      have e : (9 : ℝ) + 8 * (idx : ℝ) = 2 ^ 53 + 1 := by
        have : (9 : ℕ) + 8 * idx = 2 ^ 53 + 1 := by subst hlast; norm_num
        exact_mod_cast this
      have l : (2 : ℝ) ^ 53 ≤ rnd (2 ^ 53 + 1) := by
        have := hr.exact (2 ^ 53) ⟨2 ^ 53, 0, by norm_num, by norm_num, by norm_num, by norm_num⟩
        calc (2 : ℝ) ^ 53 = rnd (2 ^ 53) := this.symm
          _ ≤ _ := hr.mono (by linarith)
      have u : rnd (2 ^ 53 + 1) ≤ (2 : ℝ) ^ 53 + 2 := by
        have := hr.exact (2 ^ 53 + 2) ⟨2 ^ 52 + 1, 1, by norm_num, by norm_num, by norm_num, by norm_num⟩
        calc rnd (2 ^ 53 + 1) ≤ rnd (2 ^ 53 + 2) := hr.mono (by linarith)
          _ = _ := this
      rw [e, hn']
      norm_num at l u ⊢
      constructor <;> linarith
    · have hsmall : idx + 2 ≤ 2 ^ 50 := by omega
      have : rnd (9 + 8 * (idx : ℝ)) = 9 + 8 * (idx : ℝ) := by
        refine hr.exact _ ⟨9 + 8 * idx, 0, ?_, by norm_num, by norm_num, by push_cast; ring⟩
        rw [abs_of_nonneg (by positivity)]
        norm_num at hsmall ⊢
        omega
      rw [this]
      exact ⟨by linarith, hu⟩
  suffices hfin : (n : ℝ) - 1 + 1 / 67108864 ≤ rnd (rnd (-3 + rnd (√(rnd (9 + 8 * (idx : ℝ))))) / 2) ∧
      rnd (rnd (-3 + rnd (√(rnd (9 + 8 * (idx : ℝ))))) / 2) ≤ n by exact ansiWith_eq (lt_of_lt_of_le (by linarith) hfin.1) hfin.2
  generalize rnd (9 + 8 * (idx : ℝ)) = s at harg ⊢
  obtain ⟨sl, su⟩ := harg
  have hn0 : (0 : ℝ) ≤ n := Nat.cast_nonneg n
  -- square root
  have r1 : 2 * (n : ℝ) + 1 + 2 / 67108864 ≤ √s := by
    refine Real.le_sqrt_of_sq_le ?_
    nlinarith
  have r1' : √s ≤ 2 * n + 3 := Real.sqrt_le_iff.mpr ⟨by positivity, su⟩
  have r2 : 2 * (n : ℝ) + 1 + 2 / 67108864 ≤ rnd √s := by
    have f := fix (2 * n + 1) 2 (bnd _ _ (by omega) (by omega) (by norm_num) (by norm_num))
    push_cast at f
    rw [← f]
    exact hr.mono r1
  have r2' : rnd √s ≤ 2 * n + 3 := by
    have f := fix (2 * n + 3) 0 (bnd _ _ (by omega) (by omega) (by norm_num) (by norm_num))
    push_cast at f
    rw [zero_div, add_zero] at f
    rw [← f]
    exact hr.mono r1'
  have r3 : 2 * (n : ℝ) - 2 + 2 / 67108864 ≤ rnd (-3 + rnd √s) := by
    have f := fix (2 * n - 2) 2 (bnd _ _ (by omega) (by omega) (by norm_num) (by norm_num))
    push_cast at f
    rw [← f]
    exact hr.mono (by linarith)
  have r3' : rnd (-3 + rnd √s) ≤ 2 * n := by
    have f := fix (2 * n) 0 (bnd _ _ (by omega) (by omega) (by norm_num) (by norm_num))
    push_cast at f
    rw [zero_div, add_zero] at f
    rw [← f]
    exact hr.mono (by linarith)
  have r4 : (n : ℝ) - 1 + 1 / 67108864 ≤ rnd (rnd (-3 + rnd √s) / 2) := by
    have f := fix (n - 1) 1 (bnd _ _ (by omega) (by omega) (by norm_num) (by norm_num))
    push_cast at f
    rw [← f]
    exact hr.mono (by linarith)
  have r4' : rnd (rnd (-3 + rnd √s) / 2) ≤ n := by
    have f := fix n 0 (bnd _ _ (by omega) (by omega) (by norm_num) (by norm_num))
    push_cast at f
    rw [zero_div, add_zero] at f
    rw [← f]
    exact hr.mono (by linarith)
  exact ⟨r4, r4'⟩

end PySLM2.Analysis
