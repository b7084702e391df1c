import Verif.Lemmas.Ansi
import Verif.Lemmas.ZernikeCode
import Verif.Spec.ProfileHistory
import Mathlib.Algebra.Order.Archimedean.Real.Basic

/-!
# The ANSI enumeration of the Zernike modes (C66, C67)
-/

noncomputable section

namespace PySLM2.Analysis

open Spec

/-- **C66.** `ansi_j_to_n_m` takes values in the valid index pairs, hits each of them, never twice, and in the order
of `n`, then `m`; its inverse is `(n(n+2)+m)/2`. -/
theorem C66_bijection :
    (∀ idx, ZernikeIndex (ansi idx).1 (ansi idx).2) ∧
    (∀ n m, ZernikeIndex n m → ∃ idx, ansi idx = (n, m)) ∧
    (∀ idx idx', ansi idx = ansi idx' → idx = idx') ∧
    (∀ idx n m, ansi idx = (n, m) → (idx : ℤ) = (n * (n + 2) + m) / 2 ∧ 2 ∣ n * (n + 2) + m) ∧
    (∀ idx idx', idx < idx' ↔ (ansi idx).1 < (ansi idx').1 ∨ ((ansi idx).1 = (ansi idx').1 ∧ (ansi idx).2 < (ansi idx').2)) := by
  have hval : ∀ idx, ∃ n : ℕ, n * (n + 1) ≤ 2 * idx ∧ 2 * idx ≤ n * (n + 3) ∧ ansi idx = ((n : ℤ), 2 * (idx : ℤ) - n * (n + 2)) := by
    intro idx
    obtain ⟨n, h1, h2⟩ := row_exists idx
    exact ⟨n, h1, h2, ansi_eq h1 h2⟩
  have hinv : ∀ idx n m, ansi idx = (n, m) → 2 * (idx : ℤ) = n * (n + 2) + m := by
    intro idx n m h
    obtain ⟨k, _, _, h3⟩ := hval idx
    rw [h3] at h
    injection h with ha hb
    rw [← hb, ← ha]
    ring
  refine ⟨fun idx => ?_, fun n m hnm => ?_, fun idx idx' h => ?_, fun idx n m h => ?_, fun idx idx' => ?_⟩
  · obtain ⟨n, h1, h2, h3⟩ := hval idx
    rw [h3]
    have h1' : (n : ℤ) * (n + 1) ≤ 2 * idx := by exact_mod_cast h1
    have h2' : 2 * (idx : ℤ) ≤ n * (n + 3) := by exact_mod_cast h2
    refine ⟨abs_le.mpr ⟨by linarith, by linarith⟩, ?_⟩
    show Even ((n : ℤ) - (2 * idx - n * (n + 2)))
    have e : (n : ℤ) - (2 * idx - n * (n + 2)) = n * (n + 1) + 2 * (n - idx) := by ring
    rw [e]
    exact (Int.even_mul_succ_self n).add (even_two_mul _)
  · obtain ⟨hm, he⟩ := hnm
    obtain ⟨k, rfl⟩ := Int.eq_ofNat_of_zero_le ((abs_nonneg m).trans hm)
    obtain ⟨hml, hmu⟩ := abs_le.mp hm
    have hev : Even ((k : ℤ) * (k + 2) + m) := by
      have e : (k : ℤ) * (k + 2) + m = k * (k + 1) + 2 * k - (k - m) := by ring
      rw [e]
      exact ((Int.even_mul_succ_self k).add (even_two_mul _)).sub he
    obtain ⟨t, ht⟩ := hev
    have ht0 : 0 ≤ t := by nlinarith
    obtain ⟨idx, rfl⟩ := Int.eq_ofNat_of_zero_le ht0
    refine ⟨idx, ?_⟩
    have h1 : k * (k + 1) ≤ 2 * idx := by
      have : (k : ℤ) * (k + 1) ≤ 2 * idx := by nlinarith
      exact_mod_cast this
    have h2 : 2 * idx ≤ k * (k + 3) := by
      have : 2 * (idx : ℤ) ≤ k * (k + 3) := by nlinarith
      exact_mod_cast this
    rw [ansi_eq h1 h2]
    refine Prod.ext rfl ?_
    show 2 * (idx : ℤ) - k * (k + 2) = m
    linarith
  · have h1 := hinv idx (ansi idx).1 (ansi idx).2 rfl
    have h2 := hinv idx' (ansi idx).1 (ansi idx).2 h.symm
    have : (idx : ℤ) = idx' := by linarith
    exact_mod_cast this
  · have := hinv idx n m h
    exact ⟨by omega, ⟨idx, by omega⟩⟩
  · obtain ⟨n, h1, h2, h3⟩ := hval idx
    obtain ⟨n', h1', h2', h3'⟩ := hval idx'
    rw [h3, h3']
    simp only [Nat.cast_lt, Nat.cast_inj]
    constructor
    · intro h
      rcases lt_trichotomy n n' with hn | hn | hn
      · exact .inl hn
      · subst hn; exact .inr ⟨rfl, by omega⟩
      · exfalso
        have : n' * (n' + 3) + 2 ≤ n * (n + 1) := by nlinarith
        omega
    · rintro (hn | ⟨rfl, h⟩)
      · have : n * (n + 3) + 2 ≤ n' * (n' + 1) := by nlinarith
        omega
      · omega

/-- **C66.** The constructor accepts every pair `ansi_j_to_n_m` produces. -/
theorem C66_accepted (h : Profile.Heap) (a R : ℝ) (idx : ℕ) (nrm ex : Bool) :
    ∃ r, Profile.New.run h (.zernike a R (ansi idx).1 (ansi idx).2 nrm ex) = .ok r := by
  simp only [Profile.New.run, Profile.newZernike, Profile.zernikeData_valid (C66_bijection.1 idx) nrm]
  exact ⟨_, rfl⟩

/-- C66: index 12 is `(4, 0)`. -/
example : ansi 12 = (4, 0) := by
  rw [ansi_eq (n := 4) (by norm_num) (by norm_num)]
  norm_num

/-- **C67.** In double precision, with any monotone faithful rounding, the result is exact below `2^50`. -/
theorem C67_double_precision {rnd : ℝ → ℝ} (hr : Rounding rnd) {idx : ℕ} (hidx : idx < 2 ^ 50) :
    ansiWith rnd idx = ansi idx := ansiWith_exact hr hidx

/-- C67: rounding down to the next double is such a rounding, and is not the identity. -/
def roundDown (x : ℝ) : ℝ := sSup {d | IsDouble d ∧ (d ≤ x ∨ d = -2 ^ 1023)}

theorem double_lower {d : ℝ} (h : IsDouble d) : -2 ^ 1023 ≤ d := by
  obtain ⟨k, e, hk, _, he, rfl⟩ := h
  have h1 : -(2 : ℝ) ^ 53 ≤ k := by
    have := (abs_le.mp hk).1
    exact_mod_cast this
  have h2 : (2 : ℝ) ^ e ≤ 2 ^ (970 : ℤ) := zpow_le_zpow_right₀ (by norm_num) he
  have h3 : (0 : ℝ) < 2 ^ e := by positivity
  have h4 : (2 : ℝ) ^ 1023 = 2 ^ 53 * 2 ^ (970 : ℤ) := by
    rw [show (970 : ℤ) = ((970 : ℕ) : ℤ) by norm_num, zpow_natCast, ← pow_add]
  rw [h4]
  have h5 : (2 : ℝ) ^ 53 * 2 ^ e ≤ 2 ^ 53 * 2 ^ (970 : ℤ) := mul_le_mul_of_nonneg_left h2 (by positivity)
  have h6 : -(2 : ℝ) ^ 53 * 2 ^ e ≤ k * 2 ^ e := mul_le_mul_of_nonneg_right h1 h3.le
  linarith

theorem roundDown_rounding : Rounding roundDown := by
  have hmin : IsDouble (-2 ^ 1023) := by
    refine ⟨-2 ^ 53, 970, by norm_num, by norm_num, by norm_num, ?_⟩
    rw [show (970 : ℤ) = ((970 : ℕ) : ℤ) by norm_num, zpow_natCast]
    rw [Int.cast_neg, Int.cast_pow, Int.cast_ofNat, neg_mul, ← pow_add]
  have hbdd : ∀ x, BddAbove {d | IsDouble d ∧ (d ≤ x ∨ d = -2 ^ 1023)} := by
    intro x
    refine ⟨max x (-2 ^ 1023), ?_⟩
    rintro d ⟨_, hd | rfl⟩
    · exact le_max_of_le_left hd
    · exact le_max_right _ _
  refine ⟨fun x y hxy => csSup_le_csSup (hbdd y) ⟨_, hmin, .inr rfl⟩ ?_, fun x hx => ?_⟩
  · rintro d ⟨h1, h2 | h2⟩
    · exact ⟨h1, .inl (h2.trans hxy)⟩
    · exact ⟨h1, .inr h2⟩
  · refine le_antisymm (csSup_le ⟨_, hmin, .inr rfl⟩ ?_) (le_csSup (hbdd x) ⟨hx, .inl le_rfl⟩)
    rintro d ⟨_, hd | rfl⟩
    · exact hd
    · exact double_lower hx

/-- C67: the hypotheses hold for rounding down at an index whose square root is irrational. -/
example : ansiWith roundDown 1000000 = ansi 1000000 := C67_double_precision roundDown_rounding (by norm_num)

end PySLM2.Analysis
