import Verif.Lemmas.Mraf
import Verif.Lemmas.SignedTarget

/-!
# MRAF on the hologram of two spots
-/

noncomputable section

open Complex Finset

namespace PySLM2.LCOS

open Lib

/-- The phase factor of the hologram at even and odd columns. -/
def sgn (b : ℕ) : ℂ := if b % 2 = 0 then 1 else -1

theorem blaze_half {M K : ℕ} (hK : 0 < K) (a b : ℕ) : blaze M (2 * K) 0 K a b = sgn b := by
  have hK' : (K : ℂ) ≠ 0 := by exact_mod_cast hK.ne'
  have h1 : blaze M (2 * K) 0 K a b = cexp (-(b * (Real.pi * I))) := by
    simp only [blaze, Em]
    rw [show (-(2 * Real.pi * I) * ((a * (0 : ℕ) : ℂ) / M)) = 0 by push_cast; ring, Complex.exp_zero, one_mul]
    congr 1
    push_cast
    field_simp
  rw [h1, Complex.exp_neg, Complex.exp_nat_mul, Complex.exp_pi_mul_I, sgn]
  split_ifs with h
  · rw [Even.neg_one_pow (Nat.even_iff.mpr h), inv_one]
  · rw [Odd.neg_one_pow (Nat.odd_iff.mpr (by omega))]
    norm_num

/-- The image of two spots. -/
theorem idft2_two {M K : ℕ} (hM : 0 < M) (hK : 0 < K) (P Q : ℂ) {a b : ℕ} (ha : a < M) (hb : b < 2 * K) :
    idft2 M (2 * K) (fun _ b => P + Q * sgn b) a b = P * (spot 0 0 a b : ℂ) + Q * (spot 0 K a b : ℂ) := by
  have h1 := idft2_add M (2 * K) (fun a b => P * blaze M (2 * K) 0 0 a b) (fun a b => Q * blaze M (2 * K) 0 K a b) a b
  rw [idft2_smul, idft2_smul, idft2_blaze hM (by omega) ha hb, idft2_blaze hM (by omega) ha hb] at h1
  rw [← h1]
  refine congrFun (congrFun (idft2_congr fun a _ b _ => ?_) a) b
  rw [blaze_zero, mul_one, blaze_half hK]

/-- The field that makes two spots. -/
theorem dft2_two {M K : ℕ} (hM : 0 < M) (hK : 0 < K) (P Q : ℂ) (a b : ℕ) :
    dft2 M (2 * K) (fun a b => P * (spot 0 0 a b : ℂ) + Q * (spot 0 K a b : ℂ)) a b = P + Q * sgn b := by
  rw [dft2_add, dft2_spot hM (by omega), dft2_spot hM (by omega), blaze_zero, blaze_half hK, mul_one]

/-- One step of MRAF from the hologram of two equally bright spots, with the signal window on the first spot and its modulus
as the target. -/
theorem mrafStep_two {M K : ℕ} (hM : 0 < M) (hK : 0 < K) {inp target window : ℕ → ℕ → ℂ} {m : ℝ}
    (hinp : ∀ a < M, ∀ b < 2 * K, inp a b = 1)
    (htg : ∀ a < M, ∀ b < 2 * K, target a b = (√2 / 2 : ℝ) * (spot 0 0 a b : ℂ))
    (hw : ∀ a < M, ∀ b < 2 * K, window a b = (spot 0 0 a b : ℂ)) {φ : ℕ → ℕ → ℝ}
    (hφ : ∀ a < M, ∀ b < 2 * K, modulate inp φ a b = (1 + I) / 2 + (1 - I) / 2 * sgn b) {a b : ℕ} (ha : a < M) (hb : b < 2 * K) :
    modulate inp (mrafStep M (2 * K) inp target window m φ) a b =
      (m * ((1 + I) / 2) + (1 - m) * ((1 - I) / 2) * sgn b) / (√(1 + (2 * m - 1) ^ 2) / 2 : ℝ) := by
  have himg : ∀ a < M, ∀ b < 2 * K, idft2 M (2 * K) (modulate inp φ) a b =
      (1 + I) / 2 * (spot 0 0 a b : ℂ) + (1 - I) / 2 * (spot 0 K a b : ℂ) := by
    intro a ha b hb
    rw [idft2_congr hφ, idft2_two hM hK _ _ ha hb]
  have hP : (((√2 / 2 : ℝ)) : ℂ) * cexp (I * (arg ((1 + I) / 2) : ℂ)) = (1 + I) / 2 := by
    have : ‖(1 + I) / 2‖ = √2 / 2 := by
      rw [norm_div, Complex.norm_def, Complex.normSq_apply]
      norm_num
    rw [← this, mul_expI_arg]
  have hcor : ∀ a < M, ∀ b < 2 * K, mrafCorrect m (target a b) (window a b) (idft2 M (2 * K) (modulate inp φ) a b) =
      m * ((1 + I) / 2) * (spot 0 0 a b : ℂ) + (1 - m) * ((1 - I) / 2) * (spot 0 K a b : ℂ) := by
    intro a ha b hb
    rw [himg a ha b hb, htg a ha b hb, hw a ha b hb]
    unfold mrafCorrect
    by_cases h0 : a = 0 ∧ b = 0
    · have h1 : ¬(a = 0 ∧ b = K) := by omega
      simp only [spot, h0, h1, and_self, if_true, if_false]
      have h2 : ¬(0 = K) := by omega
      simp only [h2, and_false, if_false, ofReal_one, ofReal_zero, mul_one, mul_zero, add_zero, sub_self]
      rw [mul_assoc, hP]
    · simp only [spot, h0, if_false, ofReal_zero, mul_zero, zero_mul, zero_add, sub_zero, mul_one]
      push_cast
      ring
  have hdft : dft2 M (2 * K) (fun a b => mrafCorrect m (target a b) (window a b) (idft2 M (2 * K) (modulate inp φ) a b)) a b =
      m * ((1 + I) / 2) + (1 - m) * ((1 - I) / 2) * sgn b := by
    rw [dft2_congr hcor, dft2_two hM hK]
  rw [modulate, hinp a ha b hb, one_mul]
  show cexp (I * (arg (dft2 M (2 * K) (fun a b => mrafCorrect m (target a b) (window a b)
    (idft2 M (2 * K) (modulate inp φ) a b)) a b) : ℂ)) = _
  rw [hdft]
  set h := (m : ℂ) * ((1 + I) / 2) + (1 - m) * ((1 - I) / 2) * sgn b with hh
  have hn : ‖h‖ = √(1 + (2 * m - 1) ^ 2) / 2 := by
    have h4 : h = if b % 2 = 0 then ((1 / 2 : ℝ) : ℂ) + ((2 * m - 1) / 2 : ℝ) * I else (((2 * m - 1) / 2 : ℝ) : ℂ) + (1 / 2 : ℝ) * I := by
      rw [hh, sgn]
      split_ifs <;> · push_cast; ring
    have h5 : ‖h‖ ^ 2 = (1 + (2 * m - 1) ^ 2) / 4 := by
      rw [h4, ← Complex.normSq_eq_norm_sq]
      split_ifs <;> · rw [Complex.normSq_add_mul_I]; ring
    have h6 : ‖h‖ = √(‖h‖ ^ 2) := (Real.sqrt_sq (norm_nonneg _)).symm
    rw [h6, h5, Real.sqrt_div' _ (by norm_num), show (4 : ℝ) = 2 ^ 2 by norm_num, Real.sqrt_sq (by norm_num)]
  have hne : ((√(1 + (2 * m - 1) ^ 2) / 2 : ℝ) : ℂ) ≠ 0 := by
    have : (0 : ℝ) < √(1 + (2 * m - 1) ^ 2) / 2 := by positivity
    exact_mod_cast this.ne'
  rw [eq_div_iff hne, ← hn, mul_comm, mul_expI_arg]

end PySLM2.LCOS
