import Verif.Lemmas.Spot

/-!
# Lemmas on Gerchberg-Saxton with targets that have negative values
-/

noncomputable section

open Complex Finset

namespace PySLM2

open Lib

namespace LCOS

/-- One Gerchberg-Saxton step does not increase the error, for a target of uniform phase `σ`. -/
theorem gsStep_le_phase {M N : ℕ} {inp target : ℕ → ℕ → ℂ} {A B : ℕ → ℕ → ℝ} {c σ : ℂ} (hc : ‖c‖ = 1) (hσ : ‖σ‖ = 1)
    (hinp : ∀ a < M, ∀ b < N, inp a b = c * A a b) (hA : ∀ a < M, ∀ b < N, 0 ≤ A a b)
    (htg : ∀ a < M, ∀ b < N, target a b = σ * B a b) (hB : ∀ a < M, ∀ b < N, 0 ≤ B a b) (φ : ℕ → ℕ → ℝ) :
    rawError M N inp B (gsStep M N inp target φ) ≤ rawError M N inp B φ := by
  set g := idft2 M N (modulate inp φ) with hg
  set G := fun a b => gsCorrect (target a b) (g a b) with hG
  set h := dft2 M N G with hh
  set φ' := gsStep M N inp target φ with hφ'
  have hφ'' : ∀ a b, φ' a b = arg (h a b) := fun a b => rfl
  set g' := idft2 M N (modulate inp φ') with hg'
  rcases Nat.eq_zero_or_pos M with hM | hM
  · subst hM; simp [rawError]
  rcases Nat.eq_zero_or_pos N with hN | hN
  · subst hN; simp [rawError]
  have hMN : (0 : ℝ) < M * N := by positivity
  have hcc : (starRingEnd ℂ) c * c = 1 := by
    rw [mul_comm, Complex.mul_conj, Complex.normSq_eq_norm_sq, hc]; simp
  have hcn : ‖(starRingEnd ℂ) c‖ = 1 := by rw [Complex.norm_conj, hc]
  have lin : ∀ (z : ℂ) (v : ℕ → ℕ → ℂ), (M * N : ℝ) * ∑ a ∈ range M, ∑ b ∈ range N, ‖z * idft2 M N v a b - G a b‖ ^ 2 =
      ∑ a ∈ range M, ∑ b ∈ range N, ‖z * v a b - h a b‖ ^ 2 := by
    intro z v
    rw [← idft2_parseval M N (fun a b => z * v a b - h a b)]
    refine congrArg _ (Finset.sum_congr rfl fun a ha => Finset.sum_congr rfl fun b hb => ?_)
    have := idft2_add M N (fun a b => z * v a b) (fun a b => (-1) * h a b) a b
    rw [idft2_smul, idft2_smul, hh, idft2_dft2 G (mem_range.mp ha) (mem_range.mp hb)] at this
    rw [show (fun a b => z * v a b - dft2 M N G a b) = fun a b => z * v a b + (-1) * dft2 M N G a b by funext a b; ring, this]
    congr 2
    ring
  have e1 := lin ((starRingEnd ℂ) c) (modulate inp φ')
  have e2 := lin σ (modulate inp φ)
  have e3 : ∑ a ∈ range M, ∑ b ∈ range N, ‖(starRingEnd ℂ) c * modulate inp φ' a b - h a b‖ ^ 2 ≤
      ∑ a ∈ range M, ∑ b ∈ range N, ‖σ * modulate inp φ a b - h a b‖ ^ 2 := by
    refine Finset.sum_le_sum fun a ha => Finset.sum_le_sum fun b hb => ?_
    have ha := mem_range.mp ha
    have hb := mem_range.mp hb
    have h1 : (starRingEnd ℂ) c * modulate inp φ' a b = (A a b : ℂ) * cexp (I * (arg (h a b) : ℂ)) := by
      unfold modulate
      rw [hinp a ha b hb, hφ'', ← mul_assoc, ← mul_assoc, hcc, one_mul]
    rw [h1]
    refine pow_le_pow_left₀ (norm_nonneg _) (nearest _ (hA a ha b hb) _ _ ?_) 2
    unfold modulate
    rw [hinp a ha b hb, norm_mul, norm_mul, norm_mul, hσ, hc, norm_expI, Complex.norm_real, Real.norm_eq_abs,
      abs_of_nonneg (hA a ha b hb)]
    ring
  rw [← e1, ← e2] at e3
  have e4 := le_of_mul_le_mul_left e3 hMN
  have hGn : ∀ a < M, ∀ b < N, ‖G a b‖ = B a b := by
    intro a ha b hb
    simp only [hG, gsCorrect]
    rw [htg a ha b hb, norm_mul, norm_mul, hσ, norm_expI, Complex.norm_real, Real.norm_eq_abs, abs_of_nonneg (hB a ha b hb),
      mul_one, one_mul]
  have e5 : rawError M N inp B φ = ∑ a ∈ range M, ∑ b ∈ range N, ‖σ * g a b - G a b‖ ^ 2 := by
    refine Finset.sum_congr rfl fun a ha => Finset.sum_congr rfl fun b hb => ?_
    have ha := mem_range.mp ha
    have hb := mem_range.mp hb
    have h1 : σ * g a b - G a b = σ * (((‖g a b‖ - B a b : ℝ) : ℂ) * cexp (I * (arg (g a b) : ℂ))) := by
      simp only [hG, gsCorrect]
      rw [htg a ha b hb]
      push_cast
      rw [sub_mul, mul_expI_arg]
      ring
    rw [h1, norm_mul, norm_mul, hσ, one_mul, norm_expI, mul_one, Complex.norm_real, Real.norm_eq_abs, sq_abs]
  rw [e5]
  refine le_trans ?_ e4
  refine Finset.sum_le_sum fun a ha => Finset.sum_le_sum fun b hb => ?_
  have ha := mem_range.mp ha
  have hb := mem_range.mp hb
  rw [← hGn a ha b hb]
  have h1 : ‖idft2 M N (modulate inp φ') a b‖ = ‖(starRingEnd ℂ) c * g' a b‖ := by
    rw [norm_mul, hcn, one_mul]
  rw [h1, ← sq_abs]
  exact pow_le_pow_left₀ (abs_nonneg _) (abs_norm_sub_norm_le _ _) 2

theorem gsLoop_le_phase {M N : ℕ} {inp target : ℕ → ℕ → ℂ} {A B : ℕ → ℕ → ℝ} {c σ : ℂ} (hc : ‖c‖ = 1) (hσ : ‖σ‖ = 1)
    (hinp : ∀ a < M, ∀ b < N, inp a b = c * A a b) (hA : ∀ a < M, ∀ b < N, 0 ≤ A a b)
    (htg : ∀ a < M, ∀ b < N, target a b = σ * B a b) (hB : ∀ a < M, ∀ b < N, 0 ≤ B a b) (φ : ℕ → ℕ → ℝ) {n n' : ℕ}
    (hn : n ≤ n') :
    rawError M N inp B (gsLoop M N inp target φ n') ≤ rawError M N inp B (gsLoop M N inp target φ n) := by
  induction n', hn using Nat.le_induction with
  | base => exact le_refl _
  | succ k _ ih => exact (gsStep_le_phase hc hσ hinp hA htg hB _).trans ih

/-! ## A spot on a background of the opposite sign -/

theorem blaze_zero (M N a b : ℕ) : blaze M N 0 0 a b = 1 := by
  simp [blaze, Em]

theorem idft2_spot {M N : ℕ} (hM : 0 < M) (hN : 0 < N) (z : ℂ) (a b : ℕ) :
    idft2 M N (fun a b => z * (spot 0 0 a b : ℂ)) a b = z / (M * N) := by
  rw [idft2_eq, Finset.sum_eq_single 0, Finset.sum_eq_single 0]
  · simp [spot, E]
    field_simp
  · intro c _ hc; simp [spot, hc]
  · intro hc; exact absurd (mem_range.mpr hN) hc
  · intro c _ hc; simp [spot, hc]
  · intro hc; exact absurd (mem_range.mpr hM) hc

/-- The image of a constant plus a spot at the first pixel. -/
theorem idft2_const_spot {M N : ℕ} (hM : 0 < M) (hN : 0 < N) (y z : ℂ) {a b : ℕ} (ha : a < M) (hb : b < N) :
    idft2 M N (fun a b => y + z * (spot 0 0 a b : ℂ)) a b = y * (spot 0 0 a b : ℂ) + z / (M * N) := by
  have h1 := idft2_add M N (fun a b => y * blaze M N 0 0 a b) (fun a b => z * (spot 0 0 a b : ℂ)) a b
  rw [idft2_smul, idft2_blaze hM hN ha hb, idft2_spot hM hN] at h1
  rw [← h1]
  refine congrFun (congrFun (idft2_congr fun a _ b _ => ?_) a) b
  rw [blaze_zero, mul_one]

/-- The field that makes a constant plus a spot at the first pixel. -/
theorem dft2_const_spot {M N : ℕ} (hM : 0 < M) (hN : 0 < N) (y z : ℂ) {a b : ℕ} (ha : a < M) (hb : b < N) :
    dft2 M N (fun a b => y + z * (spot 0 0 a b : ℂ)) a b = y * (M * N) * (spot 0 0 a b : ℂ) + z := by
  have hM' : (M : ℂ) ≠ 0 := by exact_mod_cast hM.ne'
  have hN' : (N : ℂ) ≠ 0 := by exact_mod_cast hN.ne'
  have h1 := dft2_idft2 (fun a b => z + y * (M * N) * (spot 0 0 a b : ℂ)) ha hb
  rw [add_comm z] at h1
  rw [← h1]
  refine congrFun (congrFun (dft2_congr fun a ha b hb => ?_) a) b
  rw [idft2_const_spot hM hN _ _ ha hb]
  field_simp
  ring

theorem cexp_arg_pos {x : ℝ} (hx : 0 < x) : cexp (I * (arg (x : ℂ) : ℂ)) = 1 := by
  rw [Complex.arg_ofReal_of_nonneg hx.le]; simp

theorem cexp_arg_neg {x : ℝ} (hx : x < 0) : cexp (I * (arg (x : ℂ) : ℂ)) = -1 := by
  rw [Complex.arg_ofReal_of_neg hx, mul_comm]; exact Complex.exp_pi_mul_I

variable {M N : ℕ} {inp target : ℕ → ℕ → ℂ} {φ : ℕ → ℕ → ℝ}

/-- From the hologram that makes the spot and its background to the plain mirror. -/
theorem gsStep_lost (hM : 0 < M) (hN : 0 < N) (hn : 4 < M * N) (htg : ∀ a < M, ∀ b < N, target a b = 2 / (M * N) - (spot 0 0 a b : ℂ))
    (hφ : ∀ a < M, ∀ b < N, modulate inp φ a b = -1 + 2 * (spot 0 0 a b : ℂ)) {a b : ℕ} (ha : a < M) (hb : b < N) :
    cexp (I * (gsStep M N inp target φ a b : ℂ)) = 1 := by
  have hn' : (4 : ℝ) < M * N := by exact_mod_cast hn
  show cexp (I * (arg (dft2 M N (fun a b => gsCorrect (target a b) (idft2 M N (modulate inp φ) a b)) a b) : ℂ)) = _
  have h1 : ∀ a < M, ∀ b < N, gsCorrect (target a b) (idft2 M N (modulate inp φ) a b) =
      2 / (M * N) + (1 - 4 / (M * N)) * (spot 0 0 a b : ℂ) := by
    intro a ha b hb
    rw [idft2_congr hφ, idft2_const_spot hM hN _ _ ha hb, htg a ha b hb]
    unfold gsCorrect
    by_cases h : a = 0 ∧ b = 0
    · rw [show (-1 * (spot 0 0 a b : ℂ) + 2 / (M * N)) = ((-1 + 2 / (M * N) : ℝ) : ℂ) by simp [spot, h],
        cexp_arg_neg]
      · simp [spot, h]; ring
      · have : 2 / ((M : ℝ) * N) < 1 := by rw [div_lt_one (by linarith)]; linarith
        linarith
    · rw [show (-1 * (spot 0 0 a b : ℂ) + 2 / (M * N)) = ((2 / (M * N) : ℝ) : ℂ) by simp [spot, h],
        cexp_arg_pos (by positivity)]
      simp [spot, h]
  rw [dft2_congr h1, dft2_const_spot hM hN _ _ ha hb]
  have h2 : (2 / (M * N) * (M * N) * (spot 0 0 a b : ℂ) + (1 - 4 / (M * N)) : ℂ) =
      ((2 / (M * N) * (M * N) * spot 0 0 a b + (1 - 4 / (M * N)) : ℝ) : ℂ) := by push_cast; ring
  rw [h2, cexp_arg_pos]
  have h3 : 4 / ((M : ℝ) * N) < 1 := by rw [div_lt_one (by linarith)]; exact hn'
  have h4 : 0 ≤ spot 0 0 a b := by unfold spot; split_ifs <;> norm_num
  have : 0 ≤ 2 / ((M : ℝ) * N) * (M * N) * spot 0 0 a b := by positivity
  linarith

/-- From the plain mirror to the hologram that makes the spot and its background. -/
theorem gsStep_found (hM : 0 < M) (hN : 0 < N) (htg : ∀ a < M, ∀ b < N, target a b = 2 / (M * N) - (spot 0 0 a b : ℂ))
    (hφ : ∀ a < M, ∀ b < N, modulate inp φ a b = 1) {a b : ℕ} (ha : a < M) (hb : b < N) :
    cexp (I * (gsStep M N inp target φ a b : ℂ)) = -1 + 2 * (spot 0 0 a b : ℂ) := by
  have hM' : (M : ℂ) ≠ 0 := by exact_mod_cast hM.ne'
  have hN' : (N : ℂ) ≠ 0 := by exact_mod_cast hN.ne'
  show cexp (I * (arg (dft2 M N (fun a b => gsCorrect (target a b) (idft2 M N (modulate inp φ) a b)) a b) : ℂ)) = _
  have h1 : ∀ a < M, ∀ b < N, gsCorrect (target a b) (idft2 M N (modulate inp φ) a b) =
      2 / (M * N) + (-1) * (spot 0 0 a b : ℂ) := by
    intro a ha b hb
    rw [idft2_congr (v := fun a b => 1 + 0 * (spot 0 0 a b : ℂ)) (fun a ha b hb => by rw [hφ a ha b hb]; ring),
      idft2_const_spot hM hN _ _ ha hb, htg a ha b hb]
    unfold gsCorrect
    by_cases h : a = 0 ∧ b = 0
    · simp [spot, h]; ring
    · simp [spot, h]
  rw [dft2_congr h1, dft2_const_spot hM hN _ _ ha hb, div_mul_cancel₀ _ (mul_ne_zero hM' hN')]
  by_cases h : a = 0 ∧ b = 0
  · rw [show (2 * (spot 0 0 a b : ℂ) + -1) = ((1 : ℝ) : ℂ) by simp [spot, h]; norm_num, cexp_arg_pos one_pos]
    simp [spot, h]; norm_num
  · rw [show (2 * (spot 0 0 a b : ℂ) + -1) = ((-1 : ℝ) : ℂ) by simp [spot, h], cexp_arg_neg (by norm_num)]
    simp [spot, h]

/-- The errors of the two holograms. -/
theorem rawError_found (hM : 0 < M) (hN : 0 < N) (hn : 4 < M * N)
    (hφ : ∀ a < M, ∀ b < N, modulate inp φ a b = -1 + 2 * (spot 0 0 a b : ℂ)) :
    rawError M N inp (fun a b => |2 / (M * N) - spot 0 0 a b|) φ = 0 := by
  refine Finset.sum_eq_zero fun a ha => Finset.sum_eq_zero fun b hb => ?_
  rw [idft2_congr hφ, idft2_const_spot hM hN _ _ (mem_range.mp ha) (mem_range.mp hb),
    show (-1 * (spot 0 0 a b : ℂ) + 2 / (M * N)) = ((2 / (M * N) - spot 0 0 a b : ℝ) : ℂ) by push_cast; ring,
    Complex.norm_real, Real.norm_eq_abs, sub_self]
  norm_num

theorem sum_spot (hM : 0 < M) (hN : 0 < N) (f : ℝ → ℝ) :
    ∑ a ∈ range M, ∑ b ∈ range N, f (spot 0 0 a b) = f 1 + (M * N - 1) * f 0 := by
  have h1 : ∀ a b, f (spot 0 0 a b) = f 0 + (f 1 - f 0) * spot 0 0 a b := by
    intro a b
    unfold spot
    split_ifs <;> ring
  simp only [h1, Finset.sum_add_distrib, Finset.sum_const, Finset.card_range, ← Finset.mul_sum]
  have h2 : ∑ a ∈ range M, ∑ b ∈ range N, spot 0 0 a b = 1 := by
    rw [Finset.sum_eq_single 0, Finset.sum_eq_single 0]
    · simp [spot]
    · intro c _ hc; simp [spot, hc]
    · intro hc; exact absurd (mem_range.mpr hN) hc
    · intro c _ hc; simp [spot, hc]
    · intro hc; exact absurd (mem_range.mpr hM) hc
  rw [h2]
  simp only [nsmul_eq_mul]
  ring

theorem rawError_lost (hM : 0 < M) (hN : 0 < N) (hn : 4 < M * N) (hφ : ∀ a < M, ∀ b < N, modulate inp φ a b = 1) :
    rawError M N inp (fun a b => |2 / (M * N) - spot 0 0 a b|) φ = 4 / (M * N) := by
  have hn' : (4 : ℝ) < M * N := by exact_mod_cast hn
  have h1 : rawError M N inp (fun a b => |2 / (M * N) - spot 0 0 a b|) φ =
      ∑ a ∈ range M, ∑ b ∈ range N, (fun x : ℝ => (|x| - |2 / (M * N) - x|) ^ 2) (spot 0 0 a b) := by
    refine Finset.sum_congr rfl fun a ha => Finset.sum_congr rfl fun b hb => ?_
    rw [idft2_congr (v := fun a b => 1 + 0 * (spot 0 0 a b : ℂ)) (fun a ha b hb => by rw [hφ a ha b hb]; ring),
      idft2_const_spot hM hN _ _ (mem_range.mp ha) (mem_range.mp hb), zero_div, add_zero, one_mul, Complex.norm_real,
      Real.norm_eq_abs]
  rw [h1, sum_spot hM hN (fun x : ℝ => (|x| - |2 / (M * N) - x|) ^ 2)]
  have h2 : |2 / ((M : ℝ) * N) - 1| = 1 - 2 / (M * N) := by
    rw [abs_of_nonpos]
    · ring
    · have : 2 / ((M : ℝ) * N) < 1 := by rw [div_lt_one (by linarith)]; linarith
      linarith
  simp only [h2, abs_one, abs_zero, sub_zero, zero_sub]
  rw [abs_of_nonneg (by positivity)]
  have h0 : (M : ℝ) * N ≠ 0 := by linarith
  field_simp
  ring

end LCOS

end PySLM2
