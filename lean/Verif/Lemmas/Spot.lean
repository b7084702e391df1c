import Verif.Lemmas.Lcos

/-!
# Lemmas on holograms for a single spot
-/

noncomputable section

open Complex Finset

namespace PySLM2

open Lib

namespace LCOS

/-- A spot. -/
def spot (p q a b : ℕ) : ℝ := if a = p ∧ b = q then 1 else 0

/-- The blazed grating that sends all light to the spot. -/
def blaze (M N p q a b : ℕ) : ℂ := Em M a p * Em N b q

theorem norm_Em (n k a : ℕ) : ‖Em n k a‖ = 1 := by
  rw [← conj_E, Complex.norm_conj, norm_E]

theorem norm_blaze (M N p q a b : ℕ) : ‖blaze M N p q a b‖ = 1 := by
  rw [blaze, norm_mul, norm_Em, norm_Em, one_mul]

theorem blaze_ne_zero (M N p q a b : ℕ) : blaze M N p q a b ≠ 0 := by
  rw [← norm_ne_zero_iff, norm_blaze]; norm_num

theorem dft2_spot {M N p q : ℕ} (hp : p < M) (hq : q < N) (z : ℂ) (a b : ℕ) :
    dft2 M N (fun a b => z * (spot p q a b : ℂ)) a b = z * blaze M N p q a b := by
  rw [dft2_eq, Finset.sum_eq_single p, Finset.sum_eq_single q]
  · simp [spot, blaze]
  · intro c _ hc; simp [spot, hc]
  · intro hc; exact absurd (mem_range.mpr hq) hc
  · intro c _ hc; simp [spot, hc]
  · intro hc; exact absurd (mem_range.mpr hp) hc

theorem idft2_blaze {M N p q a b : ℕ} (hp : p < M) (hq : q < N) (ha : a < M) (hb : b < N) :
    idft2 M N (blaze M N p q) a b = (spot p q a b : ℂ) := by
  have h1 : blaze M N p q = dft2 M N (fun a b => (spot p q a b : ℂ)) := by
    funext a b
    have := dft2_spot hp hq 1 a b
    simp only [one_mul] at this
    rw [this]
  rw [h1, idft2_dft2 _ ha hb]

theorem exp_arg_of_norm {z : ℂ} (hz : ‖z‖ = 1) : cexp (I * (arg z : ℂ)) = z := by
  have := mul_expI_arg z
  rwa [hz, Complex.ofReal_one, one_mul] at this

/-- The draw that makes the initial phase `arg z`. -/
def drawOf (z : ℂ) : ℝ := Int.fract (arg z / (2 * Real.pi))

theorem exp_drawOf {z : ℂ} (hz : ‖z‖ = 1) : cexp (I * ((2 * Real.pi * drawOf z : ℝ) : ℂ)) = z := by
  have h2 : (2 * Real.pi : ℝ) ≠ 0 := by positivity
  conv_rhs => rw [← exp_arg_of_norm hz]
  rw [Complex.exp_eq_exp_iff_exists_int]
  refine ⟨-⌊arg z / (2 * Real.pi)⌋, ?_⟩
  have : 2 * Real.pi * drawOf z = arg z - 2 * Real.pi * ⌊arg z / (2 * Real.pi)⌋ := by
    unfold drawOf
    rw [Int.fract, mul_sub, mul_div_cancel₀ _ h2]
  rw [this]
  push_cast
  ring

/-- From phases that compensate the input and add the blaze, every Gerchberg-Saxton step gives phases that
add the blaze. -/
theorem gsStep_spot {M N p q : ℕ} (hp : p < M) (hq : q < N) {inp target : ℕ → ℕ → ℂ}
    (htg : ∀ a < M, ∀ b < N, target a b = (spot p q a b : ℂ)) {φ : ℕ → ℕ → ℝ}
    (hφ : ∀ a < M, ∀ b < N, modulate inp φ a b = blaze M N p q a b) (a b : ℕ) :
    cexp (I * (gsStep M N inp target φ a b : ℂ)) = blaze M N p q a b := by
  show cexp (I * (arg (dft2 M N (fun a b => gsCorrect (target a b) (idft2 M N (modulate inp φ) a b)) a b) : ℂ)) = _
  rw [dft2_congr (v := fun a b => 1 * (spot p q a b : ℂ)), dft2_spot hp hq, one_mul,
    exp_arg_of_norm (norm_blaze _ _ _ _ _ _)]
  intro a ha b hb
  rw [htg a ha b hb, idft2_congr hφ, idft2_blaze hp hq ha hb]
  unfold gsCorrect
  by_cases h : a = p ∧ b = q
  · simp [spot, h]
  · simp [spot, h]

theorem gsLoop_spot {M N p q : ℕ} (hp : p < M) (hq : q < N) {inp target : ℕ → ℕ → ℂ}
    (hinp : ∀ a < M, ∀ b < N, inp a b = 1)
    (htg : ∀ a < M, ∀ b < N, target a b = (spot p q a b : ℂ)) {φ : ℕ → ℕ → ℝ}
    (hφ : ∀ a < M, ∀ b < N, modulate inp φ a b = blaze M N p q a b) (n : ℕ) :
    ∀ a < M, ∀ b < N, modulate inp (gsLoop M N inp target φ n) a b = blaze M N p q a b := by
  induction n with
  | zero => exact hφ
  | succ n ih =>
    intro a ha b hb
    unfold modulate
    rw [hinp a ha b hb, one_mul]
    exact gsStep_spot hp hq htg ih a b

/-- If the phases add the blaze and the input has unit amplitude, the error is zero only if the phase of the input is uniform. -/
theorem uniform_of_error {M N p q : ℕ} (hp : p < M) (hq : q < N) {inp : ℕ → ℕ → ℂ} {φ : ℕ → ℕ → ℝ}
    (hφ : ∀ a < M, ∀ b < N, cexp (I * (φ a b : ℂ)) = blaze M N p q a b)
    (h0 : rawError M N inp (spot p q) φ = 0) :
    ∀ a < M, ∀ b < N, inp a b = idft2 M N (modulate inp φ) p q := by
  have h1 : ∀ a < M, ∀ b < N, ‖idft2 M N (modulate inp φ) a b‖ = spot p q a b := by
    intro a ha b hb
    unfold rawError at h0
    rw [Finset.sum_eq_zero_iff_of_nonneg fun a _ => Finset.sum_nonneg fun b _ => sq_nonneg _] at h0
    have := h0 a (mem_range.mpr ha)
    rw [Finset.sum_eq_zero_iff_of_nonneg fun b _ => sq_nonneg _] at this
    have := this b (mem_range.mpr hb)
    rw [sq_eq_zero_iff] at this
    linarith
  intro a ha b hb
  have h2 : ∀ a < M, ∀ b < N, idft2 M N (modulate inp φ) a b =
      idft2 M N (modulate inp φ) p q * (spot p q a b : ℂ) := by
    intro a ha b hb
    by_cases h : a = p ∧ b = q
    · simp [spot, h]
    · have := h1 a ha b hb
      rw [spot, if_neg h, norm_eq_zero] at this
      rw [this, spot, if_neg h]
      simp
  have h3 := dft2_idft2 (modulate inp φ) ha hb
  rw [dft2_congr h2, dft2_spot hp hq] at h3
  unfold modulate at h3
  rw [hφ a ha b hb] at h3
  exact (mul_right_cancel₀ (blaze_ne_zero _ _ _ _ _ _) h3).symm

/-- The reflection of a pixel through the optical axis. -/
theorem reflect_int {n k : ℕ} (hk : k < n) :
    ∃ z : ℤ, (reflect n k : ℂ) - (n / 2 : ℕ) = -((k : ℂ) - (n / 2 : ℕ)) + z * n := by
  unfold reflect
  generalize n / 2 = c
  refine ⟨-((2 * c + n - k) / n : ℕ) + 1, ?_⟩
  have h := Nat.div_add_mod (2 * c + n - k) n
  have h' : (n : ℂ) * ((2 * c + n - k) / n : ℕ) + ((2 * c + n - k) % n : ℕ) = 2 * c + n - k := by
    have : ((n * ((2 * c + n - k) / n) + (2 * c + n - k) % n + k : ℕ) : ℂ) = ((2 * c + n : ℕ) : ℂ) := by
      congr 1; omega
    push_cast at this
    linear_combination this
  rw [Int.cast_add, Int.cast_neg, Int.cast_natCast, Int.cast_one]
  linear_combination h'

theorem conj_Ec_reflect {n k a : ℕ} (hk : k < n) :
    (starRingEnd ℂ) (Ec n k a) = cexp ((2 * Real.pi * I) * (((reflect n k : ℂ) - (n / 2 : ℕ)) * a / n)) *
      cexp (-(2 * Real.pi * I) * (((reflect n k : ℂ) - (n / 2 : ℕ)) * (n / 2 : ℕ) / n)) := by
  have hn : (n : ℂ) ≠ 0 := by exact_mod_cast (by omega : n ≠ 0)
  obtain ⟨z, hz⟩ := reflect_int hk
  rw [Ec, ← Complex.exp_conj, ← Complex.exp_add, hz, Complex.exp_eq_exp_iff_exists_int]
  refine ⟨-(z * (a - (n / 2 : ℕ))), ?_⟩
  generalize (n / 2 : ℕ) = c
  simp only [map_mul, map_sub, map_div₀, Complex.conj_I, Complex.conj_ofReal, map_natCast, map_ofNat]
  push_cast
  field_simp
  ring

/-- The simulated image of the conjugate modulation is the prediction at the opposite pixel. -/
theorem sum_Ec_reflect {s : SLM} (U : ℕ → ℕ → ℂ) {k l : ℕ} (hk : k < s.Ny) (hl : l < s.Nx) :
    ‖∑ i ∈ range s.Ny, ∑ j ∈ range s.Nx, (starRingEnd ℂ) (U i j) * (Ec s.Ny k i * Ec s.Nx l j)‖ =
      (s.Ny * s.Nx) * ‖predicted s U (reflect s.Ny k) (reflect s.Nx l)‖ := by
  have h0 : (s.Ny : ℝ) * s.Nx ≠ 0 := by
    have : s.Ny ≠ 0 := by omega
    have : s.Nx ≠ 0 := by omega
    positivity
  rw [← Complex.norm_conj]
  simp only [map_sum, map_mul, Complex.conj_conj]
  unfold predicted
  rw [norm_mul, norm_div, norm_one, norm_mul, Complex.norm_natCast, Complex.norm_natCast, ← mul_assoc,
    mul_one_div_cancel h0, one_mul]
  set c := cexp (-(2 * Real.pi * I) * (((reflect s.Ny k : ℂ) - (s.Ny / 2 : ℕ)) * (s.Ny / 2 : ℕ) / s.Ny)) *
    cexp (-(2 * Real.pi * I) * (((reflect s.Nx l : ℂ) - (s.Nx / 2 : ℕ)) * (s.Nx / 2 : ℕ) / s.Nx)) with hc
  have hcn : ‖c‖ = 1 := by
    rw [hc, ← Complex.exp_add, Complex.norm_exp, Real.exp_eq_one_iff]
    simp [Complex.mul_re, Complex.div_re, Complex.div_im, Complex.mul_im]
  rw [← mul_one ‖∑ i ∈ range s.Ny, ∑ j ∈ range s.Nx, U i j * cexp _‖, ← hcn, ← norm_mul, Finset.sum_mul]
  refine congrArg _ (Finset.sum_congr rfl fun i _ => ?_)
  rw [Finset.sum_mul]
  refine Finset.sum_congr rfl fun j _ => ?_
  rw [conj_Ec_reflect hk, conj_Ec_reflect hl, hc, mul_add, Complex.exp_add]
  ring

end LCOS

end PySLM2
