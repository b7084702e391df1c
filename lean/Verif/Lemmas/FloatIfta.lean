import Verif.Spec.FloatIfta
import Verif.Lemmas.FloatHologram
import Verif.Lemmas.FloatGrating

/-!
# Rounding in method `ifta`
-/

noncomputable section

open Complex Finset

namespace PySLM2.FloatIfta

open Lib Spec LCOS

variable {u v τ : ℝ} {t M N : ℕ}

theorem relErr_of_roundsTo {rnd : ℝ → ℝ} (h : RoundsTo t rnd) : RelErr (1 / 2 ^ t) rnd := fun x => by
  have := h.err x
  rwa [div_eq_inv_mul, ← one_div] at this

theorem cmulR_err {rnd : ℝ → ℝ} (h : RelErr u rnd) (hu : u ≤ 1 / 1000) (a b : ℂ) :
    ‖cmulR rnd a b - a * b‖ ≤ 3.1 * u * (‖a‖ * ‖b‖) := by
  have h0 := h.nonneg
  have h1 : Near (3 * u) (a * b) (cmulR rnd a b) := cmulR_near h (by linarith) a b
  have h2 := exp_sub_one_le (x := 3 * u) (by linarith) (by linarith)
  unfold Near at h1
  rw [norm_mul] at h1
  refine h1.trans (mul_le_mul_of_nonneg_right (by linarith) (by positivity))

theorem cadd0_err {rnd : ℝ → ℝ} (h : RelErr u rnd) (a : ℂ) : ‖(⟨rnd a.re, rnd a.im⟩ : ℂ) - a‖ ≤ u * ‖a‖ := by
  have hu := h.nonneg
  have h1 := h a.re
  have h2 := h a.im
  refine (sq_le_sq₀ (norm_nonneg _) (by positivity)).mp ?_
  rw [mul_pow, ← Complex.normSq_eq_norm_sq, ← Complex.normSq_eq_norm_sq, Complex.normSq_apply, Complex.normSq_apply]
  simp only [sub_re, sub_im]
  have h3 := mul_self_le_mul_self (abs_nonneg _) h1
  have h4 := mul_self_le_mul_self (abs_nonneg _) h2
  rw [abs_mul_abs_self, mul_mul_mul_comm, abs_mul_abs_self] at h3 h4
  nlinarith

theorem caddR_err {rnd : ℝ → ℝ} (h : RelErr u rnd) (a b : ℂ) : ‖caddR rnd a b - (a + b)‖ ≤ u * ‖a + b‖ := by
  have := cadd0_err h (a + b)
  simpa only [caddR, add_re, add_im] using this

theorem csubR_err {rnd : ℝ → ℝ} (h : RelErr u rnd) (a b : ℂ) : ‖csubR rnd a b - (a - b)‖ ≤ u * ‖a - b‖ := by
  have := cadd0_err h (a - b)
  simpa only [csubR, sub_re, sub_im] using this

/-- The corrected image, at one pixel. -/
theorem correct_err {F : IftaArith} (h : RelErr u F.rnd) (hu : u ≤ 1 / 1000) {W : ℂ} (hW : ‖W‖ ≤ 1) (hW' : ‖1 - W‖ ≤ 1) (I I' D D' : ℂ) :
    ‖iftaCorrectR F I' D' W - iftaCorrect I D W‖ ≤ ‖D' - D‖ + ‖I' - I‖ + u * (5.2 * ‖D'‖ + 6.2 * ‖I'‖) ∧
      ‖iftaCorrectR F I' D' W‖ ≤ 1.02 * ‖D'‖ + 2.03 * ‖I'‖ := by
  have h0 := h.nonneg
  unfold iftaCorrectR
  set x := csubR F.rnd D' I' with hx
  set y := cmulR F.rnd x W with hy
  set c := caddR F.rnd y I' with hc
  have nI := norm_nonneg I'
  have nD := norm_nonneg D'
  have e0 : ‖D' - I'‖ ≤ ‖D'‖ + ‖I'‖ := norm_sub_le _ _
  have e1 : ‖x - (D' - I')‖ ≤ u * ‖D' - I'‖ := csubR_err h _ _
  have e1' : ‖x‖ ≤ 1.001 * ‖D' - I'‖ := by
    have := norm_add_le (x - (D' - I')) (D' - I')
    rw [sub_add_cancel] at this
    nlinarith [norm_nonneg (D' - I')]
  have e2 : ‖y - x * W‖ ≤ 3.1 * u * ‖x‖ := by
    refine (cmulR_err h hu x W).trans ?_
    have : ‖x‖ * ‖W‖ ≤ ‖x‖ * 1 := mul_le_mul_of_nonneg_left hW (norm_nonneg _)
    rw [mul_one] at this
    exact mul_le_mul_of_nonneg_left this (by linarith)
  have hxW : ‖x * W‖ ≤ ‖x‖ := by
    rw [norm_mul]
    exact mul_le_of_le_one_right (norm_nonneg _) hW
  have e2' : ‖y‖ ≤ 1.01 * ‖D' - I'‖ := by
    have := norm_add_le (y - x * W) (x * W)
    rw [sub_add_cancel] at this
    nlinarith [norm_nonneg (D' - I'), norm_nonneg x]
  have hyI : ‖y + I'‖ ≤ ‖y‖ + ‖I'‖ := norm_add_le _ _
  have e3 : ‖c - (y + I')‖ ≤ u * ‖y + I'‖ := caddR_err h _ _
  constructor
  · have e : c - iftaCorrect I D W = (c - (y + I')) + (y - x * W) + (x - (D' - I')) * W + (D' - D) * W + (I' - I) * (1 - W) := by
      unfold iftaCorrect
      ring
    rw [e]
    have m1 : ‖(x - (D' - I')) * W‖ ≤ ‖x - (D' - I')‖ := by
      rw [norm_mul]; exact mul_le_of_le_one_right (norm_nonneg _) hW
    have m2 : ‖(D' - D) * W‖ ≤ ‖D' - D‖ := by
      rw [norm_mul]; exact mul_le_of_le_one_right (norm_nonneg _) hW
    have m3 : ‖(I' - I) * (1 - W)‖ ≤ ‖I' - I‖ := by
      rw [norm_mul]; exact mul_le_of_le_one_right (norm_nonneg _) hW'
    have n1 := norm_add_le ((c - (y + I')) + (y - x * W) + (x - (D' - I')) * W + (D' - D) * W) ((I' - I) * (1 - W))
    have n2 := norm_add_le ((c - (y + I')) + (y - x * W) + (x - (D' - I')) * W) ((D' - D) * W)
    have n3 := norm_add_le ((c - (y + I')) + (y - x * W)) ((x - (D' - I')) * W)
    have n4 := norm_add_le (c - (y + I')) (y - x * W)
    have q1 : u * ‖y + I'‖ ≤ u * (1.01 * ‖D' - I'‖ + ‖I'‖) := mul_le_mul_of_nonneg_left (by linarith) h0
    have q2 : 3.1 * u * ‖x‖ ≤ 3.1 * u * (1.001 * ‖D' - I'‖) := mul_le_mul_of_nonneg_left e1' (by linarith)
    have q3 : u * ‖D' - I'‖ ≤ u * (‖D'‖ + ‖I'‖) := mul_le_mul_of_nonneg_left e0 h0
    have q4 := mul_nonneg h0 nI
    have q5 := mul_nonneg h0 nD
    nlinarith
  · have := norm_add_le (c - (y + I')) (y + I')
    rw [sub_add_cancel] at this
    have q1 : u * ‖y + I'‖ ≤ 1 / 1000 * ‖y + I'‖ := mul_le_mul_of_nonneg_right hu (norm_nonneg _)
    linarith

/-! ## The clipping -/

theorem levels_arith {ε T d1 d2 r : ℝ} (hε0 : 0 < ε) (hε : ε ≤ 1 / 1000) (hT1 : T ≤ 1 / 2) (hT2 : 2 * ε ≤ T) (hd1 : |d1| ≤ ε) (hd2 : |d2| ≤ ε)
    (hr : |r - (1 - T * ((1 + d1) * (1 + d2)))| ≤ |1 - T * ((1 + d1) * (1 + d2))| * ε) :
    |T * ((1 + d1) * (1 + d2)) - T| ≤ 3 * ε ∧ |r - (1 - T)| ≤ 3 * ε ∧ 0 ≤ T * ((1 + d1) * (1 + d2)) ∧ r ≤ 1 := by
  obtain ⟨a1, a2⟩ := abs_le.mp hd1
  obtain ⟨b1, b2⟩ := abs_le.mp hd2
  set q : ℝ := (1 + d1) * (1 + d2) with hq
  have q1 : q ≤ 1 + 2.1 * ε := by rw [hq]; nlinarith
  have q2 : 1 - 2.1 * ε ≤ q := by rw [hq]; nlinarith
  have hT0 : 0 < T := by linarith
  have s1 : |T * q - T| ≤ 1.1 * ε := by
    rw [abs_le]
    constructor <;> nlinarith
  clear_value q
  obtain ⟨c1, c2⟩ := abs_le.mp s1
  have hp : ε ≤ T * q := by nlinarith
  set p := T * q with hpd
  clear_value p
  have hp1 : 0 ≤ 1 - p := by linarith
  rw [abs_of_nonneg hp1] at hr
  obtain ⟨f1, f2⟩ := abs_le.mp hr
  have hpe : (1 - p) * ε ≤ ε := by nlinarith
  refine ⟨s1.trans (by linarith), ?_, by linarith, by linarith⟩
  rw [abs_le]
  constructor <;> linarith

/-- The rounded levels. -/
theorem threshold_close {rnd : ℝ → ℝ} (h : RoundsTo t rnd) (ht : (1 : ℝ) / 2 ^ t ≤ 1 / 1000) {K n : ℕ} (hn : n < K) (hK : K * 4 ≤ 2 ^ t) :
    |iftaThresholdR rnd K n - (n + 1) / (2 * K)| ≤ 3 / 2 ^ t ∧ |rnd (1 - iftaThresholdR rnd K n) - (1 - (n + 1) / (2 * K))| ≤ 3 / 2 ^ t ∧
      0 ≤ iftaThresholdR rnd K n ∧ rnd (1 - iftaThresholdR rnd K n) ≤ 1 := by
  have hK0 : (0 : ℝ) < K := by exact_mod_cast (by omega : 0 < K)
  have e1 : rnd (n : ℝ) = n := by
    have := h.int (z := n) (by rw [abs_of_nonneg (by positivity)]; exact_mod_cast (by omega : n ≤ 2 ^ t))
    exact_mod_cast this
  have e2 : rnd ((n : ℝ) + 1) = n + 1 := by
    have := h.int (z := (n : ℤ) + 1) (by rw [abs_of_nonneg (by positivity)]; exact_mod_cast (by omega : n + 1 ≤ 2 ^ t))
    exact_mod_cast this
  have e3 : rnd (K : ℝ) = K := by
    have := h.int (z := K) (by rw [abs_of_nonneg (by positivity)]; exact_mod_cast (by omega : K ≤ 2 ^ t))
    exact_mod_cast this
  unfold iftaThresholdR
  rw [e1, e2, e3]
  set ε : ℝ := 1 / 2 ^ t with hε
  have hε0 : 0 < ε := by rw [hε]; positivity
  obtain ⟨d1, hd1, r1⟩ := h.rel (0.5 / K)
  obtain ⟨d2, hd2, r2⟩ := h.rel (((n : ℝ) + 1) * rnd (0.5 / K))
  rw [r2, r1]
  set T : ℝ := (n + 1) / (2 * K) with hT
  have hT0 : 0 < T := by rw [hT]; positivity
  have hT1 : T ≤ 1 / 2 := by
    rw [hT, div_le_div_iff₀ (by positivity) (by norm_num)]
    have : (n : ℝ) + 1 ≤ K := by exact_mod_cast hn
    linarith
  have hT2 : 2 * ε ≤ T := by
    rw [hT, hε, mul_one_div, div_le_div_iff₀ (by positivity) (by positivity)]
    have : (K : ℝ) * 4 ≤ 2 ^ t := by exact_mod_cast hK
    have h0 : (0 : ℝ) ≤ n := by positivity
    have : (0 : ℝ) ≤ n * 2 ^ t := by positivity
    nlinarith
  have e4 : ((n : ℝ) + 1) * (0.5 / K * (1 + d1)) * (1 + d2) = T * ((1 + d1) * (1 + d2)) := by
    rw [hT]; field_simp; norm_num; ring
  rw [e4]
  have e5 : (3 : ℝ) / 2 ^ t = 3 * ε := by rw [hε]; ring
  rw [e5]
  refine levels_arith hε0 ht hT1 hT2 hd1 hd2 ?_
  have r3 := h.err (1 - T * ((1 + d1) * (1 + d2)))
  rwa [div_eq_mul_one_div, ← hε] at r3

theorem clip_mem {lo hi x : ℝ} (hlo : 0 ≤ lo) (hhi : hi ≤ 1) :
    0 ≤ (if x < lo then 0 else if x > hi then 1 else x) ∧ (if x < lo then 0 else if x > hi then 1 else x) ≤ 1 := by
  split_ifs with h1 h2
  · norm_num
  · norm_num
  · push Not at h1 h2
    exact ⟨hlo.trans h1, h2.trans hhi⟩

/-- The clipped values differ as much as the values, except near the levels. -/
theorem clip_close {lo hi lo' hi' x x' ε δ : ℝ} (h0 : 0 ≤ lo) (h1 : hi ≤ 1) (h0' : 0 ≤ lo') (h1' : hi' ≤ 1)
    (hl : |lo' - lo| ≤ ε) (hh : |hi' - hi| ≤ ε) (hx : |x' - x| ≤ δ) :
    |(if x' < lo' then 0 else if x' > hi' then 1 else x') - (if x < lo then 0 else if x > hi then 1 else x)| ≤ 1 ∧
    (δ + ε < |x - lo| → δ + ε < |x - hi| →
      |(if x' < lo' then 0 else if x' > hi' then 1 else x') - (if x < lo then 0 else if x > hi then 1 else x)| ≤ |x' - x|) := by
  constructor
  · obtain ⟨a1, a2⟩ := clip_mem (x := x) h0 h1
    obtain ⟨b1, b2⟩ := clip_mem (x := x') h0' h1'
    rw [abs_le]
    constructor <;> linarith
  · intro hlo hhi
    obtain ⟨l1, l2⟩ := abs_le.mp hl
    obtain ⟨k1, k2⟩ := abs_le.mp hh
    obtain ⟨m1, m2⟩ := abs_le.mp hx
    have c1 : x' < lo' ↔ x < lo := by
      rcases lt_abs.mp hlo with h | h <;> constructor <;> intro <;> linarith
    have c2 : x' > hi' ↔ x > hi := by
      rcases lt_abs.mp hhi with h | h <;> constructor <;> intro <;> linarith
    simp only [c1, c2]
    split_ifs
    · simp
    · simp
    · exact le_rfl

theorem iftaBinarize_eq (x T : ℝ) : iftaBinarize x T = if x < T then 0 else if x > 1 - T then 1 else x := rfl

theorem iftaBinarizeR_eq (rnd : ℝ → ℝ) (x T : ℝ) : iftaBinarizeR rnd x T = if x < T then 0 else if x > rnd (1 - T) then 1 else x := by
  unfold iftaBinarizeR
  simp only

/-! ## One iteration -/

theorem vec_le_mul {c : ℝ} (hc : 0 ≤ c) {f g : ℕ → ℕ → ℂ} (h : ∀ a < M, ∀ b < N, ‖f a b‖ ≤ c * ‖g a b‖) :
    ‖vec M N f‖ ≤ c * ‖vec M N g‖ := by
  have h1 : c * ‖vec M N g‖ = ‖vec M N fun a b => (c : ℂ) * g a b‖ := by
    rw [vec_smul_norm, norm_real, Real.norm_of_nonneg hc]
  rw [h1]
  refine vec_norm_le fun a ha b hb => ?_
  rw [norm_mul, norm_real, Real.norm_of_nonneg hc]
  exact h a ha b hb

theorem vec_sum_le (hτ : 0 ≤ τ) {f g : ℕ → ℕ → ℂ} (h : ∑ i ∈ range M, ∑ j ∈ range N, ‖g i j - f i j‖ ^ 2 ≤
    τ ^ 2 * ∑ i ∈ range M, ∑ j ∈ range N, ‖f i j‖ ^ 2) : ‖vec M N fun a b => g a b - f a b‖ ≤ τ * ‖vec M N f‖ := by
  refine (sq_le_sq₀ (norm_nonneg _) (by positivity)).mp ?_
  rw [mul_pow, vec_normSq, vec_normSq]
  exact h

/-- The computed image of a computed field. -/
theorem ifft_err {F : IftaArith} {v : ℝ} (H : IftaPrecise t v τ M N F) (hτ : 0 ≤ τ) (m m' : ℕ → ℕ → ℂ) :
    √(M * N) * ‖vec M N fun a b => F.ifft M N m' a b - idft2 M N m a b‖ ≤ τ * ‖vec M N m'‖ + ‖vec M N fun a b => m' a b - m a b‖ ∧
      √(M * N) * ‖vec M N (F.ifft M N m')‖ ≤ (1 + τ) * ‖vec M N m'‖ := by
  have h1 := vec_sum_le hτ (H.ifft m')
  have hs : 0 ≤ √((M : ℝ) * N) := Real.sqrt_nonneg _
  have h2 := mul_le_mul_of_nonneg_left h1 hs
  have h3 : √(M * N) * (τ * ‖vec M N (idft2 M N m')‖) = τ * ‖vec M N m'‖ := by
    rw [mul_left_comm, idft_norm]
  rw [h3] at h2
  have h4 : √(M * N) * ‖vec M N fun a b => idft2 M N m' a b - idft2 M N m a b‖ = ‖vec M N fun a b => m' a b - m a b‖ := by
    rw [← idft_norm (M := M) (N := N) fun a b => m' a b - m a b]
    congr 2
    exact vec_congr fun a _ b _ => (idft_sub _ _ _ _).symm
  constructor
  · have h5 := vec_add_le (M := M) (N := N) (fun a b => F.ifft M N m' a b - idft2 M N m' a b) (fun a b => idft2 M N m' a b - idft2 M N m a b)
    simp only [sub_add_sub_cancel] at h5
    have h6 := mul_le_mul_of_nonneg_left h5 hs
    linarith
  · have h5 := vec_add_le (M := M) (N := N) (fun a b => F.ifft M N m' a b - idft2 M N m' a b) (idft2 M N m')
    simp only [sub_add_cancel] at h5
    have h6 := mul_le_mul_of_nonneg_left h5 hs
    rw [mul_add, idft_norm] at h6
    linarith

/-- The computed field behind the corrected image. -/
theorem fft_err {F : IftaArith} {v : ℝ} (H : IftaPrecise t v τ M N F) (hτ : 0 ≤ τ) (c c' : ℕ → ℕ → ℂ) :
    ‖vec M N fun a b => F.fft M N c' a b - dft2 M N c a b‖ ≤ τ * (√(M * N) * ‖vec M N c'‖) + √(M * N) * ‖vec M N fun a b => c' a b - c a b‖ ∧
      ‖vec M N (F.fft M N c')‖ ≤ (1 + τ) * (√(M * N) * ‖vec M N c'‖) := by
  have h1 := vec_sum_le hτ (H.fft c')
  rw [dft_norm] at h1
  have h4 : ‖vec M N fun a b => dft2 M N c' a b - dft2 M N c a b‖ = √(M * N) * ‖vec M N fun a b => c' a b - c a b‖ := by
    rw [← dft_norm]
    congr 1
    exact vec_congr fun a _ b _ => (dft_sub _ _ _ _).symm
  constructor
  · have h5 := vec_add_le (M := M) (N := N) (fun a b => F.fft M N c' a b - dft2 M N c' a b) (fun a b => dft2 M N c' a b - dft2 M N c a b)
    simp only [sub_add_sub_cancel] at h5
    linarith
  · have h5 := vec_add_le (M := M) (N := N) (fun a b => F.fft M N c' a b - dft2 M N c' a b) (dft2 M N c')
    simp only [sub_add_cancel] at h5
    rw [dft_norm] at h5
    linarith

/-- A hologram times the input field, computed. -/
theorem modulated_err {F : IftaArith} (h : RelErr u F.rnd) (hu : u ≤ 1 / 1000) (inp : ℕ → ℕ → ℂ) (b b' : ℕ → ℕ → ℝ) :
    (‖vec M N fun i j => cmulR F.rnd (inp i j) (b' i j : ℂ) - inp i j * (b i j : ℂ)‖ ≤
      3.1 * u * ‖vec M N fun i j => inp i j * (b' i j : ℂ)‖ + ‖vec M N fun i j => inp i j * ((b' i j - b i j : ℝ) : ℂ)‖) ∧
    ‖vec M N fun i j => cmulR F.rnd (inp i j) (b' i j : ℂ)‖ ≤ 1.0031 * ‖vec M N fun i j => inp i j * (b' i j : ℂ)‖ := by
  have h0 := h.nonneg
  have h1 : ‖vec M N fun i j => cmulR F.rnd (inp i j) (b' i j : ℂ) - inp i j * (b' i j : ℂ)‖ ≤
      3.1 * u * ‖vec M N fun i j => inp i j * (b' i j : ℂ)‖ := by
    refine vec_le_mul (by positivity) fun i _ j _ => ?_
    rw [norm_mul]
    exact cmulR_err h hu _ _
  have n0 := norm_nonneg (vec M N fun i j => inp i j * (b' i j : ℂ))
  constructor
  · have h2 := vec_add_le (M := M) (N := N) (fun i j => cmulR F.rnd (inp i j) (b' i j : ℂ) - inp i j * (b' i j : ℂ))
      (fun i j => inp i j * ((b' i j - b i j : ℝ) : ℂ))
    have e : (fun i j => cmulR F.rnd (inp i j) (b' i j : ℂ) - inp i j * (b' i j : ℂ) + inp i j * ((b' i j - b i j : ℝ) : ℂ)) =
        fun i j => cmulR F.rnd (inp i j) (b' i j : ℂ) - inp i j * (b i j : ℂ) := by
      funext i j
      push_cast
      ring
    rw [e] at h2
    linarith
  · have h2 := vec_add_le (M := M) (N := N) (fun i j => cmulR F.rnd (inp i j) (b' i j : ℂ) - inp i j * (b' i j : ℂ))
      (fun i j => inp i j * (b' i j : ℂ))
    simp only [sub_add_cancel] at h2
    have : 3.1 * u * ‖vec M N fun i j => inp i j * (b' i j : ℂ)‖ ≤ 0.0031 * ‖vec M N fun i j => inp i j * (b' i j : ℂ)‖ :=
      mul_le_mul_of_nonneg_right (by linarith) n0
    linarith

/-- The corrected image. -/
theorem corrected_err {F : IftaArith} (hr : RelErr u F.rnd) (hu : u ≤ 1 / 1000) {W : ℕ → ℕ → ℂ}
    (hW : ∀ a < M, ∀ b < N, ‖W a b‖ ≤ 1 ∧ ‖1 - W a b‖ ≤ 1) (I I' D D' : ℕ → ℕ → ℂ) :
    (‖vec M N fun a b => iftaCorrectR F (I' a b) (D' a b) (W a b) - iftaCorrect (I a b) (D a b) (W a b)‖ ≤
      (‖vec M N fun a b => D' a b - D a b‖ + ‖vec M N fun a b => I' a b - I a b‖) + (5.2 * u * ‖vec M N D'‖ + 6.2 * u * ‖vec M N I'‖)) ∧
    ‖vec M N fun a b => iftaCorrectR F (I' a b) (D' a b) (W a b)‖ ≤ 1.02 * ‖vec M N D'‖ + 2.03 * ‖vec M N I'‖ := by
  have hu0 := hr.nonneg
  have s1 : ∀ (x : ℝ) (f : ℕ → ℕ → ℂ), 0 ≤ x → ‖vec M N fun a b => (x : ℂ) * f a b‖ = x * ‖vec M N f‖ := fun x f hx => by
    rw [vec_smul_norm, norm_real, Real.norm_of_nonneg hx]
  have s2 : ∀ (x : ℝ) (z : ℂ), 0 ≤ x → ‖(x : ℂ) * z‖ = x * ‖z‖ := fun x z hx => by
    rw [norm_mul, norm_real, Real.norm_of_nonneg hx]
  constructor
  · have q : ‖vec M N fun a b => iftaCorrectR F (I' a b) (D' a b) (W a b) - iftaCorrect (I a b) (D a b) (W a b)‖ ≤
        ‖vec M N fun a b => ((‖D' a b - D a b‖ + ‖I' a b - I a b‖ : ℝ) : ℂ)‖ +
        ‖vec M N fun a b => ((u * (5.2 * ‖D' a b‖ + 6.2 * ‖I' a b‖) : ℝ) : ℂ)‖ := by
      refine vec_norm_le_add fun a ha c hc => ?_
      rw [norm_real, norm_real, Real.norm_of_nonneg (by positivity), Real.norm_of_nonneg (by positivity)]
      exact (correct_err hr hu (hW a ha c hc).1 (hW a ha c hc).2 _ _ _ _).1
    refine q.trans (add_le_add ?_ ?_)
    · refine vec_norm_le_add fun a _ c _ => ?_
      rw [norm_real, Real.norm_of_nonneg (by positivity)]
    · rw [← s1 _ D' (by positivity), ← s1 _ I' (by positivity)]
      refine vec_norm_le_add fun a _ c _ => ?_
      rw [s2 _ _ (by positivity), s2 _ _ (by positivity), norm_real, Real.norm_of_nonneg (by positivity)]
      exact le_of_eq (by ring)
  · rw [← s1 _ D' (by norm_num), ← s1 _ I' (by norm_num)]
    refine vec_norm_le_add fun a ha c hc => ?_
    rw [s2 _ _ (by norm_num), s2 _ _ (by norm_num)]
    exact (correct_err hr hu (hW a ha c hc).1 (hW a ha c hc).2 (I' a c) (I' a c) (D' a c) (D' a c)).2

theorem corrected_arith {R u τ P e J e₀ x a b c d : ℝ} (hR : 0 ≤ R) (hu : 0 ≤ u) (hx : x ≤ (a + b) + (5.2 * u * c + 6.2 * u * d))
    (hb : R * b ≤ e + J + 3.1 * u * P + 1.0031 * τ * P) (ha : R * a ≤ e₀ + 3.1 * u * P + 1.0031 * τ * P)
    (hd : R * d ≤ 1.005 * P) (hc : R * c ≤ 1.005 * P) :
    R * x ≤ e + J + e₀ + (6.2 * (u * P) + 2.0062 * (τ * P) + 11.4 * 1.005 * (u * P)) := by
  have q := mul_le_mul_of_nonneg_left hx hR
  have q1 := mul_le_mul_of_nonneg_left hd hu
  have q2 := mul_le_mul_of_nonneg_left hc hu
  have e1 : R * ((a + b) + (5.2 * u * c + 6.2 * u * d)) = R * a + R * b + (5.2 * (u * (R * c)) + 6.2 * (u * (R * d))) := by ring
  rw [e1] at q
  linarith

/-- The quotient by the input field. -/
theorem quotient_err {F : IftaArith} {v : ℝ} (H : IftaPrecise t v τ M N F) (hv0 : 0 ≤ v) (inp Z' Z : ℕ → ℕ → ℂ) :
    ‖vec M N fun i j => inp i j * (((if inp i j = 0 then 0 else (F.div (Z' i j) (inp i j)).re) -
        (if inp i j = 0 then 0 else (Z i j / inp i j).re) : ℝ) : ℂ)‖ ≤
      v * ‖vec M N Z'‖ + ‖vec M N fun a b => Z' a b - Z a b‖ := by
  have e : v * ‖vec M N Z'‖ = ‖vec M N fun i j => ((v : ℝ) : ℂ) * Z' i j‖ := by
    rw [vec_smul_norm, norm_real, Real.norm_of_nonneg hv0]
  rw [e]
  refine vec_norm_le_add fun i _ j _ => ?_
  by_cases h : inp i j = 0
  · rw [h, zero_mul, norm_zero]
    positivity
  · rw [if_neg h, if_neg h, norm_mul, norm_real, ← sub_re, norm_mul, norm_real, Real.norm_of_nonneg hv0]
    have hp : 0 < ‖inp i j‖ := norm_pos_iff.mpr h
    have a1 : ‖(F.div (Z' i j) (inp i j) - Z i j / inp i j).re‖ ≤ ‖F.div (Z' i j) (inp i j) - Z i j / inp i j‖ :=
      Complex.abs_re_le_norm _
    have a2 := norm_add_le (F.div (Z' i j) (inp i j) - Z' i j / inp i j) (Z' i j / inp i j - Z i j / inp i j)
    rw [sub_add_sub_cancel] at a2
    have a3 := H.div (Z' i j) (inp i j) h
    rw [← sub_div, norm_div (Z' i j - Z i j)] at a2
    rw [norm_div] at a3
    have a4 : ‖(F.div (Z' i j) (inp i j) - Z i j / inp i j).re‖ ≤ (v * ‖Z' i j‖ + ‖Z' i j - Z i j‖) / ‖inp i j‖ := by
      rw [add_div, mul_div_assoc]
      linarith
    have a5 := mul_le_mul_of_nonneg_left a4 hp.le
    rwa [mul_div_cancel₀ _ hp.ne'] at a5

theorem step_arith {R u τ v P e J e₀ B G EB EG nm nm' nk nk' nI nI' nD nD' nC nC' nZ nZ' : ℝ} (hR : 0 ≤ R) (hu0 : 0 ≤ u) (hu : u ≤ 1 / 1000)
    (hτ : 0 ≤ τ) (hτ1 : τ ≤ 1 / 1000) (hv : 0 ≤ v) (hB0 : 0 ≤ B) (hB : B ≤ P) (hG : G ≤ P) (he : EB ≤ e + J) (he₀ : EG ≤ e₀)
    (m1 : nm ≤ 3.1 * u * B + EB) (m2 : nm' ≤ 1.0031 * B) (k1 : nk ≤ 3.1 * u * G + EG) (k2 : nk' ≤ 1.0031 * G)
    (i1 : R * nI ≤ τ * nm' + nm) (i2 : R * nI' ≤ (1 + τ) * nm') (d1 : R * nD ≤ τ * nk' + nk) (d2 : R * nD' ≤ (1 + τ) * nk')
    (q1 : nC ≤ (nD + nI) + (5.2 * u * nD' + 6.2 * u * nI')) (q2 : nC' ≤ 1.02 * nD' + 2.03 * nI')
    (z1 : nZ ≤ τ * (R * nC') + R * nC) (z2 : nZ' ≤ (1 + τ) * (R * nC')) :
    v * nZ' + nZ ≤ e + e₀ + J + (18 * u + 6 * τ + 4 * v) * P := by
  have hP : 0 ≤ P := hB0.trans hB
  have x1 : nm' ≤ 1.0031 * P := m2.trans (by linarith)
  have x2 : nk' ≤ 1.0031 * P := k2.trans (by linarith)
  have uP : u * B ≤ u * P := mul_le_mul_of_nonneg_left hB hu0
  have uP' : u * G ≤ u * P := mul_le_mul_of_nonneg_left hG hu0
  have τ1 : τ * nm' ≤ τ * (1.0031 * P) := mul_le_mul_of_nonneg_left x1 hτ
  have τ2 : τ * nk' ≤ τ * (1.0031 * P) := mul_le_mul_of_nonneg_left x2 hτ
  have τP : τ * P ≤ 1 / 1000 * P := mul_le_mul_of_nonneg_right hτ1 hP
  have τP0 : 0 ≤ τ * P := mul_nonneg hτ hP
  have uP0 : 0 ≤ u * P := mul_nonneg hu0 hP
  have vP0 : 0 ≤ v * P := mul_nonneg hv hP
  have y1 : R * nI ≤ e + J + 3.1 * u * P + 1.0031 * τ * P := by linarith
  have y2 : R * nD ≤ e₀ + 3.1 * u * P + 1.0031 * τ * P := by linarith
  have y3 : R * nI' ≤ 1.005 * P := by linarith
  have y4 : R * nD' ≤ 1.005 * P := by linarith
  have c1 := corrected_arith hR hu0 q1 y1 y2 y3 y4
  have c2 : R * nC' ≤ 3.1 * P := by
    have := mul_le_mul_of_nonneg_left q2 hR
    linarith
  have z3 : τ * (R * nC') ≤ τ * (3.1 * P) := mul_le_mul_of_nonneg_left c2 hτ
  have z4 : nZ' ≤ 3.2 * P := by linarith
  have vP : v * nZ' ≤ v * (3.2 * P) := mul_le_mul_of_nonneg_left z4 hv
  linarith

/-- One iteration from clipped holograms `b` (exact) and `b'` (computed), starting holograms `g₀` and `g₀'`. -/
theorem step_err {F : IftaArith} {v : ℝ} (H : IftaPrecise t v τ M N F) (hu : (1 : ℝ) / 2 ^ t ≤ 1 / 1000) (hv0 : 0 ≤ v) (hτ : 0 ≤ τ)
    (hτ1 : τ ≤ 1 / 1000) {inp W : ℕ → ℕ → ℂ} (hW : ∀ a < M, ∀ b < N, ‖W a b‖ ≤ 1 ∧ ‖1 - W a b‖ ≤ 1)
    {b b' g₀ g₀' : ℕ → ℕ → ℝ} {P e J e₀ : ℝ} (hb : ‖vec M N fun i j => inp i j * (b' i j : ℂ)‖ ≤ P)
    (hg : ‖vec M N fun i j => inp i j * (g₀' i j : ℂ)‖ ≤ P)
    (he : ‖vec M N fun i j => inp i j * ((b' i j - b i j : ℝ) : ℂ)‖ ≤ e + J)
    (he₀ : ‖vec M N fun i j => inp i j * ((g₀' i j - g₀ i j : ℝ) : ℂ)‖ ≤ e₀) :
    ‖vec M N fun i j => inp i j * (((if inp i j = 0 then 0 else
          (F.div (F.fft M N (fun a b => iftaCorrectR F (F.ifft M N (fun a b => cmulR F.rnd (inp a b) (b' a b : ℂ)) a b)
            (F.ifft M N (fun a b => cmulR F.rnd (inp a b) (g₀' a b : ℂ)) a b) (W a b)) i j) (inp i j)).re) -
        (if inp i j = 0 then 0 else
          (dft2 M N (fun a c => iftaCorrect (idft2 M N (fun a c => inp a c * (b a c : ℂ)) a c)
            (idft2 M N (fun a c => inp a c * (g₀ a c : ℂ)) a c) (W a c)) i j / inp i j).re) : ℝ) : ℂ)‖ ≤
      e + e₀ + J + (18 * (1 / 2 ^ t) + 6 * τ + 4 * v) * P := by
  have hr := relErr_of_roundsTo H.arith.rnd
  obtain ⟨m1, m2⟩ := modulated_err (M := M) (N := N) hr hu inp b b'
  obtain ⟨k1, k2⟩ := modulated_err (M := M) (N := N) hr hu inp g₀ g₀'
  obtain ⟨i1, i2⟩ := ifft_err H hτ (fun a c => inp a c * (b a c : ℂ)) (fun a c => cmulR F.rnd (inp a c) (b' a c : ℂ))
  obtain ⟨d1, d2⟩ := ifft_err H hτ (fun a c => inp a c * (g₀ a c : ℂ)) (fun a c => cmulR F.rnd (inp a c) (g₀' a c : ℂ))
  obtain ⟨q1, q2⟩ := corrected_err (M := M) (N := N) hr hu hW (idft2 M N fun a c => inp a c * (b a c : ℂ))
    (F.ifft M N fun a c => cmulR F.rnd (inp a c) (b' a c : ℂ)) (idft2 M N fun a c => inp a c * (g₀ a c : ℂ))
    (F.ifft M N fun a c => cmulR F.rnd (inp a c) (g₀' a c : ℂ))
  obtain ⟨z1, z2⟩ := fft_err H hτ
    (fun a c => iftaCorrect (idft2 M N (fun a c => inp a c * (b a c : ℂ)) a c) (idft2 M N (fun a c => inp a c * (g₀ a c : ℂ)) a c) (W a c))
    (fun a b => iftaCorrectR F (F.ifft M N (fun a b => cmulR F.rnd (inp a b) (b' a b : ℂ)) a b)
            (F.ifft M N (fun a b => cmulR F.rnd (inp a b) (g₀' a b : ℂ)) a b) (W a b))
  refine (quotient_err H hv0 inp _ _).trans ?_
  exact step_arith (Real.sqrt_nonneg _) hr.nonneg hu hτ hτ1 hv0 (norm_nonneg _) hb hg he he₀ m1 m2 k1 k2 i1 i2 d1 d2 q1 q2 z1 z2

end PySLM2.FloatIfta
