import Verif.Spec.FloatHologram
import Verif.Lemmas.FloatCalc
import Verif.Lemmas.Mraf

/-!
# Rounding in the hologram algorithms
-/

noncomputable section

open Complex Finset

namespace PySLM2.LCOS

open Lib Spec
open FloatCalc (chord_le exp_two_pi)

variable {u v τ : ℝ} {M N : ℕ} {F : HoloArith}

theorem vec_norm_le {f : ℕ → ℕ → ℂ} {g : ℕ → ℕ → ℂ} (h : ∀ a < M, ∀ b < N, ‖f a b‖ ≤ ‖g a b‖) : ‖vec M N f‖ ≤ ‖vec M N g‖ := by
  refine (sq_le_sq₀ (norm_nonneg _) (norm_nonneg _)).mp ?_
  rw [vec_normSq, vec_normSq]
  exact sum_le_sum fun a ha => sum_le_sum fun b hb =>
    pow_le_pow_left₀ (norm_nonneg _) (h a (mem_range.mp ha) b (mem_range.mp hb)) 2

theorem vec_congr {f g : ℕ → ℕ → ℂ} (h : ∀ a < M, ∀ b < N, f a b = g a b) : vec M N f = vec M N g := by
  unfold vec
  congr 1
  funext p
  exact h _ p.1.2 _ p.2.2

theorem vec_add (f g : ℕ → ℕ → ℂ) : (vec M N fun i j => f i j + g i j) = vec M N f + vec M N g := rfl

theorem vec_smul (c : ℂ) (f : ℕ → ℕ → ℂ) : (vec M N fun i j => c * f i j) = c • vec M N f := rfl

theorem vec_add_le (f g : ℕ → ℕ → ℂ) : ‖vec M N fun i j => f i j + g i j‖ ≤ ‖vec M N f‖ + ‖vec M N g‖ := by
  rw [vec_add]; exact norm_add_le _ _

theorem vec_smul_norm (c : ℂ) (f : ℕ → ℕ → ℂ) : ‖vec M N fun i j => c * f i j‖ = ‖c‖ * ‖vec M N f‖ := by
  rw [vec_smul, norm_smul]

/-- Bound by a sum of two arrays, pixel by pixel. -/
theorem vec_norm_le_add {f g h : ℕ → ℕ → ℂ} (hf : ∀ a < M, ∀ b < N, ‖f a b‖ ≤ ‖g a b‖ + ‖h a b‖) :
    ‖vec M N f‖ ≤ ‖vec M N g‖ + ‖vec M N h‖ := by
  have h1 : ‖vec M N f‖ ≤ ‖vec M N fun a b => ((‖g a b‖ : ℝ) : ℂ) + ((‖h a b‖ : ℝ) : ℂ)‖ := by
    refine vec_norm_le fun a ha b hb => (hf a ha b hb).trans (le_of_eq ?_)
    rw [← ofReal_add, norm_real, Real.norm_of_nonneg (by positivity)]
  refine h1.trans ((vec_add_le _ _).trans (add_le_add (vec_norm_le fun a _ b _ => ?_) (vec_norm_le fun a _ b _ => ?_)))
  · simp
  · simp

theorem idft_sub (f g : ℕ → ℕ → ℂ) (a b : ℕ) :
    idft2 M N (fun a b => f a b - g a b) a b = idft2 M N f a b - idft2 M N g a b := by
  have := idft2_add M N f (fun a b => (-1) * g a b) a b
  rw [idft2_smul] at this
  simp only [neg_one_mul, ← sub_eq_add_neg] at this
  exact this

theorem dft_sub (f g : ℕ → ℕ → ℂ) (a b : ℕ) :
    dft2 M N (fun a b => f a b - g a b) a b = dft2 M N f a b - dft2 M N g a b := by
  have := dft2_add M N f (fun a b => (-1) * g a b) a b
  rw [dft2_smul] at this
  simp only [neg_one_mul, ← sub_eq_add_neg] at this
  exact this

theorem dft_norm (f : ℕ → ℕ → ℂ) : ‖vec M N (dft2 M N f)‖ = √(M * N) * ‖vec M N f‖ := by
  rw [← Real.sqrt_sq (norm_nonneg (vec M N (dft2 M N f))), vec_normSq, dft2_parseval, Real.sqrt_mul (by positivity), ← vec_normSq,
    Real.sqrt_sq (norm_nonneg _)]

theorem idft_norm (f : ℕ → ℕ → ℂ) : √(M * N) * ‖vec M N (idft2 M N f)‖ = ‖vec M N f‖ := by
  rw [← dft_norm]
  congr 1
  exact vec_congr fun a ha b hb => dft2_idft2 _ ha hb

theorem dft_near {c : ℝ} {f g : ℕ → ℕ → ℂ} (h : Near c (vec M N f) (vec M N g)) :
    Near c (vec M N (dft2 M N f)) (vec M N (dft2 M N g)) := by
  unfold Near at h ⊢
  rw [vec_sub] at h ⊢
  rw [vec_congr (g := dft2 M N fun a b => g a b - f a b) fun a _ b _ => (dft_sub _ _ _ _).symm, dft_norm, dft_norm, mul_left_comm]
  exact mul_le_mul_of_nonneg_left h (Real.sqrt_nonneg _)

theorem idft_near (hM : 0 < M) (hN : 0 < N) {c : ℝ} {f g : ℕ → ℕ → ℂ} (h : Near c (vec M N f) (vec M N g)) :
    Near c (vec M N (idft2 M N f)) (vec M N (idft2 M N g)) := by
  unfold Near at h ⊢
  rw [vec_sub] at h ⊢
  rw [vec_congr (g := idft2 M N fun a b => g a b - f a b) fun a _ b _ => (idft_sub _ _ _ _).symm]
  rw [← idft_norm (M := M) (N := N) fun i j => g i j - f i j, ← idft_norm (M := M) (N := N) f, mul_left_comm] at h
  exact le_of_mul_le_mul_left h (Real.sqrt_pos.mpr (by positivity))

theorem near_of_sum (hτ : 0 ≤ τ) {f g : ℕ → ℕ → ℂ} (h : ∑ i ∈ range M, ∑ j ∈ range N, ‖g i j - f i j‖ ^ 2 ≤
    τ ^ 2 * ∑ i ∈ range M, ∑ j ∈ range N, ‖f i j‖ ^ 2) : Near τ (vec M N f) (vec M N g) := by
  rw [vec_near_iff hτ]
  refine h.trans (mul_le_mul_of_nonneg_right (pow_le_pow_left₀ hτ ?_ 2) ?_)
  · have := Real.add_one_le_exp τ
    linarith
  · exact sum_nonneg fun i _ => sum_nonneg fun j _ => sq_nonneg _

/-! ## One step of alternating projections with errors -/

/-- A phase that is within `v` of the angle of `z` (up to whole turns, anything if `z = 0`) points to a number of modulus `a` that is as
near to `z` as any other, up to `v a`. -/
theorem nearest_phase {a : ℝ} (ha : 0 ≤ a) {z w : ℂ} (hw : ‖w‖ = a) {ψ : ℝ}
    (hψ : z ≠ 0 → ∃ k : ℤ, |ψ - (arg z + k * (2 * Real.pi))| ≤ v) (hv : 0 ≤ v) :
    ‖a * cexp (I * ψ) - z‖ ≤ ‖w - z‖ + v * a := by
  by_cases hz : z = 0
  · rw [hz, sub_zero, sub_zero, norm_mul, norm_expI, norm_real, Real.norm_of_nonneg ha, mul_one, hw]
    have := mul_nonneg hv ha
    linarith
  · obtain ⟨k, hk⟩ := hψ hz
    have h1 := nearest a ha z w hw
    have h2 : ‖(a : ℂ) * cexp (I * ψ) - a * cexp (I * (arg z : ℂ))‖ ≤ v * a := by
      rw [← mul_sub, norm_mul, norm_real, Real.norm_of_nonneg ha, mul_comm]
      refine mul_le_mul_of_nonneg_right (le_trans ?_ hk) ha
      have h3 := chord_le ψ (arg z + k * (2 * Real.pi))
      rw [exp_two_pi, mul_comm, mul_comm (arg z : ℂ)] at h3
      exact h3
    have h3 := norm_add_le ((a : ℂ) * cexp (I * ψ) - a * cexp (I * (arg z : ℂ))) (a * cexp (I * (arg z : ℂ)) - z)
    rw [sub_add_sub_cancel] at h3
    linarith

/-- One iteration.  The phases `φ` give the image `g`; `D` is the goal the iteration works with, `G` its computed transform up to the factor
`κ`, `φ'` the computed angles of `G`. -/
theorem project_step (hM : 0 < M) (hN : 0 < N) {inp : ℕ → ℕ → ℂ} {A : ℕ → ℕ → ℝ} {c : ℂ} (hc : ‖c‖ = 1)
    (hinp : ∀ a < M, ∀ b < N, inp a b = c * A a b) (hA : ∀ a < M, ∀ b < N, 0 ≤ A a b) {φ φ' : ℕ → ℕ → ℝ} {D G : ℕ → ℕ → ℂ}
    {κ c' : ℝ} (hκ : 0 < κ) (hv : 0 ≤ v) (hG : Near c' (vec M N fun a b => (κ : ℂ) * dft2 M N D a b) (vec M N G))
    (hφ' : ∀ a < M, ∀ b < N, G a b ≠ 0 → ∃ k : ℤ, |φ' a b - (arg (G a b) + k * (2 * Real.pi))| ≤ v) :
    ‖vec M N fun a b => (starRingEnd ℂ) c * idft2 M N (modulate inp φ') a b - D a b‖ ≤
      ‖vec M N fun a b => idft2 M N (modulate inp φ) a b - D a b‖ + v * ‖vec M N (idft2 M N inp)‖ +
        2 * ((Real.exp c' - 1) * ‖vec M N D‖) := by
  have hcc : (starRingEnd ℂ) c * c = 1 := by
    rw [mul_comm, Complex.mul_conj, Complex.normSq_eq_norm_sq, hc]; simp
  have hs : 0 < √((M : ℝ) * N) := Real.sqrt_pos.mpr (by positivity)
  have hκc : (κ : ℂ) ≠ 0 := by exact_mod_cast hκ.ne'
  set H : ℕ → ℕ → ℂ := fun a b => ((κ⁻¹ : ℝ) : ℂ) * G a b with hH
  -- the computed transform
  have e1 : ‖vec M N fun a b => H a b - dft2 M N D a b‖ ≤ (Real.exp c' - 1) * (√(M * N) * ‖vec M N D‖) := by
    unfold Near at hG
    rw [vec_sub, vec_smul_norm, dft_norm, norm_real, Real.norm_of_nonneg hκ.le] at hG
    have h1 : (vec M N fun a b => H a b - dft2 M N D a b) =
        vec M N fun a b => ((κ⁻¹ : ℝ) : ℂ) * (G a b - (κ : ℂ) * dft2 M N D a b) := by
      refine vec_congr fun a _ b _ => ?_
      simp only [hH, ofReal_inv]
      field_simp
    rw [h1, vec_smul_norm, norm_real, Real.norm_of_nonneg (by positivity)]
    calc κ⁻¹ * _ ≤ κ⁻¹ * ((Real.exp c' - 1) * (κ * (√(M * N) * ‖vec M N D‖))) := mul_le_mul_of_nonneg_left hG (by positivity)
      _ = _ := by field_simp
  -- the nearest points
  have e2 : ‖vec M N fun a b => (starRingEnd ℂ) c * modulate inp φ' a b - H a b‖ ≤
      ‖vec M N fun a b => modulate inp φ a b - H a b‖ + v * ‖vec M N inp‖ := by
    have h1 : v * ‖vec M N inp‖ = ‖vec M N fun a b => (v : ℂ) * inp a b‖ := by
      rw [vec_smul_norm, norm_real, Real.norm_of_nonneg hv]
    rw [h1]
    refine vec_norm_le_add fun a ha b hb => ?_
    have h2 : ‖inp a b‖ = A a b := by
      rw [hinp a ha b hb, norm_mul, hc, one_mul, norm_real, Real.norm_of_nonneg (hA a ha b hb)]
    have h3 : ‖modulate inp φ a b‖ = A a b := by rw [modulate, norm_mul, norm_expI, mul_one, h2]
    have h4 : (starRingEnd ℂ) c * modulate inp φ' a b = A a b * cexp (I * φ' a b) := by
      rw [modulate, hinp a ha b hb, ← mul_assoc, ← mul_assoc, hcc, one_mul]
    rw [h4, norm_mul, norm_real, Real.norm_of_nonneg hv, h2]
    refine nearest_phase (hA a ha b hb) h3 (fun hz => ?_) hv
    have hz' : G a b ≠ 0 := by
      intro h0
      exact hz (by simp only [hH, h0, mul_zero])
    have harg : arg (H a b) = arg (G a b) := Complex.arg_real_mul _ (by positivity)
    rw [harg]
    exact hφ' a ha b hb hz'
  -- back to the image plane
  refine le_of_mul_le_mul_left ?_ hs
  have f1 : √((M : ℝ) * N) * ‖vec M N fun a b => (starRingEnd ℂ) c * idft2 M N (modulate inp φ') a b - D a b‖ =
      ‖vec M N fun a b => (starRingEnd ℂ) c * modulate inp φ' a b - dft2 M N D a b‖ := by
    rw [← idft_norm fun a b => (starRingEnd ℂ) c * modulate inp φ' a b - dft2 M N D a b]
    congr 2
    refine vec_congr fun a ha b hb => ?_
    rw [idft_sub, idft2_smul, idft2_dft2 _ ha hb]
  have f2 : √((M : ℝ) * N) * ‖vec M N fun a b => idft2 M N (modulate inp φ) a b - D a b‖ =
      ‖vec M N fun a b => modulate inp φ a b - dft2 M N D a b‖ := by
    rw [← idft_norm fun a b => modulate inp φ a b - dft2 M N D a b]
    congr 2
    refine vec_congr fun a ha b hb => ?_
    rw [idft_sub, idft2_dft2 _ ha hb]
  have f3 : ‖vec M N fun a b => (starRingEnd ℂ) c * modulate inp φ' a b - dft2 M N D a b‖ ≤
      ‖vec M N fun a b => (starRingEnd ℂ) c * modulate inp φ' a b - H a b‖ + ‖vec M N fun a b => H a b - dft2 M N D a b‖ := by
    refine vec_norm_le_add fun a _ b _ => ?_
    rw [← sub_add_sub_cancel _ (H a b)]
    exact norm_add_le _ _
  have f4 : ‖vec M N fun a b => modulate inp φ a b - H a b‖ ≤
      ‖vec M N fun a b => modulate inp φ a b - dft2 M N D a b‖ + ‖vec M N fun a b => H a b - dft2 M N D a b‖ := by
    refine vec_norm_le_add fun a _ b _ => ?_
    rw [← sub_sub_sub_cancel_right _ _ (dft2 M N D a b)]
    exact norm_sub_le _ _
  have f5 := idft_norm (M := M) (N := N) inp
  rw [f1, mul_add, mul_add, f2]
  have f6 : √((M : ℝ) * N) * (v * ‖vec M N (idft2 M N inp)‖) = v * ‖vec M N inp‖ := by rw [mul_left_comm, f5]
  rw [f6]
  linarith

/-- The root of the error over the pixels `S`. -/
theorem sqrt_rawWindowError (A : ℕ → ℕ → ℂ) (B : ℕ → ℕ → ℝ) (S : ℕ → ℕ → Bool) (φ : ℕ → ℕ → ℝ) :
    √(rawWindowError M N A B S φ) =
      ‖vec M N fun a b => if S a b then ((‖idft2 M N (modulate A φ) a b‖ - B a b : ℝ) : ℂ) else 0‖ := by
  rw [← Real.sqrt_sq (norm_nonneg (vec M N _)), vec_normSq]
  congr 1
  refine sum_congr rfl fun a _ => sum_congr rfl fun b _ => ?_
  split_ifs
  · rw [norm_real, Real.norm_eq_abs, sq_abs]
  · simp

/-- The goal of an iteration: modulus `B` and computed angle in the window, the computed image elsewhere. -/
def goal (B : ℕ → ℕ → ℝ) (S : ℕ → ℕ → Bool) (θ : ℕ → ℕ → ℝ) (g : ℕ → ℕ → ℂ) (a b : ℕ) : ℂ :=
  if S a b then B a b * cexp (I * θ a b) else g a b

/-- The array `B` on the pixels `S`. -/
def cut (S : ℕ → ℕ → Bool) (B : ℕ → ℕ → ℝ) (a b : ℕ) : ℂ := if S a b then (B a b : ℂ) else 0

theorem goal_le_error {A : ℕ → ℕ → ℂ} {B : ℕ → ℕ → ℝ} {S : ℕ → ℕ → Bool} (hB : ∀ a < M, ∀ b < N, 0 ≤ B a b) {c : ℂ} (hc : ‖c‖ = 1)
    (φ θ : ℕ → ℕ → ℝ) (g : ℕ → ℕ → ℂ) :
    √(rawWindowError M N A B S φ) ≤
      ‖vec M N fun a b => (starRingEnd ℂ) c * idft2 M N (modulate A φ) a b - goal B S θ g a b‖ := by
  rw [sqrt_rawWindowError]
  refine vec_norm_le fun a ha b hb => ?_
  unfold goal
  split_ifs
  · have h1 := abs_norm_sub_norm_le ((starRingEnd ℂ) c * idft2 M N (modulate A φ) a b) (B a b * cexp (I * θ a b))
    rw [norm_mul, norm_mul, norm_expI, Complex.norm_conj, hc, one_mul, mul_one, norm_real, Real.norm_of_nonneg (hB a ha b hb)] at h1
    rw [norm_real]
    exact h1
  · simp

theorem error_le_goal {A : ℕ → ℕ → ℂ} {B : ℕ → ℕ → ℝ} {S : ℕ → ℕ → Bool} (hB : ∀ a < M, ∀ b < N, 0 ≤ B a b) (hv : 0 ≤ v)
    (φ : ℕ → ℕ → ℝ) {θ : ℕ → ℕ → ℝ} {g : ℕ → ℕ → ℂ}
    (hθ : ∀ a < M, ∀ b < N, g a b ≠ 0 → ∃ k : ℤ, |θ a b - (arg (g a b) + k * (2 * Real.pi))| ≤ v) :
    ‖vec M N fun a b => idft2 M N (modulate A φ) a b - goal B S θ g a b‖ ≤ √(rawWindowError M N A B S φ) +
      2 * ‖vec M N g - vec M N (idft2 M N (modulate A φ))‖ + v * ‖vec M N (cut S B)‖ := by
  rw [sqrt_rawWindowError]
  set G := idft2 M N (modulate A φ) with hG
  have h1 : ‖vec M N fun a b => G a b - goal B S θ g a b‖ ≤
      ‖vec M N fun a b => if S a b then ((‖G a b‖ - B a b : ℝ) : ℂ) else 0‖ +
        ‖vec M N fun a b => ((2 * ‖g a b - G a b‖ + v * ‖cut S B a b‖ : ℝ) : ℂ)‖ := by
    refine vec_norm_le_add fun a ha b hb => ?_
    rw [norm_real, Real.norm_of_nonneg (by positivity)]
    unfold goal cut
    split_ifs
    · have hb' := hB a ha b hb
      have k1 := nearest_phase (w := B a b * cexp (I * (arg (g a b) : ℂ))) hb'
        (by rw [norm_mul, norm_expI, mul_one, norm_real, Real.norm_of_nonneg hb']) (hθ a ha b hb) hv
      have k2 : ‖(B a b : ℂ) * cexp (I * (arg (g a b) : ℂ)) - g a b‖ = |B a b - ‖g a b‖| := by
        have e : (B a b : ℂ) * cexp (I * (arg (g a b) : ℂ)) - g a b =
            ((B a b - ‖g a b‖ : ℝ) : ℂ) * cexp (I * (arg (g a b) : ℂ)) := by
          push_cast
          rw [sub_mul, mul_expI_arg]
        rw [e, norm_mul, norm_expI, mul_one, norm_real, Real.norm_eq_abs]
      rw [k2] at k1
      have k3 : |B a b - ‖g a b‖| ≤ |‖G a b‖ - B a b| + ‖g a b - G a b‖ := by
        have k4 := abs_norm_sub_norm_le (g a b) (G a b)
        have k5 := abs_add_le (B a b - ‖G a b‖) (‖G a b‖ - ‖g a b‖)
        rw [sub_add_sub_cancel, abs_sub_comm (B a b) ‖G a b‖, abs_sub_comm ‖G a b‖ ‖g a b‖] at k5
        linarith
      have k6 := norm_add_le (G a b - g a b) (g a b - B a b * cexp (I * θ a b))
      rw [sub_add_sub_cancel, norm_sub_rev (G a b) (g a b), norm_sub_rev (g a b) ((B a b : ℂ) * _)] at k6
      rw [norm_real, Real.norm_eq_abs, norm_real, Real.norm_of_nonneg hb']
      linarith
    · rw [norm_zero, norm_sub_rev]
      have := norm_nonneg (g a b - G a b)
      linarith
  refine h1.trans ?_
  rw [add_assoc]
  refine add_le_add le_rfl ?_
  have h2 : ‖vec M N fun a b => ((2 * ‖g a b - G a b‖ + v * ‖cut S B a b‖ : ℝ) : ℂ)‖ ≤
      ‖vec M N fun a b => (2 : ℂ) * (g a b - G a b)‖ + ‖vec M N fun a b => (v : ℂ) * cut S B a b‖ := by
    refine vec_norm_le_add fun a _ b _ => le_of_eq ?_
    rw [norm_real, Real.norm_of_nonneg (by positivity), norm_mul, norm_mul, norm_real, Real.norm_of_nonneg hv, Complex.norm_ofNat]
  rw [vec_smul_norm, vec_smul_norm, norm_real, Real.norm_of_nonneg hv, Complex.norm_ofNat, ← vec_sub] at h2
  exact h2

/-- One iteration, from error to error. -/
theorem error_step (hM : 0 < M) (hN : 0 < N) {inp : ℕ → ℕ → ℂ} {A : ℕ → ℕ → ℝ} {c : ℂ} (hc : ‖c‖ = 1)
    (hinp : ∀ a < M, ∀ b < N, inp a b = c * A a b) (hA : ∀ a < M, ∀ b < N, 0 ≤ A a b) {φ φ' θ B : ℕ → ℕ → ℝ} {g G : ℕ → ℕ → ℂ}
    {S : ℕ → ℕ → Bool} (hB : ∀ a < M, ∀ b < N, 0 ≤ B a b)
    {κ c' c'' : ℝ} (hκ : 0 < κ) (hv : 0 ≤ v) (hg : Near c'' (vec M N (idft2 M N (modulate inp φ))) (vec M N g))
    (hθ : ∀ a < M, ∀ b < N, g a b ≠ 0 → ∃ k : ℤ, |θ a b - (arg (g a b) + k * (2 * Real.pi))| ≤ v)
    (hG : Near c' (vec M N fun a b => (κ : ℂ) * dft2 M N (goal B S θ g) a b) (vec M N G))
    (hφ' : ∀ a < M, ∀ b < N, G a b ≠ 0 → ∃ k : ℤ, |φ' a b - (arg (G a b) + k * (2 * Real.pi))| ≤ v) :
    √(rawWindowError M N inp B S φ') ≤ √(rawWindowError M N inp B S φ) +
      (2 * (Real.exp c'' - 1) + v) * ‖vec M N (idft2 M N inp)‖ + v * ‖vec M N (cut S B)‖ +
        2 * ((Real.exp c' - 1) * ‖vec M N (goal B S θ g)‖) := by
  have h1 := goal_le_error (A := inp) (S := S) hB hc φ' θ g
  have h2 := project_step hM hN hc hinp hA (φ := φ) hκ hv hG hφ'
  have h3 := error_le_goal (A := inp) (S := S) hB hv φ hθ
  have h4 : ‖vec M N (idft2 M N (modulate inp φ))‖ = ‖vec M N (idft2 M N inp)‖ := by
    have hs : 0 < √((M : ℝ) * N) := Real.sqrt_pos.mpr (by positivity)
    refine mul_left_cancel₀ hs.ne' ?_
    rw [idft_norm, idft_norm]
    refine le_antisymm (vec_norm_le fun a _ b _ => ?_) (vec_norm_le fun a _ b _ => ?_) <;>
      rw [modulate, norm_mul, norm_expI, mul_one]
  unfold Near at hg
  rw [h4] at hg
  linarith

/-! ## The computed arrays -/

theorem caddR_near (h : RelErr u F.rnd) (a : ℂ) : Near u a (caddR F.rnd a 0) := by
  refine near_of_rel ?_
  have hu := h.nonneg
  have h1 := h a.re
  have h2 := h a.im
  refine (sq_le_sq₀ (norm_nonneg _) (by positivity)).mp ?_
  rw [mul_pow, ← Complex.normSq_eq_norm_sq, ← Complex.normSq_eq_norm_sq, Complex.normSq_apply, Complex.normSq_apply]
  simp only [caddR, zero_re, zero_im, add_zero, sub_re, sub_im]
  have h3 := mul_self_le_mul_self (abs_nonneg _) h1
  have h4 := mul_self_le_mul_self (abs_nonneg _) h2
  rw [abs_mul_abs_self, mul_mul_mul_comm, abs_mul_abs_self] at h3 h4
  nlinarith

theorem near_ofReal {c x x' : ℝ} (h : Near c x x') : Near c (x : ℂ) (x' : ℂ) := by
  unfold Near at h ⊢
  rw [← ofReal_sub, norm_real, norm_real]
  exact h

theorem relErr_zero {rnd : ℝ → ℝ} (h : RelErr u rnd) : rnd 0 = 0 := by
  have := h 0
  rw [abs_zero, mul_zero, sub_zero] at this
  exact abs_nonpos_iff.mp this

theorem cmulR_zero {rnd : ℝ → ℝ} (h : RelErr u rnd) (a : ℂ) : cmulR rnd a 0 = 0 := by
  have h0 := relErr_zero h
  simp [cmulR, h0, Complex.ext_iff]

/-- A rounded product with a number that is itself only known up to an error. -/
theorem cmulR_near' {rnd : ℝ → ℝ} (h : RelErr u rnd) (hu : u ≤ 1 / 100) {p q : ℝ} (hp : 0 ≤ p) (hq : 0 ≤ q) {a a' b b' : ℂ}
    (ha : Near p a a') (hb : Near q b b') : Near (p + q + 3 * u) (a * b) (cmulR rnd a' b') :=
  (ha.mul hb hp hq).trans (cmulR_near h hu a' b') (by have := h.nonneg; linarith)

theorem v_nonneg (H : HoloPrecise u v τ M N F) : 0 ≤ v := (norm_nonneg _).trans (H.exp 0 (by norm_num))

theorem exp_near (H : HoloPrecise u v τ M N F) {x : ℝ} (hx : |x| ≤ 7) : Near v (cexp (I * x)) (F.exp (I * x)) := by
  refine near_of_rel ?_
  rw [norm_expI, mul_one]
  exact H.exp x hx

theorem imageR_near (H : HoloPrecise u v τ M N F) (hu : u ≤ 1 / 100) (hτ : 0 ≤ τ) (hM : 0 < M) (hN : 0 < N) (inp : ℕ → ℕ → ℂ)
    {φ : ℕ → ℕ → ℝ} (hφ : ∀ a < M, ∀ b < N, |φ a b| ≤ 7) :
    Near (3 * u + v + τ) (vec M N (idft2 M N (modulate inp φ))) (vec M N (imageR F M N inp φ)) := by
  have hu0 := H.rnd.nonneg
  have hv := v_nonneg H
  have h1 : Near (3 * u + v) (vec M N (modulate inp φ)) (vec M N (modulateR F inp φ)) := by
    refine vec_near (by linarith) fun a ha b hb => ?_
    refine (cmulR_near' H.rnd hu le_rfl hv (Near.refl le_rfl _) (exp_near H (hφ a ha b hb))).mono (by linarith)
  exact (idft_near hM hN h1).trans (near_of_sum hτ (H.ifft _)) hτ

theorem gsCorrectR_near (H : HoloPrecise u v τ M N F) (hu : u ≤ 1 / 100) (t z : ℂ) :
    Near (3 * u + v) (t * cexp (I * F.angle z)) (gsCorrectR F t z) := by
  have hu0 := H.rnd.nonneg
  have hv := v_nonneg H
  exact (cmulR_near' H.rnd hu le_rfl hv (Near.refl le_rfl _) (exp_near H ((H.angle_range z).trans (by norm_num)))).mono (by linarith)

theorem mrafCorrectR_near (H : HoloPrecise u v τ M N F) (hu : u ≤ 1 / 100) (m : ℝ) (t z : ℂ) (s : Bool) :
    Near (10 * u + v) (if s then (m : ℂ) * t * cexp (I * F.angle z) else ((1 - m : ℝ) : ℂ) * z)
      (mrafCorrectR F m t (if s then 1 else 0) z) := by
  have hu0 := H.rnd.nonneg
  have hv := v_nonneg H
  have h0 := relErr_zero H.rnd
  unfold mrafCorrectR
  split_ifs
  · have e : (⟨F.rnd (1 - (1 : ℂ).re), F.rnd (0 - (1 : ℂ).im)⟩ : ℂ) = 0 := by
      simp [Complex.ext_iff, h0]
    rw [e, cmulR_zero H.rnd]
    have h1 := cmulR_near' H.rnd hu (by linarith) hv (cmulR_near H.rnd hu (m : ℂ) t)
      (exp_near H ((H.angle_range z).trans (by norm_num)))
    have h2 := cmulR_near' H.rnd hu (by linarith) le_rfl h1 (Near.refl le_rfl (1 : ℂ))
    rw [mul_one] at h2
    exact (h2.trans (caddR_near H.rnd _) hu0).mono (by linarith)
  · have e : (⟨F.rnd (1 - (0 : ℂ).re), F.rnd (0 - (0 : ℂ).im)⟩ : ℂ) = (F.rnd 1 : ℂ) := by
      simp [Complex.ext_iff, h0]
    rw [e, cmulR_zero H.rnd]
    have h1 := cmulR_near' H.rnd hu hu0 le_rfl (near_ofReal (H.rnd.near (1 - m))) (Near.refl le_rfl z)
    have h2 := cmulR_near' H.rnd hu (by linarith) hu0 h1 (near_ofReal (H.rnd.near 1))
    rw [ofReal_one, mul_one] at h2
    have h3 : ∀ a : ℂ, caddR F.rnd 0 a = caddR F.rnd a 0 := fun a => by unfold caddR; simp
    rw [h3]
    exact (h2.trans (caddR_near H.rnd _) hu0).mono (by linarith)

theorem fft_near (H : HoloPrecise u v τ M N F) (hτ : 0 ≤ τ) {c κ : ℝ} {D C : ℕ → ℕ → ℂ}
    (h : Near c (vec M N fun a b => (κ : ℂ) * D a b) (vec M N C)) :
    Near (c + τ) (vec M N fun a b => (κ : ℂ) * dft2 M N D a b) (vec M N (F.fft M N C)) := by
  have h1 := (dft_near h).trans (near_of_sum hτ (H.fft C)) hτ
  have e : dft2 M N (fun a b => (κ : ℂ) * D a b) = fun a b => (κ : ℂ) * dft2 M N D a b := by
    funext a b
    exact dft2_smul M N _ D a b
  rwa [e] at h1

theorem exp_sub_one_le {x : ℝ} (h0 : 0 ≤ x) (h1 : x ≤ 13 / 1000) : Real.exp x - 1 ≤ 1.02 * x := by
  have h := Real.abs_exp_sub_one_sub_id_le (x := x) (by rw [abs_of_nonneg h0]; linarith)
  have := le_abs_self (Real.exp x - 1 - x)
  nlinarith

theorem initialPhaseR_le (H : HoloPrecise u v τ M N F) (hu : u ≤ 1 / 1000) {x : ℕ → ℕ → ℝ} {a b : ℕ} (h0 : 0 ≤ x a b) (h1 : x a b ≤ 1) :
    |initialPhaseR F x a b| ≤ 7 := by
  have hu0 := H.rnd.nonneg
  have key : ∀ (rnd : ℝ → ℝ), RelErr u rnd → ∀ y Y : ℝ, |y| ≤ Y → |rnd y| ≤ 1.001 * Y := by
    intro rnd hr y Y hy
    have h2 := hr y
    have h3 := abs_add_le (rnd y - y) y
    rw [sub_add_cancel] at h3
    have := abs_nonneg y
    nlinarith
  have hpi := Real.pi_lt_d2
  have hpi0 := Real.pi_pos
  have k1 := key F.py H.py Real.pi 3.15 (by rw [abs_of_pos hpi0]; linarith)
  have k2 := key F.py H.py (2 * F.py Real.pi) (2 * (1.001 * 3.15)) (by rw [abs_mul, abs_two]; linarith)
  have k3 := key F.rnd H.rnd _ _ k2
  have k4 : |F.rnd (F.py (2 * F.py Real.pi)) * x a b| ≤ 1.001 * (1.001 * (2 * (1.001 * 3.15))) := by
    rw [abs_mul, abs_of_nonneg h0]
    calc _ ≤ |F.rnd (F.py (2 * F.py Real.pi))| * 1 := mul_le_mul_of_nonneg_left h1 (abs_nonneg _)
      _ ≤ _ := by rw [mul_one]; exact k3
  exact (key F.rnd H.rnd _ _ k4).trans (by norm_num)

theorem gsStepR_error (H : HoloPrecise u v τ M N F) (hu : u ≤ 1 / 1000) (hv1 : v ≤ 1 / 1000) (hτ : 0 ≤ τ) (hτ1 : τ ≤ 1 / 1000)
    (hM : 0 < M) (hN : 0 < N) {inp : ℕ → ℕ → ℂ} {A B : ℕ → ℕ → ℝ} {c : ℂ} (hc : ‖c‖ = 1)
    (hinp : ∀ a < M, ∀ b < N, inp a b = c * A a b) (hA : ∀ a < M, ∀ b < N, 0 ≤ A a b) (hB : ∀ a < M, ∀ b < N, 0 ≤ B a b)
    {φ : ℕ → ℕ → ℝ} (hφ : ∀ a < M, ∀ b < N, |φ a b| ≤ 7) :
    √(rawWindowError M N inp B (fun _ _ => true) (gsStepR F M N inp (fun a b => (B a b : ℂ)) φ)) ≤
      √(rawWindowError M N inp B (fun _ _ => true) φ) +
        (7 * u + 4 * v + 3 * τ) * (‖vec M N (idft2 M N inp)‖ + ‖vec M N fun a b => (B a b : ℂ)‖) := by
  have hu0 := H.rnd.nonneg
  have hv := v_nonneg H
  set g := imageR F M N inp φ with hg
  have h1 := imageR_near H (by linarith) hτ hM hN inp hφ
  have hD : ∀ a b, goal B (fun _ _ => true) (fun a b => F.angle (g a b)) g a b = B a b * cexp (I * F.angle (g a b)) := fun a b => rfl
  have h2 : Near (3 * u + v + τ) (vec M N fun a b => ((1 : ℝ) : ℂ) *
      dft2 M N (goal B (fun _ _ => true) (fun a b => F.angle (g a b)) g) a b)
      (vec M N (F.fft M N fun a b => gsCorrectR F (B a b) (g a b))) := by
    refine fft_near H hτ (vec_near (by linarith) fun a _ b _ => ?_)
    rw [hD, ofReal_one, one_mul]
    exact gsCorrectR_near H (by linarith) _ _
  have h3 := error_step hM hN hc hinp hA (φ' := gsStepR F M N inp (fun a b => (B a b : ℂ)) φ) hB one_pos hv h1
    (fun a _ b _ hz => H.angle _ hz) h2 (fun a _ b _ hz => H.angle _ hz)
  have h4 : ‖vec M N (goal B (fun _ _ => true) (fun a b => F.angle (g a b)) g)‖ = ‖vec M N fun a b => (B a b : ℂ)‖ := by
    refine le_antisymm (vec_norm_le fun a _ b _ => ?_) (vec_norm_le fun a _ b _ => ?_) <;> rw [hD, norm_mul, norm_expI, mul_one]
  have h5 : ‖vec M N (cut (fun _ _ => true) B)‖ = ‖vec M N fun a b => (B a b : ℂ)‖ := rfl
  rw [h4, h5] at h3
  refine h3.trans ?_
  have e1 := exp_sub_one_le (x := 3 * u + v + τ) (by linarith) (by linarith)
  have e2 := exp_sub_one_le (x := 3 * u + v + τ) (by linarith) (by linarith)
  set P := ‖vec M N (idft2 M N inp)‖
  set Q := ‖vec M N fun a b => (B a b : ℂ)‖
  have hP : 0 ≤ P := norm_nonneg _
  have hQ : 0 ≤ Q := norm_nonneg _
  have f1 : (2 * (Real.exp (3 * u + v + τ) - 1) + v) * P ≤ (7 * u + 4 * v + 3 * τ) * P :=
    mul_le_mul_of_nonneg_right (by linarith) hP
  have f2 : (v + 2 * (Real.exp (3 * u + v + τ) - 1)) * Q ≤ (7 * u + 4 * v + 3 * τ) * Q :=
    mul_le_mul_of_nonneg_right (by linarith) hQ
  linarith

theorem mrafStepR_error (H : HoloPrecise u v τ M N F) (hu : u ≤ 1 / 1000) (hv1 : v ≤ 1 / 1000) (hτ : 0 ≤ τ) (hτ1 : τ ≤ 1 / 1000)
    (hM : 0 < M) (hN : 0 < N) {inp : ℕ → ℕ → ℂ} {A B : ℕ → ℕ → ℝ} {S : ℕ → ℕ → Bool} {c : ℂ} (hc : ‖c‖ = 1)
    (hinp : ∀ a < M, ∀ b < N, inp a b = c * A a b) (hA : ∀ a < M, ∀ b < N, 0 ≤ A a b) (hB : ∀ a < M, ∀ b < N, 0 ≤ B a b)
    {m : ℝ} (hm0 : 0 < m) (hm1 : m < 1) {φ : ℕ → ℕ → ℝ} (hφ : ∀ a < M, ∀ b < N, |φ a b| ≤ 7) :
    √(rawWindowError M N inp (fun a b => m / (1 - m) * B a b) S
      (mrafStepR F M N inp (fun a b => (B a b : ℂ)) (fun a b => if S a b then 1 else 0) m φ)) ≤
      √(rawWindowError M N inp (fun a b => m / (1 - m) * B a b) S φ) +
        (28 * u + 6 * v + 5 * τ) * (‖vec M N (idft2 M N inp)‖ + ‖vec M N (cut S fun a b => m / (1 - m) * B a b)‖) := by
  have hu0 := H.rnd.nonneg
  have hv := v_nonneg H
  have hκ : 0 < 1 - m := by linarith
  have hκc : ((1 - m : ℝ) : ℂ) ≠ 0 := by exact_mod_cast hκ.ne'
  set B' : ℕ → ℕ → ℝ := fun a b => m / (1 - m) * B a b with hB'
  have hB0 : ∀ a < M, ∀ b < N, 0 ≤ B' a b := fun a ha b hb => mul_nonneg (by positivity) (hB a ha b hb)
  set g := imageR F M N inp φ with hg
  have h1 := imageR_near H (by linarith) hτ hM hN inp hφ
  set θ : ℕ → ℕ → ℝ := fun a b => F.angle (g a b) with hθ
  have h2 : Near (10 * u + v + τ) (vec M N fun a b => ((1 - m : ℝ) : ℂ) * dft2 M N (goal B' S θ g) a b)
      (vec M N (F.fft M N fun a b => mrafCorrectR F m (B a b) (if S a b then 1 else 0) (g a b))) := by
    refine fft_near H hτ (vec_near (by linarith) fun a _ b _ => ?_)
    have h3 := mrafCorrectR_near H (by linarith) m (B a b) (g a b) (S a b)
    have e : ((1 - m : ℝ) : ℂ) * goal B' S θ g a b =
        if S a b then (m : ℂ) * B a b * cexp (I * F.angle (g a b)) else ((1 - m : ℝ) : ℂ) * g a b := by
      unfold goal
      split_ifs
      · have : ((B' a b : ℝ) : ℂ) = (m : ℂ) / ((1 - m : ℝ) : ℂ) * B a b := by simp only [hB']; push_cast; ring
        rw [this]
        field_simp
        rfl
      · rfl
    rw [e]
    exact h3
  have h3 := error_step hM hN hc hinp hA
    (φ' := mrafStepR F M N inp (fun a b => (B a b : ℂ)) (fun a b => if S a b then 1 else 0) m φ) hB0 hκ hv h1
    (fun a _ b _ hz => H.angle _ hz) h2 (fun a _ b _ hz => H.angle _ hz)
  have h4 : ‖vec M N (goal B' S θ g)‖ ≤ ‖vec M N (cut S B')‖ + ‖vec M N g‖ := by
    refine vec_norm_le_add fun a _ b _ => ?_
    unfold goal cut
    split_ifs
    · rw [norm_mul, norm_expI, mul_one]
      exact le_add_of_nonneg_right (norm_nonneg _)
    · rw [norm_zero, zero_add]
  have h5 : ‖vec M N (idft2 M N (modulate inp φ))‖ = ‖vec M N (idft2 M N inp)‖ := by
    have hs : 0 < √((M : ℝ) * N) := Real.sqrt_pos.mpr (by positivity)
    refine mul_left_cancel₀ hs.ne' ?_
    rw [idft_norm, idft_norm]
    refine le_antisymm (vec_norm_le fun a _ b _ => ?_) (vec_norm_le fun a _ b _ => ?_) <;>
      rw [modulate, norm_mul, norm_expI, mul_one]
  have h6 := h1.norm_le
  rw [h5] at h6
  refine h3.trans ?_
  have e1 := exp_sub_one_le (x := 3 * u + v + τ) (by linarith) (by linarith)
  have e2 := exp_sub_one_le (x := 10 * u + v + τ) (by linarith) (by linarith)
  have e3 : 0 ≤ Real.exp (10 * u + v + τ) - 1 := exp_sub_nonneg (by linarith)
  set P := ‖vec M N (idft2 M N inp)‖
  set Q := ‖vec M N (cut S B')‖
  have hP : 0 ≤ P := norm_nonneg _
  have hQ : 0 ≤ Q := norm_nonneg _
  set X := Real.exp (10 * u + v + τ) - 1
  set Y := Real.exp (3 * u + v + τ)
  have h7 : ‖vec M N (goal B' S θ g)‖ ≤ Q + Y * P := by linarith
  have h8 : X * ‖vec M N (goal B' S θ g)‖ ≤ X * (Q + Y * P) := mul_le_mul_of_nonneg_left h7 e3
  have h9 : X * (Y * P) ≤ X * (1.01 * P) := mul_le_mul_of_nonneg_left (mul_le_mul_of_nonneg_right (by linarith) hP) e3
  have f1 : (2 * (Y - 1) + v + 2.02 * X) * P ≤ (28 * u + 6 * v + 5 * τ) * P := mul_le_mul_of_nonneg_right (by linarith) hP
  have f2 : (v + 2 * X) * Q ≤ (28 * u + 6 * v + 5 * τ) * Q := mul_le_mul_of_nonneg_right (by linarith) hQ
  linarith

end PySLM2.LCOS
