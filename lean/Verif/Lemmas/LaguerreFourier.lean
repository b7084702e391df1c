import Verif.Lemmas.HermiteFourier
import Verif.Lemmas.LaguerreOrtho
import Verif.Spec.Modes
import Mathlib.Algebra.MvPolynomial.PDeriv
import Mathlib.RingTheory.Derivation.Basic

/-!
# Laguerre-Gaussian modes as combinations of Hermite-Gaussian modes of the same total order
-/

noncomputable section

open Complex Finset MeasureTheory

namespace PySLM2.Profile

/-- Polynomials in two variables. -/
abbrev Poly2 := MvPolynomial (Fin 2) ℂ

open MvPolynomial in
/-- `x - σy`, where `σ` is `i` or `-i` -/
def zz (σ : ℂ) : Poly2 := X 0 - C σ * X 1

open MvPolynomial in
/-- `x + σy` -/
def zw (σ : ℂ) : Poly2 := X 0 + C σ * X 1

/-- The Hermite polynomial over ℂ. -/
def hermiteC (n : ℕ) : Polynomial ℂ := (physHermite n).map (Int.castRingHom ℂ)

theorem hermiteC_succ (n : ℕ) : hermiteC (n + 1) = 2 * Polynomial.X * hermiteC n - Polynomial.derivative (hermiteC n) := by
  unfold hermiteC
  cases n with
  | zero => simp [physHermite]
  | succ n =>
    rw [Polynomial.derivative_map, physHermite_derivative, physHermite]
    simp

open MvPolynomial in
/-- `H_n(x) H_m(y)` -/
def hermite2 (n m : ℕ) : Poly2 := Polynomial.aeval (X 0) (hermiteC n) * Polynomial.aeval (X 1) (hermiteC m)

/-- The modes of total order `N`. -/
def modes (N : ℕ) : Submodule ℂ Poly2 := Submodule.span ℂ {q | ∃ n m, n + m = N ∧ q = hermite2 n m}

open MvPolynomial in
/-- `2 x_i - ∂_i` -/
def raise (i : Fin 2) : Poly2 →ₗ[ℂ] Poly2 := LinearMap.mulLeft ℂ (2 * X i) - (pderiv i).toLinearMap

open MvPolynomial in
theorem raise_apply (i : Fin 2) (q : Poly2) : raise i q = 2 * X i * q - pderiv i q := rfl

open MvPolynomial in
theorem raise_hermite (n m : ℕ) : raise 0 (hermite2 n m) = hermite2 (n + 1) m ∧ raise 1 (hermite2 n m) = hermite2 n (m + 1) := by
  have h01 : (pderiv (0 : Fin 2)) (X 1 : Poly2) = 0 := pderiv_X_of_ne (by decide)
  have h10 : (pderiv (1 : Fin 2)) (X 0 : Poly2) = 0 := pderiv_X_of_ne (by decide)
  constructor
  · rw [raise_apply, hermite2, hermite2, hermiteC_succ, Derivation.leibniz, Derivation.map_aeval, Derivation.map_aeval, h01,
      pderiv_X_self]
    simp only [map_sub, map_mul, Polynomial.aeval_X, map_ofNat, smul_eq_mul, smul_zero, mul_zero, mul_one, zero_add]
    ring
  · rw [raise_apply, hermite2, hermite2, hermiteC_succ, Derivation.leibniz, Derivation.map_aeval, Derivation.map_aeval, h10,
      pderiv_X_self]
    simp only [map_sub, map_mul, Polynomial.aeval_X, map_ofNat, smul_eq_mul, smul_zero, mul_zero, mul_one, add_zero]
    ring

theorem raise_mem {N : ℕ} (i : Fin 2) {q : Poly2} (hq : q ∈ modes N) : raise i q ∈ modes (N + 1) := by
  unfold modes at hq ⊢
  induction hq using Submodule.span_induction with
  | mem q hq =>
    obtain ⟨n, m, rfl, rfl⟩ := hq
    fin_cases i
    · exact Submodule.subset_span ⟨n + 1, m, by omega, (raise_hermite n m).1⟩
    · exact Submodule.subset_span ⟨n, m + 1, by omega, (raise_hermite n m).2⟩
  | zero => rw [map_zero]; exact Submodule.zero_mem _
  | add a b _ _ ha hb => rw [map_add]; exact Submodule.add_mem _ ha hb
  | smul c a _ ha => rw [map_smul]; exact Submodule.smul_mem _ c ha

/-- `L_p^k` over ℂ. -/
def laguerreC (p k : ℕ) : Polynomial ℂ := ∑ i ∈ range (p + 1), Polynomial.monomial i ((lagCoef p k i : ℝ) : ℂ)

theorem lagCoef_step (p k i : ℕ) (hi : i ≤ p + 1) :
    ((k : ℝ) + 1 + i) * (if i ≤ p then lagCoef p (k + 1) i else 0) - (if 1 ≤ i then lagCoef p (k + 1) (i - 1) else 0) =
      ((p : ℝ) + 1) * lagCoef (p + 1) k i := by
  have hM : p + (k + 1) = p + 1 + k := by ring
  unfold lagCoef
  rw [hM]
  rcases Nat.eq_zero_or_pos i with rfl | hpos
  · have h := Nat.choose_succ_right_eq (p + 1 + k) p
    have h' : ((p + 1 + k).choose (p + 1) : ℝ) * ((p : ℝ) + 1) = (p + 1 + k).choose p * ((k : ℝ) + 1) := by
      rw [show p + 1 + k - p = k + 1 by omega] at h
      exact_mod_cast h
    simp
    linear_combination -h'
  obtain ⟨i, rfl⟩ : ∃ m, i = m + 1 := ⟨i - 1, by omega⟩
  have hf : ((Nat.factorial (i + 1) : ℕ) : ℝ) = ((i : ℝ) + 1) * Nat.factorial i := by
    rw [Nat.factorial_succ]; push_cast; ring
  have h0 : (Nat.factorial i : ℝ) ≠ 0 := by exact_mod_cast Nat.factorial_ne_zero i
  have h1 : ((i : ℝ) + 1) ≠ 0 := by positivity
  rw [hf, if_pos (show 1 ≤ i + 1 by omega), Nat.add_sub_cancel]
  rcases Nat.lt_or_ge p (i + 1) with hlt | hle
  · have : i = p := by omega
    subst this
    rw [if_neg (by omega)]
    simp only [Nat.sub_self, Nat.choose_zero_right]
    field_simp
    ring
  · obtain ⟨j, rfl⟩ : ∃ j, p = i + 1 + j := ⟨p - (i + 1), by omega⟩
    have h := Nat.choose_succ_right_eq (i + 1 + j + 1 + k) j
    have h' : ((i + 1 + j + 1 + k).choose (j + 1) : ℝ) * ((j : ℝ) + 1) = (i + 1 + j + 1 + k).choose j * ((i : ℝ) + 1 + 1 + k) := by
      rw [show i + 1 + j + 1 + k - j = i + 1 + 1 + k by omega] at h
      exact_mod_cast h
    rw [if_pos hle, show i + 1 + j - (i + 1) = j by omega, show i + 1 + j - i = j + 1 by omega,
      show i + 1 + j + 1 - (i + 1) = j + 1 by omega]
    push_cast
    field_simp
    linear_combination (-1) ^ (i + 1) * (-h')

theorem laguerreC_coeff (p k i : ℕ) : (laguerreC p k).coeff i = if i ≤ p then ((lagCoef p k i : ℝ) : ℂ) else 0 := by
  unfold laguerreC
  simp only [Polynomial.finset_sum_coeff, Polynomial.coeff_monomial, Finset.sum_ite_eq', Finset.mem_range, Nat.lt_succ_iff]

theorem laguerreC_step (p k : ℕ) :
    (((k : ℂ) + 1) • laguerreC p (k + 1) - Polynomial.X * laguerreC p (k + 1) +
      Polynomial.X * Polynomial.derivative (laguerreC p (k + 1))) = ((p : ℂ) + 1) • laguerreC (p + 1) k := by
  ext i
  rcases Nat.lt_or_ge (p + 1) i with hlt | hle
  · obtain ⟨i, rfl⟩ : ∃ m, i = m + 1 := ⟨i - 1, by omega⟩
    simp only [Polynomial.coeff_add, Polynomial.coeff_sub, Polynomial.coeff_smul, Polynomial.coeff_X_mul,
      Polynomial.coeff_derivative, laguerreC_coeff, smul_eq_mul]
    rw [if_neg (by omega), if_neg (by omega), if_neg (by omega)]
    ring
  have h := congrArg (fun r : ℝ => (r : ℂ)) (lagCoef_step p k i hle)
  cases i with
  | zero =>
    simp only [Polynomial.coeff_add, Polynomial.coeff_sub, Polynomial.coeff_smul, Polynomial.mul_coeff_zero,
      Polynomial.coeff_X_zero, laguerreC_coeff, smul_eq_mul]
    simp at h ⊢
    linear_combination h
  | succ i =>
    simp only [Polynomial.coeff_add, Polynomial.coeff_sub, Polynomial.coeff_smul, Polynomial.coeff_X_mul,
      Polynomial.coeff_derivative, laguerreC_coeff, smul_eq_mul]
    rw [if_pos (show i ≤ p by omega), if_pos hle]
    rw [if_pos (show 1 ≤ i + 1 by omega), Nat.add_sub_cancel] at h
    split_ifs at h ⊢ <;> push_cast at h ⊢ <;> linear_combination h

/-- `(x - σy)^k L_p^k(x² + y²)` -/
def laguerre2 (σ : ℂ) (p k : ℕ) : Poly2 := zz σ ^ k * Polynomial.aeval (zz σ * zw σ) (laguerreC p k)

open MvPolynomial in
theorem pderivs (σ : ℂ) : pderiv (0 : Fin 2) (zz σ) = 1 ∧ pderiv (1 : Fin 2) (zz σ) = -C σ ∧ pderiv (0 : Fin 2) (zw σ) = 1 ∧
    pderiv (1 : Fin 2) (zw σ) = C σ := by
  have h01 : (pderiv (0 : Fin 2)) (X 1 : Poly2) = 0 := pderiv_X_of_ne (by decide)
  have h10 : (pderiv (1 : Fin 2)) (X 0 : Poly2) = 0 := pderiv_X_of_ne (by decide)
  unfold zz zw
  simp [Derivation.leibniz, h01, h10]

theorem Cσ_sq {σ : ℂ} (hσ : σ * σ = -1) : (MvPolynomial.C σ : Poly2) * MvPolynomial.C σ = -1 := by
  rw [← MvPolynomial.C_mul, hσ]; simp

theorem zz_pow_mem {σ : ℂ} (hσ : σ * σ = -1) : ∀ k, zz σ ^ k ∈ modes k
  | 0 => Submodule.subset_span ⟨0, 0, rfl, by simp [hermite2, hermiteC, physHermite]⟩
  | k + 1 => by
    obtain ⟨h1, h2, -, -⟩ := pderivs σ
    have h3 : raise 0 (zz σ ^ k) - σ • raise 1 (zz σ ^ k) = (2 : ℂ) • zz σ ^ (k + 1) := by
      rw [raise_apply, raise_apply, Derivation.leibniz_pow, Derivation.leibniz_pow, h1, h2, MvPolynomial.smul_eq_C_mul,
        MvPolynomial.smul_eq_C_mul]
      simp only [nsmul_eq_mul, smul_eq_mul, mul_one, map_ofNat]
      have e : zz σ ^ (k + 1) = (MvPolynomial.X 0 - MvPolynomial.C σ * MvPolynomial.X 1) * zz σ ^ k := by rw [pow_succ']; rfl
      rw [e]
      linear_combination (-(k : Poly2) * zz σ ^ (k - 1)) * Cσ_sq hσ
    have h4 : zz σ ^ (k + 1) = (2 : ℂ)⁻¹ • (raise 0 (zz σ ^ k) - σ • raise 1 (zz σ ^ k)) := by
      rw [h3, smul_smul, inv_mul_cancel₀ two_ne_zero, one_smul]
    rw [h4]
    exact Submodule.smul_mem _ _ (Submodule.sub_mem _ (raise_mem 0 (zz_pow_mem hσ k)) (Submodule.smul_mem _ _ (raise_mem 1 (zz_pow_mem hσ k))))

theorem laguerre2_step {σ : ℂ} (hσ : σ * σ = -1) (p k : ℕ) :
    raise 0 (laguerre2 σ p (k + 1)) + σ • raise 1 (laguerre2 σ p (k + 1)) = (-2 * ((p : ℂ) + 1)) • laguerre2 σ (p + 1) k := by
  obtain ⟨h1, h2, h3, h4⟩ := pderivs σ
  have hs := congrArg (Polynomial.aeval (zz σ * zw σ)) (laguerreC_step p k)
  simp only [map_add, map_sub, map_mul, map_smul, Polynomial.aeval_X, MvPolynomial.smul_eq_C_mul] at hs
  unfold laguerre2
  rw [MvPolynomial.smul_eq_C_mul, MvPolynomial.smul_eq_C_mul, raise_apply, raise_apply]
  simp only [Derivation.leibniz, Derivation.leibniz_pow, Derivation.map_aeval, h1, h2, h3, h4, smul_eq_mul, nsmul_eq_mul,
    Nat.add_sub_cancel]
  generalize Polynomial.aeval (zz σ * zw σ) (laguerreC p (k + 1)) = L at hs ⊢
  generalize Polynomial.aeval (zz σ * zw σ) (Polynomial.derivative (laguerreC p (k + 1))) = L' at hs ⊢
  generalize Polynomial.aeval (zz σ * zw σ) (laguerreC (p + 1) k) = L₁ at hs ⊢
  have hw : zw σ = MvPolynomial.X 0 + MvPolynomial.C σ * MvPolynomial.X 1 := rfl
  simp only [map_mul, map_neg, map_add, map_one, map_ofNat, map_natCast] at hs ⊢
  have e : zz σ ^ (k + 1) = zz σ * zz σ ^ k := pow_succ' _ _
  push_cast
  rw [e]
  have hw2 : 2 * MvPolynomial.X 0 + MvPolynomial.C σ * (2 * MvPolynomial.X 1) = 2 * zw σ := by rw [hw]; ring
  linear_combination (-2 * zz σ ^ k) * hs + zz σ * zz σ ^ k * L * hw2 +
    (zz σ * zz σ ^ k * L' * zw σ - zz σ ^ 2 * zz σ ^ k * L' + zz σ ^ k * L + zz σ ^ k * L * k) * Cσ_sq hσ

theorem laguerre2_mem {σ : ℂ} (hσ : σ * σ = -1) : ∀ p k, laguerre2 σ p k ∈ modes (2 * p + k)
  | 0, k => by
    have : laguerre2 σ 0 k = zz σ ^ k := by
      unfold laguerre2 laguerreC
      simp [lagCoef]
    rw [this, mul_zero, zero_add]
    exact zz_pow_mem hσ k
  | p + 1, k => by
    have h := laguerre2_step hσ p k
    have hne : (-2 * ((p : ℂ) + 1)) ≠ 0 := mul_ne_zero (by norm_num) (by exact_mod_cast Nat.succ_ne_zero p)
    have h4 : laguerre2 σ (p + 1) k = (-2 * ((p : ℂ) + 1))⁻¹ • (raise 0 (laguerre2 σ p (k + 1)) + σ • raise 1 (laguerre2 σ p (k + 1))) := by
      rw [h, smul_smul, inv_mul_cancel₀ hne, one_smul]
    rw [h4, show 2 * (p + 1) + k = 2 * p + (k + 1) + 1 by ring]
    exact Submodule.smul_mem _ _ (Submodule.add_mem _ (raise_mem 0 (laguerre2_mem hσ p (k + 1)))
      (Submodule.smul_mem _ _ (raise_mem 1 (laguerre2_mem hσ p (k + 1)))))

/-- The field `q(x, y) exp(-(x² + y²)/2)`. -/
def modeFun (q : Poly2) (s t : ℝ) : ℂ := MvPolynomial.eval ![(s : ℂ), (t : ℂ)] q * cexp (-(((s : ℂ) ^ 2 + t ^ 2) / 2))

/-- The sums over the pixels of a device approach the Fourier transform, and the mode is reproduced up to `i^N`. -/
def Focal (x0 y0 w : ℝ) (N : ℕ) (q : Poly2) : Prop :=
  ∀ ε > 0, ∀ K : ℝ, ∃ δ > 0, ∃ T : ℝ, ∀ (κ κ' ps : ℝ) (Nx Ny : ℕ) (xs ys : ℕ → ℝ), |κ| ≤ K → |κ'| ≤ K → 0 ≤ ps → ps ≤ δ →
    (∀ k < Nx, xs k ∈ Set.Icc (-(Nx * ps / 2) + k * ps) (-(Nx * ps / 2) + (k + 1) * ps)) →
    (∀ k < Ny, ys k ∈ Set.Icc (-(Ny * ps / 2) + k * ps) (-(Ny * ps / 2) + (k + 1) * ps)) →
    T ≤ Nx * ps / 2 → T ≤ Ny * ps / 2 →
    ‖∑ j ∈ range Nx, ∑ i ∈ range Ny, (ps : ℂ) ^ 2 * (modeFun q (√2 / w * (xs j - x0)) (√2 / w * (ys i - y0)) *
        (cexp (I * κ * xs j) * cexp (I * κ' * ys i))) -
      Real.pi * w ^ 2 * I ^ N * modeFun q (κ * w / √2) (κ' * w / √2) * (cexp (I * κ * x0) * cexp (I * κ' * y0))‖ ≤ ε

theorem Focal.zero (x0 y0 w : ℝ) (N : ℕ) : Focal x0 y0 w N 0 := by
  intro ε hε K
  refine ⟨1, one_pos, 0, fun κ κ' ps Nx Ny xs ys _ _ _ _ _ _ _ _ => ?_⟩
  simp [modeFun, hε.le]

theorem Focal.add {x0 y0 w : ℝ} {N : ℕ} {q q' : Poly2} (h : Focal x0 y0 w N q) (h' : Focal x0 y0 w N q') :
    Focal x0 y0 w N (q + q') := by
  intro ε hε K
  obtain ⟨δ, hδ, T, H⟩ := h (ε / 2) (by positivity) K
  obtain ⟨δ', hδ', T', H'⟩ := h' (ε / 2) (by positivity) K
  refine ⟨min δ δ', lt_min hδ hδ', max T T', fun κ κ' ps Nx Ny xs ys a1 a2 a3 a4 a5 a6 a7 a8 => ?_⟩
  have e1 := H κ κ' ps Nx Ny xs ys a1 a2 a3 (a4.trans (min_le_left _ _)) a5 a6 ((le_max_left _ _).trans a7)
    ((le_max_left _ _).trans a8)
  have e2 := H' κ κ' ps Nx Ny xs ys a1 a2 a3 (a4.trans (min_le_right _ _)) a5 a6 ((le_max_right _ _).trans a7)
    ((le_max_right _ _).trans a8)
  have hm : ∀ s t : ℝ, modeFun (q + q') s t = modeFun q s t + modeFun q' s t := fun s t => by
    unfold modeFun; rw [map_add, add_mul]
  simp only [hm, add_mul, mul_add, sum_add_distrib]
  refine le_trans (le_of_eq ?_) ((norm_add_le _ _).trans ((add_le_add e1 e2).trans_eq (add_halves ε)))
  congr 1
  ring

theorem Focal.smul {x0 y0 w : ℝ} {N : ℕ} {q : Poly2} (c : ℂ) (h : Focal x0 y0 w N q) : Focal x0 y0 w N (c • q) := by
  intro ε hε K
  obtain ⟨δ, hδ, T, H⟩ := h (ε / (‖c‖ + 1)) (by positivity) K
  refine ⟨δ, hδ, T, fun κ κ' ps Nx Ny xs ys a1 a2 a3 a4 a5 a6 a7 a8 => ?_⟩
  have e1 := H κ κ' ps Nx Ny xs ys a1 a2 a3 a4 a5 a6 a7 a8
  have hm : ∀ s t : ℝ, modeFun (c • q) s t = c * modeFun q s t := fun s t => by
    unfold modeFun; rw [MvPolynomial.smul_eval, mul_assoc]
  have hs : ∀ A B : ℂ, (ps : ℂ) ^ 2 * (c * A * B) = c * ((ps : ℂ) ^ 2 * (A * B)) := fun A B => by ring
  simp only [hm, hs]
  simp_rw [← mul_sum _ _ c]
  rw [show ∀ A B D E : ℂ, A * I ^ N * (c * B) * (D * E) = c * (A * I ^ N * B * (D * E)) from fun A B D E => by ring, ← mul_sub,
    norm_mul]
  refine (mul_le_mul_of_nonneg_left e1 (norm_nonneg c)).trans ?_
  rw [mul_div_assoc', div_le_iff₀ (by positivity)]
  nlinarith [norm_nonneg c]

theorem hermiteC_eval (n : ℕ) (s : ℝ) : Polynomial.eval (s : ℂ) (hermiteC n) = ((hermiteFun n s : ℝ) : ℂ) := by
  unfold hermiteC hermiteFun
  rw [Polynomial.eval_map, Polynomial.aeval_def, Polynomial.eval₂_eq_sum, Polynomial.eval₂_eq_sum, Polynomial.sum, Polynomial.sum]
  push_cast
  simp

theorem eval_aeval (v : Fin 2 → ℂ) (q : Poly2) (f : Polynomial ℂ) :
    MvPolynomial.eval v (Polynomial.aeval q f) = Polynomial.eval (MvPolynomial.eval v q) f := by
  induction f using Polynomial.induction_on' with
  | add a b ha hb => simp [ha, hb]
  | monomial k c => simp [Polynomial.aeval_monomial]

theorem modeFun_hermite (n m : ℕ) (s t : ℝ) :
    modeFun (hermite2 n m) s t = (hermiteGaussFun n s : ℂ) * (hermiteGaussFun m t : ℂ) := by
  unfold modeFun hermite2 hermiteGaussFun
  rw [map_mul, eval_aeval, eval_aeval, MvPolynomial.eval_X, MvPolynomial.eval_X]
  have e0 : (![(s : ℂ), (t : ℂ)] : Fin 2 → ℂ) 0 = s := rfl
  have e1 : (![(s : ℂ), (t : ℂ)] : Fin 2 → ℂ) 1 = t := rfl
  rw [e0, e1, hermiteC_eval, hermiteC_eval, add_div, neg_add, Complex.exp_add]
  push_cast
  ring

theorem Focal.hermite (x0 y0 : ℝ) {w : ℝ} (hw : 0 < w) (n m : ℕ) : Focal x0 y0 w (n + m) (hermite2 n m) := by
  intro ε hε K
  set M := max (∫ t : ℝ, ‖(line n x0 w t : ℂ)‖) (∫ t : ℝ, ‖(line m y0 w t : ℂ)‖) with hM
  have hM0 : 0 ≤ M := le_max_of_le_left (integral_nonneg fun _ => norm_nonneg _)
  set ε₁ := min 1 (ε / (2 * M + 1)) with hε₁
  have hpos : 0 < ε₁ := lt_min one_pos (by positivity)
  have hint : ∀ (k : ℕ) (c : ℝ), Integrable fun t : ℝ => (line k c w t : ℂ) := fun k c =>
    (integrable_line k c hw).ofReal (𝕜 := ℂ)
  have hint' : ∀ (k : ℕ) (c : ℝ), Integrable fun t : ℝ => (line' k c w t : ℂ) := fun k c =>
    (integrable_line' k c hw).ofReal (𝕜 := ℂ)
  have hcont : ∀ (k : ℕ) (c : ℝ), Continuous fun t : ℝ => (line' k c w t : ℂ) := fun k c =>
    continuous_ofReal.comp (continuous_line' k c w)
  obtain ⟨δ₁, hδ₁, T₁, -, H₁⟩ := oscillating_sum (K := K)
    (fun t => (line_deriv n x0 w t).ofReal_comp) (hcont n x0) (hint n x0) (hint' n x0) hpos
  obtain ⟨δ₂, hδ₂, T₂, -, H₂⟩ := oscillating_sum (K := K)
    (fun t => (line_deriv m y0 w t).ofReal_comp) (hcont m y0) (hint m y0) (hint' m y0) hpos
  refine ⟨min δ₁ δ₂, lt_min hδ₁ hδ₂, max T₁ T₂, fun κ κ' ps Nx Ny xs ys a1 a2 a3 a4 a5 a6 a7 a8 => ?_⟩
  have s1 := H₁ κ (-(Nx * ps / 2)) ps Nx xs a1 a3 (a4.trans (min_le_left _ _)) a5 (by linarith [le_max_left T₁ T₂])
    (by linarith [le_max_left T₁ T₂])
  have s2 := H₂ κ' (-(Ny * ps / 2)) ps Ny ys a2 a3 (a4.trans (min_le_right _ _)) a6 (by linarith [le_max_right T₁ T₂])
    (by linarith [le_max_right T₁ T₂])
  have nrm : ∀ (k : ℕ) (c κ : ℝ), (∫ t : ℝ, ‖(line k c w t : ℂ)‖) ≤ M →
      ‖∫ t : ℝ, (line k c w t : ℂ) * cexp (I * κ * t)‖ ≤ M := by
    intro k c κ hle
    refine ((norm_integral_le_integral_norm _).trans_eq ?_).trans hle
    simp only [norm_mul, norm_phase, mul_one]
  have hp := Riemann.prod_error hM0 s1 s2 (nrm n x0 κ (le_max_left _ _)) (nrm m y0 κ' (le_max_right _ _))
  have h5 : (M + ε₁) * (M + ε₁) - M ^ 2 ≤ ε := by
    have h1 : ε₁ ≤ 1 := min_le_left _ _
    have h2 : ε₁ * (2 * M + 1) ≤ ε := by
      rw [← le_div_iff₀ (by positivity)]
      exact min_le_right _ _
    nlinarith
  refine le_trans (le_of_eq ?_) (hp.trans h5)
  congr 2
  · rw [sum_mul_sum]
    refine sum_congr rfl fun j _ => sum_congr rfl fun i _ => ?_
    rw [modeFun_hermite]
    unfold line
    ring
  · rw [line_fourier n x0 κ hw, line_fourier m y0 κ' hw, modeFun_hermite, pow_add]
    have hpi : ((√Real.pi : ℝ) : ℂ) * ((√Real.pi : ℝ) : ℂ) = ((Real.pi : ℝ) : ℂ) := by
      rw [← ofReal_mul, Real.mul_self_sqrt Real.pi_pos.le]
    rw [← hpi]
    ring

theorem Focal.of_mem (x0 y0 : ℝ) {w : ℝ} (hw : 0 < w) {N : ℕ} {q : Poly2} (hq : q ∈ modes N) : Focal x0 y0 w N q := by
  unfold modes at hq
  induction hq using Submodule.span_induction with
  | mem q hq =>
    obtain ⟨n, m, rfl, rfl⟩ := hq
    exact Focal.hermite x0 y0 hw n m
  | zero => exact Focal.zero x0 y0 w N
  | add a b _ _ ha hb => exact ha.add hb
  | smul c a _ ha => exact ha.smul c

theorem laguerreC_eval (p k : ℕ) (x : ℝ) : Polynomial.eval (x : ℂ) (laguerreC p k) = ((Spec.laguerre p k x : ℝ) : ℂ) := by
  unfold laguerreC Spec.laguerre
  rw [Polynomial.eval_finset_sum]
  push_cast
  refine sum_congr rfl fun i _ => ?_
  rw [Polynomial.eval_monomial]
  unfold lagCoef
  push_cast
  rfl

theorem modeFun_laguerre {σ : ℂ} (hσ : σ * σ = -1) (p k : ℕ) (s t : ℝ) :
    modeFun (laguerre2 σ p k) s t = ((s : ℂ) - σ * t) ^ k * ((Spec.laguerre p k (s ^ 2 + t ^ 2) * Real.exp (-((s ^ 2 + t ^ 2) / 2)) : ℝ) : ℂ) := by
  unfold modeFun laguerre2
  rw [map_mul, map_pow, eval_aeval, map_mul]
  have e0 : (![(s : ℂ), (t : ℂ)] : Fin 2 → ℂ) 0 = s := rfl
  have e1 : (![(s : ℂ), (t : ℂ)] : Fin 2 → ℂ) 1 = t := rfl
  have hz : MvPolynomial.eval ![(s : ℂ), (t : ℂ)] (zz σ) = s - σ * t := by
    unfold zz
    simp [e0, e1]
  have hz' : MvPolynomial.eval ![(s : ℂ), (t : ℂ)] (zw σ) = s + σ * t := by
    unfold zw
    simp [e0, e1]
  rw [hz, hz', show ((s : ℂ) - σ * t) * (s + σ * t) = ((s ^ 2 + t ^ 2 : ℝ) : ℂ) by
    push_cast; linear_combination (-(t : ℂ) ^ 2) * hσ, laguerreC_eval]
  push_cast
  ring

end PySLM2.Profile
