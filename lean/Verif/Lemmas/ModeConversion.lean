import Verif.Lemmas.LaguerreFourier
import Verif.Spec.ModeConversion

/-!
# Conversion of modes
-/

noncomputable section

open Complex Finset

namespace PySLM2.Profile

section Combo

variable {V : Type} [AddCommGroup V] [Module ℂ V]

/-- `Σ f_b e(N-b, b)` for a polynomial `f` -/
def combo (e : ℕ → ℕ → V) (N : ℕ) (f : Polynomial ℂ) : V := ∑ b ∈ range (N + 1), f.coeff b • e (N - b) b

theorem combo_up (e : ℕ → ℕ → V) {N : ℕ} {f : Polynomial ℂ} (hf : f.natDegree ≤ N) :
    combo e (N + 1) f = combo (fun a b => e (a + 1) b) N f := by
  unfold combo
  rw [sum_range_succ, Polynomial.coeff_eq_zero_of_natDegree_lt (Nat.lt_succ_of_le hf), zero_smul, add_zero]
  refine sum_congr rfl fun b hb => ?_
  rw [mem_range] at hb
  rw [show N + 1 - b = N - b + 1 by omega]

theorem combo_X (e : ℕ → ℕ → V) (N : ℕ) (f : Polynomial ℂ) :
    combo e (N + 1) (Polynomial.X * f) = combo (fun a b => e a (b + 1)) N f := by
  unfold combo
  rw [sum_range_succ', Polynomial.mul_coeff_zero, Polynomial.coeff_X_zero, zero_mul, zero_smul, add_zero]
  refine sum_congr rfl fun b _ => ?_
  rw [Polynomial.coeff_X_mul, show N + 1 - (b + 1) = N - b by omega]

theorem combo_add (e : ℕ → ℕ → V) (N : ℕ) (f g : Polynomial ℂ) : combo e N (f + g) = combo e N f + combo e N g := by
  simp only [combo, Polynomial.coeff_add, add_smul, sum_add_distrib]

theorem combo_C (e : ℕ → ℕ → V) (N : ℕ) (c : ℂ) (f : Polynomial ℂ) : combo e N (Polynomial.C c * f) = c • combo e N f := by
  simp only [combo, Polynomial.coeff_C_mul, mul_smul, smul_sum]

theorem combo_sum (e : ℕ → ℕ → V) (N : ℕ) {ι : Type} (s : Finset ι) (f : ι → Polynomial ℂ) :
    combo e N (∑ i ∈ s, f i) = ∑ i ∈ s, combo e N (f i) := by
  classical
  induction s using Finset.induction_on with
  | empty => simp [combo]
  | insert i s hi ih => rw [sum_insert hi, sum_insert hi, combo_add, ih]

/-- Multiplication of the polynomial by `c + dT` -/
theorem combo_linear (e : ℕ → ℕ → V) {N : ℕ} {f : Polynomial ℂ} (hf : f.natDegree ≤ N) (c d : ℂ) :
    combo e (N + 1) ((Polynomial.C c + Polynomial.C d * Polynomial.X) * f) =
      c • combo (fun a b => e (a + 1) b) N f + d • combo (fun a b => e a (b + 1)) N f := by
  rw [add_mul, combo_add, mul_assoc, combo_C, combo_C, combo_up e hf, combo_X]

end Combo

/-- `(c + dT)^j (c' + d'T)^k` has degree at most `j + k`. -/
theorem degree_le (c d c' d' : ℂ) (j k : ℕ) :
    ((Polynomial.C c + Polynomial.C d * Polynomial.X) ^ j * (Polynomial.C c' + Polynomial.C d' * Polynomial.X) ^ k).natDegree ≤ j + k := by
  have h1 : ∀ c d : ℂ, (Polynomial.C c + Polynomial.C d * Polynomial.X).natDegree ≤ 1 := fun c d => by
    rw [add_comm]; exact Polynomial.natDegree_linear_le
  refine Polynomial.natDegree_mul_le.trans (add_le_add ?_ ?_)
  · exact (Polynomial.natDegree_pow_le_of_le j (h1 c d)).trans_eq (mul_one j)
  · exact (Polynomial.natDegree_pow_le_of_le k (h1 c' d')).trans_eq (mul_one k)

theorem raise_combo (N : ℕ) (f : Polynomial ℂ) :
    raise 0 (combo hermite2 N f) = combo (fun a b => hermite2 (a + 1) b) N f ∧
      raise 1 (combo hermite2 N f) = combo (fun a b => hermite2 a (b + 1)) N f := by
  unfold combo
  constructor <;> rw [map_sum] <;> refine sum_congr rfl fun b _ => ?_ <;> rw [map_smul]
  · rw [(raise_hermite _ _).1]
  · rw [(raise_hermite _ _).2]

theorem zz_pow_combo {σ : ℂ} (hσ : σ * σ = -1) : ∀ k,
    (2 : ℂ) ^ k • zz σ ^ k = combo hermite2 k ((Polynomial.C 1 + Polynomial.C (-σ) * Polynomial.X) ^ k)
  | 0 => by simp [combo, hermite2, hermiteC, physHermite]
  | k + 1 => by
    obtain ⟨h1, h2, -, -⟩ := pderivs σ
    have h3 : raise 0 (zz σ ^ k) - σ • raise 1 (zz σ ^ k) = (2 : ℂ) • zz σ ^ (k + 1) := by
      rw [raise_apply, raise_apply, Derivation.leibniz_pow, Derivation.leibniz_pow, h1, h2, MvPolynomial.smul_eq_C_mul,
        MvPolynomial.smul_eq_C_mul]
      simp only [nsmul_eq_mul, smul_eq_mul, mul_one, map_ofNat]
      have e : zz σ ^ (k + 1) = (MvPolynomial.X 0 - MvPolynomial.C σ * MvPolynomial.X 1) * zz σ ^ k := by rw [pow_succ']; rfl
      rw [e]
      linear_combination (-(k : Poly2) * zz σ ^ (k - 1)) * Cσ_sq hσ
    have hd : ((Polynomial.C 1 + Polynomial.C (-σ) * Polynomial.X) ^ k : Polynomial ℂ).natDegree ≤ k := by
      simpa using degree_le 1 (-σ) 0 0 k 0
    rw [pow_succ' (Polynomial.C 1 + Polynomial.C (-σ) * Polynomial.X), combo_linear _ hd, ← (raise_combo _ _).1, ← (raise_combo _ _).2, ← zz_pow_combo hσ k, map_smul, map_smul, pow_succ,
      mul_smul, ← h3]
    module

theorem laguerre2_combo {σ : ℂ} (hσ : σ * σ = -1) : ∀ p k,
    ((-1) ^ p * (p.factorial : ℂ) * 2 ^ (2 * p + k)) • laguerre2 σ p k = combo hermite2 (2 * p + k)
      ((Polynomial.C 1 + Polynomial.C (-σ) * Polynomial.X) ^ (p + k) * (Polynomial.C 1 + Polynomial.C σ * Polynomial.X) ^ p)
  | 0, k => by
    have : laguerre2 σ 0 k = zz σ ^ k := by
      unfold laguerre2 laguerreC
      simp [lagCoef]
    rw [this]
    simpa using zz_pow_combo hσ k
  | p + 1, k => by
    have h := laguerre2_step hσ p k
    have hd := degree_le 1 (-σ) 1 σ (p + (k + 1)) p
    rw [show p + (k + 1) + p = 2 * p + (k + 1) by ring] at hd
    rw [show 2 * (p + 1) + k = 2 * p + (k + 1) + 1 by ring, show p + 1 + k = p + (k + 1) by ring,
      pow_succ' (Polynomial.C 1 + Polynomial.C σ * Polynomial.X) p, mul_left_comm, combo_linear _ hd, ← (raise_combo _ _).1,
      ← (raise_combo _ _).2, ← laguerre2_combo hσ p (k + 1), map_smul, map_smul, smul_comm σ, one_smul, ← smul_add, h, smul_smul,
      Nat.factorial_succ]
    congr 1
    push_cast
    ring

theorem combo_mul (A B : Polynomial ℂ) (N : ℕ) (f : Polynomial ℂ) :
    combo (fun a b => A ^ (a + 1) * B ^ b) N f = A * combo (fun a b => A ^ a * B ^ b) N f ∧
      combo (fun a b => A ^ a * B ^ (b + 1)) N f = B * combo (fun a b => A ^ a * B ^ b) N f := by
  unfold combo
  constructor <;> rw [mul_sum] <;> refine sum_congr rfl fun b _ => ?_ <;> dsimp only <;> rw [mul_smul_comm, pow_succ'] <;> congr 1 <;> ring

/-- The expansion of `(A + B)^n (B - A)^m` -/
theorem combo_prod (A B : Polynomial ℂ) : ∀ n m : ℕ, combo (fun a b => A ^ a * B ^ b) (n + m)
    ((Polynomial.C 1 + Polynomial.C 1 * Polynomial.X) ^ n * (Polynomial.C (-1) + Polynomial.C 1 * Polynomial.X) ^ m) =
      (A + B) ^ n * (B - A) ^ m
  | 0, 0 => by simp [combo]
  | 0, m + 1 => by
    have hd := degree_le 1 1 (-1) 1 0 m
    rw [show 0 + (m + 1) = 0 + m + 1 from rfl, pow_succ' _ m, mul_left_comm, combo_linear _ hd, (combo_mul A B _ _).1,
      (combo_mul A B _ _).2, combo_prod A B 0 m, pow_succ', neg_smul, one_smul, one_smul]
    ring
  | n + 1, m => by
    have hd := degree_le 1 1 (-1) 1 n m
    rw [show n + 1 + m = n + m + 1 by ring, pow_succ' _ n, mul_assoc, combo_linear _ hd, (combo_mul A B _ _).1,
      (combo_mul A B _ _).2, combo_prod A B n m, pow_succ', one_smul, one_smul]
    ring

theorem hermite2_combo (n m : ℕ) : hermite2 n m = combo hermite2 (n + m) (Polynomial.X ^ m) := by
  unfold combo
  rw [sum_eq_single m]
  · simp
  · intro b _ hb
    rw [Polynomial.coeff_X_pow, if_neg hb, zero_smul]
  · intro h
    exact absurd (mem_range.2 (by omega)) h

/-- A Hermite-Gaussian mode as a combination of Laguerre-Gaussian modes -/
theorem hermite2_laguerre (n m : ℕ) : hermite2 n m = ∑ k ∈ range (n + m + 1), Spec.laguerreShare n m k •
    laguerre2 (if (0 : ℤ) ≤ (n + m : ℕ) - 2 * k then I else -I) (min k (n + m - k)) ((n + m : ℕ) - 2 * k : ℤ).natAbs := by
  set A : Polynomial ℂ := Polynomial.C 1 + Polynomial.C (-I) * Polynomial.X with hA
  set B : Polynomial ℂ := Polynomial.C 1 + Polynomial.C I * Polynomial.X with hB
  have hX : (Polynomial.X ^ m : Polynomial ℂ) = Polynomial.C ((2 : ℂ)⁻¹ ^ (n + m) * (-I) ^ m) * ((A + B) ^ n * (B - A) ^ m) := by
    have h1 : A + B = Polynomial.C 2 := by
      rw [hA, hB]
      simp only [map_neg, map_one, neg_mul]
      rw [show (Polynomial.C (2 : ℂ)) = 2 from rfl]
      ring
    have h2 : B - A = Polynomial.C (2 * I) * Polynomial.X := by
      rw [hA, hB]
      simp only [map_neg, map_one, neg_mul, map_mul]
      rw [show (Polynomial.C (2 : ℂ)) = 2 from rfl]
      ring
    rw [h1, h2, mul_pow, ← map_pow, ← map_pow, ← mul_assoc, ← mul_assoc, ← map_mul, ← map_mul]
    have : (2 : ℂ)⁻¹ ^ (n + m) * (-I) ^ m * 2 ^ n * (2 * I) ^ m = 1 := by
      rw [pow_add, mul_pow]
      have h3 : (2 : ℂ)⁻¹ ^ n * 2 ^ n = 1 := by rw [← mul_pow]; norm_num
      have h4 : (2 : ℂ)⁻¹ ^ m * 2 ^ m = 1 := by rw [← mul_pow]; norm_num
      have h5 : (-I) ^ m * I ^ m = 1 := by rw [← mul_pow]; simp
      calc _ = ((2 : ℂ)⁻¹ ^ n * 2 ^ n) * ((2 : ℂ)⁻¹ ^ m * 2 ^ m) * ((-I) ^ m * I ^ m) := by ring
        _ = 1 := by rw [h3, h4, h5]; ring
    rw [this, map_one, one_mul]
  rw [hermite2_combo, hX, combo_C, ← combo_prod A B n m]
  unfold combo
  simp only [← Polynomial.C_mul']
  change _ • combo hermite2 (n + m) _ = _
  rw [combo_sum, smul_sum]
  refine sum_congr rfl fun k hk => ?_
  rw [mem_range] at hk
  rw [combo_C, smul_smul]
  have hpoly : ((Polynomial.C 1 + Polynomial.C 1 * Polynomial.X) ^ n * (Polynomial.C (-1) + Polynomial.C 1 * Polynomial.X) ^ m : Polynomial ℂ) =
      (Polynomial.X + 1) ^ n * (Polynomial.X - 1) ^ m := by
    simp only [map_one, map_neg, one_mul]
    rw [add_comm 1, add_comm (-1), ← sub_eq_add_neg]
  rw [hpoly]
  unfold Spec.laguerreShare
  split
  · next h0 =>
    have hle : k ≤ n + m - k := by omega
    have hl : ((n + m : ℕ) - 2 * k : ℤ).natAbs = n + m - 2 * k := by omega
    have key := laguerre2_combo (σ := I) I_mul_I k (n + m - 2 * k)
    rw [show 2 * k + (n + m - 2 * k) = n + m by omega, show k + (n + m - 2 * k) = n + m - k by omega] at key
    rw [min_eq_left hle, hl, ← hA, ← hB] at *
    rw [← key, smul_smul]
    congr 1
    have h3 : (2 : ℂ)⁻¹ ^ (n + m) * 2 ^ (n + m) = 1 := by rw [← mul_pow]; norm_num
    linear_combination ((-I) ^ m * (((Polynomial.X + 1) ^ n * (Polynomial.X - 1) ^ m : Polynomial ℂ)).coeff k * (-1) ^ k * (k.factorial : ℂ)) * h3
  · next h0 =>
    have hle : n + m - k ≤ k := by omega
    have hl : ((n + m : ℕ) - 2 * k : ℤ).natAbs = 2 * k - (n + m) := by omega
    have key := laguerre2_combo (σ := -I) (by simp) (n + m - k) (2 * k - (n + m))
    rw [show 2 * (n + m - k) + (2 * k - (n + m)) = n + m by omega, show n + m - k + (2 * k - (n + m)) = k by omega, neg_neg] at key
    rw [mul_comm (_ ^ k) (_ ^ (n + m - k))] at key
    rw [min_eq_right hle, hl]
    rw [← hA, ← hB] at key
    rw [← key, smul_smul]
    congr 1
    have h3 : (2 : ℂ)⁻¹ ^ (n + m) * 2 ^ (n + m) = 1 := by rw [← mul_pow]; norm_num
    linear_combination ((-I) ^ m * (((Polynomial.X + 1) ^ n * (Polynomial.X - 1) ^ m : Polynomial ℂ)).coeff k * (-1) ^ (n + m - k) * ((n + m - k).factorial : ℂ)) * h3

end PySLM2.Profile
