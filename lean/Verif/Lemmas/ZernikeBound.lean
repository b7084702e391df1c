import Verif.Lemmas.Zernike

/-!
# The radial polynomials are bounded by one

`R_n^m(cos t)` is a diagonal entry of the matrix by which a rotation of the plane acts on the homogeneous polynomials of
degree `n`, and that matrix is orthogonal for weights `1/C(n, j)`.
-/

noncomputable section

open Polynomial Nat Finset

namespace PySLM2.Profile

/-- `∑ c_j U^j V^(n-j)` for a polynomial with coefficients `c_j` -/
def hom (n : ℕ) (P U V : ℝ[X]) : ℝ[X] := ∑ j ∈ range (n + 1), C (P.coeff j) * (U ^ j * V ^ (n - j))

theorem hom_linear (α β : ℝ) {n : ℕ} {P : ℝ[X]} (hP : P.natDegree ≤ n) (U V : ℝ[X]) :
    hom (n + 1) ((C α * X + C β) * P) U V = (C α * U + C β * V) * hom n P U V := by
  have h0 : ∀ j, ((C α * X + C β) * P).coeff j = (if j = 0 then 0 else α * P.coeff (j - 1)) + β * P.coeff j := by
    intro j
    rw [add_mul, coeff_add, mul_assoc, coeff_C_mul, coeff_C_mul]
    cases j with
    | zero => simp
    | succ j => simp [coeff_X_mul]
  have h1 : P.coeff (n + 1) = 0 := coeff_eq_zero_of_natDegree_lt (by omega)
  have hA : ∑ j ∈ range (n + 2), C (if j = 0 then 0 else α * P.coeff (j - 1)) * (U ^ j * V ^ (n + 1 - j)) = C α * U * hom n P U V := by
    unfold hom
    rw [sum_range_succ', mul_sum, if_pos rfl, C_0, zero_mul, add_zero]
    refine sum_congr rfl fun j hj => ?_
    rw [if_neg (Nat.succ_ne_zero j), Nat.add_sub_cancel, C_mul, show n + 1 - (j + 1) = n - j by omega]
    ring
  have hB : ∑ j ∈ range (n + 2), C (β * P.coeff j) * (U ^ j * V ^ (n + 1 - j)) = C β * V * hom n P U V := by
    unfold hom
    rw [sum_range_succ, h1, mul_zero, C_0, zero_mul, add_zero, mul_sum]
    refine sum_congr rfl fun j hj => ?_
    have : j ≤ n := Nat.lt_succ_iff.mp (mem_range.mp hj)
    rw [show n + 1 - j = n - j + 1 by omega, C_mul]
    ring
  rw [add_mul (C α * U), ← hA, ← hB, ← sum_add_distrib]
  unfold hom
  refine sum_congr rfl fun j _ => ?_
  rw [h0, C_add, add_mul]

/-- `(cX + s)^k (-sX + c)^b` -/
def rot (c s : ℝ) (k b : ℕ) : ℝ[X] := (C c * X + C s) ^ k * (C (-s) * X + C c) ^ b

theorem rot_natDegree (c s : ℝ) (k b : ℕ) : (rot c s k b).natDegree ≤ k + b := by
  unfold rot
  have h : ∀ (α β : ℝ) (e : ℕ), ((C α * X + C β) ^ e).natDegree ≤ e := fun α β e => by
    refine natDegree_pow_le.trans ?_
    have := natDegree_linear_le (a := α) (b := β)
    nlinarith
  exact natDegree_mul_le.trans (Nat.add_le_add (h _ _ _) (h _ _ _))

theorem hom_rot (c s : ℝ) (U V : ℝ[X]) (k b : ℕ) :
    hom (k + b) (rot c s k b) U V = (C c * U + C s * V) ^ k * (C (-s) * U + C c * V) ^ b := by
  induction k with
  | zero =>
    induction b with
    | zero => simp [hom, rot]
    | succ b ih =>
      have e : rot c s 0 (b + 1) = (C (-s) * X + C c) * rot c s 0 b := by unfold rot; ring
      rw [e, ← add_assoc, hom_linear _ _ (rot_natDegree c s 0 b), ih]
      ring
  | succ k ih =>
    have e : rot c s (k + 1) b = (C c * X + C s) * rot c s k b := by unfold rot; ring
    rw [e, show k + 1 + b = k + b + 1 by ring, hom_linear _ _ (rot_natDegree c s k b), ih]
    ring

theorem coeff_linear_pow (α β : ℝ) (k a : ℕ) : ((C α * X + C β) ^ k).coeff a = (k.choose a : ℝ) * (α ^ a * β ^ (k - a)) := by
  have h : (C α * X + C β : ℝ[X]) ^ k = ((X + C β) ^ k).comp (C α * X) := by simp
  rw [h, comp_C_mul_X_coeff, coeff_X_add_C_pow]
  ring

theorem coeff_rot (c s : ℝ) (k b j : ℕ) : (rot c s k b).coeff j = ∑ a ∈ range (j + 1),
    (k.choose a : ℝ) * (c ^ a * s ^ (k - a)) * ((b.choose (j - a) : ℝ) * ((-s) ^ (j - a) * c ^ (b - (j - a)))) := by
  unfold rot
  rw [coeff_mul, Finset.Nat.sum_antidiagonal_eq_sum_range_succ_mk]
  simp only [coeff_linear_pow]

/-- The common form of the entries. -/
def entry (c s : ℝ) (n k j a : ℕ) : ℝ :=
  if a ≤ j ∧ a ≤ k ∧ j + k ≤ n + a then
    (n ! : ℝ) / ((a ! : ℝ) * ((k - a)! : ℝ) * ((j - a)! : ℝ) * ((n + a - (j + k))! : ℝ)) *
      (c ^ (a + (n + a - (j + k))) * s ^ (k - a) * (-s) ^ (j - a))
  else 0

theorem rot_entry (c s : ℝ) {n k j : ℕ} (hk : k ≤ n) (hj : j ≤ n) :
    (n.choose k : ℝ) * (rot c s k (n - k)).coeff j = ∑ a ∈ range (n + 1), entry c s n k j a := by
  rw [coeff_rot, mul_sum]
  have hs : ∑ a ∈ range (n + 1), entry c s n k j a = ∑ a ∈ range (j + 1), entry c s n k j a := by
    refine (sum_subset (range_mono (by omega)) fun a _ ha => ?_).symm
    unfold entry
    rw [if_neg]
    have := mem_range.not.mp ha
    omega
  rw [hs]
  refine sum_congr rfl fun a ha => ?_
  have haj : a ≤ j := Nat.lt_succ_iff.mp (mem_range.mp ha)
  unfold entry
  by_cases hak : a ≤ k
  · by_cases hn : j + k ≤ n + a
    · rw [if_pos ⟨haj, hak, hn⟩, Nat.cast_choose ℝ hk, Nat.cast_choose ℝ hak, Nat.cast_choose ℝ (by omega : j - a ≤ n - k),
        show n - k - (j - a) = n + a - (j + k) by omega, pow_add]
      have n1 : ((n - k)! : ℝ) ≠ 0 := by exact_mod_cast Nat.factorial_ne_zero _
      have n2 : (k ! : ℝ) ≠ 0 := by exact_mod_cast Nat.factorial_ne_zero _
      field_simp
    · rw [if_neg (fun h => hn h.2.2), Nat.choose_eq_zero_of_lt (by omega : n - k < j - a)]
      simp
  · rw [if_neg (fun h => hak h.2.1), Nat.choose_eq_zero_of_lt (by omega : k < a)]
    simp

theorem entry_symm (c s : ℝ) (n k j a : ℕ) : entry c s n k j a = entry c (-s) n j k a := by
  unfold entry
  by_cases h : a ≤ j ∧ a ≤ k ∧ j + k ≤ n + a
  · rw [if_pos h, if_pos ⟨h.2.1, h.1, by omega⟩, neg_neg, add_comm k j]
    ring
  · rw [if_neg h, if_neg]
    intro h'
    exact h ⟨h'.2.1, h'.1, by omega⟩

theorem rot_symm (c s : ℝ) {n k j : ℕ} (hk : k ≤ n) (hj : j ≤ n) :
    (n.choose k : ℝ) * (rot c s k (n - k)).coeff j = (n.choose j : ℝ) * (rot c (-s) j (n - j)).coeff k := by
  rw [rot_entry c s hk hj, rot_entry c (-s) hj hk]
  exact sum_congr rfl fun a _ => entry_symm c s n k j a

theorem rot_inverse {c s : ℝ} (h : c ^ 2 + s ^ 2 = 1) {n k : ℕ} (hk : k ≤ n) :
    ∑ j ∈ range (n + 1), (rot c s k (n - k)).coeff j * (rot c (-s) j (n - j)).coeff k = 1 := by
  have h1 := hom_rot c s (C c * X + C (-s)) (C s * X + C c) k (n - k)
  rw [Nat.add_sub_cancel' hk] at h1
  have e1 : (C c * (C c * X + C (-s)) + C s * (C s * X + C c) : ℝ[X]) = X := by
    have : (C c * C c + C s * C s : ℝ[X]) = 1 := by
      rw [← C_mul, ← C_mul, ← C_add, ← sq, ← sq, h, C_1]
    rw [C_neg]
    linear_combination (X : ℝ[X]) * this
  have e2 : (C (-s) * (C c * X + C (-s)) + C c * (C s * X + C c) : ℝ[X]) = 1 := by
    have : (C c * C c + C s * C s : ℝ[X]) = 1 := by
      rw [← C_mul, ← C_mul, ← C_add, ← sq, ← sq, h, C_1]
    rw [C_neg]
    linear_combination this
  rw [e1, e2, one_pow, mul_one] at h1
  have h2 := congrArg (fun P => P.coeff k) h1
  simp only [coeff_X_pow, if_true] at h2
  rw [← h2]
  unfold hom
  rw [finset_sum_coeff]
  refine sum_congr rfl fun j _ => ?_
  rw [coeff_C_mul]
  unfold rot
  rw [neg_neg]

theorem rot_diag_le {c s : ℝ} (h : c ^ 2 + s ^ 2 = 1) {n k : ℕ} (hk : k ≤ n) : |(rot c s k (n - k)).coeff k| ≤ 1 := by
  have h1 := rot_inverse h hk
  have h2 : ∀ j ∈ range (n + 1), (rot c s k (n - k)).coeff j * (rot c (-s) j (n - j)).coeff k =
      (n.choose k : ℝ) / (n.choose j : ℝ) * (rot c s k (n - k)).coeff j ^ 2 := by
    intro j hj
    have hj' : j ≤ n := Nat.lt_succ_iff.mp (mem_range.mp hj)
    have := rot_symm c s hk hj'
    have hne : (n.choose j : ℝ) ≠ 0 := by exact_mod_cast (Nat.choose_pos hj').ne'
    field_simp
    linear_combination -(rot c s k (n - k)).coeff j * this
  rw [sum_congr rfl h2] at h1
  have h3 : (n.choose k : ℝ) / (n.choose k : ℝ) * (rot c s k (n - k)).coeff k ^ 2 ≤ 1 := by
    rw [← h1]
    exact single_le_sum (f := fun j => (n.choose k : ℝ) / (n.choose j : ℝ) * (rot c s k (n - k)).coeff j ^ 2)
      (fun j _ => by positivity) (mem_range.mpr (by omega))
  rw [div_self (by exact_mod_cast (Nat.choose_pos hk).ne'), one_mul] at h3
  exact abs_le_one_iff_mul_self_le_one.mpr (by rw [← sq]; exact h3)

/-! ## The radial polynomial is such an entry -/

theorem alt_pascal (f : ℕ → ℝ) (r : ℕ) : ∑ l ∈ range (r + 2), (-1) ^ l * ((r + 1).choose l : ℝ) * f l =
    ∑ l ∈ range (r + 1), (-1) ^ l * (r.choose l : ℝ) * (f l - f (l + 1)) := by
  rw [sum_range_succ']
  simp only [mul_sub, sum_sub_distrib]
  have h1 : ∑ l ∈ range (r + 1), (-1) ^ l * (r.choose l : ℝ) * f l =
      ∑ l ∈ range (r + 1), (-1) ^ (l + 1) * (r.choose (l + 1) : ℝ) * f (l + 1) + f 0 := by
    rw [sum_range_succ' _ r, sum_range_succ _ r, Nat.choose_succ_self]
    simp
  rw [h1]
  have h2 : ∀ l, (-1 : ℝ) ^ (l + 1) * ((r + 1).choose (l + 1) : ℝ) * f (l + 1) =
      (-1) ^ (l + 1) * (r.choose (l + 1) : ℝ) * f (l + 1) - (-1) ^ l * (r.choose l : ℝ) * f (l + 1) := by
    intro l
    rw [Nat.choose_succ_succ]
    push_cast
    ring
  simp only [h2, sum_sub_distrib]
  simp
  ring

theorem alt_choose : ∀ (r N k : ℕ), r ≤ k → r ≤ N →
    ∑ l ∈ range (r + 1), (-1) ^ l * (r.choose l : ℝ) * ((N - l).choose k : ℝ) = ((N - r).choose (k - r) : ℝ)
  | 0, N, k, _, _ => by simp
  | r + 1, N, k, hk, hN => by
    rw [alt_pascal (fun l => ((N - l).choose k : ℝ)) r]
    simp only [mul_sub, sum_sub_distrib]
    rw [alt_choose r N k (by omega) (by omega)]
    have e : ∑ l ∈ range (r + 1), (-1) ^ l * (r.choose l : ℝ) * ((N - (l + 1)).choose k : ℝ) =
        ∑ l ∈ range (r + 1), (-1) ^ l * (r.choose l : ℝ) * ((N - 1 - l).choose k : ℝ) :=
      sum_congr rfl fun l _ => by rw [show N - (l + 1) = N - 1 - l by omega]
    rw [e, alt_choose r (N - 1) k (by omega) (by omega)]
    obtain ⟨M, rfl⟩ : ∃ M, N = M + (r + 1) := ⟨N - (r + 1), by omega⟩
    obtain ⟨q, rfl⟩ : ∃ q, k = q + (r + 1) := ⟨k - (r + 1), by omega⟩
    rw [show M + (r + 1) - r = M + 1 by omega, show q + (r + 1) - r = q + 1 by omega, show M + (r + 1) - 1 - r = M by omega,
      show M + (r + 1) - (r + 1) = M by omega, show q + (r + 1) - (r + 1) = q by omega, Nat.choose_succ_succ]
    push_cast
    ring

/-- The change of basis from powers of `ρ²` to products of powers of `ρ²` and `1 - ρ²`. -/
theorem inner_sum (p m i : ℕ) (hi : i ≤ p) :
    ∑ j ∈ range (p + 1), (-1) ^ j * ((m + p).choose j : ℝ) * ((m + 2 * p - j).choose (m + p) : ℝ) * (j.choose i : ℝ) =
      (-1) ^ i * ((m + p).choose i : ℝ) * (p.choose i : ℝ) := by
  have h1 : ∑ j ∈ range (p + 1), (-1) ^ j * ((m + p).choose j : ℝ) * ((m + 2 * p - j).choose (m + p) : ℝ) * (j.choose i : ℝ) =
      ∑ j ∈ range (m + p + 1), (-1) ^ j * ((m + p).choose j : ℝ) * ((m + 2 * p - j).choose (m + p) : ℝ) * (j.choose i : ℝ) := by
    refine sum_subset (range_mono (by omega)) fun j hj hj' => ?_
    have h1 := mem_range.mp hj
    have h2 := mem_range.not.mp hj'
    rw [Nat.choose_eq_zero_of_lt (by omega : m + 2 * p - j < m + p)]
    simp
  have h2 : ∑ j ∈ range (m + p + 1), (-1) ^ j * ((m + p).choose j : ℝ) * ((m + 2 * p - j).choose (m + p) : ℝ) * (j.choose i : ℝ) =
      ∑ l ∈ range (m + p - i + 1), (-1) ^ (i + l) * ((m + p).choose i : ℝ) * (((m + p - i).choose l : ℝ) *
        ((m + 2 * p - i - l).choose (m + p) : ℝ)) := by
    rw [show m + p + 1 = i + (m + p - i + 1) by omega, sum_range_add]
    rw [sum_eq_zero (s := range i) fun j hj => by
      rw [Nat.choose_eq_zero_of_lt (mem_range.mp hj)]; simp, zero_add]
    refine sum_congr rfl fun l hl => ?_
    have hl' : l ≤ m + p - i := Nat.lt_succ_iff.mp (mem_range.mp hl)
    have h3 := Nat.choose_mul (n := m + p) (k := i + l) (s := i) (by omega)
    rw [Nat.add_sub_cancel_left] at h3
    have h4 : ((m + p).choose (i + l) : ℝ) * ((i + l).choose i : ℝ) = ((m + p).choose i : ℝ) * ((m + p - i).choose l : ℝ) := by
      exact_mod_cast h3
    rw [show m + 2 * p - (i + l) = m + 2 * p - i - l by omega]
    linear_combination ((-1) ^ (i + l) * ((m + 2 * p - i - l).choose (m + p) : ℝ)) * h4
  have h5 := alt_choose (m + p - i) (m + 2 * p - i) (m + p) (by omega) (by omega)
  rw [show m + 2 * p - i - (m + p - i) = p by omega, show m + p - (m + p - i) = i by omega] at h5
  rw [h1, h2, ← h5, mul_sum]
  refine sum_congr rfl fun l _ => ?_
  rw [pow_add]
  ring

theorem radial_rot {p m : ℕ} {c s : ℝ} (h : c ^ 2 + s ^ 2 = 1) :
    Spec.radial (m + 2 * p) m c = (rot c s (m + p) p).coeff (m + p) := by
  have hR : Spec.radial (m + 2 * p) m c = ∑ j ∈ range (p + 1), ∑ i ∈ range (p + 1),
      c ^ m * ((c ^ 2) ^ (p - i) * (s ^ 2) ^ i) *
        ((-1) ^ j * ((m + p).choose j : ℝ) * ((m + 2 * p - j).choose (m + p) : ℝ) * (j.choose i : ℝ)) := by
    unfold Spec.radial
    rw [show (m + 2 * p - m) / 2 = p by omega, show (m + 2 * p + m) / 2 = m + p by omega]
    refine sum_congr rfl fun j hj => ?_
    have hj' : j ≤ p := Nat.lt_succ_iff.mp (mem_range.mp hj)
    have e1 : ((m + 2 * p - j)! : ℝ) / ((j ! : ℝ) * ((m + p - j)! : ℝ) * ((p - j)! : ℝ)) =
        ((m + p).choose j : ℝ) * ((m + 2 * p - j).choose (m + p) : ℝ) := by
      rw [Nat.cast_choose ℝ (by omega : j ≤ m + p), Nat.cast_choose ℝ (by omega : m + p ≤ m + 2 * p - j),
        show m + 2 * p - j - (m + p) = p - j by omega]
      have n1 : ((m + p)! : ℝ) ≠ 0 := by exact_mod_cast Nat.factorial_ne_zero _
      field_simp
    have e2 : c ^ (m + 2 * p - 2 * j) = ∑ i ∈ range (p + 1), c ^ m * ((c ^ 2) ^ (p - i) * (s ^ 2) ^ i) * (j.choose i : ℝ) := by
      have : c ^ (m + 2 * p - 2 * j) = c ^ m * (c ^ 2) ^ (p - j) * (s ^ 2 + c ^ 2) ^ j := by
        rw [add_comm (s ^ 2), h, one_pow, mul_one, ← pow_mul, ← pow_add]
        congr 1
        omega
      rw [this, add_pow, mul_sum]
      have hsub : range (j + 1) ⊆ range (p + 1) := range_mono (by omega)
      rw [← sum_subset hsub fun i _ hi => by
        rw [Nat.choose_eq_zero_of_lt (by have := mem_range.not.mp hi; omega : j < i)]; simp]
      refine sum_congr rfl fun i hi => ?_
      have hi' : i ≤ j := Nat.lt_succ_iff.mp (mem_range.mp hi)
      rw [show p - i = (p - j) + (j - i) by omega, pow_add]
      ring
    rw [mul_div_assoc, e1, e2, mul_sum]
    refine sum_congr rfl fun i _ => ?_
    ring
  rw [hR, sum_comm, coeff_rot]
  have e3 : ∀ i ∈ range (p + 1), ∑ j ∈ range (p + 1), c ^ m * ((c ^ 2) ^ (p - i) * (s ^ 2) ^ i) *
        ((-1) ^ j * ((m + p).choose j : ℝ) * ((m + 2 * p - j).choose (m + p) : ℝ) * (j.choose i : ℝ)) =
      c ^ m * ((c ^ 2) ^ (p - i) * (s ^ 2) ^ i) * ((-1) ^ i * ((m + p).choose i : ℝ) * (p.choose i : ℝ)) := by
    intro i hi
    rw [← mul_sum, inner_sum p m i (Nat.lt_succ_iff.mp (mem_range.mp hi))]
  rw [sum_congr rfl e3, ← sum_range_reflect _ (m + p + 1)]
  have hsub : range (p + 1) ⊆ range (m + p + 1) := range_mono (by omega)
  rw [sum_subset hsub fun i _ hi => by
    rw [Nat.choose_eq_zero_of_lt (by have := mem_range.not.mp hi; omega : p < i)]; simp]
  refine sum_congr rfl fun i hi => ?_
  have hi' : i ≤ m + p := Nat.lt_succ_iff.mp (mem_range.mp hi)
  rw [show m + p + 1 - 1 - i = m + p - i by omega, Nat.choose_symm hi', show m + p - (m + p - i) = i by omega, neg_pow s i]
  by_cases hp : i ≤ p
  · rw [show m + p - i = m + (p - i) by omega, pow_add, ← pow_mul c 2, ← pow_mul s 2, two_mul, two_mul, pow_add c (p - i), pow_add s i]
    ring
  · rw [Nat.choose_eq_zero_of_lt (by omega : p < i)]
    simp

/-- The radial polynomials are bounded by one on the unit interval. -/
theorem radial_le (p m : ℕ) {ρ : ℝ} (h : |ρ| ≤ 1) : |Spec.radial (m + 2 * p) m ρ| ≤ 1 := by
  have h1 : ρ ^ 2 ≤ 1 := by rw [← sq_abs]; exact pow_le_one₀ (abs_nonneg ρ) h
  have h2 : ρ ^ 2 + √(1 - ρ ^ 2) ^ 2 = 1 := by rw [Real.sq_sqrt (by linarith)]; ring
  rw [radial_rot h2]
  have := rot_diag_le h2 (n := m + 2 * p) (k := m + p) (by omega)
  rwa [show m + 2 * p - (m + p) = p by omega] at this

end PySLM2.Profile
