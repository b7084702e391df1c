import Verif.Model.Lib
import Mathlib.Analysis.SpecialFunctions.Complex.Log
import Mathlib.Analysis.Complex.Basic
import Mathlib.Algebra.Field.GeomSum

/-! Helper lemmas about the discrete Fourier transform: inversion and Parseval. -/

noncomputable section

open Complex Finset

namespace PySLM2.Lib

/-- The one-dimensional kernel `exp(2 pi i k a / n)`. -/
def E (n k a : ℕ) : ℂ := cexp ((2 * Real.pi * I) * ((k * a : ℂ) / n))

/-- Its conjugate `exp(-2 pi i k a / n)`. -/
def Em (n k a : ℕ) : ℂ := cexp (-(2 * Real.pi * I) * ((k * a : ℂ) / n))

theorem E_mul_Em (n k a : ℕ) : E n k a * Em n k a = 1 := by
  rw [E, Em, ← Complex.exp_add]
  simp

theorem conj_E (n k a : ℕ) : (starRingEnd ℂ) (E n k a) = Em n k a := by
  rw [E, Em, ← Complex.exp_conj]
  congr 1
  have h2 : (starRingEnd ℂ) 2 = 2 := Complex.conj_ofNat 2
  simp [Complex.conj_ofReal, h2]

theorem conj_Em (n k a : ℕ) : (starRingEnd ℂ) (Em n k a) = E n k a := by
  rw [← conj_E, Complex.conj_conj]

theorem E_comm (n k a : ℕ) : E n k a = E n a k := by rw [E, E, mul_comm (k : ℂ)]
theorem Em_comm (n k a : ℕ) : Em n k a = Em n a k := by rw [Em, Em, mul_comm (k : ℂ)]

theorem norm_E (n k a : ℕ) : ‖E n k a‖ = 1 := by
  have : (2 * Real.pi * I) * ((k * a : ℂ) / n) = ((2 * Real.pi * (k * a / n) : ℝ) : ℂ) * I := by
    push_cast; ring
  rw [E, this, Complex.norm_exp_ofReal_mul_I]

/-- Orthogonality of the kernels. -/
theorem sum_E_mul_Em {n a b : ℕ} (ha : a < n) (hb : b < n) :
    ∑ k ∈ range n, E n k a * Em n k b = if a = b then (n : ℂ) else 0 := by
  have hn : (n : ℂ) ≠ 0 := by exact_mod_cast (by omega : n ≠ 0)
  split_ifs with hab
  · subst hab
    simp [E_mul_Em]
  · set z : ℂ := cexp ((2 * Real.pi * I) * (((a : ℂ) - b) / n)) with hz
    have h1 : ∀ k ∈ range n, E n k a * Em n k b = z ^ k := by
      intro k _
      rw [E, Em, ← Complex.exp_add, hz, ← Complex.exp_nat_mul]
      congr 1
      ring
    rw [Finset.sum_congr rfl h1]
    have hzn : z ^ n = 1 := by
      rw [hz, ← Complex.exp_nat_mul, Complex.exp_eq_one_iff]
      refine ⟨(a : ℤ) - b, ?_⟩
      push_cast
      field_simp
    have hz1 : z ≠ 1 := by
      intro h
      rw [hz, Complex.exp_eq_one_iff] at h
      obtain ⟨m, hm⟩ := h
      have h2 : ((a : ℂ) - b) / n = m := by
        have h3 : (2 * (Real.pi : ℂ) * I) ≠ 0 := by simp [Real.pi_ne_zero, Complex.I_ne_zero]
        have := mul_left_cancel₀ h3 (hm.trans (mul_comm _ _))
        exact this
      have h4 : (a : ℂ) - b = m * n := by field_simp at h2; rw [h2, mul_comm]
      have h5 : (a : ℤ) - b = m * n := by exact_mod_cast h4
      have h6 : m = 0 := by
        rcases lt_trichotomy m 0 with h | h | h
        · have : m * n ≤ -1 * n := Int.mul_le_mul_of_nonneg_right (by omega) (by omega)
          omega
        · exact h
        · have : 1 * (n : ℤ) ≤ m * n := Int.mul_le_mul_of_nonneg_right (by omega) (by omega)
          omega
      subst h6
      apply hab
      omega
    have := geom_sum_mul z n
    rw [hzn, sub_self] at this
    exact (mul_eq_zero.mp this).resolve_right (sub_ne_zero.mpr hz1)

theorem dft2_eq (M N : ℕ) (u : ℕ → ℕ → ℂ) (k l : ℕ) :
    dft2 M N u k l = ∑ a ∈ range M, ∑ b ∈ range N, u a b * (Em M k a * Em N l b) := by
  unfold dft2
  refine Finset.sum_congr rfl fun a _ => Finset.sum_congr rfl fun b _ => ?_
  rw [Em, Em, ← Complex.exp_add]
  congr 2
  ring

theorem idft2_eq (M N : ℕ) (u : ℕ → ℕ → ℂ) (k l : ℕ) :
    idft2 M N u k l =
      1 / ((M : ℂ) * N) * ∑ a ∈ range M, ∑ b ∈ range N, u a b * (E M k a * E N l b) := by
  unfold idft2
  congr 1
  refine Finset.sum_congr rfl fun a _ => Finset.sum_congr rfl fun b _ => ?_
  rw [E, E, ← Complex.exp_add]
  congr 2
  ring

theorem dft2_congr {M N : ℕ} {u v : ℕ → ℕ → ℂ} (h : ∀ a < M, ∀ b < N, u a b = v a b) :
    dft2 M N u = dft2 M N v := by
  funext k l
  unfold dft2
  exact Finset.sum_congr rfl fun a ha => Finset.sum_congr rfl fun b hb => by
    rw [h a (mem_range.mp ha) b (mem_range.mp hb)]

theorem idft2_congr {M N : ℕ} {u v : ℕ → ℕ → ℂ} (h : ∀ a < M, ∀ b < N, u a b = v a b) :
    idft2 M N u = idft2 M N v := by
  funext k l
  unfold idft2
  congr 1
  exact Finset.sum_congr rfl fun a ha => Finset.sum_congr rfl fun b hb => by
    rw [h a (mem_range.mp ha) b (mem_range.mp hb)]

theorem sum_ite_pair {M N : ℕ} (u : ℕ → ℕ → ℂ) {k l : ℕ} (hk : k < M) (hl : l < N) :
    ∑ a ∈ range M, ∑ b ∈ range N,
      u a b * ((if a = k then (M : ℂ) else 0) * (if b = l then (N : ℂ) else 0)) =
    u k l * (M * N) := by
  rw [Finset.sum_eq_single k, Finset.sum_eq_single l]
  · simp
  · intro b _ hb; simp [hb]
  · intro h; exact absurd (mem_range.mpr hl) h
  · intro a _ ha
    exact Finset.sum_eq_zero fun b _ => by simp [ha]
  · intro h; exact absurd (mem_range.mpr hk) h

/-- Generic inversion computation. -/
theorem double_sum_swap (M N : ℕ) (u : ℕ → ℕ → ℂ) (F G : ℕ → ℕ → ℂ) (F' G' : ℕ → ℂ) :
    ∑ p ∈ range M, ∑ q ∈ range N,
      (∑ a ∈ range M, ∑ b ∈ range N, u a b * (F p a * G q b)) * (F' p * G' q) =
    ∑ a ∈ range M, ∑ b ∈ range N,
      u a b * ((∑ p ∈ range M, F p a * F' p) * (∑ q ∈ range N, G q b * G' q)) := by
  simp only [Finset.sum_mul_sum]
  simp only [Finset.mul_sum, Finset.sum_mul]
  rw [Finset.sum_congr rfl fun p _ => Finset.sum_comm]
  rw [Finset.sum_comm]
  refine Finset.sum_congr rfl fun a _ => ?_
  rw [Finset.sum_congr rfl fun p _ => Finset.sum_comm]
  rw [Finset.sum_comm]
  refine Finset.sum_congr rfl fun b _ => ?_
  refine Finset.sum_congr rfl fun p _ => Finset.sum_congr rfl fun q _ => ?_
  ring

theorem idft2_dft2 {M N : ℕ} (u : ℕ → ℕ → ℂ) {k l : ℕ} (hk : k < M) (hl : l < N) :
    idft2 M N (dft2 M N u) k l = u k l := by
  have hM : (M : ℂ) ≠ 0 := by exact_mod_cast (by omega : M ≠ 0)
  have hN : (N : ℂ) ≠ 0 := by exact_mod_cast (by omega : N ≠ 0)
  rw [idft2_eq]
  simp only [dft2_eq]
  have := double_sum_swap M N u (fun p a => Em M p a) (fun q b => Em N q b) (fun p => E M k p)
    (fun q => E N l q)
  rw [this]
  have h1 : ∀ a ∈ range M, ∀ b ∈ range N,
      u a b * ((∑ p ∈ range M, Em M p a * E M k p) * (∑ q ∈ range N, Em N q b * E N l q)) =
      u a b * ((if a = k then (M : ℂ) else 0) * (if b = l then (N : ℂ) else 0)) := by
    intro a ha b hb
    have e1 := sum_E_mul_Em hk (mem_range.mp ha)
    have e2 := sum_E_mul_Em hl (mem_range.mp hb)
    congr 2
    · rw [show (∑ p ∈ range M, Em M p a * E M k p) = ∑ p ∈ range M, E M p k * Em M p a from
        Finset.sum_congr rfl fun p _ => by rw [E_comm M k p, mul_comm], e1]
      simp [eq_comm]
    · rw [show (∑ p ∈ range N, Em N p b * E N l p) = ∑ p ∈ range N, E N p l * Em N p b from
        Finset.sum_congr rfl fun p _ => by rw [E_comm N l p, mul_comm], e2]
      simp [eq_comm]
  rw [Finset.sum_congr rfl fun a ha => Finset.sum_congr rfl fun b hb => h1 a ha b hb,
    sum_ite_pair u hk hl]
  field_simp

theorem dft2_idft2 {M N : ℕ} (u : ℕ → ℕ → ℂ) {k l : ℕ} (hk : k < M) (hl : l < N) :
    dft2 M N (idft2 M N u) k l = u k l := by
  have hM : (M : ℂ) ≠ 0 := by exact_mod_cast (by omega : M ≠ 0)
  have hN : (N : ℂ) ≠ 0 := by exact_mod_cast (by omega : N ≠ 0)
  rw [dft2_eq]
  simp only [idft2_eq]
  have h0 : ∑ a ∈ range M, ∑ b ∈ range N,
      1 / ((M : ℂ) * N) * (∑ p ∈ range M, ∑ q ∈ range N, u p q * (E M a p * E N b q)) *
        (Em M k a * Em N l b) =
      1 / ((M : ℂ) * N) * ∑ a ∈ range M, ∑ b ∈ range N,
      (∑ p ∈ range M, ∑ q ∈ range N, u p q * (E M a p * E N b q)) * (Em M k a * Em N l b) := by
    rw [Finset.mul_sum]
    refine Finset.sum_congr rfl fun a _ => ?_
    rw [Finset.mul_sum]
    exact Finset.sum_congr rfl fun b _ => by ring
  rw [h0]
  have := double_sum_swap M N u (fun p a => E M p a) (fun q b => E N q b) (fun p => Em M k p)
    (fun q => Em N l q)
  rw [this]
  have h1 : ∀ a ∈ range M, ∀ b ∈ range N,
      u a b * ((∑ p ∈ range M, E M p a * Em M k p) * (∑ q ∈ range N, E N q b * Em N l q)) =
      u a b * ((if a = k then (M : ℂ) else 0) * (if b = l then (N : ℂ) else 0)) := by
    intro a ha b hb
    have e1 := sum_E_mul_Em (mem_range.mp ha) hk
    have e2 := sum_E_mul_Em (mem_range.mp hb) hl
    congr 2
    · rw [← e1]
      exact Finset.sum_congr rfl fun p _ => by rw [Em_comm M k p]
    · rw [← e2]
      exact Finset.sum_congr rfl fun p _ => by rw [Em_comm N l p]
  rw [Finset.sum_congr rfl fun a ha => Finset.sum_congr rfl fun b hb => h1 a ha b hb,
    sum_ite_pair u hk hl]
  field_simp

/-- Parseval with two fields. -/
theorem dft2_inner (M N : ℕ) (u v : ℕ → ℕ → ℂ) :
    ∑ k ∈ range M, ∑ l ∈ range N, dft2 M N u k l * (starRingEnd ℂ) (dft2 M N v k l) =
      (M * N : ℂ) * ∑ a ∈ range M, ∑ b ∈ range N, u a b * (starRingEnd ℂ) (v a b) := by
  rcases Nat.eq_zero_or_pos M with rfl | hM0
  · simp
  rcases Nat.eq_zero_or_pos N with rfl | hN0
  · simp
  have hM : (M : ℂ) ≠ 0 := by exact_mod_cast hM0.ne'
  have hN : (N : ℂ) ≠ 0 := by exact_mod_cast hN0.ne'
  have h1 : ∀ a ∈ range M, ∀ b ∈ range N, u a b * (starRingEnd ℂ) (v a b) =
      1 / ((M : ℂ) * N) * ∑ k ∈ range M, ∑ l ∈ range N,
        dft2 M N u k l * (E M a k * E N b l) * (starRingEnd ℂ) (v a b) := by
    intro a ha b hb
    rw [← idft2_dft2 u (mem_range.mp ha) (mem_range.mp hb), idft2_eq]
    rw [mul_assoc, Finset.sum_mul]
    congr 1
    refine Finset.sum_congr rfl fun k _ => ?_
    rw [Finset.sum_mul]
  rw [Finset.sum_congr rfl fun a ha => Finset.sum_congr rfl fun b hb => h1 a ha b hb]
  have h2 : ∀ k l, (starRingEnd ℂ) (dft2 M N v k l) =
      ∑ a ∈ range M, ∑ b ∈ range N, (starRingEnd ℂ) (v a b) * (E M a k * E N b l) := by
    intro k l
    rw [dft2_eq, map_sum]
    refine Finset.sum_congr rfl fun a _ => ?_
    rw [map_sum]
    refine Finset.sum_congr rfl fun b _ => ?_
    rw [map_mul, map_mul, conj_Em, conj_Em, E_comm M k a, E_comm N l b]
  simp only [h2, Finset.mul_sum]
  have h3 : ∀ (f : ℕ → ℕ → ℕ → ℕ → ℂ), ∑ k ∈ range M, ∑ l ∈ range N, ∑ a ∈ range M, ∑ b ∈ range N,
      f k l a b = ∑ a ∈ range M, ∑ b ∈ range N, ∑ k ∈ range M, ∑ l ∈ range N, f k l a b := by
    intro f
    rw [Finset.sum_congr rfl fun k _ => Finset.sum_comm]
    rw [Finset.sum_comm]
    refine Finset.sum_congr rfl fun a _ => ?_
    rw [Finset.sum_congr rfl fun k _ => Finset.sum_comm]
    rw [Finset.sum_comm]
  rw [h3]
  refine Finset.sum_congr rfl fun a _ => Finset.sum_congr rfl fun b _ =>
    Finset.sum_congr rfl fun k _ => Finset.sum_congr rfl fun l _ => ?_
  field_simp

theorem dft2_parseval (M N : ℕ) (u : ℕ → ℕ → ℂ) :
    ∑ k ∈ range M, ∑ l ∈ range N, ‖dft2 M N u k l‖ ^ 2 =
      (M * N : ℝ) * ∑ a ∈ range M, ∑ b ∈ range N, ‖u a b‖ ^ 2 := by
  have h := dft2_inner M N u u
  simp only [Complex.mul_conj, Complex.normSq_eq_norm_sq] at h
  exact_mod_cast h

theorem idft2_parseval (M N : ℕ) (u : ℕ → ℕ → ℂ) :
    (M * N : ℝ) * ∑ k ∈ range M, ∑ l ∈ range N, ‖idft2 M N u k l‖ ^ 2 =
      ∑ a ∈ range M, ∑ b ∈ range N, ‖u a b‖ ^ 2 := by
  rw [← dft2_parseval]
  exact Finset.sum_congr rfl fun a ha => Finset.sum_congr rfl fun b hb => by
    rw [dft2_idft2 u (mem_range.mp ha) (mem_range.mp hb)]

theorem dft2_add (M N : ℕ) (u v : ℕ → ℕ → ℂ) (k l : ℕ) :
    dft2 M N (fun a b => u a b + v a b) k l = dft2 M N u k l + dft2 M N v k l := by
  simp only [dft2, add_mul, Finset.sum_add_distrib]

theorem dft2_smul (M N : ℕ) (c : ℂ) (u : ℕ → ℕ → ℂ) (k l : ℕ) :
    dft2 M N (fun a b => c * u a b) k l = c * dft2 M N u k l := by
  simp only [dft2, Finset.mul_sum, mul_assoc]

theorem idft2_add (M N : ℕ) (u v : ℕ → ℕ → ℂ) (k l : ℕ) :
    idft2 M N (fun a b => u a b + v a b) k l = idft2 M N u k l + idft2 M N v k l := by
  simp only [idft2, add_mul, Finset.sum_add_distrib, mul_add]

theorem idft2_smul (M N : ℕ) (c : ℂ) (u : ℕ → ℕ → ℂ) (k l : ℕ) :
    idft2 M N (fun a b => c * u a b) k l = c * idft2 M N u k l := by
  simp only [idft2, Finset.mul_sum]
  refine Finset.sum_congr rfl fun a _ => Finset.sum_congr rfl fun b _ => ?_
  ring

end PySLM2.Lib
