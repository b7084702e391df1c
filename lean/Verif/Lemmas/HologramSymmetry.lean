import Verif.Lemmas.Spot

/-!
# Symmetries of the hologram algorithms
-/

noncomputable section

open Complex Finset

namespace PySLM2.LCOS

open Lib

/-- The index `-a` modulo `n` -/
def nidx (n a : ℕ) : ℕ := (n - a) % n

/-- The index `a - p` modulo `n` -/
def back (n p a : ℕ) : ℕ := (a + (n - p)) % n

theorem nidx_lt {n a : ℕ} (ha : a < n) : nidx n a < n := Nat.mod_lt _ (by omega)

theorem back_lt {n p a : ℕ} (ha : a < n) : back n p a < n := Nat.mod_lt _ (by omega)

theorem nidx_eq {n a : ℕ} (ha : a < n) : nidx n a = if a = 0 then 0 else n - a := by
  unfold nidx
  split_ifs with h
  · rw [h, Nat.sub_zero, Nat.mod_self]
  · exact Nat.mod_eq_of_lt (by omega)

theorem nidx_nidx {n a : ℕ} (ha : a < n) : nidx n (nidx n a) = a := by
  rw [nidx_eq (nidx_lt ha), nidx_eq ha]
  split_ifs <;> omega

theorem back_eq {n p a : ℕ} (hp : p < n) (ha : a < n) : back n p a = if a < p then a + (n - p) else a - p := by
  unfold back
  split_ifs with h
  · exact Nat.mod_eq_of_lt (by omega)
  · rw [show a + (n - p) = a - p + n by omega, Nat.add_mod_right]
    exact Nat.mod_eq_of_lt (by omega)

theorem E_nidx {n a : ℕ} (ha : a < n) (i : ℕ) : E n (nidx n a) i = Em n a i := by
  have hn : (n : ℂ) ≠ 0 := by exact_mod_cast (by omega : n ≠ 0)
  rw [nidx_eq ha]
  split_ifs with h
  · subst h; simp [E, Em]
  · rw [E, Em, Complex.exp_eq_exp_iff_exists_int]
    refine ⟨i, ?_⟩
    rw [Nat.cast_sub ha.le]
    field_simp
    push_cast
    ring

theorem E_back {n p a : ℕ} (hp : p < n) (ha : a < n) (i : ℕ) : E n (back n p a) i = E n a i * Em n p i := by
  have hn : (n : ℂ) ≠ 0 := by exact_mod_cast (by omega : n ≠ 0)
  rw [back_eq hp ha, E, E, Em, ← Complex.exp_add]
  split_ifs with h
  · rw [Complex.exp_eq_exp_iff_exists_int]
    refine ⟨i, ?_⟩
    rw [Nat.cast_add, Nat.cast_sub hp.le]
    field_simp
    push_cast
    ring
  · rw [Nat.cast_sub (by omega)]
    congr 1
    field_simp
    ring

theorem sum_nidx {β : Type*} [AddCommMonoid β] (n : ℕ) (g : ℕ → β) : ∑ a ∈ range n, g (nidx n a) = ∑ a ∈ range n, g a := by
  refine Finset.sum_nbij' (nidx n) (nidx n) ?_ ?_ ?_ ?_ ?_
  · intro a ha; exact mem_range.mpr (nidx_lt (mem_range.mp ha))
  · intro a ha; exact mem_range.mpr (nidx_lt (mem_range.mp ha))
  · intro a ha; exact nidx_nidx (mem_range.mp ha)
  · intro a ha; exact nidx_nidx (mem_range.mp ha)
  · intro a _; rfl

/-- The index `a + p` modulo `n` -/
theorem back_fwd {n p k : ℕ} (hp : p < n) (hk : k < n) : back n p ((k + p) % n) = k := by
  have h : (k + p) % n < n := Nat.mod_lt _ (by omega)
  have h2 : (k + p) % n = if k + p < n then k + p else k + p - n := by
    split_ifs with h
    · exact Nat.mod_eq_of_lt h
    · rw [Nat.mod_eq_sub_mod (by omega)]; exact Nat.mod_eq_of_lt (by omega)
  rw [back_eq hp h, h2]
  split_ifs <;> omega

theorem fwd_back {n p a : ℕ} (hp : p < n) (ha : a < n) : (back n p a + p) % n = a := by
  have h2 := back_eq hp ha
  split_ifs at h2 with h
  · rw [h2, show a + (n - p) + p = a + n by omega, Nat.add_mod_right]; exact Nat.mod_eq_of_lt ha
  · rw [h2, show a - p + p = a by omega]; exact Nat.mod_eq_of_lt ha

theorem sum_back {β : Type*} [AddCommMonoid β] {n p : ℕ} (hp : p < n) (g : ℕ → β) :
    ∑ a ∈ range n, g (back n p a) = ∑ a ∈ range n, g a := by
  refine Finset.sum_nbij' (back n p) (fun k => (k + p) % n) ?_ ?_ ?_ ?_ ?_
  · intro a ha; exact mem_range.mpr (back_lt (mem_range.mp ha))
  · intro a _; exact mem_range.mpr (Nat.mod_lt _ (by omega))
  · intro a ha; exact fwd_back hp (mem_range.mp ha)
  · intro a ha; exact back_fwd hp (mem_range.mp ha)
  · intro a _; rfl

theorem idft2_conj {M N : ℕ} {v v' : ℕ → ℕ → ℂ} (h : ∀ i < M, ∀ j < N, v' i j = starRingEnd ℂ (v i j)) {a b : ℕ} (ha : a < M)
    (hb : b < N) : idft2 M N v' a b = starRingEnd ℂ (idft2 M N v (nidx M a) (nidx N b)) := by
  rw [idft2_eq, idft2_eq, map_mul, map_sum]
  congr 1
  · simp
  refine Finset.sum_congr rfl fun i hi => ?_
  rw [map_sum]
  refine Finset.sum_congr rfl fun j hj => ?_
  rw [h i (mem_range.mp hi) j (mem_range.mp hj), map_mul, map_mul, E_nidx ha, E_nidx hb, conj_Em, conj_Em]

theorem dft2_conj {M N : ℕ} {F F' : ℕ → ℕ → ℂ} (h : ∀ a < M, ∀ b < N, F' a b = starRingEnd ℂ (F (nidx M a) (nidx N b)))
    (i j : ℕ) : dft2 M N F' i j = starRingEnd ℂ (dft2 M N F i j) := by
  rw [dft2_eq, dft2_eq, ← sum_nidx M fun a => ∑ b ∈ range N, F a b * (Em M i a * Em N j b), map_sum]
  refine Finset.sum_congr rfl fun a ha => ?_
  rw [← sum_nidx N fun b => F (nidx M a) b * (Em M i (nidx M a) * Em N j b), map_sum]
  refine Finset.sum_congr rfl fun b hb => ?_
  rw [h a (mem_range.mp ha) b (mem_range.mp hb), map_mul, map_mul, conj_Em, conj_Em, E_comm M, E_comm N,
    E_nidx (mem_range.mp ha), E_nidx (mem_range.mp hb), Em_comm M, Em_comm N]

theorem idft2_tilt {M N p q : ℕ} (hp : p < M) (hq : q < N) {v v' : ℕ → ℕ → ℂ}
    (h : ∀ i < M, ∀ j < N, v' i j = v i j * (Em M p i * Em N q j)) {a b : ℕ} (ha : a < M) (hb : b < N) :
    idft2 M N v' a b = idft2 M N v (back M p a) (back N q b) := by
  rw [idft2_eq, idft2_eq]
  congr 1
  refine Finset.sum_congr rfl fun i hi => Finset.sum_congr rfl fun j hj => ?_
  rw [h i (mem_range.mp hi) j (mem_range.mp hj), E_back hp ha, E_back hq hb]
  ring

theorem Em_back {n p a : ℕ} (hp : p < n) (ha : a < n) (i : ℕ) : Em n i (back n p a) * Em n p i = Em n i a := by
  have h := congrArg (starRingEnd ℂ) (E_back hp ha i)
  rw [map_mul, conj_E, conj_E, conj_Em] at h
  rw [Em_comm n i, h, mul_assoc, E_mul_Em, mul_one, Em_comm]

theorem dft2_moved {M N p q : ℕ} (hp : p < M) (hq : q < N) {F F' : ℕ → ℕ → ℂ}
    (h : ∀ a < M, ∀ b < N, F' a b = F (back M p a) (back N q b)) (i j : ℕ) :
    dft2 M N F' i j = dft2 M N F i j * (Em M p i * Em N q j) := by
  rw [dft2_eq, dft2_eq, ← sum_back hp fun a => ∑ b ∈ range N, F a b * (Em M i a * Em N j b), sum_mul]
  refine Finset.sum_congr rfl fun a ha => ?_
  rw [← sum_back hq fun b => F (back M p a) b * (Em M i (back M p a) * Em N j b), sum_mul]
  refine Finset.sum_congr rfl fun b hb => ?_
  rw [h a (mem_range.mp ha) b (mem_range.mp hb), ← Em_back hp (mem_range.mp ha) i, ← Em_back hq (mem_range.mp hb) j]
  ring

theorem expI_arg_conj (z : ℂ) : cexp (I * (arg (starRingEnd ℂ z) : ℂ)) = starRingEnd ℂ (cexp (I * (arg z : ℂ))) := by
  by_cases h : z = 0
  · simp [h]
  · have h1 := mul_expI_arg (starRingEnd ℂ z)
    have h2 := congrArg (starRingEnd ℂ) (mul_expI_arg z)
    rw [map_mul, conj_ofReal] at h2
    rw [Complex.norm_conj] at h1
    exact mul_left_cancel₀ (by exact_mod_cast norm_ne_zero_iff.mpr h) (h1.trans h2.symm)

theorem expI_arg_mul {z t : ℂ} (hz : z ≠ 0) (ht : ‖t‖ = 1) : cexp (I * (arg (z * t) : ℂ)) = cexp (I * (arg z : ℂ)) * t := by
  have h1 := mul_expI_arg (z * t)
  have h2 := mul_expI_arg z
  rw [norm_mul, ht, mul_one] at h1
  refine mul_left_cancel₀ (by exact_mod_cast norm_ne_zero_iff.mpr hz : (‖z‖ : ℂ) ≠ 0) ?_
  rw [h1, ← mul_assoc, h2]

/-- Phases whose factors are conjugate are opposite modulo `2 pi`. -/
theorem opposite_of_exp {x y : ℝ} (h : cexp (I * y) = starRingEnd ℂ (cexp (I * x))) : ∃ n : ℤ, y = -x + n * (2 * Real.pi) := by
  rw [← Complex.exp_conj, map_mul, conj_I, conj_ofReal] at h
  obtain ⟨n, hn⟩ := Complex.exp_eq_exp_iff_exists_int.mp h
  refine ⟨n, ?_⟩
  have h2 : I * (y : ℂ) = I * ((-x + n * (2 * Real.pi) : ℝ) : ℂ) := by rw [hn]; push_cast; ring
  exact_mod_cast mul_left_cancel₀ Complex.I_ne_zero h2

theorem exp_of_opposite {x y : ℝ} {n : ℤ} (h : y = -x + n * (2 * Real.pi)) : cexp (I * y) = starRingEnd ℂ (cexp (I * x)) := by
  rw [← Complex.exp_conj, map_mul, conj_I, conj_ofReal, Complex.exp_eq_exp_iff_exists_int]
  refine ⟨n, ?_⟩
  rw [h]; push_cast; ring

theorem mirrorStep {M N : ℕ} {inp inp' : ℕ → ℕ → ℂ} {corr corr' : ℕ → ℕ → ℂ → ℂ}
    (hi : ∀ i < M, ∀ j < N, inp' i j = starRingEnd ℂ (inp i j))
    (hc : ∀ a < M, ∀ b < N, ∀ z, corr' a b (starRingEnd ℂ z) = starRingEnd ℂ (corr (nidx M a) (nidx N b) z))
    {φ φ' : ℕ → ℕ → ℝ} (hφ : ∀ i < M, ∀ j < N, cexp (I * φ' i j) = starRingEnd ℂ (cexp (I * φ i j))) (i j : ℕ) :
    dft2 M N (fun a b => corr' a b (idft2 M N (modulate inp' φ') a b)) i j =
      starRingEnd ℂ (dft2 M N (fun a b => corr a b (idft2 M N (modulate inp φ) a b)) i j) := by
  refine dft2_conj (fun a ha b hb => ?_) i j
  rw [idft2_conj (v := modulate inp φ) (fun i hi' j hj => ?_) ha hb, hc a ha b hb]
  unfold modulate
  rw [hi i hi' j hj, hφ i hi' j hj, map_mul]

theorem gsLoop_mirror {M N : ℕ} {inp inp' target target' : ℕ → ℕ → ℂ}
    (hi : ∀ i < M, ∀ j < N, inp' i j = starRingEnd ℂ (inp i j))
    (ht : ∀ a < M, ∀ b < N, target' a b = starRingEnd ℂ (target (nidx M a) (nidx N b)))
    {φ φ' : ℕ → ℕ → ℝ} (hφ : ∀ i < M, ∀ j < N, cexp (I * φ' i j) = starRingEnd ℂ (cexp (I * φ i j))) (n : ℕ) :
    ∀ i < M, ∀ j < N, cexp (I * gsLoop M N inp' target' φ' n i j) = starRingEnd ℂ (cexp (I * gsLoop M N inp target φ n i j)) := by
  induction n with
  | zero => exact hφ
  | succ n ih =>
    intro i _ j _
    have h := mirrorStep (corr := fun a b z => gsCorrect (target a b) z) (corr' := fun a b z => gsCorrect (target' a b) z) hi
      (fun a ha b hb z => by rw [gsCorrect, gsCorrect, ht a ha b hb, expI_arg_conj, map_mul]) ih i j
    show cexp (I * (arg (dft2 M N _ i j) : ℂ)) = starRingEnd ℂ (cexp (I * (arg (dft2 M N _ i j) : ℂ)))
    rw [h, expI_arg_conj]

theorem mrafLoop_mirror {M N : ℕ} {inp inp' target target' window window' : ℕ → ℕ → ℂ}
    (hi : ∀ i < M, ∀ j < N, inp' i j = starRingEnd ℂ (inp i j))
    (ht : ∀ a < M, ∀ b < N, target' a b = starRingEnd ℂ (target (nidx M a) (nidx N b)))
    (hw : ∀ a < M, ∀ b < N, window' a b = starRingEnd ℂ (window (nidx M a) (nidx N b))) (m : ℝ)
    {φ φ' : ℕ → ℕ → ℝ} (hφ : ∀ i < M, ∀ j < N, cexp (I * φ' i j) = starRingEnd ℂ (cexp (I * φ i j))) (n : ℕ) :
    ∀ i < M, ∀ j < N, cexp (I * mrafLoop M N inp' target' window' m φ' n i j) =
      starRingEnd ℂ (cexp (I * mrafLoop M N inp target window m φ n i j)) := by
  induction n with
  | zero => exact hφ
  | succ n ih =>
    intro i _ j _
    have h := mirrorStep (corr := fun a b z => mrafCorrect m (target a b) (window a b) z)
      (corr' := fun a b z => mrafCorrect m (target' a b) (window' a b) z) hi
      (fun a ha b hb z => by
        rw [mrafCorrect, mrafCorrect, ht a ha b hb, hw a ha b hb, expI_arg_conj]
        simp only [map_add, map_mul, map_sub, map_one, conj_ofReal]) ih i j
    show cexp (I * (arg (dft2 M N _ i j) : ℂ)) = starRingEnd ℂ (cexp (I * (arg (dft2 M N _ i j) : ℂ)))
    rw [h, expI_arg_conj]

theorem reflect_ifftshift {n a : ℕ} (ha : a < n) : reflect n (ifftshiftIdx n (nidx n a)) = ifftshiftIdx n a := by
  have h1 : reflect n (ifftshiftIdx n (nidx n a)) < n := Nat.mod_lt _ (by omega)
  have h2 := ifftshiftIdx_lt (nidx_lt ha)
  have h3 := ifftshiftIdx_eq (nidx_lt ha)
  have h4 := ifftshiftIdx_eq ha
  have h5 := nidx_eq ha
  generalize hx : ifftshiftIdx n (nidx n a) = x at *
  generalize ifftshiftIdx n a = y at *
  generalize nidx n a = z at *
  unfold reflect
  generalize hc : n / 2 = c at *
  have hc2 : c ≤ n ∧ n ≤ 2 * c + 1 := by omega
  have hy : y < n := by split_ifs at h4 <;> omega
  rw [show 2 * c + n - x = if 2 * c + n - x < n then y else if 2 * c + n - x < 2 * n then y + n else y + 2 * n from ?_]
  · split_ifs
    · exact Nat.mod_eq_of_lt hy
    · rw [Nat.add_mod_right]; exact Nat.mod_eq_of_lt hy
    · rw [Nat.add_mul_mod_self_right]; exact Nat.mod_eq_of_lt hy
  · split_ifs at * <;> omega

theorem reflect_reflect {n k : ℕ} (hk : k < n) : reflect n (reflect n k) = k := by
  have h := reflect_ifftshift (fftshiftIdx_lt hk)
  have h' := reflect_ifftshift (nidx_lt (fftshiftIdx_lt hk))
  rw [nidx_nidx (fftshiftIdx_lt hk), ifftshift_fftshift hk] at h'
  rw [ifftshift_fftshift hk] at h
  rw [h', h]

theorem fftshift_reflect {n k : ℕ} (hk : k < n) : nidx n (fftshiftIdx n (reflect n k)) = fftshiftIdx n k := by
  have h' := reflect_ifftshift (nidx_lt (fftshiftIdx_lt hk))
  rw [nidx_nidx (fftshiftIdx_lt hk), ifftshift_fftshift hk] at h'
  rw [h', fftshift_ifftshift (nidx_lt (fftshiftIdx_lt hk)), nidx_nidx (fftshiftIdx_lt hk)]

theorem reflect_lt {n k : ℕ} (hk : k < n) : reflect n k < n := Nat.mod_lt _ (by omega)

theorem ifftshift_back {n p a : ℕ} (hp : p < n) (ha : a < n) : (ifftshiftIdx n (back n p a) + p) % n = ifftshiftIdx n a := by
  unfold ifftshiftIdx
  rw [Nat.mod_add_mod, show back n p a + n / 2 + p = back n p a + p + n / 2 by ring, ← Nat.mod_add_mod, fwd_back hp ha]

theorem back_fftshift {n p k : ℕ} (hp : p < n) (hk : k < n) : back n p (fftshiftIdx n ((k + p) % n)) = fftshiftIdx n k := by
  have h1 : (k + p) % n < n := Nat.mod_lt _ (by omega)
  have h := ifftshift_back hp (fftshiftIdx_lt h1)
  rw [ifftshift_fftshift h1] at h
  have h2 := congrArg (back n p) h
  rw [back_fwd hp (ifftshiftIdx_lt (back_lt (fftshiftIdx_lt h1))), back_fwd hp hk] at h2
  have h3 := congrArg (fftshiftIdx n) h2
  rwa [fftshift_ifftshift (back_lt (fftshiftIdx_lt h1))] at h3

theorem movedStep {M N p q : ℕ} (hp : p < M) (hq : q < N) {inp inp' : ℕ → ℕ → ℂ} {target target' : ℕ → ℕ → ℂ}
    (hi : ∀ i < M, ∀ j < N, inp' i j = inp i j)
    (ht : ∀ a < M, ∀ b < N, target' a b = target (back M p a) (back N q b))
    {φ φ' : ℕ → ℕ → ℝ} (hφ : ∀ i < M, ∀ j < N, inp i j ≠ 0 → cexp (I * φ' i j) = cexp (I * φ i j) * (Em M p i * Em N q j))
    (i j : ℕ) :
    dft2 M N (fun a b => gsCorrect (target' a b) (idft2 M N (modulate inp' φ') a b)) i j =
      dft2 M N (fun a b => gsCorrect (target a b) (idft2 M N (modulate inp φ) a b)) i j * (Em M p i * Em N q j) := by
  refine dft2_moved hp hq (fun a ha b hb => ?_) i j
  rw [idft2_tilt hp hq (v := modulate inp φ) (fun i hi' j hj => ?_) ha hb, ht a ha b hb]
  unfold modulate
  rw [hi i hi' j hj]
  by_cases h : inp i j = 0
  · rw [h]; ring
  · rw [hφ i hi' j hj h]; ring

end PySLM2.LCOS
