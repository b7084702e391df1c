import Verif.Lemmas.Dft
import Verif.Lemmas.Geometry

/-! The shifted transforms written with centred indices, and sums over padded arrays. -/

noncomputable section

open Complex Finset

namespace PySLM2

open Lib Sim

/-- `exp(2 pi i (k - n//2) (a - n//2) / n)` -/
def Ec (n k a : ℕ) : ℂ :=
  cexp ((2 * Real.pi * I) * (((k : ℂ) - (n / 2 : ℕ)) * ((a : ℂ) - (n / 2 : ℕ)) / n))

/-- `exp(-2 pi i (k - n//2) (a - n//2) / n)` -/
def Ecm (n k a : ℕ) : ℂ :=
  cexp (-(2 * Real.pi * I) * (((k : ℂ) - (n / 2 : ℕ)) * ((a : ℂ) - (n / 2 : ℕ)) / n))

theorem fftshiftIdx_int {n k : ℕ} (hk : k < n) :
    ∃ z : ℤ, (fftshiftIdx n k : ℂ) = (k : ℂ) - (n / 2 : ℕ) + z * n := by
  rw [fftshiftIdx_eq hk]
  split_ifs with h
  · refine ⟨1, ?_⟩
    have : ((n - n / 2 : ℕ) : ℂ) = n - (n / 2 : ℕ) := by rw [Nat.cast_sub (Nat.div_le_self n 2)]
    rw [Nat.cast_add, this]; push_cast; ring
  · refine ⟨0, ?_⟩
    rw [Nat.cast_sub (Nat.le_of_not_lt h)]
    simp

theorem exp_shift {n k a : ℕ} (hn : n ≠ 0) (hk : k < n) (ha : a < n) (σ : ℂ) (hσ : σ = 1 ∨ σ = -1) :
    cexp ((σ * (2 * Real.pi * I)) * ((fftshiftIdx n k * fftshiftIdx n a : ℂ) / n)) =
      cexp ((σ * (2 * Real.pi * I)) * (((k : ℂ) - (n / 2 : ℕ)) * ((a : ℂ) - (n / 2 : ℕ)) / n)) := by
  have hn' : (n : ℂ) ≠ 0 := by exact_mod_cast hn
  obtain ⟨z, hz⟩ := fftshiftIdx_int hk
  obtain ⟨w, hw⟩ := fftshiftIdx_int ha
  rw [hz, hw]
  have hs : ∃ s : ℤ, σ = s := by
    rcases hσ with h | h
    · exact ⟨1, by simp [h]⟩
    · exact ⟨-1, by simp [h]⟩
  obtain ⟨s, rfl⟩ := hs
  clear hz hw
  generalize n / 2 = c
  rw [Complex.exp_eq_exp_iff_exists_int]
  refine ⟨s * (w * ((k : ℤ) - c) + z * ((a : ℤ) - c) + z * w * n), ?_⟩
  push_cast
  field_simp
  ring

theorem E_shift {n k a : ℕ} (hk : k < n) (ha : a < n) :
    E n (fftshiftIdx n k) (fftshiftIdx n a) = Ec n k a := by
  have := exp_shift (by omega : n ≠ 0) hk ha 1 (Or.inl rfl)
  simpa [E, Ec] using this

theorem Em_shift {n k a : ℕ} (hk : k < n) (ha : a < n) :
    Em n (fftshiftIdx n k) (fftshiftIdx n a) = Ecm n k a := by
  have := exp_shift (by omega : n ≠ 0) hk ha (-1) (Or.inr rfl)
  simpa [Em, Ecm] using this

/-- Re-indexing a sum by the shift. -/
theorem sum_ifftshift {β : Type*} [AddCommMonoid β] (n : ℕ) (g : ℕ → ℕ → β) :
    ∑ a ∈ range n, g (ifftshiftIdx n a) a = ∑ i ∈ range n, g i (fftshiftIdx n i) := by
  refine Finset.sum_nbij' (fun a => ifftshiftIdx n a) (fun i => fftshiftIdx n i) ?_ ?_ ?_ ?_ ?_
  · intro a ha; exact mem_range.mpr (ifftshiftIdx_lt (mem_range.mp ha))
  · intro a ha; exact mem_range.mpr (fftshiftIdx_lt (mem_range.mp ha))
  · intro a ha; exact fftshift_ifftshift (mem_range.mp ha)
  · intro a ha; exact ifftshift_fftshift (mem_range.mp ha)
  · intro a ha; rw [fftshift_ifftshift (mem_range.mp ha)]

theorem centredIdft_eq {M N : ℕ} (f : ℕ → ℕ → ℂ) {k l : ℕ} (hk : k < M) (hl : l < N) :
    centredIdft M N f k l =
      1 / ((M : ℂ) * N) * ∑ i ∈ range M, ∑ j ∈ range N, f i j * (Ec M k i * Ec N l j) := by
  unfold centredIdft fftshift2
  rw [idft2_eq]
  congr 1
  unfold ifftshift2
  rw [sum_ifftshift M (fun i a => ∑ b ∈ range N, f i (ifftshiftIdx N b) *
    (E M (fftshiftIdx M k) a * E N (fftshiftIdx N l) b))]
  refine Finset.sum_congr rfl fun i hi => ?_
  rw [sum_ifftshift N (fun j b => f i j *
    (E M (fftshiftIdx M k) (fftshiftIdx M i) * E N (fftshiftIdx N l) b))]
  refine Finset.sum_congr rfl fun j hj => ?_
  rw [E_shift hk (mem_range.mp hi), E_shift hl (mem_range.mp hj)]

/-- `fftshift(fft2(ifftshift f))` with centred indices. -/
theorem targetFp_eq {M N : ℕ} (f : ℕ → ℕ → ℂ) {k l : ℕ} (hk : k < M) (hl : l < N) :
    DMD.targetFp M N f k l =
      ∑ i ∈ range M, ∑ j ∈ range N, f i j * (Ecm M k i * Ecm N l j) := by
  unfold DMD.targetFp fftshift2
  rw [dft2_eq]
  unfold ifftshift2
  rw [sum_ifftshift M (fun i a => ∑ b ∈ range N, f i (ifftshiftIdx N b) *
    (Em M (fftshiftIdx M k) a * Em N (fftshiftIdx N l) b))]
  refine Finset.sum_congr rfl fun i hi => ?_
  rw [sum_ifftshift N (fun j b => f i j *
    (Em M (fftshiftIdx M k) (fftshiftIdx M i) * Em N (fftshiftIdx N l) b))]
  refine Finset.sum_congr rfl fun j hj => ?_
  rw [Em_shift hk (mem_range.mp hi), Em_shift hl (mem_range.mp hj)]

/-- The two centred transforms are mutually inverse. -/
theorem centredIdft_targetFp {M N : ℕ} (f : ℕ → ℕ → ℂ) {k l : ℕ} (hk : k < M) (hl : l < N) :
    centredIdft M N (DMD.targetFp M N f) k l = f k l := by
  unfold centredIdft DMD.targetFp
  unfold fftshift2
  have h : ∀ a < M, ∀ b < N, ifftshift2 M N (fun i j => dft2 M N (ifftshift2 M N f)
      (fftshiftIdx M i) (fftshiftIdx N j)) a b = dft2 M N (ifftshift2 M N f) a b := by
    intro a ha b hb
    simp only [ifftshift2]
    rw [fftshift_ifftshift ha, fftshift_ifftshift hb]
  rw [idft2_congr h, idft2_dft2 _ (fftshiftIdx_lt hk) (fftshiftIdx_lt hl)]
  simp only [ifftshift2]
  rw [ifftshift_fftshift hk, ifftshift_fftshift hl]

/-- A sum over a padded index range only sees the interior. -/
theorem sum_pad_range {β : Type*} [AddCommMonoid β] (M p : ℕ) (g : ℕ → β) :
    ∑ i ∈ range (M + 2 * p), (if p ≤ i ∧ i < p + M then g i else 0) =
      ∑ i ∈ range M, g (i + p) := by
  rw [← Finset.sum_filter]
  refine Finset.sum_nbij' (fun i => i - p) (fun i => i + p) ?_ ?_ ?_ ?_ ?_
  · intro i hi; simp only [mem_filter, mem_range] at hi ⊢; omega
  · intro i hi; simp only [mem_filter, mem_range] at hi ⊢; omega
  · intro i hi; simp only [mem_filter, mem_range] at hi ⊢; omega
  · intro i hi; simp
  · intro i hi
    simp only [mem_filter, mem_range] at hi
    congr 1; omega

theorem sum_pad2 {β : Type*} [AddCommMonoid β] (M N py px : ℕ) (f : ℕ → ℕ → ℂ)
    (G : ℂ → ℕ → ℕ → β) (h0 : ∀ i j, G 0 i j = 0) :
    ∑ i ∈ range (M + 2 * py), ∑ j ∈ range (N + 2 * px), G (pad2 M N py px f i j) i j =
      ∑ i ∈ range M, ∑ j ∈ range N, G (f i j) (i + py) (j + px) := by
  have h1 : ∀ i, ∑ j ∈ range (N + 2 * px), G (pad2 M N py px f i j) i j =
      if py ≤ i ∧ i < py + M then ∑ j ∈ range N, G (f (i - py) j) i (j + px) else 0 := by
    intro i
    split_ifs with hi
    · have h2 : ∀ j ∈ range (N + 2 * px), G (pad2 M N py px f i j) i j =
          if px ≤ j ∧ j < px + N then G (f (i - py) (j - px)) i j else 0 := by
        intro j _
        unfold pad2
        by_cases hj : px ≤ j ∧ j < px + N
        · rw [if_pos ⟨hi.1, hi.2, hj.1, hj.2⟩, if_pos hj]
        · rw [if_neg (fun h => hj ⟨h.2.2.1, h.2.2.2⟩), if_neg hj, h0]
      rw [Finset.sum_congr rfl h2, sum_pad_range N px (fun j => G (f (i - py) (j - px)) i j)]
      exact Finset.sum_congr rfl fun j _ => by simp
    · refine Finset.sum_eq_zero fun j _ => ?_
      unfold pad2
      rw [if_neg (fun h => hi ⟨h.1, h.2.1⟩), h0]
  rw [Finset.sum_congr rfl fun i _ => h1 i, sum_pad_range M py]
  exact Finset.sum_congr rfl fun i _ => by simp

end PySLM2
