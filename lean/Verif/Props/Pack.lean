import Verif.Lemmas.Pack

/-!
# C41: packing the state into bytes
-/

namespace PySLM2.DMD

open Lib

/-- **C41**: `pack_dmd_state` of a boolean `M x N` state returns `ceil(M * N / 8)` bytes; mirror `(i, j)` is
bit number `i * N + j`, counting from the most significant bit of the first byte; the remaining bits are 0. -/
theorem C41_pack {t : Tensor Bool} {M N : ℕ} (ht : t.shape = .mat M N) :
    ∃ bytes : List ℕ, packDmdState (.bool t) = .ok bytes ∧ bytes.length = ⌈(M * N : ℚ) / 8⌉₊ ∧
      (∀ b ∈ bytes, b < 256) ∧
      (∀ i < M, ∀ j < N, (bytes.getD ((i * N + j) / 8) 0).testBit (7 - (i * N + j) % 8) = t.get i j) ∧
      ∀ n, M * N ≤ n → (bytes.getD (n / 8) 0).testBit (7 - n % 8) = false := by
  obtain ⟨h1, h2, h3⟩ := packBits_spec (flatten M N t.get)
  rw [flatten_length] at h1
  refine ⟨packBits (flatten M N t.get), ?_, ?_, h2, fun i hi j hj => ?_, fun n hn => ?_⟩
  · unfold packDmdState
    simp only
    rw [ht]
  · rw [h1]
    symm
    rcases Nat.eq_zero_or_pos (M * N) with h0 | h0
    · have h0' : (M * N : ℚ) = 0 := by exact_mod_cast h0
      rw [h0, h0']
      simp
    · have : (M * N : ℚ) = ((M * N : ℕ) : ℚ) := by push_cast; ring
      rw [this]
      generalize M * N = K at h0 ⊢
      have hdm : (K + 7) / 8 * 8 ≤ K + 7 ∧ K + 7 < ((K + 7) / 8 + 1) * 8 := by omega
      rw [Nat.ceil_eq_iff (by omega)]
      generalize (K + 7) / 8 = c at hdm ⊢
      constructor
      · rw [lt_div_iff₀ (by norm_num)]
        have : (c - 1) * 8 < K := by omega
        exact_mod_cast this
      · rw [div_le_iff₀ (by norm_num)]
        have : K ≤ c * 8 := by omega
        exact_mod_cast this
  · rw [h3, flatten_getD _ hi hj]
  · rw [h3, List.getD_eq_default]
    rw [flatten_length]
    exact hn

/-- **C41**: the state can be recovered from the bytes: states of the same shape with the same bytes are the
same. -/
theorem C41_injective {t t' : Tensor Bool} {M N : ℕ} (ht : t.shape = .mat M N) (ht' : t'.shape = .mat M N)
    (h : packDmdState (.bool t) = packDmdState (.bool t')) : ∀ i < M, ∀ j < N, t.get i j = t'.get i j := by
  obtain ⟨b, h1, -, -, h2, -⟩ := C41_pack ht
  obtain ⟨b', h1', -, -, h2', -⟩ := C41_pack ht'
  rw [h1, h1'] at h
  injection h with h
  subst h
  exact fun i hi j hj => (h2 i hi j hj).symm.trans (h2' i hi j hj)

/-- A 2 x 5 state: two bytes, the mirrors in row-major order, padded with zeros. -/
example : packDmdState (.bool ⟨.mat 2 5, fun i j => i = j⟩) = .ok [0b10000010, 0b00000000] := by
  show Except.ok (packBits [true, false, false, false, false, false, true, false, false, false]) = _
  rw [packBits_cons, List.drop, List.drop, List.drop, List.drop, List.drop, List.drop, List.drop, List.drop,
    List.drop, packBits_cons]
  simp [packByte, packBits, List.range, List.range.loop]

end PySLM2.DMD
