import Verif.Model.Dmd
import Mathlib.Data.List.GetD

/-!
# Lemmas on bit packing
-/

namespace PySLM2.DMD

theorem flatten_length {α : Type} (M N : ℕ) (f : ℕ → ℕ → α) : (flatten M N f).length = M * N := by
  unfold flatten
  induction M with
  | zero => simp
  | succ M ih =>
    rw [List.range_succ, List.flatMap_append, List.length_append, ih]
    simp [Nat.succ_mul]

theorem flatten_getD {M N : ℕ} (f : ℕ → ℕ → Bool) {i j : ℕ} (hi : i < M) (hj : j < N) :
    (flatten M N f).getD (i * N + j) false = f i j := by
  induction M with
  | zero => omega
  | succ M ih =>
    have hs : flatten (M + 1) N f = flatten M N f ++ (List.range N).map (f M) := by
      unfold flatten
      rw [List.range_succ, List.flatMap_append]
      simp
    have hl := flatten_length M N f
    rw [hs]
    by_cases h : i < M
    · have : i * N + j < M * N := by
        calc i * N + j < i * N + N := by omega
          _ = (i + 1) * N := by ring
          _ ≤ M * N := Nat.mul_le_mul_right _ h
      rw [List.getD_append _ _ _ _ (by rw [hl]; exact this), ih h]
    · have hM : i = M := by omega
      subst hM
      rw [List.getD_append_right _ _ _ _ (by rw [hl]; omega), hl, Nat.add_sub_cancel_left,
        List.getD_eq_getElem _ _ (by simpa using hj)]
      simp

theorem fold_bits (bit : ℕ → Bool) (n : ℕ) :
    (List.range n).foldl (fun acc k => 2 * acc + if bit k then 1 else 0) 0 < 2 ^ n ∧
    ∀ k < n, ((List.range n).foldl (fun acc k => 2 * acc + if bit k then 1 else 0) 0).testBit (n - 1 - k) =
      bit k := by
  induction n with
  | zero => exact ⟨by simp, fun k hk => by omega⟩
  | succ n ih =>
    obtain ⟨h1, h2⟩ := ih
    rw [List.range_succ, List.foldl_append]
    simp only [List.foldl_cons, List.foldl_nil]
    generalize (List.range n).foldl (fun acc k => 2 * acc + if bit k then 1 else 0) 0 = P at h1 h2
    constructor
    · rw [pow_succ]; split_ifs <;> omega
    · intro k hk
      by_cases hkn : k = n
      · subst hkn
        rw [show k + 1 - 1 - k = 0 by omega, Nat.testBit_zero]
        cases bit k
        · simp
        · simp [Nat.add_mod]
      · rw [show n + 1 - 1 - k = (n - 1 - k) + 1 by omega, Nat.testBit_succ]
        rw [← h2 k (by omega)]
        congr 1
        split_ifs <;> omega

theorem packByte_spec (l : List Bool) :
    packByte l < 256 ∧ ∀ k < 8, (packByte l).testBit (7 - k) = l.getD k false := by
  have := fold_bits (fun k => l.getD k false) 8
  unfold packByte
  exact this

theorem packBits_cons (b : Bool) (bs : List Bool) :
    packBits (b :: bs) = packByte ((b :: bs).take 8) :: packBits ((b :: bs).drop 8) := by
  rw [packBits]

theorem packBits_spec (l : List Bool) :
    (packBits l).length = (l.length + 7) / 8 ∧ (∀ b ∈ packBits l, b < 256) ∧
    ∀ n, ((packBits l).getD (n / 8) 0).testBit (7 - n % 8) = l.getD n false := by
  induction hn : l.length using Nat.strong_induction_on generalizing l with
  | _ m ih =>
    cases l with
    | nil =>
      subst hn
      refine ⟨by simp [packBits], by simp [packBits], fun n => by simp [packBits]⟩
    | cons b bs =>
      obtain ⟨h1, h2, h3⟩ := ih ((b :: bs).drop 8).length (by rw [← hn]; simp) _ rfl
      rw [packBits_cons]
      refine ⟨?_, ?_, fun n => ?_⟩
      · rw [List.length_cons, h1, List.length_drop]
        have : 0 < m := by rw [← hn]; simp
        omega
      · intro x hx
        rcases List.mem_cons.mp hx with rfl | hx
        · exact (packByte_spec _).1
        · exact h2 x hx
      · by_cases h8 : n < 8
        · rw [show n / 8 = 0 by omega, show n % 8 = n by omega, List.getD_cons_zero, (packByte_spec _).2 n h8]
          rw [List.getD_eq_getElem?_getD, List.getElem?_take_of_lt h8, ← List.getD_eq_getElem?_getD]
        · obtain ⟨q, rfl⟩ : ∃ q, n = q + 8 := ⟨n - 8, by omega⟩
          rw [show (q + 8) / 8 = q / 8 + 1 by omega, show (q + 8) % 8 = q % 8 by omega, List.getD_cons_succ, h3 q]
          rw [List.getD_eq_getElem?_getD, List.getElem?_drop, ← List.getD_eq_getElem?_getD, add_comm]

end PySLM2.DMD
