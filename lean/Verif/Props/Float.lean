import Verif.Lemmas.Float

/-!
# What rounding does to the coordinates (C102)
-/

noncomputable section

namespace PySLM2.SLM

open Spec

variable {t : ℕ} {rnd : ℝ → ℝ}

/-- **C102.** In arithmetic with `t` significant bits, on an array of at most `2 ^ (t - 4)` pixels per side, the
coordinates of the pixels are within a relative error of `3 / 2 ^ t` of the exact ones. -/
theorem C102_accuracy (h : RoundsTo t rnd) (s : SLM) (hx : s.Nx * 16 ≤ 2 ^ t) (hy : s.Ny * 16 ≤ 2 ^ t)
    {i j : ℕ} (hi : i ≤ s.Ny) (hj : j ≤ s.Nx) :
    |(s.indexToCoordR rnd i j).1 - (j - (s.Nx : ℝ) / 2) * s.ps| ≤ 3 / 2 ^ t * |(j - (s.Nx : ℝ) / 2) * s.ps| ∧
    |(s.indexToCoordR rnd i j).2 - ((s.Ny : ℝ) / 2 - i) * s.ps| ≤ 3 / 2 ^ t * |((s.Ny : ℝ) / 2 - i) * s.ps| := by
  rw [indexToCoordR_eq h s hi hj (by omega) (by omega)]
  exact ⟨coordR_rel h _ _, coordR_rel h _ _⟩

/-- The offset from the centre is at most half the size. -/
theorem offset_le {N k : ℕ} (hk : k ≤ N) : |(k : ℝ) - (N : ℝ) / 2| ≤ N / 2 ∧ |(N : ℝ) / 2 - k| ≤ N / 2 := by
  have h1 : (k : ℝ) ≤ N := by exact_mod_cast hk
  have h0 : (0 : ℝ) ≤ k := by positivity
  exact ⟨abs_le.mpr ⟨by linarith, by linarith⟩, abs_le.mpr ⟨by linarith, by linarith⟩⟩

/-- **C102.** Rounding does not make columns or rows coincide or change places: `x` still increases with the column and
`y` decreases with the row. -/
theorem C102_order (h : RoundsTo t rnd) (ht : 4 ≤ t) (s : SLM) (hps : 0 < s.ps) (hx : s.Nx * 16 ≤ 2 ^ t)
    (hy : s.Ny * 16 ≤ 2 ^ t) {i i' j j' : ℕ} (hi : i ≤ s.Ny) (hi' : i' ≤ s.Ny) (hj : j ≤ s.Nx) (hj' : j' ≤ s.Nx) :
    ((s.indexToCoordR rnd i j).1 < (s.indexToCoordR rnd i' j').1 ↔ j < j') ∧
    ((s.indexToCoordR rnd i j).2 < (s.indexToCoordR rnd i' j').2 ↔ i' < i) := by
  rw [indexToCoordR_eq h s hi hj (by omega) (by omega), indexToCoordR_eq h s hi' hj' (by omega) (by omega)]
  have cx : (s.Nx : ℝ) * 16 ≤ 2 ^ t := by exact_mod_cast hx
  have cy : (s.Ny : ℝ) * 16 ≤ 2 ^ t := by exact_mod_cast hy
  have X : ∀ {a b : ℕ}, a ≤ s.Nx → b ≤ s.Nx → a < b →
      rnd ((a - (s.Nx : ℝ) / 2) * rnd s.ps) < rnd ((b - (s.Nx : ℝ) / 2) * rnd s.ps) := by
    intro a b ha hb hab
    have : (a : ℝ) + 1 ≤ b := by exact_mod_cast hab
    exact coordR_lt h (by omega) hps (offset_le ha).1 (offset_le hb).1 cx (by linarith)
  have Y : ∀ {a b : ℕ}, a ≤ s.Ny → b ≤ s.Ny → b < a →
      rnd (((s.Ny : ℝ) / 2 - a) * rnd s.ps) < rnd (((s.Ny : ℝ) / 2 - b) * rnd s.ps) := by
    intro a b ha hb hab
    have : (b : ℝ) + 1 ≤ a := by exact_mod_cast hab
    exact coordR_lt h (by omega) hps (offset_le ha).2 (offset_le hb).2 cy (by linarith)
  refine ⟨⟨fun hlt => ?_, fun hlt => X hj hj' hlt⟩, ⟨fun hlt => ?_, fun hlt => Y hi hi' hlt⟩⟩
  · by_contra hn
    rcases (not_lt.mp hn).lt_or_eq with hn | hn
    · exact absurd hlt (X hj' hj hn).not_gt
    · subst hn; exact lt_irrefl _ hlt
  · by_contra hn
    rcases (not_lt.mp hn).lt_or_eq with hn | hn
    · exact absurd hlt (Y hi' hi hn).not_gt
    · subst hn; exact lt_irrefl _ hlt

/-- **C102.** Converting the rounded coordinates of a pixel back gives its index, once rounded to the nearest
integer. -/
theorem C102_round_trip (h : RoundsTo t rnd) (ht : 4 ≤ t) (s : SLM) (hps : 0 < s.ps) (hx : s.Nx * 16 ≤ 2 ^ t)
    (hy : s.Ny * 16 ≤ 2 ^ t) {i j : ℕ} (hi : i ≤ s.Ny) (hj : j ≤ s.Nx) :
    let back := s.coordToIndexR rnd (s.indexToCoordR rnd i j).1 (s.indexToCoordR rnd i j).2
    round back.1 = i ∧ round back.2 = j := by
  intro back
  have cx : (s.Nx : ℝ) * 16 ≤ 2 ^ t := by exact_mod_cast hx
  have cy : (s.Ny : ℝ) * 16 ≤ 2 ^ t := by exact_mod_cast hy
  have ry : rnd (s.Ny : ℝ) = s.Ny := by
    have p : (0 : ℤ) < 2 ^ t := by positivity
    have q : (s.Ny : ℤ) ≤ 2 ^ t := by
      have : s.Ny ≤ 2 ^ t := by omega
      exact_mod_cast this
    have := h.int (z := (s.Ny : ℤ)) (abs_le.mpr ⟨by omega, q⟩)
    exact_mod_cast this
  have hj1 := index_back h ht hps (offset_le hj).1 cx
  have hi1 := index_back h ht hps (offset_le hi).2 cy
  have hi2 : |((s.Ny : ℝ) - rnd (rnd (rnd (((s.Ny : ℝ) / 2 - i) * rnd s.ps) / rnd s.ps) + rnd ((s.Ny : ℝ) / 2))) - i| ≤ 3 / 16 := by
    rw [abs_sub_comm] at hi1
    refine le_trans (le_of_eq ?_) hi1
    congr 1
    ring
  have hi3 := h.close hi2
  have hU : (0 : ℝ) < 2 ^ t := by positivity
  have h16 : (16 : ℝ) ≤ 2 ^ t := by
    calc (16 : ℝ) = 2 ^ 4 := by norm_num
      _ ≤ 2 ^ t := pow_le_pow_right₀ (by norm_num) ht
  have hb : (|(i : ℝ)| + 3 / 16) / 2 ^ t ≤ 19 / 256 := by
    rw [div_le_iff₀ hU, abs_of_nonneg (by positivity)]
    have : (i : ℝ) ≤ s.Ny := by exact_mod_cast hi
    linarith
  have near : ∀ {a : ℝ} {k : ℕ}, |a - k| < 1 / 2 → round a = k := by
    intro a k hak
    obtain ⟨h1, h2⟩ := abs_lt.mp hak
    rw [round_eq, Int.floor_eq_iff]
    push_cast
    exact ⟨by linarith, by linarith⟩
  have eb : back = (rnd ((s.Ny : ℝ) - rnd (rnd (rnd (((s.Ny : ℝ) / 2 - i) * rnd s.ps) / rnd s.ps) + rnd ((s.Ny : ℝ) / 2))),
      rnd (rnd (rnd ((j - (s.Nx : ℝ) / 2) * rnd s.ps) / rnd s.ps) + rnd ((s.Nx : ℝ) / 2))) := by
    simp only [back, indexToCoordR_eq h s hi hj (by omega) (by omega), coordToIndexR, ry]
  rw [eb]
  refine ⟨near (lt_of_le_of_lt hi3 (by linarith)), near (lt_of_le_of_lt ?_ (show (3 / 16 : ℝ) < 1 / 2 by norm_num))⟩
  simpa using hj1

/-- C102: the largest device in single precision. -/
example : RoundsTo 24 (nearest 24) ∧ (2560 * 16 ≤ 2 ^ 24 ∧ 1600 * 16 ≤ 2 ^ 24) ∧ ∃ x, nearest 24 x ≠ x := by
  refine ⟨nearest_roundsTo (by norm_num), by norm_num, 1 / 3, fun h => ?_⟩
  have e : (1 / 3 : ℝ) * 3 = 1 := by norm_num
  have hlog : Int.log 2 |(1 / 3 : ℝ)| = -2 := by
    rw [abs_of_pos (by norm_num)]
    refine le_antisymm ?_ ?_
    · have := (Int.lt_zpow_iff_log_lt (b := 2) (by norm_num) (x := -1) (r := (1 / 3 : ℝ)) (by norm_num)).mp (by norm_num)
      omega
    · exact (Int.zpow_le_iff_le_log (b := 2) (by norm_num) (by norm_num)).mp (by norm_num)
  rw [nearest, hlog] at h
  norm_num at h

end PySLM2.SLM
