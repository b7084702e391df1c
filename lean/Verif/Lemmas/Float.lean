import Verif.Model.Float
import Verif.Spec.Float
import Mathlib.Tactic.Linarith
import Mathlib.Tactic.Positivity
import Mathlib.Tactic.FieldSimp
import Mathlib.Tactic.Ring
import Mathlib.Algebra.Order.Field.Power

/-!
# Rounding errors
-/

noncomputable section

namespace PySLM2.Spec

theorem nearest_roundsTo {t : ℕ} (ht : 1 ≤ t) : RoundsTo t (nearest t) := by
  have two : (0 : ℝ) < 2 := by norm_num
  constructor
  · rintro x ⟨k, e, hk, rfl⟩
    rcases eq_or_ne k 0 with rfl | hk0
    · simp [nearest]
    set x : ℝ := k * (2 : ℝ) ^ e with hx
    have hkpos : (0 : ℝ) < |(k : ℝ)| := by positivity
    have habs : |x| = |(k : ℝ)| * 2 ^ e := by rw [hx, abs_mul, abs_of_pos (a := (2 : ℝ) ^ e) (by positivity)]
    have hxpos : 0 < |x| := by rw [habs]; positivity
    have hkr : |(k : ℝ)| ≤ 2 ^ t := by exact_mod_cast hk
    -- the scaled number is an integer
    have key : ∃ z : ℤ, x / (2 : ℝ) ^ (Int.log 2 |x| - t + 1) = z := by
      set l := Int.log 2 |x| with hl
      have hlow : (2 : ℝ) ^ l ≤ |x| := by
        have := Int.zpow_log_le_self (b := 2) (r := |x|) (by norm_num) hxpos
        exact_mod_cast this
      have hup : (2 : ℝ) ^ l ≤ 2 ^ (t + e) := by
        rw [zpow_add₀ two.ne', zpow_natCast]
        exact hlow.trans (habs.le.trans (mul_le_mul_of_nonneg_right hkr (by positivity)))
      have hle : l ≤ t + e := (zpow_le_zpow_iff_right₀ (by norm_num)).mp hup
      rcases hle.lt_or_eq with h | h
      · obtain ⟨d, hd⟩ := Int.eq_ofNat_of_zero_le (show 0 ≤ e - (l - t + 1) by omega)
        refine ⟨k * 2 ^ d, ?_⟩
        rw [hx, mul_div_assoc, ← zpow_sub₀ two.ne', hd, zpow_natCast]
        push_cast; ring
      · have hpow : (2 : ℝ) ^ t ≤ |(k : ℝ)| := by
          rw [h, zpow_add₀ two.ne', zpow_natCast, habs] at hlow
          exact le_of_mul_le_mul_right hlow (by positivity)
        have hk2 : |k| = 2 ^ t := le_antisymm hk (by exact_mod_cast hpow)
        have hsub : l - t + 1 = e + 1 := by omega
        obtain ⟨d, rfl⟩ : ∃ d, t = d + 1 := ⟨t - 1, by omega⟩
        rw [hsub, hx, zpow_add₀ two.ne', zpow_one]
        rcases (abs_eq (by positivity)).mp hk2 with h | h
        · refine ⟨2 ^ d, ?_⟩
          rw [h]; push_cast; field_simp; ring
        · refine ⟨-2 ^ d, ?_⟩
          rw [h]; push_cast; field_simp; ring
    obtain ⟨z, hz⟩ := key
    rw [nearest, hz, round_intCast, ← hz]
    field_simp
  · intro x
    rcases eq_or_ne x 0 with rfl | hx0
    · simp [nearest]
    have hxpos : 0 < |x| := abs_pos.mpr hx0
    have hlow : (2 : ℝ) ^ Int.log 2 |x| ≤ |x| := by
      have := Int.zpow_log_le_self (b := 2) (r := |x|) (by norm_num) hxpos
      exact_mod_cast this
    rw [nearest]
    set q : ℝ := (2 : ℝ) ^ (Int.log 2 |x| - t + 1) with hq
    have hqpos : 0 < q := by positivity
    have hq' : q = 2 ^ Int.log 2 |x| / 2 ^ t * 2 := by
      rw [hq, zpow_add₀ two.ne', zpow_sub₀ two.ne', zpow_natCast, zpow_one]
    have h := abs_sub_round (x / q)
    have e : (round (x / q) : ℝ) * q - x = -((x / q - round (x / q)) * q) := by field_simp; ring
    rw [e, abs_neg, abs_mul, abs_of_pos hqpos]
    calc |x / q - round (x / q)| * q ≤ 1 / 2 * q := mul_le_mul_of_nonneg_right h hqpos.le
      _ = 2 ^ Int.log 2 |x| / 2 ^ t := by rw [hq']; ring
      _ ≤ |x| / 2 ^ t := by gcongr

namespace RoundsTo

variable {t : ℕ} {rnd : ℝ → ℝ}

/-- Rounding a number that is already off. -/
theorem close (h : RoundsTo t rnd) {a b E : ℝ} (hab : |a - b| ≤ E) : |rnd a - b| ≤ E + (|b| + E) / 2 ^ t := by
  have h1 := h.err a
  have h2 : |a| ≤ |b| + E := by
    calc |a| = |b + (a - b)| := by ring_nf
      _ ≤ |b| + |a - b| := abs_add_le _ _
      _ ≤ |b| + E := by linarith
  calc |rnd a - b| = |(rnd a - a) + (a - b)| := by ring_nf
    _ ≤ |rnd a - a| + |a - b| := abs_add_le _ _
    _ ≤ |a| / 2 ^ t + E := by linarith
    _ ≤ (|b| + E) / 2 ^ t + E := by gcongr
    _ = _ := by ring

/-- The relative form. -/
theorem rel (h : RoundsTo t rnd) (x : ℝ) : ∃ d : ℝ, |d| ≤ 1 / 2 ^ t ∧ rnd x = x * (1 + d) := by
  rcases eq_or_ne x 0 with rfl | hx
  · refine ⟨0, by simp, ?_⟩
    have := h.err 0
    simpa using this
  · refine ⟨(rnd x - x) / x, ?_, by field_simp; ring⟩
    rw [abs_div, div_le_iff₀ (abs_pos.mpr hx)]
    have := h.err x
    rw [one_div, mul_comm, ← div_eq_mul_inv]
    exact this

theorem half_int (h : RoundsTo t rnd) {z : ℤ} (hz : |z| ≤ 2 ^ t) : rnd ((z : ℝ) / 2) = z / 2 :=
  h.exact _ ⟨z, -1, hz, by rw [zpow_neg_one]; ring⟩

theorem int (h : RoundsTo t rnd) {z : ℤ} (hz : |z| ≤ 2 ^ t) : rnd (z : ℝ) = z :=
  h.exact _ ⟨z, 0, hz, by simp⟩

end RoundsTo

end PySLM2.Spec

namespace PySLM2.SLM

open Spec

variable {t : ℕ} {rnd : ℝ → ℝ}

/-- The pixel offsets from the centre are computed exactly. -/
theorem indexToCoordR_eq (h : RoundsTo t rnd) (s : SLM) {i j : ℕ} (hi : i ≤ s.Ny) (hj : j ≤ s.Nx)
    (hx : s.Nx ≤ 2 ^ t) (hy : s.Ny ≤ 2 ^ t) :
    s.indexToCoordR rnd i j = (rnd ((j - (s.Nx : ℝ) / 2) * rnd s.ps), rnd (((s.Ny : ℝ) / 2 - i) * rnd s.ps)) := by
  have cx : (s.Nx : ℤ) ≤ 2 ^ t := by exact_mod_cast hx
  have cy : (s.Ny : ℤ) ≤ 2 ^ t := by exact_mod_cast hy
  have ci : (i : ℤ) ≤ s.Ny := by exact_mod_cast hi
  have cj : (j : ℤ) ≤ s.Nx := by exact_mod_cast hj
  have e1 : rnd (s.Ny : ℝ) = s.Ny := by
    have := h.int (z := (s.Ny : ℤ)) (abs_le.mpr ⟨by omega, cy⟩)
    exact_mod_cast this
  have e2 : rnd ((s.Ny : ℝ) - i) = s.Ny - i := by
    have := h.int (z := (s.Ny : ℤ) - i) (abs_le.mpr ⟨by omega, by omega⟩)
    push_cast at this; exact this
  have e3 : rnd ((s.Nx : ℝ) / 2) = s.Nx / 2 := by
    have := h.half_int (z := (s.Nx : ℤ)) (abs_le.mpr ⟨by omega, cx⟩)
    push_cast at this; exact this
  have e4 : rnd ((s.Ny : ℝ) / 2) = s.Ny / 2 := by
    have := h.half_int (z := (s.Ny : ℤ)) (abs_le.mpr ⟨by omega, cy⟩)
    push_cast at this; exact this
  have e5 : rnd ((j : ℝ) - s.Nx / 2) = j - s.Nx / 2 := by
    have := h.half_int (z := 2 * (j : ℤ) - s.Nx) (abs_le.mpr ⟨by omega, by omega⟩)
    push_cast at this
    rw [show (j : ℝ) - s.Nx / 2 = (2 * (j : ℝ) - s.Nx) / 2 by ring, this]
  have e6 : rnd ((s.Ny : ℝ) - i - s.Ny / 2) = s.Ny / 2 - i := by
    have := h.half_int (z := s.Ny - 2 * (i : ℤ)) (abs_le.mpr ⟨by omega, by omega⟩)
    push_cast at this
    rw [show (s.Ny : ℝ) - i - s.Ny / 2 = ((s.Ny : ℝ) - 2 * i) / 2 by ring, this]
    ring
  simp only [indexToCoordR, e1, e2, e3, e4, e5, e6]

/-- One coordinate: the offset `J` in pixels, times the pixel size. -/
theorem coordR_rel (h : RoundsTo t rnd) (J ps : ℝ) :
    |rnd (J * rnd ps) - J * ps| ≤ 3 / 2 ^ t * |J * ps| := by
  obtain ⟨a, ha, hps⟩ := h.rel ps
  obtain ⟨b, hb, hJ⟩ := h.rel (J * rnd ps)
  rw [hJ, hps]
  have hu : (1 : ℝ) / 2 ^ t ≤ 1 := by
    rw [div_le_one (by positivity)]
    exact one_le_pow₀ (by norm_num)
  have e : J * (ps * (1 + a)) * (1 + b) - J * ps = (a + b + a * b) * (J * ps) := by ring
  rw [e, abs_mul]
  refine mul_le_mul_of_nonneg_right ?_ (abs_nonneg _)
  have h1 : |a * b| ≤ 1 / 2 ^ t := by
    rw [abs_mul]
    calc |a| * |b| ≤ 1 / 2 ^ t * 1 := mul_le_mul ha (hb.trans hu) (abs_nonneg _) (by positivity)
      _ = _ := mul_one _
  calc |a + b + a * b| ≤ |a| + |b| + |a * b| := (abs_add_le _ _).trans (by gcongr; exact abs_add_le _ _)
    _ ≤ 1 / 2 ^ t + 1 / 2 ^ t + 1 / 2 ^ t := by linarith
    _ = 3 / 2 ^ t := by ring

theorem ps_pos (h : RoundsTo t rnd) (ht : 1 ≤ t) {ps : ℝ} (hps : 0 < ps) : 0 < rnd ps := by
  obtain ⟨a, ha, e⟩ := h.rel ps
  rw [e]
  have hu : (1 : ℝ) / 2 ^ t < 1 := by
    rw [div_lt_one (by positivity)]
    exact one_lt_pow₀ (by norm_num) (by omega)
  have := (abs_le.mp ha).1
  have : 0 < 1 + a := by linarith
  positivity

/-- Coordinates of different columns (or rows) keep their order. -/
theorem coordR_lt (h : RoundsTo t rnd) (ht : 1 ≤ t) {ps J J' N : ℝ} (hps : 0 < ps) (hJ : |J| ≤ N / 2) (hJ' : |J'| ≤ N / 2)
    (hN : N * 16 ≤ 2 ^ t) (hlt : J + 1 ≤ J') : rnd (J * rnd ps) < rnd (J' * rnd ps) := by
  have hp := ps_pos h ht hps
  obtain ⟨a, ha, e⟩ := h.rel (J * rnd ps)
  obtain ⟨b, hb, e'⟩ := h.rel (J' * rnd ps)
  rw [e, e']
  have hU : (0 : ℝ) < 2 ^ t := by positivity
  have bound : ∀ K d : ℝ, |K| ≤ N / 2 → |d| ≤ 1 / 2 ^ t → |K * d| ≤ 1 / 32 := by
    intro K d hK hd
    rw [abs_mul]
    calc |K| * |d| ≤ (2 ^ t / 32) * (1 / 2 ^ t) := mul_le_mul (by linarith) hd (abs_nonneg _) (by positivity)
      _ = 1 / 32 := by field_simp
  have h1 := abs_le.mp (bound J a hJ ha)
  have h2 := abs_le.mp (bound J' b hJ' hb)
  have h3 : J * (1 + a) < J' * (1 + b) := by nlinarith
  calc J * rnd ps * (1 + a) = J * (1 + a) * rnd ps := by ring
    _ < J' * (1 + b) * rnd ps := mul_lt_mul_of_pos_right h3 hp
    _ = J' * rnd ps * (1 + b) := by ring

/-- Dividing by the pixel size again and moving the origin back to the corner. -/
theorem index_back (h : RoundsTo t rnd) (ht : 4 ≤ t) {ps J : ℝ} {N : ℕ} (hps : 0 < ps) (hJ : |J| ≤ N / 2)
    (hN : (N : ℝ) * 16 ≤ 2 ^ t) :
    |rnd (rnd (rnd (J * rnd ps) / rnd ps) + rnd ((N : ℝ) / 2)) - (J + N / 2)| ≤ 3 / 16 := by
  have hp := ps_pos h (by omega) hps
  have hNt : (N : ℤ) ≤ 2 ^ t := by
    have : (N : ℝ) ≤ 2 ^ t := by
      have : (0 : ℝ) ≤ N := by positivity
      linarith
    exact_mod_cast this
  have hN0 : (0 : ℝ) ≤ N := by positivity
  have e3 : rnd ((N : ℝ) / 2) = N / 2 := by
    have := h.half_int (z := (N : ℤ)) (abs_le.mpr ⟨by omega, hNt⟩)
    push_cast at this; exact this
  obtain ⟨a, ha, e⟩ := h.rel (J * rnd ps)
  obtain ⟨b, hb, e'⟩ := h.rel (rnd (J * rnd ps) / rnd ps)
  have hu : (1 : ℝ) / 2 ^ t ≤ 1 := by
    rw [div_le_one (by positivity)]
    exact one_le_pow₀ (by norm_num)
  have hU : (0 : ℝ) < 2 ^ t := by positivity
  have q : J * rnd ps * (1 + a) / rnd ps = J * (1 + a) := by field_simp
  have hab : |a + b + a * b| ≤ 3 / 2 ^ t := by
    have h1 : |a * b| ≤ 1 / 2 ^ t := by
      rw [abs_mul]
      calc |a| * |b| ≤ 1 / 2 ^ t * 1 := mul_le_mul ha (hb.trans hu) (abs_nonneg _) (by positivity)
        _ = _ := mul_one _
    calc |a + b + a * b| ≤ |a| + |b| + |a * b| := (abs_add_le _ _).trans (by gcongr; exact abs_add_le _ _)
      _ ≤ 1 / 2 ^ t + 1 / 2 ^ t + 1 / 2 ^ t := by linarith
      _ = 3 / 2 ^ t := by ring
  rw [e', e, q, e3]
  have hc : |J * (1 + a) * (1 + b) + (N : ℝ) / 2 - (J + N / 2)| ≤ 3 / 32 := by
    rw [show J * (1 + a) * (1 + b) + (N : ℝ) / 2 - (J + N / 2) = J * (a + b + a * b) by ring, abs_mul]
    calc |J| * |a + b + a * b| ≤ (2 ^ t / 32) * (3 / 2 ^ t) := mul_le_mul (by linarith) hab (abs_nonneg _) (by positivity)
      _ = 3 / 32 := by field_simp
  refine (h.close hc).trans ?_
  have hb' : |J + (N : ℝ) / 2| ≤ N := by
    obtain ⟨h1, h2⟩ := abs_le.mp hJ
    exact abs_le.mpr ⟨by linarith, by linarith⟩
  have : (|J + (N : ℝ) / 2| + 3 / 32) / 2 ^ t ≤ 1 / 16 + 3 / 32 * (1 / 2 ^ t) := by
    rw [add_div, show (3 / 32 : ℝ) / 2 ^ t = 3 / 32 * (1 / 2 ^ t) by ring]
    refine add_le_add_left ?_ _
    rw [div_le_iff₀ hU]
    linarith
  have h16 : (16 : ℝ) ≤ 2 ^ t := by
    calc (16 : ℝ) = 2 ^ 4 := by norm_num
      _ ≤ 2 ^ t := pow_le_pow_right₀ (by norm_num) ht
  have : (1 : ℝ) / 2 ^ t ≤ 1 / 16 := one_div_le_one_div_of_le (by norm_num) h16
  linarith

end PySLM2.SLM
