import Verif.Model.Analysis
import Verif.Spec.Analysis
import Verif.Lemmas.ZernikeCode
import Verif.Lemmas.Ansi

/-!
# Aperture averages and low-order modes
-/

noncomputable section

open Finset

namespace PySLM2.Analysis

open Spec

variable {M N : ℕ} {R : ℝ}

theorem gridX_eq (N j : ℕ) : gridX N j = pixelX N j := rfl
theorem gridY_eq (M i : ℕ) : gridY M i = pixelY M i := by unfold gridY pixelY; ring

theorem aperture_eq (M N : ℕ) (R : ℝ) : aperture M N R = disc M N R := by
  unfold aperture disc inAperture
  simp only [gridX_eq, gridY_eq]

theorem project_eq (M N : ℕ) (R : ℝ) (f z : ℕ → ℕ → ℝ) : project M N R f z = discMean M N R fun i j => f i j * z i j := by
  unfold project discMean
  rw [aperture_eq]

theorem mem_disc {ij : ℕ × ℕ} : ij ∈ disc M N R ↔ (ij.1 < M ∧ ij.2 < N) ∧ pixelX N ij.2 ^ 2 + pixelY M ij.1 ^ 2 < R ^ 2 := by
  simp [disc]

/-- The value the code uses for a mode. -/
theorem mode_eq {n m : ℤ} (h : ZernikeIndex n m) (hR : 0 < R) (ex : Bool) (i j : ℕ) :
    mode M N R n m ex i j =
      if ex = false ∧ R ^ 2 < pixelX N j ^ 2 + pixelY M i ^ 2 then 0 else sampledMode M N R n m i j := by
  unfold mode
  rw [Profile.zernikeData_valid h true]
  simp only
  rw [Profile.zernikeFunc_valid h 1 R hR.ne', Option.getD_some, gridX_eq, gridY_eq]
  have hgt : √(pixelX N j ^ 2 + pixelY M i ^ 2) / R > 1 ↔ R ^ 2 < pixelX N j ^ 2 + pixelY M i ^ 2 := by
    rw [gt_iff_lt, one_lt_div hR, Real.lt_sqrt hR.le]
  have hc : (¬ ex = true ∧ √(pixelX N j ^ 2 + pixelY M i ^ 2) / R > 1) ↔ (ex = false ∧ R ^ 2 < pixelX N j ^ 2 + pixelY M i ^ 2) := by
    rw [hgt, Bool.not_eq_true]
  by_cases hx : ex = false ∧ R ^ 2 < pixelX N j ^ 2 + pixelY M i ^ 2
  · rw [if_pos hx, if_pos (hc.mpr hx)]
  · rw [if_neg hx, if_neg fun h => hx (hc.mp h)]
    simp [sampledMode]

/-- Inside the aperture there is no cut-off. -/
theorem mode_inside {n m : ℤ} (h : ZernikeIndex n m) (hR : 0 < R) (ex : Bool) {ij : ℕ × ℕ} (hij : ij ∈ disc M N R) :
    mode M N R n m ex ij.1 ij.2 = sampledMode M N R n m ij.1 ij.2 := by
  rw [mode_eq h hR, if_neg]
  rintro ⟨_, hc⟩
  exact absurd (mem_disc.mp hij).2 (not_lt.mpr hc.le)

/-- Beyond the radius the mode vanishes. -/
theorem mode_outside {n m : ℤ} (h : ZernikeIndex n m) (hR : 0 < R) {i j : ℕ} (hij : R ^ 2 < pixelX N j ^ 2 + pixelY M i ^ 2) :
    mode M N R n m false i j = 0 := by
  rw [mode_eq h hR, if_pos ⟨rfl, hij⟩]

/-! ## Averages -/

theorem discMean_congr {f g : ℕ → ℕ → ℝ} (h : ∀ ij ∈ disc M N R, f ij.1 ij.2 = g ij.1 ij.2) :
    discMean M N R f = discMean M N R g := by
  unfold discMean
  rw [sum_congr rfl h]

theorem discMean_add (f g : ℕ → ℕ → ℝ) : discMean M N R (fun i j => f i j + g i j) = discMean M N R f + discMean M N R g := by
  unfold discMean
  rw [sum_add_distrib, add_div]

theorem discMean_sub (f g : ℕ → ℕ → ℝ) : discMean M N R (fun i j => f i j - g i j) = discMean M N R f - discMean M N R g := by
  unfold discMean
  rw [sum_sub_distrib, sub_div]

theorem discMean_mul (c : ℝ) (f : ℕ → ℕ → ℝ) : discMean M N R (fun i j => c * f i j) = c * discMean M N R f := by
  unfold discMean
  rw [← mul_sum, mul_div_assoc]

theorem discMean_const (h : disc M N R ≠ ∅) (c : ℝ) : discMean M N R (fun _ _ => c) = c := by
  unfold discMean
  have : ((disc M N R).card : ℝ) ≠ 0 := by
    exact_mod_cast Finset.card_ne_zero.mpr (Finset.nonempty_iff_ne_empty.mpr h)
  rw [sum_const, nsmul_eq_mul]
  field_simp

theorem discMean_sum {ι : Type} (s : Finset ι) (f : ι → ℕ → ℕ → ℝ) :
    discMean M N R (fun i j => ∑ k ∈ s, f k i j) = ∑ k ∈ s, discMean M N R (f k) := by
  unfold discMean
  rw [sum_comm, sum_div]

theorem pixelX_reflect {N j : ℕ} (h : j < N) : pixelX N (N - 1 - j) = -pixelX N j := by
  unfold pixelX
  rw [Nat.cast_sub (by omega), Nat.cast_sub (by omega)]
  push_cast
  ring

theorem pixelY_reflect {M i : ℕ} (h : i < M) : pixelY M (M - 1 - i) = -pixelY M i := by
  unfold pixelY
  rw [Nat.cast_sub (by omega), Nat.cast_sub (by omega)]
  push_cast
  ring

/-- Mirror symmetry of the aperture. -/
theorem discMean_reflectX (f : ℕ → ℕ → ℝ) : discMean M N R (fun i j => f i (N - 1 - j)) = discMean M N R f := by
  unfold discMean
  congr 1
  refine sum_nbij' (fun ij => (ij.1, N - 1 - ij.2)) (fun ij => (ij.1, N - 1 - ij.2)) ?_ ?_ ?_ ?_ ?_
  · rintro ⟨i, j⟩ h
    rw [mem_disc] at h ⊢
    obtain ⟨⟨h1, h2⟩, h3⟩ := h
    refine ⟨⟨h1, by simp only at h2 ⊢; omega⟩, ?_⟩
    simp only at h2 h3 ⊢
    rw [pixelX_reflect h2, neg_sq]
    exact h3
  · rintro ⟨i, j⟩ h
    rw [mem_disc] at h ⊢
    obtain ⟨⟨h1, h2⟩, h3⟩ := h
    refine ⟨⟨h1, by simp only at h2 ⊢; omega⟩, ?_⟩
    simp only at h2 h3 ⊢
    rw [pixelX_reflect h2, neg_sq]
    exact h3
  · rintro ⟨i, j⟩ h
    have := (mem_disc.mp h).1.2
    simp only at this ⊢
    rw [Nat.sub_sub_self (by omega)]
  · rintro ⟨i, j⟩ h
    have := (mem_disc.mp h).1.2
    simp only at this ⊢
    rw [Nat.sub_sub_self (by omega)]
  · intro ij _
    rfl

theorem discMean_reflectY (f : ℕ → ℕ → ℝ) : discMean M N R (fun i j => f (M - 1 - i) j) = discMean M N R f := by
  unfold discMean
  congr 1
  refine sum_nbij' (fun ij => (M - 1 - ij.1, ij.2)) (fun ij => (M - 1 - ij.1, ij.2)) ?_ ?_ ?_ ?_ ?_
  · rintro ⟨i, j⟩ h
    rw [mem_disc] at h ⊢
    obtain ⟨⟨h1, h2⟩, h3⟩ := h
    refine ⟨⟨by simp only at h1 ⊢; omega, h2⟩, ?_⟩
    simp only at h1 h3 ⊢
    rw [pixelY_reflect h1, neg_sq]
    exact h3
  · rintro ⟨i, j⟩ h
    rw [mem_disc] at h ⊢
    obtain ⟨⟨h1, h2⟩, h3⟩ := h
    refine ⟨⟨by simp only at h1 ⊢; omega, h2⟩, ?_⟩
    simp only at h1 h3 ⊢
    rw [pixelY_reflect h1, neg_sq]
    exact h3
  · rintro ⟨i, j⟩ h
    have := (mem_disc.mp h).1.1
    simp only at this ⊢
    rw [Nat.sub_sub_self (by omega)]
  · rintro ⟨i, j⟩ h
    have := (mem_disc.mp h).1.1
    simp only at this ⊢
    rw [Nat.sub_sub_self (by omega)]
  · intro ij _
    rfl

/-- Transposition of a square array. -/
theorem discMean_transpose (f : ℕ → ℕ → ℝ) : discMean N N R (fun i j => f (N - 1 - j) (N - 1 - i)) = discMean N N R f := by
  unfold discMean
  congr 1
  have hY : ∀ {k : ℕ}, k < N → pixelY N (N - 1 - k) = pixelX N k := by
    intro k hk
    rw [pixelY_reflect hk]; unfold pixelY pixelX; ring
  have hX : ∀ {k : ℕ}, k < N → pixelX N (N - 1 - k) = pixelY N k := by
    intro k hk
    rw [pixelX_reflect hk]; unfold pixelY pixelX; ring
  have hm : ∀ ij : ℕ × ℕ, ij ∈ disc N N R → ((N - 1 - ij.2, N - 1 - ij.1) : ℕ × ℕ) ∈ disc N N R := by
    rintro ⟨i, j⟩ h
    rw [mem_disc] at h ⊢
    obtain ⟨⟨h1, h2⟩, h3⟩ := h
    simp only at h1 h2 h3 ⊢
    refine ⟨⟨by omega, by omega⟩, ?_⟩
    rw [hY h2, hX h1]
    linarith
  have hi : ∀ ij : ℕ × ℕ, ij ∈ disc N N R → ((N - 1 - (N - 1 - ij.1), N - 1 - (N - 1 - ij.2)) : ℕ × ℕ) = ij := by
    rintro ⟨i, j⟩ h
    have := (mem_disc.mp h).1
    simp only at this ⊢
    rw [Nat.sub_sub_self (by omega), Nat.sub_sub_self (by omega)]
  exact sum_nbij' (fun ij => (N - 1 - ij.2, N - 1 - ij.1)) (fun ij => (N - 1 - ij.2, N - 1 - ij.1)) hm hm hi hi (fun _ _ => rfl)

theorem discMean_oddX {f : ℕ → ℕ → ℝ} (h : ∀ i j, j < N → f i (N - 1 - j) = -f i j) : discMean M N R f = 0 := by
  have h1 := discMean_reflectX (M := M) (N := N) (R := R) f
  have h2 : discMean M N R (fun i j => f i (N - 1 - j)) = discMean M N R (fun i j => (-1) * f i j) :=
    discMean_congr fun ij hij => by rw [h _ _ (mem_disc.mp hij).1.2]; ring
  rw [h2, discMean_mul] at h1
  linarith

theorem discMean_oddY {f : ℕ → ℕ → ℝ} (h : ∀ i j, i < M → f (M - 1 - i) j = -f i j) : discMean M N R f = 0 := by
  have h1 := discMean_reflectY (M := M) (N := N) (R := R) f
  have h2 : discMean M N R (fun i j => f (M - 1 - i) j) = discMean M N R (fun i j => (-1) * f i j) :=
    discMean_congr fun ij hij => by rw [h _ _ (mem_disc.mp hij).1.1]; ring
  rw [h2, discMean_mul] at h1
  linarith

/-! ## The low orders -/

theorem valid00 : ZernikeIndex 0 0 := ⟨by norm_num, 0, by norm_num⟩
theorem valid1m : ZernikeIndex 1 (-1) := ⟨by norm_num, 1, by norm_num⟩
theorem valid1p : ZernikeIndex 1 1 := ⟨by norm_num, 0, by norm_num⟩
theorem valid20 : ZernikeIndex 2 0 := ⟨by norm_num, 1, by norm_num⟩

theorem zernikeMode00 (R x y : ℝ) : zernikeMode 0 0 R x y = 1 := by
  simp [zernikeMode, radial, angular]

theorem arg_cos_sin (x y : ℝ) : √(x ^ 2 + y ^ 2) * Real.cos (Complex.arg (x + y * Complex.I)) = x ∧
    √(x ^ 2 + y ^ 2) * Real.sin (Complex.arg (x + y * Complex.I)) = y := by
  have hn : ‖(x + y * Complex.I : ℂ)‖ = √(x ^ 2 + y ^ 2) := by
    rw [Complex.norm_def, Complex.normSq_add_mul_I]
  constructor
  · rw [← hn, Complex.norm_mul_cos_arg]; simp
  · rw [← hn, Complex.norm_mul_sin_arg]; simp

theorem zernikeMode1p (R x y : ℝ) : zernikeMode 1 1 R x y = x / R := by
  have := (arg_cos_sin x y).1
  simp only [zernikeMode, radial, angular]
  norm_num
  rw [div_mul_eq_mul_div, this]

theorem zernikeMode1m (R x y : ℝ) : zernikeMode 1 (-1) R x y = y / R := by
  have := (arg_cos_sin x y).2
  simp only [zernikeMode, radial, angular]
  norm_num
  rw [div_mul_eq_mul_div, this]

theorem zernikeMode20 {R : ℝ} (x y : ℝ) : zernikeMode 2 0 R x y = 2 * (x ^ 2 + y ^ 2) / R ^ 2 - 1 := by
  have e : (2 : ℤ).toNat = 2 := rfl
  simp only [zernikeMode, radial, angular, e]
  norm_num [Finset.sum_range_succ, Nat.factorial]
  rw [div_pow, Real.sq_sqrt (by positivity)]
  ring

theorem sampled00 (M N : ℕ) (R : ℝ) (i j : ℕ) : sampledMode M N R 0 0 i j = 1 := by
  rw [sampledMode, zernikeMode00]
  simp [zernikeNorm]

theorem norm_one : (√(2 * ((1 : ℤ) + 1 : ℝ)) : ℝ) = 2 := by
  rw [show (2 : ℝ) * ((1 : ℤ) + 1) = 2 ^ 2 by norm_num, Real.sqrt_sq (by norm_num)]

theorem sampled1m (M N : ℕ) (R : ℝ) (i j : ℕ) : sampledMode M N R 1 (-1) i j = 2 * pixelY M i / R := by
  rw [sampledMode, zernikeMode1m, zernikeNorm, if_neg (by norm_num), norm_one, mul_div_assoc]

theorem sampled1p (M N : ℕ) (R : ℝ) (i j : ℕ) : sampledMode M N R 1 1 i j = 2 * pixelX N j / R := by
  rw [sampledMode, zernikeMode1p, zernikeNorm, if_neg (by norm_num), norm_one, mul_div_assoc]

theorem sampled20 (M N : ℕ) (R : ℝ) (i j : ℕ) :
    sampledMode M N R 2 0 i j = √3 * (2 * (pixelX N j ^ 2 + pixelY M i ^ 2) / R ^ 2 - 1) := by
  rw [sampledMode, zernikeMode20, zernikeNorm, if_pos rfl]
  norm_num

/-! ## The tilt modes on the aperture -/

/-- The normalised tilt along x on the array. -/
theorem mean_tiltX : discMean M N R (fun i j => sampledMode M N R 1 1 i j) = 0 :=
  discMean_oddX fun i j hj => by rw [sampled1p, sampled1p, pixelX_reflect hj]; ring

theorem mean_tiltY : discMean M N R (fun i j => sampledMode M N R 1 (-1) i j) = 0 :=
  discMean_oddY fun i j hi => by rw [sampled1m, sampled1m, pixelY_reflect hi]; ring

theorem mean_tiltXY : discMean M N R (fun i j => sampledMode M N R 1 (-1) i j * sampledMode M N R 1 1 i j) = 0 :=
  discMean_oddX fun i j hj => by rw [sampled1m, sampled1p, sampled1m, sampled1p, pixelX_reflect hj]; ring

/-- The mean square tilts of a square array agree and are below 2. -/
theorem mean_tilt_sq_lt (hR : 0 < R) (hne : disc N N R ≠ ∅) :
    discMean N N R (fun i j => sampledMode N N R 1 1 i j ^ 2) = discMean N N R (fun i j => sampledMode N N R 1 (-1) i j ^ 2) ∧
      discMean N N R (fun i j => sampledMode N N R 1 1 i j ^ 2) < 2 := by
  have h1 : discMean N N R (fun i j => sampledMode N N R 1 1 i j ^ 2) = discMean N N R (fun i j => sampledMode N N R 1 (-1) i j ^ 2) := by
    rw [← discMean_transpose (fun i j => sampledMode N N R 1 (-1) i j ^ 2)]
    refine discMean_congr fun ij hij => ?_
    have := (mem_disc.mp hij).1.2
    rw [sampled1p, sampled1m, pixelY_reflect this]
    unfold pixelX pixelY
    ring
  refine ⟨h1, ?_⟩
  have h2 : discMean N N R (fun i j => sampledMode N N R 1 1 i j ^ 2) + discMean N N R (fun i j => sampledMode N N R 1 (-1) i j ^ 2) < 4 := by
    rw [← discMean_add]
    unfold discMean
    have hc : (0 : ℝ) < (disc N N R).card := by
      exact_mod_cast Finset.card_pos.mpr (Finset.nonempty_iff_ne_empty.mpr hne)
    rw [div_lt_iff₀ hc]
    have : ∑ ij ∈ disc N N R, (sampledMode N N R 1 1 ij.1 ij.2 ^ 2 + sampledMode N N R 1 (-1) ij.1 ij.2 ^ 2) < ∑ ij ∈ disc N N R, (4 : ℝ) := by
      refine Finset.sum_lt_sum_of_nonempty (Finset.nonempty_iff_ne_empty.mpr hne) fun ij hij => ?_
      have h3 := (mem_disc.mp hij).2
      rw [sampled1p, sampled1m, div_pow, div_pow, ← add_div, div_lt_iff₀ (by positivity)]
      nlinarith
    rw [sum_const, nsmul_eq_mul] at this
    linarith
  linarith

/-! ## `remove_trivial_phase` in closed form -/

/-- One step. -/
theorem removeMode_eq {n m : ℤ} (h : ZernikeIndex n m) (hR : 0 < R) (f : ℕ → ℕ → ℝ) (i j : ℕ) :
    removeMode M N R (n, m) f i j =
      f i j - discMean M N R (fun i j => f i j * sampledMode M N R n m i j) * mode M N R n m false i j := by
  unfold removeMode
  simp only [project_eq]
  rw [discMean_congr (g := fun i j => f i j * sampledMode M N R n m i j) fun ij hij => by rw [mode_inside h hR _ hij]]

/-- Piston and tilts. -/
theorem remove_closed (hR : 0 < R) (f : ℕ → ℕ → ℝ) (i j : ℕ) :
    removeMode M N R (1, 1) (removeMode M N R (1, -1) (removeMode M N R (0, 0) f)) i j =
      f i j - discMean M N R f * mode M N R 0 0 false i j
        - discMean M N R (fun i j => f i j * sampledMode M N R 1 (-1) i j) * mode M N R 1 (-1) false i j
        - discMean M N R (fun i j => f i j * sampledMode M N R 1 1 i j) * mode M N R 1 1 false i j := by
  have e0 : ∀ f : ℕ → ℕ → ℝ, discMean M N R (fun i j => f i j * sampledMode M N R 0 0 i j) = discMean M N R f :=
    fun f => discMean_congr fun ij _ => by rw [sampled00, mul_one]
  have e1 : discMean M N R (fun i j => removeMode M N R (0, 0) f i j * sampledMode M N R 1 (-1) i j) =
      discMean M N R (fun i j => f i j * sampledMode M N R 1 (-1) i j) := by
    rw [discMean_congr (g := fun i j => f i j * sampledMode M N R 1 (-1) i j - discMean M N R f * sampledMode M N R 1 (-1) i j)
      fun ij hij => by
        rw [removeMode_eq valid00 hR, e0, mode_inside valid00 hR _ hij, sampled00]; ring,
      discMean_sub, discMean_mul, mean_tiltY, mul_zero, sub_zero]
  have e2 : discMean M N R (fun i j => removeMode M N R (1, -1) (removeMode M N R (0, 0) f) i j * sampledMode M N R 1 1 i j) =
      discMean M N R (fun i j => f i j * sampledMode M N R 1 1 i j) := by
    rw [discMean_congr (g := fun i j => f i j * sampledMode M N R 1 1 i j - (discMean M N R f * sampledMode M N R 1 1 i j +
        discMean M N R (fun i j => f i j * sampledMode M N R 1 (-1) i j) * (sampledMode M N R 1 (-1) i j * sampledMode M N R 1 1 i j)))
      fun ij hij => by
        rw [removeMode_eq valid1m hR, e1, removeMode_eq valid00 hR, e0, mode_inside valid00 hR _ hij, mode_inside valid1m hR _ hij, sampled00]
        ring,
      discMean_sub, discMean_add, discMean_mul, discMean_mul, mean_tiltX, mean_tiltXY]
    ring
  rw [removeMode_eq valid1p hR, e2, removeMode_eq valid1m hR, e1, removeMode_eq valid00 hR, e0]

end PySLM2.Analysis
