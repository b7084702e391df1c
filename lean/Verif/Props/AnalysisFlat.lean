import Verif.Props.AnalysisLimit

/-!
# Removing the trivial phase flattens phase maps (C176, C177)
-/

noncomputable section

open Finset Filter Topology

namespace PySLM2.Analysis

open Spec

variable {M N : ℕ} {R : ℝ}

/-- The mean square of a map from which a multiple of another one is subtracted. -/
theorem mean_sq_sub (f z : ℕ → ℕ → ℝ) (c : ℝ) : discMean M N R (fun i j => (f i j - c * z i j) ^ 2) =
    discMean M N R (fun i j => f i j ^ 2) - 2 * c * discMean M N R (fun i j => f i j * z i j)
      + c ^ 2 * discMean M N R (fun i j => z i j ^ 2) := by
  rw [← discMean_mul, ← discMean_mul, ← discMean_sub, ← discMean_add]
  refine discMean_congr fun ij _ => ?_
  ring

/-- One mode less. -/
theorem mean_sq_remove {n m : ℤ} (h : ZernikeIndex n m) (hR : 0 < R) (f : ℕ → ℕ → ℝ) :
    discMean M N R (fun i j => removeMode M N R (n, m) f i j ^ 2) = discMean M N R (fun i j => f i j ^ 2) -
      (2 - discMean M N R (fun i j => sampledMode M N R n m i j ^ 2)) * discMean M N R (fun i j => f i j * sampledMode M N R n m i j) ^ 2 := by
  rw [discMean_congr (g := fun i j => (f i j - discMean M N R (fun i j => f i j * sampledMode M N R n m i j) * sampledMode M N R n m i j) ^ 2)
    fun ij hij => by rw [removeMode_eq h hR, mode_inside h hR _ hij], mean_sq_sub]
  ring

theorem mean_sq_piston (hR : 0 < R) (hne : disc M N R ≠ ∅) (f : ℕ → ℕ → ℝ) :
    discMean M N R (fun i j => removeMode M N R (0, 0) f i j ^ 2) = discMean M N R (fun i j => f i j ^ 2) - discMean M N R f ^ 2 := by
  rw [mean_sq_remove valid00 hR]
  have h1 : discMean M N R (fun i j => sampledMode M N R 0 0 i j ^ 2) = 1 := by
    rw [discMean_congr (g := fun _ _ => 1) fun ij _ => by rw [sampled00, one_pow], discMean_const hne]
  rw [h1, discMean_congr (f := fun i j => f i j * sampledMode M N R 0 0 i j) (g := f) fun ij _ => by rw [sampled00, mul_one]]
  ring

/-! ## C176 -/

/-- **C176.** The mean square over the aperture of the map without piston and tilts, exactly. -/
theorem C176_exact (hR : 0 < R) (f : ℕ → ℕ → ℝ) {r : ℕ → ℕ → ℝ} (h : removeTrivialPhase M N R false f = some r) :
    discMean M N R (fun i j => r i j ^ 2) = discMean M N R (fun i j => f i j ^ 2) - discMean M N R f ^ 2
      - (2 - discMean M N R (fun i j => sampledMode M N R 1 (-1) i j ^ 2)) *
          discMean M N R (fun i j => f i j * sampledMode M N R 1 (-1) i j) ^ 2
      - (2 - discMean M N R (fun i j => sampledMode M N R 1 1 i j ^ 2)) *
          discMean M N R (fun i j => f i j * sampledMode M N R 1 1 i j) ^ 2 := by
  obtain ⟨hne, hr⟩ := remove_some h
  have hr' : removeMode M N R (1, 1) (removeMode M N R (1, -1) (removeMode M N R (0, 0) f)) = r := hr
  have e0 : ∀ f : ℕ → ℕ → ℝ, discMean M N R (fun i j => f i j * sampledMode M N R 0 0 i j) = discMean M N R f :=
    fun f => discMean_congr fun ij _ => by rw [sampled00, mul_one]
  have e1 : discMean M N R (fun i j => removeMode M N R (0, 0) f i j * sampledMode M N R 1 (-1) i j) =
      discMean M N R (fun i j => f i j * sampledMode M N R 1 (-1) i j) := by
    rw [discMean_congr (g := fun i j => f i j * sampledMode M N R 1 (-1) i j - discMean M N R f * sampledMode M N R 1 (-1) i j)
      fun ij hij => by
        rw [removeMode_eq valid00 hR, e0, mode_inside valid00 hR _ hij, sampled00]; ring,
      discMean_sub, discMean_mul, mean_tiltY, mul_zero, sub_zero]
  have e2 : discMean M N R (fun i j => removeMode M N R (1, -1) (removeMode M N R (0, 0) f) i j * sampledMode M N R 1 1 i j) =
      discMean M N R (fun i j => f i j * sampledMode M N R 1 1 i j) := by
    rw [discMean_congr (g := fun i j => f i j * sampledMode M N R 1 1 i j - (discMean M N R f * sampledMode M N R 1 1 i j +
        discMean M N R (fun i j => f i j * sampledMode M N R 1 (-1) i j) * (sampledMode M N R 1 (-1) i j * sampledMode M N R 1 1 i j)))
      fun ij hij => by
        rw [removeMode_eq valid1m hR, e1, removeMode_eq valid00 hR, e0, mode_inside valid00 hR _ hij, mode_inside valid1m hR _ hij, sampled00]
        ring,
      discMean_sub, discMean_add, discMean_mul, discMean_mul, mean_tiltX, mean_tiltXY]
    ring
  rw [← hr', mean_sq_remove valid1p hR, e2, mean_sq_remove valid1m hR, e1, mean_sq_piston hR hne]

/-- **C176** (partial: square arrays, `remove_defocus=False`): the mean square over the aperture never grows; it stays the same only
for maps that have no piston and no tilts (which are returned as they are). -/
theorem C176_square_partial (hR : 0 < R) (f : ℕ → ℕ → ℝ) {r : ℕ → ℕ → ℝ} (h : removeTrivialPhase N N R false f = some r) :
    discMean N N R (fun i j => r i j ^ 2) ≤ discMean N N R (fun i j => f i j ^ 2) ∧
    (discMean N N R (fun i j => r i j ^ 2) = discMean N N R (fun i j => f i j ^ 2) → ∀ i j, r i j = f i j) := by
  obtain ⟨h1, h2⟩ := mean_tilt_sq_lt hR (remove_some h).1
  have h3 := h1 ▸ h2
  have hx := C176_exact hR f h
  generalize hA : discMean N N R f = A at hx
  generalize hB : discMean N N R (fun i j => f i j * sampledMode N N R 1 (-1) i j) = B at hx
  generalize hC : discMean N N R (fun i j => f i j * sampledMode N N R 1 1 i j) = C at hx
  have pB := mul_nonneg (sub_nonneg.mpr h3.le) (sq_nonneg B)
  have pC := mul_nonneg (sub_nonneg.mpr h2.le) (sq_nonneg C)
  refine ⟨by nlinarith [sq_nonneg A], fun he i j => ?_⟩
  rw [remove_value hR h, hA, hB, hC]
  have hA0 : A = 0 := by
    have : A ^ 2 = 0 := le_antisymm (by linarith [sq_nonneg A]) (sq_nonneg A)
    exact pow_eq_zero_iff two_ne_zero |>.mp this
  have hB0 : B = 0 := by
    have h4 : (2 - discMean N N R (fun i j => sampledMode N N R 1 (-1) i j ^ 2)) * B ^ 2 = 0 := le_antisymm (by linarith [sq_nonneg A]) pB
    rcases mul_eq_zero.mp h4 with h5 | h5
    · linarith
    · exact pow_eq_zero_iff two_ne_zero |>.mp h5
  have hC0 : C = 0 := by
    have h4 : (2 - discMean N N R (fun i j => sampledMode N N R 1 1 i j ^ 2)) * C ^ 2 = 0 := le_antisymm (by linarith [sq_nonneg A]) pC
    rcases mul_eq_zero.mp h4 with h5 | h5
    · linarith
    · exact pow_eq_zero_iff two_ne_zero |>.mp h5
  rw [hA0, hB0, hC0]
  ring

/-- **C176.** What the removal of the defocus adds: with the map `r` without piston and tilts. -/
theorem C176_defocus (hR : 0 < R) (f : ℕ → ℕ → ℝ) {r r' : ℕ → ℕ → ℝ} (h : removeTrivialPhase M N R false f = some r)
    (h' : removeTrivialPhase M N R true f = some r') :
    discMean M N R (fun i j => r' i j ^ 2) = discMean M N R (fun i j => r i j ^ 2) -
      (2 - discMean M N R (fun i j => sampledMode M N R 2 0 i j ^ 2)) * discMean M N R (fun i j => r i j * sampledMode M N R 2 0 i j) ^ 2 := by
  have e1 : removeMode M N R (1, 1) (removeMode M N R (1, -1) (removeMode M N R (0, 0) f)) = r := (remove_some h).2
  have e2 : removeMode M N R (2, 0) (removeMode M N R (1, 1) (removeMode M N R (1, -1) (removeMode M N R (0, 0) f))) = r' := (remove_some h').2
  rw [← e2, e1, mean_sq_remove valid20 hR]

/-- **C176** (partial: large apertures): for arrays that contain the aperture, with and without `remove_defocus`, from some radius on
the mean square over the aperture grows for no map. -/
theorem C176_limit_partial {M N : ℕ → ℕ} {R : ℕ → ℝ} (hRt : Tendsto R atTop atTop) (hM : ∀ k, 2 * R k ≤ M k)
    (hN : ∀ k, 2 * R k ≤ N k) : ∀ᶠ k in atTop, ∀ (defocus : Bool) (f r : ℕ → ℕ → ℝ),
      removeTrivialPhase (M k) (N k) (R k) defocus f = some r →
      discMean (M k) (N k) (R k) (fun i j => r i j ^ 2) ≤ discMean (M k) (N k) (R k) (fun i j => f i j ^ 2) := by
  have small : ∀ {n m : ℤ}, ZernikeIndex n m →
      ∀ᶠ k in atTop, discMean (M k) (N k) (R k) (fun i j => sampledMode (M k) (N k) (R k) n m i j ^ 2) < 2 := by
    intro n m hv
    have hg := gram_limit hRt hM hN hv hv
    rw [if_pos ⟨rfl, rfl⟩] at hg
    filter_upwards [hg.eventually_lt_const (u := 2) (by norm_num)] with k hk
    refine lt_of_eq_of_lt (discMean_congr fun ij _ => ?_) hk
    exact sq _
  filter_upwards [small valid1m, small valid1p, small valid20, hRt.eventually_gt_atTop 0] with k h1 h2 h3 hpos defocus f r hr
  obtain ⟨r0, hr0⟩ := remove_defined hpos (remove_some hr).1 false f
  have hx := C176_exact hpos f hr0
  have p1 := mul_nonneg (sub_nonneg.mpr h1.le) (sq_nonneg (discMean (M k) (N k) (R k) (fun i j => f i j * sampledMode (M k) (N k) (R k) 1 (-1) i j)))
  have p2 := mul_nonneg (sub_nonneg.mpr h2.le) (sq_nonneg (discMean (M k) (N k) (R k) (fun i j => f i j * sampledMode (M k) (N k) (R k) 1 1 i j)))
  have p0 := sq_nonneg (discMean (M k) (N k) (R k) f)
  cases defocus
  · rw [hr] at hr0
    injection hr0 with e
    subst e
    linarith
  · have hd := C176_defocus hpos f hr0 hr
    have p3 := mul_nonneg (sub_nonneg.mpr h3.le) (sq_nonneg (discMean (M k) (N k) (R k) (fun i j => r0 i j * sampledMode (M k) (N k) (R k) 2 0 i j)))
    linarith

/-- The aperture of five pixels. -/
theorem disc_plus : disc 3 3 (101 / 100) = {(1, 1), (0, 1), (1, 0), (1, 2), (2, 1)} := by
  ext ⟨i, j⟩
  rw [mem_disc]
  simp only [Finset.mem_insert, Finset.mem_singleton, Prod.mk.injEq]
  constructor
  · rintro ⟨⟨hi, hj⟩, h⟩
    unfold pixelX pixelY at h
    interval_cases i <;> interval_cases j <;> first | (exfalso; norm_num at h; done) | norm_num
  · rintro (⟨rfl, rfl⟩ | ⟨rfl, rfl⟩ | ⟨rfl, rfl⟩ | ⟨rfl, rfl⟩ | ⟨rfl, rfl⟩) <;> unfold pixelX pixelY <;> norm_num

theorem discMean_plus (f : ℕ → ℕ → ℝ) : discMean 3 3 (101 / 100) f = (f 1 1 + f 0 1 + f 1 0 + f 1 2 + f 2 1) / 5 := by
  unfold discMean
  rw [disc_plus]
  simp [Finset.sum_insert]
  ring

/-- A map with a peak in the centre of the aperture. -/
def peak (i j : ℕ) : ℝ := if i = 1 ∧ j = 1 then 4 else -1

/-- **C176 is false of the code** in general: on a 1x2 array the mean square of a tilt grows; with `remove_defocus=True` also on a square
array with the aperture of five pixels. -/
theorem C176_refuted :
    (∃ f r, removeTrivialPhase 1 2 (51 / 100) false f = some r ∧
      discMean 1 2 (51 / 100) (fun i j => f i j ^ 2) < discMean 1 2 (51 / 100) (fun i j => r i j ^ 2)) ∧
    ∃ f r, removeTrivialPhase 3 3 (101 / 100) true f = some r ∧
      discMean 3 3 (101 / 100) (fun i j => f i j ^ 2) < discMean 3 3 (101 / 100) (fun i j => r i j ^ 2) := by
  constructor
  · have hne : disc 1 2 (51 / 100) ≠ ∅ := by rw [disc12]; exact Finset.ne_empty_of_mem (a := (0, 0)) (by simp)
    obtain ⟨r, hr⟩ := remove_defined (M := 1) (N := 2) (R := 51 / 100) (by norm_num) hne false (fun i j => sampledMode 1 2 (51 / 100) 1 1 i j)
    refine ⟨_, r, hr, ?_⟩
    have hc : discMean 1 2 (51 / 100) (fun i j => sampledMode 1 2 (51 / 100) 1 1 i j * sampledMode 1 2 (51 / 100) 1 1 i j) = (100 / 51) ^ 2 := by
      rw [← tilt12]
      exact discMean_congr fun ij _ => (sq _).symm
    have hxy : discMean 1 2 (51 / 100) (fun i j => sampledMode 1 2 (51 / 100) 1 1 i j * sampledMode 1 2 (51 / 100) 1 (-1) i j) = 0 := by
      rw [← mean_tiltXY (M := 1) (N := 2) (R := 51 / 100)]
      exact discMean_congr fun ij _ => mul_comm _ _
    rw [C176_exact (by norm_num) _ hr, hc, hxy, mean_tiltX, tilt12]
    norm_num
  · have hne : disc 3 3 (101 / 100) ≠ ∅ := by rw [disc_plus]; exact Finset.ne_empty_of_mem (a := (1, 1)) (by simp)
    obtain ⟨r, hr⟩ := remove_defined (M := 3) (N := 3) (R := 101 / 100) (by norm_num) hne true peak
    obtain ⟨r0, hr0⟩ := remove_defined (M := 3) (N := 3) (R := 101 / 100) (by norm_num) hne false peak
    refine ⟨_, r, hr, ?_⟩
    have hx := C176_exact (by norm_num) _ hr0
    have hv : ∀ ij ∈ disc 3 3 (101 / 100), r0 ij.1 ij.2 = peak ij.1 ij.2 := by
      intro ij hij
      rw [remove_value (by norm_num) hr0, discMean_plus, discMean_plus, discMean_plus]
      simp only [sampled1m, sampled1p, pixelX, pixelY]
      norm_num [peak]
    rw [C176_defocus (by norm_num) _ hr0 hr, discMean_congr (f := fun i j => r0 i j ^ 2) (g := fun i j => peak i j ^ 2) fun ij hij => by rw [hv ij hij],
      discMean_congr (f := fun i j => r0 i j * _) (g := fun i j => peak i j * sampledMode 3 3 (101 / 100) 2 0 i j) fun ij hij => by rw [hv ij hij]]
    rw [discMean_plus, discMean_plus, discMean_plus]
    have h3 : (√3 : ℝ) ^ 2 = 3 := Real.sq_sqrt (by norm_num)
    simp only [sampled20, pixelX, pixelY, peak]
    norm_num
    ring_nf
    have h4 : (√3 : ℝ) ^ 4 = 9 := by rw [show (4 : ℕ) = 2 * 2 from rfl, pow_mul, h3]; norm_num
    norm_num [h3, h4]

/-- C176: the hypotheses of `C176_square_partial` hold, and the mean square really drops, for a tilt of a 3x3 array. -/
example : ∃ r, removeTrivialPhase 3 3 (3 / 2) false (fun i j => sampledMode 3 3 (3 / 2) 1 1 i j) = some r ∧
    discMean 3 3 (3 / 2) (fun i j => r i j ^ 2) < discMean 3 3 (3 / 2) (fun i j => sampledMode 3 3 (3 / 2) 1 1 i j ^ 2) := by
  obtain ⟨r, hr⟩ := remove_defined (M := 3) (N := 3) (R := 3 / 2) (by norm_num)
    (by rw [disc33]; exact Finset.ne_empty_of_mem (a := (0, 0)) (by simp)) false (fun i j => sampledMode 3 3 (3 / 2) 1 1 i j)
  refine ⟨r, hr, ?_⟩
  have hc : discMean 3 3 (3 / 2) (fun i j => sampledMode 3 3 (3 / 2) 1 1 i j * sampledMode 3 3 (3 / 2) 1 1 i j) = 32 / 27 := by
    rw [← tilt33]
    exact discMean_congr fun ij _ => (sq _).symm
  have hxy : discMean 3 3 (3 / 2) (fun i j => sampledMode 3 3 (3 / 2) 1 1 i j * sampledMode 3 3 (3 / 2) 1 (-1) i j) = 0 := by
    rw [← mean_tiltXY (M := 3) (N := 3) (R := 3 / 2)]
    exact discMean_congr fun ij _ => mul_comm _ _
  rw [C176_exact (by norm_num) _ hr, hc, hxy, mean_tiltX, tilt33]
  norm_num

/-! ## C177 -/

/-- If a mode vanishes on all pixels of the aperture, so do the projections on it. -/
theorem proj_zero {n m : ℤ} (f : ℕ → ℕ → ℝ) (hne : disc M N R ≠ ∅) (h : discMean M N R (fun i j => sampledMode M N R n m i j ^ 2) = 0) :
    discMean M N R (fun i j => f i j * sampledMode M N R n m i j) = 0 := by
  have hc : ((disc M N R).card : ℝ) ≠ 0 := by
    exact_mod_cast (Finset.card_pos.mpr (Finset.nonempty_iff_ne_empty.mpr hne)).ne'
  unfold discMean at h
  rcases div_eq_zero_iff.mp h with h | h
  · rw [Finset.sum_eq_zero_iff_of_nonneg fun _ _ => sq_nonneg _] at h
    rw [discMean_congr (g := fun _ _ => 0) fun ij hij => by rw [pow_eq_zero_iff two_ne_zero |>.mp (h ij hij), mul_zero], discMean_const hne]
  · exact absurd h hc

/-- The tilts after `k` calls, and the map. -/
theorem repeat_value (hR : 0 < R) {F : ℕ → ℕ → ℕ → ℝ} (hF : ∀ k, removeTrivialPhase M N R false (F k) = some (F (k + 1))) :
    (∀ {m : ℤ}, m = 1 ∨ m = -1 → ∀ k, discMean M N R (fun i j => F k i j * sampledMode M N R 1 m i j) =
      (1 - discMean M N R (fun i j => sampledMode M N R 1 m i j ^ 2)) ^ k * discMean M N R (fun i j => F 0 i j * sampledMode M N R 1 m i j)) ∧
    ∀ k, ∀ ij ∈ disc M N R, F (k + 1) ij.1 ij.2 = F 0 ij.1 ij.2 - discMean M N R (F 0)
      - (∑ l ∈ range (k + 1), (1 - discMean M N R (fun i j => sampledMode M N R 1 (-1) i j ^ 2)) ^ l) *
          discMean M N R (fun i j => F 0 i j * sampledMode M N R 1 (-1) i j) * sampledMode M N R 1 (-1) ij.1 ij.2
      - (∑ l ∈ range (k + 1), (1 - discMean M N R (fun i j => sampledMode M N R 1 1 i j ^ 2)) ^ l) *
          discMean M N R (fun i j => F 0 i j * sampledMode M N R 1 1 i j) * sampledMode M N R 1 1 ij.1 ij.2 := by
  have htilt : ∀ {m : ℤ}, m = 1 ∨ m = -1 → ∀ k, discMean M N R (fun i j => F k i j * sampledMode M N R 1 m i j) =
      (1 - discMean M N R (fun i j => sampledMode M N R 1 m i j ^ 2)) ^ k * discMean M N R (fun i j => F 0 i j * sampledMode M N R 1 m i j) := by
    intro m hm k
    induction k with
    | zero => rw [pow_zero, one_mul]
    | succ k ih => rw [C70_partial hR _ (hF k) hm, ih, pow_succ]; ring
  refine ⟨htilt, fun k ij hij => ?_⟩
  induction k with
  | zero =>
    rw [remove_value hR (hF 0), mode_inside valid00 hR _ hij, mode_inside valid1m hR _ hij, mode_inside valid1p hR _ hij, sampled00]
    simp
  | succ k ih =>
    rw [remove_value hR (hF (k + 1)), mode_inside valid00 hR _ hij, mode_inside valid1m hR _ hij, mode_inside valid1p hR _ hij, ih,
      C68_mean_zero hR _ (hF k), htilt (.inr rfl) (k + 1), htilt (.inl rfl) (k + 1), Finset.sum_range_succ _ (k + 1), Finset.sum_range_succ _ (k + 1)]
    ring

/-- **C177.** On square arrays, repeating `remove_trivial_phase` removes piston and tilts completely: at every pixel of the aperture the maps
converge to the map minus the plane that fits it best (no plane leaves a smaller mean square), and nothing of piston and tilts is left in
the limit. -/
theorem C177_repeat (hR : 0 < R) {F : ℕ → ℕ → ℕ → ℝ} (hF : ∀ k, removeTrivialPhase N N R false (F k) = some (F (k + 1))) :
    ∃ a b c : ℝ,
      (∀ ij ∈ disc N N R, Tendsto (fun k => F k ij.1 ij.2) atTop
        (𝓝 (F 0 ij.1 ij.2 - (a + b * pixelX N ij.2 + c * pixelY N ij.1)))) ∧
      discMean N N R (fun i j => F 0 i j - (a + b * pixelX N j + c * pixelY N i)) = 0 ∧
      discMean N N R (fun i j => (F 0 i j - (a + b * pixelX N j + c * pixelY N i)) * pixelX N j) = 0 ∧
      discMean N N R (fun i j => (F 0 i j - (a + b * pixelX N j + c * pixelY N i)) * pixelY N i) = 0 ∧
      ∀ a' b' c' : ℝ, discMean N N R (fun i j => (F 0 i j - (a + b * pixelX N j + c * pixelY N i)) ^ 2) ≤
        discMean N N R (fun i j => (F 0 i j - (a' + b' * pixelX N j + c' * pixelY N i)) ^ 2) := by
  have hne := (remove_some (hF 0)).1
  obtain ⟨hs1, hs2⟩ := mean_tilt_sq_lt hR hne
  have hs3 := hs1 ▸ hs2
  have hnn : ∀ m : ℤ, 0 ≤ discMean N N R (fun i j => sampledMode N N R 1 m i j ^ 2) := fun m =>
    div_nonneg (Finset.sum_nonneg fun _ _ => sq_nonneg _) (Nat.cast_nonneg _)
  have hlim : ∀ {m : ℤ}, discMean N N R (fun i j => sampledMode N N R 1 m i j ^ 2) < 2 →
      Tendsto (fun k => (∑ l ∈ range (k + 1), (1 - discMean N N R (fun i j => sampledMode N N R 1 m i j ^ 2)) ^ l) *
          discMean N N R (fun i j => F 0 i j * sampledMode N N R 1 m i j)) atTop
        (𝓝 (discMean N N R (fun i j => F 0 i j * sampledMode N N R 1 m i j) / discMean N N R (fun i j => sampledMode N N R 1 m i j ^ 2))) := by
    intro m hlt
    by_cases h0 : discMean N N R (fun i j => sampledMode N N R 1 m i j ^ 2) = 0
    · rw [proj_zero _ hne h0]
      simp
    · have hpos := lt_of_le_of_ne (hnn m) (Ne.symm h0)
      have hg := (hasSum_geometric_of_abs_lt_one (r := 1 - discMean N N R (fun i j => sampledMode N N R 1 m i j ^ 2))
        (by rw [abs_lt]; constructor <;> linarith)).tendsto_sum_nat
      have hg' := ((tendsto_add_atTop_iff_nat 1).mpr hg).mul_const (discMean N N R (fun i j => F 0 i j * sampledMode N N R 1 m i j))
      rwa [sub_sub_cancel, mul_comm, ← div_eq_mul_inv] at hg'
  obtain ⟨-, hval⟩ := repeat_value hR hF
  have l1 := hlim hs2
  have l2 := hlim hs3
  have pX : ∀ f : ℕ → ℕ → ℝ, discMean N N R (fun i j => f i j * sampledMode N N R 1 1 i j) = 2 / R * discMean N N R (fun i j => f i j * pixelX N j) := by
    intro f
    rw [← discMean_mul]
    exact discMean_congr fun ij _ => by rw [sampled1p]; ring
  have pY : ∀ f : ℕ → ℕ → ℝ, discMean N N R (fun i j => f i j * sampledMode N N R 1 (-1) i j) = 2 / R * discMean N N R (fun i j => f i j * pixelY N i) := by
    intro f
    rw [← discMean_mul]
    exact discMean_congr fun ij _ => by rw [sampled1m]; ring
  have hx0 : discMean N N R (fun _ j => pixelX N j) = 0 := discMean_oddX fun i j hj => pixelX_reflect hj
  have hy0 : discMean N N R (fun i _ => pixelY N i) = 0 := discMean_oddY fun i j hi => pixelY_reflect hi
  have hxy0 : discMean N N R (fun i j => pixelY N i * pixelX N j) = 0 := discMean_oddX fun i j hj => by rw [pixelX_reflect hj]; ring
  generalize hA : discMean N N R (fun i j => F 0 i j * sampledMode N N R 1 1 i j) /
    discMean N N R (fun i j => sampledMode N N R 1 1 i j ^ 2) = A at l1
  generalize hB : discMean N N R (fun i j => F 0 i j * sampledMode N N R 1 (-1) i j) /
    discMean N N R (fun i j => sampledMode N N R 1 (-1) i j ^ 2) = B at l2
  have hA' : discMean N N R (fun i j => F 0 i j * pixelX N j) = A * (2 / R) * discMean N N R (fun i j => pixelX N j * pixelX N j) := by
    have h1 : discMean N N R (fun i j => F 0 i j * sampledMode N N R 1 1 i j) = A * discMean N N R (fun i j => sampledMode N N R 1 1 i j ^ 2) := by
      by_cases h0 : discMean N N R (fun i j => sampledMode N N R 1 1 i j ^ 2) = 0
      · rw [proj_zero _ hne h0, h0, mul_zero]
      · rw [← hA, div_mul_cancel₀ _ h0]
    have h2 : discMean N N R (fun i j => sampledMode N N R 1 1 i j ^ 2) = (2 / R) * ((2 / R) * discMean N N R (fun i j => pixelX N j * pixelX N j)) := by
      rw [← discMean_mul, ← discMean_mul]
      exact discMean_congr fun ij _ => by rw [sampled1p]; ring
    rw [pX, h2] at h1
    have h2R : (2 / R : ℝ) ≠ 0 := by positivity
    exact mul_left_cancel₀ h2R (by rw [h1]; ring)
  have hB' : discMean N N R (fun i j => F 0 i j * pixelY N i) = B * (2 / R) * discMean N N R (fun i j => pixelY N i * pixelY N i) := by
    have h1 : discMean N N R (fun i j => F 0 i j * sampledMode N N R 1 (-1) i j) = B * discMean N N R (fun i j => sampledMode N N R 1 (-1) i j ^ 2) := by
      by_cases h0 : discMean N N R (fun i j => sampledMode N N R 1 (-1) i j ^ 2) = 0
      · rw [proj_zero _ hne h0, h0, mul_zero]
      · rw [← hB, div_mul_cancel₀ _ h0]
    have h2 : discMean N N R (fun i j => sampledMode N N R 1 (-1) i j ^ 2) = (2 / R) * ((2 / R) * discMean N N R (fun i j => pixelY N i * pixelY N i)) := by
      rw [← discMean_mul, ← discMean_mul]
      exact discMean_congr fun ij _ => by rw [sampled1m]; ring
    rw [pY, h2] at h1
    have h2R : (2 / R : ℝ) ≠ 0 := by positivity
    exact mul_left_cancel₀ h2R (by rw [h1]; ring)
  have o0 : discMean N N R (fun i j => F 0 i j - (discMean N N R (F 0) + A * (2 / R) * pixelX N j + B * (2 / R) * pixelY N i)) = 0 := by
    rw [discMean_sub, discMean_add, discMean_add, discMean_const hne, discMean_mul, discMean_mul, hx0, hy0]
    ring
  have o1 : discMean N N R (fun i j => (F 0 i j - (discMean N N R (F 0) + A * (2 / R) * pixelX N j + B * (2 / R) * pixelY N i)) * pixelX N j) = 0 := by
    rw [discMean_congr (g := fun i j => F 0 i j * pixelX N j - (discMean N N R (F 0) * pixelX N j + A * (2 / R) * (pixelX N j * pixelX N j)
      + B * (2 / R) * (pixelY N i * pixelX N j))) fun ij _ => by ring, discMean_sub, discMean_add, discMean_add, discMean_mul, discMean_mul,
      discMean_mul, hx0, hxy0, hA']
    ring
  have o2 : discMean N N R (fun i j => (F 0 i j - (discMean N N R (F 0) + A * (2 / R) * pixelX N j + B * (2 / R) * pixelY N i)) * pixelY N i) = 0 := by
    rw [discMean_congr (g := fun i j => F 0 i j * pixelY N i - (discMean N N R (F 0) * pixelY N i + A * (2 / R) * (pixelY N i * pixelX N j)
      + B * (2 / R) * (pixelY N i * pixelY N i))) fun ij _ => by ring, discMean_sub, discMean_add, discMean_add, discMean_mul, discMean_mul,
      discMean_mul, hy0, hxy0, hB']
    ring
  refine ⟨discMean N N R (F 0), A * (2 / R), B * (2 / R), fun ij hij => ?_, o0, o1, o2, fun a' b' c' => ?_⟩
  · rw [← tendsto_add_atTop_iff_nat 1]
    have h := ((l2.mul_const (sampledMode N N R 1 (-1) ij.1 ij.2)).const_sub (F 0 ij.1 ij.2 - discMean N N R (F 0))).sub
      (l1.mul_const (sampledMode N N R 1 1 ij.1 ij.2))
    refine (h.congr fun k => (hval k ij hij).symm).trans (le_of_eq ?_)
    rw [sampled1m, sampled1p]
    congr 1
    ring
  · generalize hg : (fun i j : ℕ => F 0 i j - (discMean N N R (F 0) + A * (2 / R) * pixelX N j + B * (2 / R) * pixelY N i)) = g at o0 o1 o2
    have e : ∀ i j, F 0 i j - (a' + b' * pixelX N j + c' * pixelY N i) =
        g i j - ((a' - discMean N N R (F 0)) + (b' - A * (2 / R)) * pixelX N j + (c' - B * (2 / R)) * pixelY N i) := by
      intro i j
      rw [← hg]
      ring
    have o1' : discMean N N R (fun i j => g i j * pixelX N j) = 0 := by rw [← hg]; exact o1
    have o2' : discMean N N R (fun i j => g i j * pixelY N i) = 0 := by rw [← hg]; exact o2
    have e' : discMean N N R (fun i j => (F 0 i j - (discMean N N R (F 0) + A * (2 / R) * pixelX N j + B * (2 / R) * pixelY N i)) ^ 2) =
        discMean N N R (fun i j => g i j ^ 2) := by rw [← hg]
    rw [e']
    simp only [e]
    generalize a' - discMean N N R (F 0) = u
    generalize b' - A * (2 / R) = v
    generalize c' - B * (2 / R) = w
    have h1 : discMean N N R (fun i j => (g i j - (u + v * pixelX N j + w * pixelY N i)) ^ 2) = discMean N N R (fun i j => g i j ^ 2) +
        discMean N N R (fun i j => (u + v * pixelX N j + w * pixelY N i) ^ 2) - (2 * u * discMean N N R g + 2 * v * discMean N N R (fun i j => g i j * pixelX N j)
          + 2 * w * discMean N N R (fun i j => g i j * pixelY N i)) := by
      rw [← discMean_mul, ← discMean_mul, ← discMean_mul, ← discMean_add, ← discMean_add, ← discMean_add, ← discMean_sub]
      exact discMean_congr fun ij _ => by ring
    rw [h1, o0, o1', o2']
    have h2 : 0 ≤ discMean N N R (fun i j => (u + v * pixelX N j + w * pixelY N i) ^ 2) :=
      div_nonneg (Finset.sum_nonneg fun _ _ => sq_nonneg _) (Nat.cast_nonneg _)
    linarith

/-- **C177.** The tilts that are left after `k` calls, on arrays of any shape: a geometric sequence. -/
theorem C177_rate (hR : 0 < R) {F : ℕ → ℕ → ℕ → ℝ} (hF : ∀ k, removeTrivialPhase M N R false (F k) = some (F (k + 1))) {m : ℤ}
    (hm : m = 1 ∨ m = -1) (k : ℕ) : discMean M N R (fun i j => F k i j * sampledMode M N R 1 m i j) =
      (1 - discMean M N R (fun i j => sampledMode M N R 1 m i j ^ 2)) ^ k * discMean M N R (fun i j => F 0 i j * sampledMode M N R 1 m i j) :=
  (repeat_value hR hF).1 hm k

/-- C177: the sequence of maps exists for every map and every non-empty aperture. -/
theorem C177_defined (hR : 0 < R) (hne : disc M N R ≠ ∅) (f : ℕ → ℕ → ℝ) :
    ∃ F : ℕ → ℕ → ℕ → ℝ, F 0 = f ∧ ∀ k, removeTrivialPhase M N R false (F k) = some (F (k + 1)) := by
  choose next hnext using fun g => remove_defined hR hne false g
  exact ⟨fun k => next^[k] f, rfl, fun k => by
    show _ = some (next^[k + 1] f)
    rw [Function.iterate_succ_apply']
    exact hnext _⟩

/-- C177: the hypotheses hold for the peak in an aperture of five pixels. -/
example : ∃ F : ℕ → ℕ → ℕ → ℝ, F 0 = peak ∧ ∀ k, removeTrivialPhase 3 3 (101 / 100) false (F k) = some (F (k + 1)) :=
  C177_defined (by norm_num) (by rw [disc_plus]; exact Finset.ne_empty_of_mem (a := (1, 1)) (by simp)) peak

end PySLM2.Analysis
