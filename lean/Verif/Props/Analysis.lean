import Verif.Lemmas.Analysis
import Verif.Props.Ansi

/-!
# Phase map analysis (C68–C72)

`removeTrivialPhase M N R defocus f` models `remove_trivial_phase(f, R, defocus)` on an `M x N` array; `none` stands
for a result full of `nan` (empty aperture).
-/

noncomputable section

open Finset

namespace PySLM2.Analysis

open Spec

variable {M N : ℕ} {R : ℝ}

theorem remove_some {defocus : Bool} {f r : ℕ → ℕ → ℝ} (h : removeTrivialPhase M N R defocus f = some r) :
    disc M N R ≠ ∅ ∧ (trivialTerms defocus).foldl (fun f nm => removeMode M N R nm f) f = r := by
  unfold removeTrivialPhase at h
  split_ifs at h with hc
  injection h with h
  rw [aperture_eq] at hc
  exact ⟨fun he => hc (.inr he), h⟩

/-- The function is defined on every non-empty aperture. -/
theorem remove_defined (hR : 0 < R) (hne : disc M N R ≠ ∅) (defocus : Bool) (f : ℕ → ℕ → ℝ) :
    ∃ r, removeTrivialPhase M N R defocus f = some r := by
  unfold removeTrivialPhase
  rw [if_neg]
  · exact ⟨_, rfl⟩
  · rw [aperture_eq]
    rintro (h | h)
    · exact hR.ne' h
    · exact hne h

/-- Piston and tilt removal in closed form. -/
theorem remove_value (hR : 0 < R) {f r : ℕ → ℕ → ℝ} (h : removeTrivialPhase M N R false f = some r) (i j : ℕ) :
    r i j = f i j - discMean M N R f * mode M N R 0 0 false i j
        - discMean M N R (fun i j => f i j * sampledMode M N R 1 (-1) i j) * mode M N R 1 (-1) false i j
        - discMean M N R (fun i j => f i j * sampledMode M N R 1 1 i j) * mode M N R 1 1 false i j := by
  rw [← remove_closed hR, ← (remove_some h).2]
  rfl

/-! ## C68 -/

/-- **C68.** The average over the aperture is exactly zero. -/
theorem C68_mean_zero (hR : 0 < R) (f : ℕ → ℕ → ℝ) {r : ℕ → ℕ → ℝ}
    (h : removeTrivialPhase M N R false f = some r) : discMean M N R r = 0 := by
  have hne := (remove_some h).1
  rw [discMean_congr (g := fun i j => f i j - (discMean M N R f
        + (discMean M N R (fun i j => f i j * sampledMode M N R 1 (-1) i j) * sampledMode M N R 1 (-1) i j
        + discMean M N R (fun i j => f i j * sampledMode M N R 1 1 i j) * sampledMode M N R 1 1 i j)))
    fun ij hij => by
      rw [remove_value hR h, mode_inside valid00 hR _ hij, mode_inside valid1m hR _ hij, mode_inside valid1p hR _ hij, sampled00]
      ring,
    discMean_sub, discMean_add, discMean_const hne, discMean_add, discMean_mul, discMean_mul, mean_tiltX, mean_tiltY]
  ring

/-- **C68.** Adding a constant to the phase map does not change the result inside the aperture. -/
theorem C68_constant (hR : 0 < R) (f : ℕ → ℕ → ℝ) (c : ℝ) {r r' : ℕ → ℕ → ℝ}
    (h : removeTrivialPhase M N R false f = some r) (h' : removeTrivialPhase M N R false (fun i j => f i j + c) = some r') :
    ∀ ij ∈ disc M N R, r' ij.1 ij.2 = r ij.1 ij.2 := by
  intro ij hij
  have hne := (remove_some h).1
  rw [remove_value hR h, remove_value hR h']
  have t : ∀ m : ℤ, discMean M N R (fun i j => sampledMode M N R 1 m i j) = 0 →
      discMean M N R (fun i j => (f i j + c) * sampledMode M N R 1 m i j) = discMean M N R (fun i j => f i j * sampledMode M N R 1 m i j) := by
    intro m hm
    rw [show (fun i j => (f i j + c) * sampledMode M N R 1 m i j) = fun i j => f i j * sampledMode M N R 1 m i j + c * sampledMode M N R 1 m i j
      from by funext i j; ring, discMean_add, discMean_mul, hm, mul_zero, add_zero]
  rw [t _ mean_tiltX, t _ mean_tiltY, discMean_add, discMean_const hne, mode_inside valid00 hR _ hij, sampled00]
  ring

/-- C68: on a 2x2 array of radius 1 the aperture is not empty. -/
example (f : ℕ → ℕ → ℝ) : ∃ r, removeTrivialPhase 2 2 1 false f = some r := by
  refine remove_defined (by norm_num) (Finset.ne_empty_of_mem (a := (0, 0)) (mem_disc.mpr ?_)) _ _
  simp [pixelX, pixelY]
  norm_num

/-! ## C69 -/

theorem removeMode_linear (nm : ℤ × ℤ) (a b : ℝ) (f g : ℕ → ℕ → ℝ) :
    removeMode M N R nm (fun i j => a * f i j + b * g i j) = fun i j => a * removeMode M N R nm f i j + b * removeMode M N R nm g i j := by
  funext i j
  simp only [removeMode, project_eq]
  rw [show (fun i j => (a * f i j + b * g i j) * mode M N R nm.1 nm.2 false i j) = fun i j =>
      a * (f i j * mode M N R nm.1 nm.2 false i j) + b * (g i j * mode M N R nm.1 nm.2 false i j) from by funext i j; ring,
    discMean_add, discMean_mul, discMean_mul]
  ring

/-- **C69.** Linearity. -/
theorem C69_linear (defocus : Bool) (a b : ℝ) (f g : ℕ → ℕ → ℝ) {rf rg : ℕ → ℕ → ℝ}
    (hf : removeTrivialPhase M N R defocus f = some rf) (hg : removeTrivialPhase M N R defocus g = some rg) :
    removeTrivialPhase M N R defocus (fun i j => a * f i j + b * g i j) = some fun i j => a * rf i j + b * rg i j := by
  have key : ∀ (l : List (ℤ × ℤ)) (f g : ℕ → ℕ → ℝ),
      l.foldl (fun f nm => removeMode M N R nm f) (fun i j => a * f i j + b * g i j) = fun i j =>
        a * l.foldl (fun f nm => removeMode M N R nm f) f i j + b * l.foldl (fun f nm => removeMode M N R nm f) g i j := by
    intro l
    induction l with
    | nil => intro f g; rfl
    | cons nm l ih => intro f g; rw [List.foldl_cons, removeMode_linear, ih]; rfl
  unfold removeTrivialPhase at hf hg ⊢
  split_ifs at hf hg ⊢ with hc
  injection hf with hf
  injection hg with hg
  rw [key, hf, hg]

/-- **C69.** Locality: the result at a pixel depends only on the map inside the aperture and at that pixel. -/
theorem C69_local (defocus : Bool) (f g : ℕ → ℕ → ℝ) {rf rg : ℕ → ℕ → ℝ}
    (hf : removeTrivialPhase M N R defocus f = some rf) (hg : removeTrivialPhase M N R defocus g = some rg)
    (hin : ∀ ij ∈ disc M N R, f ij.1 ij.2 = g ij.1 ij.2) {i j : ℕ} (hij : f i j = g i j) : rf i j = rg i j := by
  have key : ∀ (l : List (ℤ × ℤ)) (f g : ℕ → ℕ → ℝ), (∀ ij ∈ disc M N R, f ij.1 ij.2 = g ij.1 ij.2) → f i j = g i j →
      l.foldl (fun f nm => removeMode M N R nm f) f i j = l.foldl (fun f nm => removeMode M N R nm f) g i j := by
    intro l
    induction l with
    | nil => intro f g _ h; exact h
    | cons nm l ih =>
      intro f g h1 h2
      have hp : project M N R f (mode M N R nm.1 nm.2 false) = project M N R g (mode M N R nm.1 nm.2 false) := by
        rw [project_eq, project_eq]
        exact discMean_congr fun ij hij => by rw [h1 ij hij]
      refine ih _ _ (fun ij hij => ?_) ?_
      · simp only [removeMode, hp, h1 ij hij]
      · simp only [removeMode, hp, h2]
  rw [← (remove_some hf).2, ← (remove_some hg).2]
  exact key _ f g hin hij

/-- **C69.** Pixels beyond the radius are returned unchanged. -/
theorem C69_outside (hR : 0 < R) (defocus : Bool) (f : ℕ → ℕ → ℝ) {r : ℕ → ℕ → ℝ}
    (h : removeTrivialPhase M N R defocus f = some r) {i j : ℕ} (hij : R ^ 2 < pixelX N j ^ 2 + pixelY M i ^ 2) :
    r i j = f i j := by
  have key : ∀ (l : List (ℤ × ℤ)), (∀ nm ∈ l, ZernikeIndex nm.1 nm.2) → ∀ f : ℕ → ℕ → ℝ,
      l.foldl (fun f nm => removeMode M N R nm f) f i j = f i j := by
    intro l
    induction l with
    | nil => intro _ f; rfl
    | cons nm l ih =>
      intro hl f
      rw [List.foldl_cons, ih (fun x hx => hl x (List.mem_cons_of_mem _ hx))]
      simp only [removeMode, mode_outside (hl nm List.mem_cons_self) hR hij, mul_zero, sub_zero]
  rw [← (remove_some h).2]
  refine key _ ?_ f
  intro nm hnm
  cases defocus <;> simp [trivialTerms] at hnm
  · rcases hnm with rfl | rfl | rfl
    exacts [valid00, valid1m, valid1p]
  · rcases hnm with rfl | rfl | rfl | rfl
    exacts [valid00, valid1m, valid1p, valid20]

/-- C69: a corner pixel of a 3x3 array lies beyond radius 1. -/
example : (1 : ℝ) ^ 2 < pixelX 3 0 ^ 2 + pixelY 3 0 ^ 2 := by simp [pixelX, pixelY]; norm_num

/-! ## C70 -/

/-- **C70 (partial).** What is left of the tilts: each tilt projection is multiplied by `1 - <Z^2>`, where `<Z^2>` is
the mean square of the sampled tilt mode over the aperture.  Missing: this factor is not zero, so the tilt is not
removed completely (`C70_refuted`); it tends to zero for large apertures (`C70_limit`). -/
theorem C70_partial (hR : 0 < R) (f : ℕ → ℕ → ℝ) {r : ℕ → ℕ → ℝ} (h : removeTrivialPhase M N R false f = some r)
    {m : ℤ} (hm : m = 1 ∨ m = -1) :
    discMean M N R (fun i j => r i j * sampledMode M N R 1 m i j) =
      (1 - discMean M N R (fun i j => sampledMode M N R 1 m i j ^ 2)) * discMean M N R (fun i j => f i j * sampledMode M N R 1 m i j) := by
  have comm : discMean M N R (fun i j => sampledMode M N R 1 1 i j * sampledMode M N R 1 (-1) i j) = 0 := by
    rw [← mean_tiltXY (M := M) (N := N) (R := R)]
    exact discMean_congr fun ij _ => mul_comm _ _
  rw [discMean_congr (g := fun i j => f i j * sampledMode M N R 1 m i j - (discMean M N R f * sampledMode M N R 1 m i j
        + (discMean M N R (fun i j => f i j * sampledMode M N R 1 (-1) i j) * (sampledMode M N R 1 (-1) i j * sampledMode M N R 1 m i j)
        + discMean M N R (fun i j => f i j * sampledMode M N R 1 1 i j) * (sampledMode M N R 1 1 i j * sampledMode M N R 1 m i j))))
    fun ij hij => by
      rw [remove_value hR h, mode_inside valid00 hR _ hij, mode_inside valid1m hR _ hij, mode_inside valid1p hR _ hij, sampled00]
      ring,
    discMean_sub, discMean_add, discMean_add, discMean_mul, discMean_mul, discMean_mul]
  rcases hm with rfl | rfl
  · rw [mean_tiltX, mean_tiltXY, discMean_congr (f := fun i j => sampledMode M N R 1 1 i j * sampledMode M N R 1 1 i j)
      (g := fun i j => sampledMode M N R 1 1 i j ^ 2) fun ij _ => (sq _).symm]
    ring
  · rw [mean_tiltY, comm, discMean_congr (f := fun i j => sampledMode M N R 1 (-1) i j * sampledMode M N R 1 (-1) i j)
      (g := fun i j => sampledMode M N R 1 (-1) i j ^ 2) fun ij _ => (sq _).symm]
    ring

/-- **C70 (partial).** On a square array the tilt that is left is strictly smaller than the tilt that was there. -/
theorem C70_square_partial (hR : 0 < R) (f : ℕ → ℕ → ℝ) {r : ℕ → ℕ → ℝ} (h : removeTrivialPhase N N R false f = some r)
    {m : ℤ} (hm : m = 1 ∨ m = -1) (ht : discMean N N R (fun i j => f i j * sampledMode N N R 1 m i j) ≠ 0) :
    |discMean N N R (fun i j => r i j * sampledMode N N R 1 m i j)| < |discMean N N R (fun i j => f i j * sampledMode N N R 1 m i j)| := by
  have hne := (remove_some h).1
  rw [C70_partial hR f h hm, abs_mul]
  obtain ⟨h1, h2⟩ := mean_tilt_sq_lt hR hne
  have hlt : discMean N N R (fun i j => sampledMode N N R 1 m i j ^ 2) < 2 := by
    rcases hm with rfl | rfl
    · exact h2
    · rw [← h1]; exact h2
  have hpos : 0 < discMean N N R (fun i j => sampledMode N N R 1 m i j ^ 2) := by
    unfold discMean
    have hc : (0 : ℝ) < (disc N N R).card := by
      exact_mod_cast Finset.card_pos.mpr (Finset.nonempty_iff_ne_empty.mpr hne)
    refine div_pos ?_ hc
    refine lt_of_le_of_ne (Finset.sum_nonneg fun _ _ => sq_nonneg _) fun h0 => ht ?_
    rw [eq_comm, Finset.sum_eq_zero_iff_of_nonneg fun _ _ => sq_nonneg _] at h0
    rw [discMean_congr (g := fun _ _ => 0) fun ij hij => by rw [pow_eq_zero_iff two_ne_zero |>.mp (h0 ij hij), mul_zero],
      discMean_const hne]
  have habs : |1 - discMean N N R (fun i j => sampledMode N N R 1 m i j ^ 2)| < 1 := by
    rw [abs_lt]
    constructor <;> linarith
  exact mul_lt_of_lt_one_left (abs_pos.mpr ht) habs

theorem disc33 : disc 3 3 (3 / 2) = Finset.range 3 ×ˢ Finset.range 3 := by
  unfold disc
  refine Finset.filter_true_of_mem fun ij h => ?_
  obtain ⟨i, j⟩ := ij
  rw [Finset.mem_product, Finset.mem_range, Finset.mem_range] at h
  simp only at h
  have hi : |pixelY 3 i| ≤ 1 := by
    obtain ⟨h, _⟩ := h
    unfold pixelY
    rw [abs_le]
    interval_cases i <;> norm_num
  have hj : |pixelX 3 j| ≤ 1 := by
    obtain ⟨_, h⟩ := h
    unfold pixelX
    rw [abs_le]
    interval_cases j <;> norm_num
  have := sq_le_one_iff_abs_le_one _ |>.mpr hi
  have := sq_le_one_iff_abs_le_one _ |>.mpr hj
  simp only
  nlinarith

theorem tilt33 : discMean 3 3 (3 / 2) (fun i j => sampledMode 3 3 (3 / 2) 1 1 i j ^ 2) = 32 / 27 := by
  unfold discMean
  rw [disc33, Finset.sum_product]
  simp only [sampled1p, pixelX, Finset.sum_range_succ, Finset.card_product, Finset.card_range, Finset.range_zero, Finset.sum_empty]
  norm_num

theorem disc12 : disc 1 2 (51 / 100) = Finset.range 1 ×ˢ Finset.range 2 := by
  unfold disc
  refine Finset.filter_true_of_mem fun ij h => ?_
  obtain ⟨i, j⟩ := ij
  rw [Finset.mem_product, Finset.mem_range, Finset.mem_range] at h
  obtain ⟨hi, hj⟩ := h
  simp only at hi hj
  unfold pixelX pixelY
  interval_cases i; interval_cases j <;> norm_num

theorem tilt12 : discMean 1 2 (51 / 100) (fun i j => sampledMode 1 2 (51 / 100) 1 1 i j ^ 2) = (100 / 51) ^ 2 := by
  unfold discMean
  rw [disc12, Finset.sum_product]
  simp only [sampled1p, pixelX, Finset.sum_range_succ, Finset.card_product, Finset.card_range, Finset.range_zero, Finset.sum_empty]
  norm_num

/-- **C70 is false of the code**: on a 3x3 array with the inscribed aperture, removing the trivial phase from a pure
tilt leaves a tilt (of the opposite sign); on a 1x2 array the tilt even grows. -/
theorem C70_refuted :
    (∃ r, removeTrivialPhase 3 3 (3 / 2) false (fun i j => sampledMode 3 3 (3 / 2) 1 1 i j) = some r ∧
      discMean 3 3 (3 / 2) (fun i j => r i j * sampledMode 3 3 (3 / 2) 1 1 i j) < 0) ∧
    ∃ r, removeTrivialPhase 1 2 (51 / 100) false (fun i j => sampledMode 1 2 (51 / 100) 1 1 i j) = some r ∧
      |discMean 1 2 (51 / 100) (fun i j => r i j * sampledMode 1 2 (51 / 100) 1 1 i j)| >
        |discMean 1 2 (51 / 100) (fun i j => sampledMode 1 2 (51 / 100) 1 1 i j * sampledMode 1 2 (51 / 100) 1 1 i j)| := by
  constructor
  · obtain ⟨r, hr⟩ := remove_defined (M := 3) (N := 3) (R := 3 / 2) (by norm_num)
      (by rw [disc33]; exact Finset.ne_empty_of_mem (a := (0, 0)) (by simp)) false (fun i j => sampledMode 3 3 (3 / 2) 1 1 i j)
    refine ⟨r, hr, ?_⟩
    rw [C70_partial (by norm_num) _ hr (.inl rfl), tilt33,
      discMean_congr (f := fun i j => sampledMode 3 3 (3 / 2) 1 1 i j * sampledMode 3 3 (3 / 2) 1 1 i j)
        (g := fun i j => sampledMode 3 3 (3 / 2) 1 1 i j ^ 2) fun ij _ => (sq _).symm, tilt33]
    norm_num
  · obtain ⟨r, hr⟩ := remove_defined (M := 1) (N := 2) (R := 51 / 100) (by norm_num)
      (by rw [disc12]; exact Finset.ne_empty_of_mem (a := (0, 0)) (by simp)) false (fun i j => sampledMode 1 2 (51 / 100) 1 1 i j)
    refine ⟨r, hr, ?_⟩
    rw [C70_partial (by norm_num) _ hr (.inl rfl), tilt12,
      discMean_congr (f := fun i j => sampledMode 1 2 (51 / 100) 1 1 i j * sampledMode 1 2 (51 / 100) 1 1 i j)
        (g := fun i j => sampledMode 1 2 (51 / 100) 1 1 i j ^ 2) fun ij _ => (sq _).symm, tilt12, abs_mul]
    norm_num [abs_of_neg, abs_of_pos]

/-- C70: the hypotheses of `C70_square_partial` hold for that tilt. -/
example : discMean 3 3 (3 / 2) (fun i j => sampledMode 3 3 (3 / 2) 1 1 i j * sampledMode 3 3 (3 / 2) 1 1 i j) ≠ 0 := by
  rw [discMean_congr (g := fun i j => sampledMode 3 3 (3 / 2) 1 1 i j ^ 2) fun ij _ => (sq _).symm, tilt33]
  norm_num

/-! ## C71 -/

theorem loop_coeffs (ex : Bool) (f : ℕ → ℕ → ℝ) (T : ℕ) :
    (decomposeLoop M N R ex f T).1 = (List.range T).map (coefficient M N R ex f) := by
  induction T with
  | zero => rfl
  | succ k ih => simp only [decomposeLoop, ih, List.range_succ, List.map_append, List.map_cons, List.map_nil]

theorem loop_map (ex : Bool) (f : ℕ → ℕ → ℝ) (T : ℕ) (i j : ℕ) :
    (decomposeLoop M N R ex f T).2 i j =
      ∑ k ∈ Finset.range T, coefficient M N R ex f k * mode M N R (ansi k).1 (ansi k).2 ex i j := by
  induction T with
  | zero => rfl
  | succ k ih => simp only [decomposeLoop, Finset.sum_range_succ, ih]

theorem decompose_some {T : ℕ} {ex : Bool} {f : ℕ → ℕ → ℝ} {d : List ℝ × (ℕ → ℕ → ℝ)}
    (h : zernikeDecomposition M N R T ex f = some d) : d = decomposeLoop M N R ex f T := by
  unfold zernikeDecomposition at h
  split_ifs at h with h1 h2
  · injection h with h
    subst h1
    exact h.symm
  · injection h with h
    exact h.symm

theorem coefficient_eq (hR : 0 < R) (ex : Bool) (f : ℕ → ℕ → ℝ) (k : ℕ) :
    coefficient M N R ex f k = discMean M N R (fun i j => f i j * sampledMode M N R (ansi k).1 (ansi k).2 i j) := by
  unfold coefficient
  rw [project_eq]
  exact discMean_congr fun ij hij => by rw [mode_inside (C66_bijection.1 k) hR _ hij]

/-- **C71.** `zernike_decomposition` is defined on every non-empty aperture; it returns `num_terms` coefficients, and
coefficient `k` is the average over the aperture of the phase map times the mode with ANSI index `k` (so fewer terms
give a prefix, and `extrapolate` does not matter); the reconstructed map is the sum of coefficient times mode, cut off
beyond the radius unless extrapolated. -/
theorem C71_structure (hR : 0 < R) (f : ℕ → ℕ → ℝ) (T : ℕ) (ex : Bool) :
    (disc M N R ≠ ∅ → ∃ d, zernikeDecomposition M N R T ex f = some d) ∧
    ∀ d, zernikeDecomposition M N R T ex f = some d → d.1.length = T ∧
      (∀ k, (hk : k < d.1.length) → d.1[k] = discMean M N R (fun i j => f i j * sampledMode M N R (ansi k).1 (ansi k).2 i j)) ∧
      ∀ i j, d.2 i j = if ex = false ∧ R ^ 2 < pixelX N j ^ 2 + pixelY M i ^ 2 then 0
        else ∑ k ∈ Finset.range T, d.1.getD k 0 * sampledMode M N R (ansi k).1 (ansi k).2 i j := by
  constructor
  · intro hne
    unfold zernikeDecomposition
    split_ifs with h1 h2
    · exact ⟨_, rfl⟩
    · rw [aperture_eq] at h2
      exact absurd h2 (by rintro (h | h); exacts [hR.ne' h, hne h])
    · exact ⟨_, rfl⟩
  · intro d hd
    have hd := decompose_some hd
    have hc : d.1 = (List.range T).map (coefficient M N R ex f) := by rw [hd, loop_coeffs]
    have hl : d.1.length = T := by rw [hc, List.length_map, List.length_range]
    refine ⟨hl, fun k hk => ?_, fun i j => ?_⟩
    · simp only [hc, List.getElem_map, List.getElem_range]
      exact coefficient_eq hR ex f k
    · rw [hd, loop_map, ← hd]
      have hk : ∀ k ∈ Finset.range T, coefficient M N R ex f k = d.1.getD k 0 := by
        intro k hk
        rw [Finset.mem_range] at hk
        rw [hc, List.getD_eq_getElem?_getD, List.getElem?_map, List.getElem?_range hk]
        rfl
      split_ifs with hx
      · obtain ⟨rfl, hx⟩ := hx
        exact Finset.sum_eq_zero fun k _ => by rw [mode_outside (C66_bijection.1 k) hR hx, mul_zero]
      · exact Finset.sum_congr rfl fun k hk' => by rw [hk k hk', mode_eq (C66_bijection.1 k) hR, if_neg hx]

/-- **C71.** Fewer terms give a prefix. -/
theorem C71_prefix (f : ℕ → ℕ → ℝ) {T T' : ℕ} (hT : T ≤ T') (ex : Bool) {d d' : List ℝ × (ℕ → ℕ → ℝ)}
    (h : zernikeDecomposition M N R T ex f = some d) (h' : zernikeDecomposition M N R T' ex f = some d') :
    d.1 = d'.1.take T := by
  rw [decompose_some h, decompose_some h', loop_coeffs, loop_coeffs, ← List.map_take, List.take_range, min_eq_left hT]

/-- **C71.** The coefficients do not depend on `extrapolate`. -/
theorem C71_extrapolate (hR : 0 < R) (f : ℕ → ℕ → ℝ) (T : ℕ) {d d' : List ℝ × (ℕ → ℕ → ℝ)}
    (h : zernikeDecomposition M N R T false f = some d) (h' : zernikeDecomposition M N R T true f = some d') :
    d.1 = d'.1 := by
  rw [decompose_some h, decompose_some h', loop_coeffs, loop_coeffs]
  exact List.map_congr_left fun k _ => by rw [coefficient_eq hR, coefficient_eq hR]

/-- **C71.** The coefficients and the reconstruction are linear in the phase map. -/
theorem C71_linear (f g : ℕ → ℕ → ℝ) (a b : ℝ) (T : ℕ) (ex : Bool) {df dg d : List ℝ × (ℕ → ℕ → ℝ)}
    (hf : zernikeDecomposition M N R T ex f = some df) (hg : zernikeDecomposition M N R T ex g = some dg)
    (h : zernikeDecomposition M N R T ex (fun i j => a * f i j + b * g i j) = some d) :
    (∀ k, d.1.getD k 0 = a * df.1.getD k 0 + b * dg.1.getD k 0) ∧ ∀ i j, d.2 i j = a * df.2 i j + b * dg.2 i j := by
  have hl : ∀ k, coefficient M N R ex (fun i j => a * f i j + b * g i j) k = a * coefficient M N R ex f k + b * coefficient M N R ex g k := by
    intro k
    unfold coefficient
    simp only [project_eq]
    rw [← discMean_mul, ← discMean_mul, ← discMean_add]
    exact discMean_congr fun ij _ => by ring
  rw [decompose_some h, decompose_some hf, decompose_some hg]
  constructor
  · intro k
    simp only [loop_coeffs, List.getD_eq_getElem?_getD, List.getElem?_map]
    by_cases hk : k < T
    · simp only [List.getElem?_range hk, Option.map_some, Option.getD_some, hl]
    · have : (List.range T)[k]? = none := List.getElem?_eq_none (by simpa using hk)
      simp only [this, Option.map_none, Option.getD_none]
      ring
  · intro i j
    simp only [loop_map, hl, Finset.mul_sum, ← Finset.sum_add_distrib]
    exact Finset.sum_congr rfl fun k _ => by ring

/-- C71: a decomposition into ten terms exists on a 3x3 array. -/
example (f : ℕ → ℕ → ℝ) : ∃ d, zernikeDecomposition 3 3 (3 / 2) 10 true f = some d :=
  (C71_structure (by norm_num) f 10 true).1 (by rw [disc33]; exact Finset.ne_empty_of_mem (a := (0, 0)) (by simp))

/-! ## C72 -/

/-- The phase map synthesised from `T` Zernike coefficients. -/
def synthesised (M N : ℕ) (R : ℝ) (T : ℕ) (a : ℕ → ℝ) (i j : ℕ) : ℝ :=
  ∑ l ∈ Finset.range T, a l * sampledMode M N R (ansi l).1 (ansi l).2 i j

/-- **C72 (partial).** The coefficients returned for a synthesised map are the original ones multiplied with the Gram
matrix of the sampled modes; so they are recovered exactly if the sampled modes are orthonormal.  Missing: on a pixel
array they are not (`C72_refuted`), only in the limit of large apertures (`C72_limit`). -/
theorem C72_partial (hR : 0 < R) (T : ℕ) (a : ℕ → ℝ) (ex : Bool) {d : List ℝ × (ℕ → ℕ → ℝ)}
    (h : zernikeDecomposition M N R T ex (synthesised M N R T a) = some d) :
    (∀ k < T, d.1.getD k 0 = ∑ l ∈ Finset.range T, a l *
      discMean M N R (fun i j => sampledMode M N R (ansi l).1 (ansi l).2 i j * sampledMode M N R (ansi k).1 (ansi k).2 i j)) ∧
    ((∀ k < T, ∀ l < T, discMean M N R (fun i j => sampledMode M N R (ansi l).1 (ansi l).2 i j * sampledMode M N R (ansi k).1 (ansi k).2 i j)
      = if l = k then 1 else 0) → ∀ k < T, d.1.getD k 0 = a k) := by
  have hg : ∀ k < T, d.1.getD k 0 = ∑ l ∈ Finset.range T, a l *
      discMean M N R (fun i j => sampledMode M N R (ansi l).1 (ansi l).2 i j * sampledMode M N R (ansi k).1 (ansi k).2 i j) := by
    intro k hk
    rw [decompose_some h, loop_coeffs, List.getD_eq_getElem?_getD, List.getElem?_map, List.getElem?_range hk, Option.map_some,
      Option.getD_some, coefficient_eq hR]
    unfold synthesised
    simp only [Finset.sum_mul]
    rw [discMean_sum]
    refine Finset.sum_congr rfl fun l _ => ?_
    rw [← discMean_mul]
    exact discMean_congr fun ij _ => by ring
  refine ⟨hg, fun ho k hk => ?_⟩
  rw [hg k hk, Finset.sum_congr rfl fun l hl => by rw [ho k hk l (Finset.mem_range.mp hl)]]
  simp [hk]

/-- **C72 is false of the code**: on a 3x3 array with the inscribed aperture a pure tilt (third ANSI mode, coefficient
1) is decomposed into the coefficient 32/27. -/
theorem C72_refuted : ∃ d, zernikeDecomposition 3 3 (3 / 2) 3 false
      (synthesised 3 3 (3 / 2) 3 fun l => if l = 2 then 1 else 0) = some d ∧ d.1.getD 2 0 = 32 / 27 := by
  obtain ⟨d, hd⟩ := (C71_structure (M := 3) (N := 3) (R := 3 / 2) (by norm_num)
    (synthesised 3 3 (3 / 2) 3 fun l => if l = 2 then 1 else 0) 3 false).1
    (by rw [disc33]; exact Finset.ne_empty_of_mem (a := (0, 0)) (by simp))
  refine ⟨d, hd, ?_⟩
  rw [(C72_partial (by norm_num) 3 _ false hd).1 2 (by norm_num)]
  have e : ansi 2 = (1, 1) := by
    rw [ansi_eq (n := 1) (by norm_num) (by norm_num)]
    norm_num
  simp only [ite_mul, one_mul, zero_mul, Finset.sum_ite_eq', Finset.mem_range]
  rw [if_pos (by norm_num), e, ← tilt33]
  exact discMean_congr fun ij _ => (sq _).symm

end PySLM2.Analysis
