import Verif.Spec.Aperture
import Verif.Props.Propagation

/-!
# C117: diffraction by a rectangle of mirrors
-/

noncomputable section

open Complex Finset

namespace PySLM2.Sim

open Lib Spec

theorem norm_exp_sub_one (x : ℝ) : ‖cexp (2 * Real.pi * I * x) - 1‖ = 2 * |Real.sin (Real.pi * x)| := by
  have h : cexp (2 * Real.pi * I * x) - 1 = cexp ((Real.pi * x : ℝ) * I) * (2 * I * (Real.sin (Real.pi * x) : ℂ)) := by
    have h1 : cexp (2 * Real.pi * I * x) = cexp ((Real.pi * x : ℝ) * I) * cexp ((Real.pi * x : ℝ) * I) := by
      rw [← Complex.exp_add]; congr 1; push_cast; ring
    have h2 : cexp ((Real.pi * x : ℝ) * I) * cexp (-((Real.pi * x : ℝ) * I)) = 1 := by rw [← Complex.exp_add]; simp
    rw [h1, Complex.ofReal_sin, Complex.sin]
    rw [show -((Real.pi * x : ℝ) : ℂ) * I = -((Real.pi * x : ℝ) * I) by ring]
    linear_combination h2 + (-cexp ((Real.pi * x : ℝ) * I) * cexp (-((Real.pi * x : ℝ) * I)) + cexp ((Real.pi * x : ℝ) * I) ^ 2) * Complex.I_sq
  rw [h, norm_mul, Complex.norm_exp_ofReal_mul_I, norm_mul, norm_mul, Complex.norm_I, Complex.norm_real]
  norm_num

/-- The sum over a row. -/
theorem norm_row (n : ℕ) (t : ℝ) : ‖∑ j ∈ range n, cexp (2 * Real.pi * I * ((t * j : ℝ) : ℂ))‖ = grating n t := by
  have hpow : ∀ j : ℕ, cexp (2 * Real.pi * I * ((t * j : ℝ) : ℂ)) = cexp (2 * Real.pi * I * t) ^ j := fun j => by
    rw [← Complex.exp_nat_mul]; congr 1; push_cast; ring
  simp_rw [hpow]
  have h1 := norm_exp_sub_one t
  unfold grating
  split_ifs with h
  · rw [h, abs_zero, mul_zero, norm_eq_zero, sub_eq_zero] at h1
    rw [h1]; simp
  · have hne : cexp (2 * Real.pi * I * t) ≠ 1 := fun h0 => by
      rw [h0, sub_self, norm_zero] at h1
      exact h (abs_eq_zero.mp (by linarith))
    rw [geom_sum_eq hne, norm_div, h1, ← hpow n, norm_exp_sub_one]
    rw [mul_div_mul_left _ _ two_ne_zero]
    congr 3
    ring

theorem grating_le (n : ℕ) (t : ℝ) : grating n t ≤ n := by
  rw [← norm_row]
  refine (norm_sum_le _ _).trans ?_
  have h : ∀ j ∈ range n, ‖cexp (2 * Real.pi * I * ((t * j : ℝ) : ℂ))‖ ≤ 1 := fun j _ => by
    rw [show 2 * Real.pi * I * ((t * j : ℝ) : ℂ) = ((2 * Real.pi * (t * j) : ℝ) : ℂ) * I by push_cast; ring,
      Complex.norm_exp_ofReal_mul_I]
  simpa using Finset.sum_le_sum h

theorem grating_nonneg (n : ℕ) (t : ℝ) : 0 ≤ grating n t := by
  rw [← norm_row]; exact norm_nonneg _

theorem norm_row_shift (n j0 : ℕ) (c t : ℝ) :
    ‖∑ j ∈ range n, cexp (2 * Real.pi * I * ((t * ((j0 + j : ℕ) - c) : ℝ) : ℂ))‖ = grating n t := by
  rw [← norm_row n t]
  have h : ∀ j ∈ range n, cexp (2 * Real.pi * I * ((t * ((j0 + j : ℕ) - c) : ℝ) : ℂ)) =
      cexp ((2 * Real.pi * (t * (j0 - c)) : ℝ) * I) * cexp (2 * Real.pi * I * ((t * j : ℝ) : ℂ)) := fun j _ => by
    rw [← Complex.exp_add]; congr 1; push_cast; ring
  rw [Finset.sum_congr rfl h, ← mul_sum, norm_mul, Complex.norm_exp_ofReal_mul_I, one_mul]

theorem grating_neg (n : ℕ) (t : ℝ) : grating n (-t) = grating n t := by
  unfold grating
  simp only [mul_neg, Real.sin_neg, neg_eq_zero, abs_neg]

theorem sum_block {β : Type*} [AddCommMonoid β] {n i0 M : ℕ} (h : i0 + M ≤ n) (g : ℕ → β) :
    (∑ i ∈ range n, if i0 ≤ i ∧ i < i0 + M then g i else 0) = ∑ i ∈ range M, g (i0 + i) := by
  rw [← Finset.sum_filter]
  refine Finset.sum_nbij' (fun i => i - i0) (fun i => i0 + i) ?_ ?_ ?_ ?_ ?_ <;> simp only [mem_filter, mem_range]
  · intro i hi; omega
  · intro i hi; omega
  · intro i hi; omega
  · intro i _; omega
  · intro i hi; rw [show i0 + (i - i0) = i by omega]

/-- **C117.** A uniform field `c` behind a rectangle of `M x N` pixels anywhere on the SLM, and none elsewhere, gives the
diffraction pattern of a rectangular array of sources: at every image plane pixel, with advertised coordinates `(ξ, η)`, the
modulus of the field is `|c|` times the pixel area over `wavelength f` times the patterns of the rows and the columns. -/
theorem C117_rectangle {s : Sim} {px py : ℕ} {h : Profile.Heap} {a : ProfArg} {u m : ℕ → ℕ → ℂ} (r : Ready s px py h a u m)
    {i0 j0 M N : ℕ} (hM : i0 + M ≤ s.dev.slm.Ny) (hN : j0 + N ≤ s.dev.slm.Nx) {c : ℂ}
    (hU : ∀ i < s.dev.slm.Ny, ∀ j < s.dev.slm.Nx,
      u i j * m i j = if (i0 ≤ i ∧ i < i0 + M) ∧ (j0 ≤ j ∧ j < j0 + N) then c else 0) :
    ∃ img g, (s.propagate h a).1.imageField = some img ∧ s.imagePaddedGrid = .ok g ∧
      ∀ k < s.dev.slm.Ny + 2 * py, ∀ l < s.dev.slm.Nx + 2 * px, ‖img.get k l‖ =
        ‖c‖ * s.dev.slm.ps ^ 2 / |s.dev.slm.wavelength * s.dev.slm.focal| *
          grating N (s.dev.slm.ps * g.1.get k l / (s.dev.slm.wavelength * s.dev.slm.focal)) *
          grating M (s.dev.slm.ps * g.2.get k l / (s.dev.slm.wavelength * s.dev.slm.focal)) := by
  obtain ⟨g, hg⟩ := imagePaddedGrid_ok r
  refine ⟨_, g, by rw [propagate_ready r]; rfl, hg, fun k hk l hl => ?_⟩
  simp only
  rw [propagated_image_fieldAt r hg hk hl]
  generalize g.1.get k l = ξ
  generalize g.2.get k l = η
  set S := s.dev.slm with hS
  have hsc : S.scaling = S.wavelength * S.focal := rfl
  unfold fieldAt
  rw [hsc]
  set sc := S.wavelength * S.focal with hsc'
  have hsum : (∑ i ∈ range S.Ny, ∑ j ∈ range S.Nx, (u i j * m i j) *
      cexp ((2 * Real.pi * I) * ((ξ * ((j : ℝ) - (S.Nx / 2 : ℕ)) * S.ps / sc + η * ((S.Ny / 2 : ℕ) - (i : ℝ)) * S.ps / sc : ℝ) : ℂ))) =
      c * ((∑ i ∈ range M, cexp (2 * Real.pi * I * (((-(S.ps * η / sc)) * ((i0 + i : ℕ) - (S.Ny / 2 : ℕ)) : ℝ) : ℂ))) *
        ∑ j ∈ range N, cexp (2 * Real.pi * I * (((S.ps * ξ / sc) * ((j0 + j : ℕ) - (S.Nx / 2 : ℕ)) : ℝ) : ℂ))) := by
    rw [Finset.sum_mul_sum, mul_sum, ← sum_block hM (fun i => c * ∑ j ∈ range N,
      cexp (2 * Real.pi * I * (((-(S.ps * η / sc)) * ((i : ℕ) - (S.Ny / 2 : ℕ)) : ℝ) : ℂ)) *
      cexp (2 * Real.pi * I * (((S.ps * ξ / sc) * ((j0 + j : ℕ) - (S.Nx / 2 : ℕ)) : ℝ) : ℂ)))]
    refine Finset.sum_congr rfl fun i hi => ?_
    rw [← sum_block hN (fun j => 
      cexp (2 * Real.pi * I * (((-(S.ps * η / sc)) * ((i : ℕ) - (S.Ny / 2 : ℕ)) : ℝ) : ℂ)) *
      cexp (2 * Real.pi * I * (((S.ps * ξ / sc) * ((j : ℕ) - (S.Nx / 2 : ℕ)) : ℝ) : ℂ)))]
    split_ifs with h1
    · rw [mul_sum]
      refine Finset.sum_congr rfl fun j hj => ?_
      rw [hU i (mem_range.mp hi) j (mem_range.mp hj)]
      split_ifs with h2 h3 h3
      · rw [← Complex.exp_add]
        congr 2
        push_cast
        ring
      · exact absurd h2.2 h3
      · exact absurd ⟨h1, h3⟩ h2
      · ring
    · refine Finset.sum_eq_zero fun j hj => ?_
      rw [hU i (mem_range.mp hi) j (mem_range.mp hj), if_neg fun h2 => h1 h2.1, zero_mul]
  rw [hsum, norm_mul, norm_mul, norm_mul, norm_row_shift, norm_row_shift, grating_neg, Complex.norm_real, Real.norm_eq_abs, abs_div,
    abs_of_nonneg (by positivity : (0 : ℝ) ≤ S.ps ^ 2)]
  ring

/-- **C117**, dark lines and the peak: the field vanishes where the path difference between the edges of the rectangle is a
whole number of wavelengths (but not that between neighbouring pixels), nowhere exceeds `|c|` times the area of the rectangle
over `wavelength f`, and has this value on the axis. -/
theorem C117_dark_lines {s : Sim} {px py : ℕ} {h : Profile.Heap} {a : ProfArg} {u m : ℕ → ℕ → ℂ} (r : Ready s px py h a u m)
    {i0 j0 M N : ℕ} (hM : i0 + M ≤ s.dev.slm.Ny) (hN : j0 + N ≤ s.dev.slm.Nx) {c : ℂ}
    (hU : ∀ i < s.dev.slm.Ny, ∀ j < s.dev.slm.Nx,
      u i j * m i j = if (i0 ≤ i ∧ i < i0 + M) ∧ (j0 ≤ j ∧ j < j0 + N) then c else 0) :
    ∃ img g, (s.propagate h a).1.imageField = some img ∧ s.imagePaddedGrid = .ok g ∧
      ∀ k < s.dev.slm.Ny + 2 * py, ∀ l < s.dev.slm.Nx + 2 * px,
        (∀ n : ℤ, ¬(N : ℤ) ∣ n → N * s.dev.slm.ps * g.1.get k l = n * (s.dev.slm.wavelength * s.dev.slm.focal) → img.get k l = 0) ∧
        (∀ n : ℤ, ¬(M : ℤ) ∣ n → M * s.dev.slm.ps * g.2.get k l = n * (s.dev.slm.wavelength * s.dev.slm.focal) → img.get k l = 0) ∧
        ‖img.get k l‖ ≤ ‖c‖ * ((M * s.dev.slm.ps) * (N * s.dev.slm.ps)) / |s.dev.slm.wavelength * s.dev.slm.focal| ∧
        (g.1.get k l = 0 → g.2.get k l = 0 →
          ‖img.get k l‖ = ‖c‖ * ((M * s.dev.slm.ps) * (N * s.dev.slm.ps)) / |s.dev.slm.wavelength * s.dev.slm.focal|) := by
  obtain ⟨img, g, h1, h2, h3⟩ := C117_rectangle r hM hN hU
  refine ⟨img, g, h1, h2, fun k hk l hl => ?_⟩
  have h4 := h3 k hk l hl
  have hsc := r.hsc
  generalize g.1.get k l = ξ at *
  generalize g.2.get k l = η at *
  generalize s.dev.slm.wavelength * s.dev.slm.focal = sc at *
  generalize s.dev.slm.ps = ps at *
  have hdark : ∀ (K : ℕ) (x : ℝ) (n : ℤ), ¬(K : ℤ) ∣ n → K * ps * x = n * sc → grating K (ps * x / sc) = 0 := by
    intro K x n hn hx
    have e : K * (Real.pi * (ps * x / sc)) = n * Real.pi := by field_simp; linarith
    have hs : Real.sin (Real.pi * (ps * x / sc)) ≠ 0 := fun h0 => by
      obtain ⟨q, hq⟩ := Real.sin_eq_zero_iff.mp h0
      rw [← hq] at e
      have : (K : ℝ) * q = n := mul_right_cancel₀ Real.pi_ne_zero (by linarith)
      exact hn ⟨q, by exact_mod_cast this.symm⟩
    unfold grating
    rw [if_neg hs, e, Real.sin_int_mul_pi]; simp
  refine ⟨fun n hn hx => ?_, fun n hn hx => ?_, ?_, fun hx hy => ?_⟩
  · rw [← norm_eq_zero, h4, hdark N ξ n hn hx]; ring
  · rw [← norm_eq_zero, h4, hdark M η n hn hx]; ring
  · rw [h4]
    have hpos : 0 ≤ ‖c‖ * ps ^ 2 / |sc| := by positivity
    calc _ ≤ ‖c‖ * ps ^ 2 / |sc| * N * M := by
          gcongr
          · exact grating_nonneg _ _
          · exact grating_le _ _
          · exact grating_le _ _
      _ = _ := by ring
  · rw [h4, hx, hy]
    have h0 : ∀ K, grating K (ps * 0 / sc) = K := fun K => by unfold grating; rw [if_pos]; simp
    rw [h0, h0]; ring

/-- **C117**, without padding: a uniformly illuminated SLM that does not modulate gives a single bright image pixel, the one at
`(Ny//2, Nx//2)`, with the advertised coordinates `(0, 0)`. -/
theorem C117_single_pixel {s : Sim} {h : Profile.Heap} {a : ProfArg} {u m : ℕ → ℕ → ℂ} (r : Ready s 0 0 h a u m) {c : ℂ}
    (hU : ∀ i < s.dev.slm.Ny, ∀ j < s.dev.slm.Nx, u i j * m i j = c) :
    ∃ img, (s.propagate h a).1.imageField = some img ∧
      ∀ k < s.dev.slm.Ny, ∀ l < s.dev.slm.Nx, ‖img.get k l‖ =
        if k = s.dev.slm.Ny / 2 ∧ l = s.dev.slm.Nx / 2 then
          ‖c‖ * ((s.dev.slm.Ny * s.dev.slm.ps) * (s.dev.slm.Nx * s.dev.slm.ps)) / |s.dev.slm.wavelength * s.dev.slm.focal|
        else 0 := by
  obtain ⟨img, g, h1, h2, h3⟩ := C117_dark_lines r (i0 := 0) (j0 := 0) (M := s.dev.slm.Ny) (N := s.dev.slm.Nx) (c := c)
    (by omega) (by omega) (fun i hi j hj => by rw [hU i hi j hj, if_pos (by omega)])
  refine ⟨img, h1, fun k hk l hl => ?_⟩
  obtain ⟨d1, d2, -, d4⟩ := h3 k (by omega) l (by omega)
  have hx : g.1.get k l = ((l : ℝ) - (s.dev.slm.Nx / 2 : ℕ)) * (s.dev.slm.wavelength * s.dev.slm.focal) /
      (s.dev.slm.Nx * s.dev.slm.ps) ∧ g.2.get k l = ((s.dev.slm.Ny / 2 : ℕ) - (k : ℝ)) *
      (s.dev.slm.wavelength * s.dev.slm.focal) / (s.dev.slm.Ny * s.dev.slm.ps) := by
    replace h2 := (imagePaddedGrid_inv h2).2.2
    unfold imageGridOf at h2
    split_ifs at h2
    obtain rfl := Except.ok.inj h2
    rw [Nx_eq r.hpx, Ny_eq r.hpy]
    simp only [mul_zero, add_zero]
    rw [imageX_eq hl, imageY_eq hk]
    exact ⟨(mul_div_assoc _ _ _).symm, (mul_div_assoc _ _ _).symm⟩
  obtain ⟨hx, hy⟩ := hx
  have hps := r.hps
  have hNx : (s.dev.slm.Nx : ℝ) ≠ 0 := by exact_mod_cast r.hNx.ne'
  have hNy : (s.dev.slm.Ny : ℝ) ≠ 0 := by exact_mod_cast r.hNy.ne'
  have hnd : ∀ n x y : ℕ, x < n → y < n → x ≠ y → ¬(n : ℤ) ∣ (x : ℤ) - y := fun n x y h1 h2 h3 h4 => by
    have := Int.eq_zero_of_abs_lt_dvd h4 (by rw [abs_lt]; omega)
    omega
  split_ifs with hkl
  · obtain ⟨rfl, rfl⟩ := hkl
    exact d4 (by rw [hx]; ring) (by rw [hy]; ring)
  · rw [norm_eq_zero]
    by_cases hl' : l = s.dev.slm.Nx / 2
    · refine d2 ((s.dev.slm.Ny / 2 : ℕ) - (k : ℤ)) (hnd _ _ _ (by omega) hk fun h0 => hkl ⟨h0.symm, hl'⟩) ?_
      rw [hy, Int.cast_sub, Int.cast_natCast, Int.cast_natCast]
      field_simp
    · refine d1 ((l : ℤ) - (s.dev.slm.Nx / 2 : ℕ)) (hnd _ _ _ hl (by omega) hl') ?_
      rw [hx, Int.cast_sub, Int.cast_natCast, Int.cast_natCast]
      field_simp

/-- The hypotheses of C117 hold for a 2 x 1 rectangle of mirrors switched on by the state, with paddings. -/
example (h : Profile.Heap) : ∃ s a u m, Ready s 3 1 h a u m ∧ 0 + 2 ≤ s.dev.slm.Ny ∧ 2 + 1 ≤ s.dev.slm.Nx ∧
    ∀ i < s.dev.slm.Ny, ∀ j < s.dev.slm.Nx,
      u i j * m i j = if (0 ≤ i ∧ i < 0 + 2) ∧ (2 ≤ j ∧ j < 2 + 1) then 1 + I else 0 := by
  refine ⟨⟨.dmd exDmd (.bool ⟨.mat 2 4, fun _ j => decide (j = 2)⟩), 3, 1, none, none, none⟩,
    .ndarray .cplx ⟨.mat 2 4, fun _ _ => 1 + I⟩, fun _ _ => 1 + I, fun _ j => if j = 2 then 1 else 0,
    ⟨rfl, rfl, by decide, by decide, ?_, ?_, ⟨_, rfl, rfl, fun _ _ _ _ => rfl⟩, ⟨_, rfl, rfl, fun i _ j _ => ?_⟩⟩,
    by decide, by decide, fun i hi j hj => ?_⟩
  · norm_num [Device.slm, exDmd]
  · norm_num [Device.slm, exDmd]
  · simp [Tensor.map]
  · have hi : i < 2 := hi
    beta_reduce
    by_cases hj2 : j = 2
    · rw [if_pos hj2, if_pos (by omega), mul_one]
    · rw [if_neg hj2, if_neg (by omega), mul_zero]

/-- The hypotheses of `C117_single_pixel`. -/
example (h : Profile.Heap) : ∃ s a u m, Ready s 0 0 h a u m ∧ ∀ i < s.dev.slm.Ny, ∀ j < s.dev.slm.Nx, u i j * m i j = 3 * I := by
  refine ⟨⟨.dmd exDmd exDmd.allOn, 0, 0, none, none, none⟩,
    .ndarray .cplx ⟨.mat 2 4, fun _ _ => 3 * I⟩, fun _ _ => 3 * I, fun _ _ => 1,
    ⟨rfl, rfl, by decide, by decide, ?_, ?_, ⟨_, rfl, rfl, fun _ _ _ _ => rfl⟩, ⟨_, rfl, rfl, fun i _ j _ => ?_⟩⟩,
    fun i hi j hj => mul_one _⟩
  · norm_num [Device.slm, exDmd]
  · norm_num [Device.slm, exDmd]
  · simp [Tensor.map]

end PySLM2.Sim
