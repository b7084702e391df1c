import Verif.Lemmas.HermiteFourier
import Verif.Props.Continuum

/-!
# C112: Hermite-Gaussian beams keep their shape in the focal plane
-/

noncomputable section

open MeasureTheory Finset Complex

namespace PySLM2.Sim

open Riemann Spec

theorem hermite_values {s : Sim} {h : Profile.Heap} {u : ℕ → ℕ → ℂ} {f : Profile.Prof} {h0 : Profile.Heap} {x0 y0 amp w : ℝ}
    {n m : ℕ} (hw : 0 < w) (hr : Profile.New.run h0 (.hg x0 y0 amp w n m) = .ok (h, f)) (hin : InputField s h (.prof f) u)
    {i j : ℕ} (hi : i < s.dev.slm.Ny) (hj : j < s.dev.slm.Nx) :
    u i j = ((amp * Profile.line n x0 w (s.dev.slm.fourierGrid.1.get i j) *
      Profile.line m y0 w (s.dev.slm.fourierGrid.2.get i j) : ℝ) : ℂ) := by
  have h1 := input_values hin hi hj
  rw [Profile.C56_formula h0 x0 y0 amp w n m hw.ne' hr] at h1
  injection h1 with h1
  rw [← h1]
  congr 1
  unfold Spec.hermiteGauss
  rw [Profile.line_eq, Profile.line_eq, neg_div, add_div, neg_add, Real.exp_add]
  ring

theorem hermiteSpot_eq {sc x0 y0 amp w : ℝ} (hw : 0 < w) (hsc : sc ≠ 0) (n m : ℕ) (ξ η : ℝ) :
    hermiteSpot sc x0 y0 amp w n m ξ η = ((1 / sc : ℝ) : ℂ) * ((amp : ℂ) *
      ((∫ t : ℝ, (Profile.line n x0 w t : ℂ) * cexp (I * ((2 * Real.pi * ξ / sc : ℝ) : ℂ) * t)) *
        ∫ t : ℝ, (Profile.line m y0 w t : ℂ) * cexp (I * ((2 * Real.pi * η / sc : ℝ) : ℂ) * t))) := by
  rw [Profile.line_fourier n x0 _ hw, Profile.line_fourier m y0 _ hw]
  have ex : cexp (2 * Real.pi * I * ((ξ * x0 + η * y0 : ℝ) : ℂ) / ((sc : ℝ) : ℂ)) =
      cexp (I * ((2 * Real.pi * ξ / sc : ℝ) : ℂ) * x0) * cexp (I * ((2 * Real.pi * η / sc : ℝ) : ℂ) * y0) := by
    rw [← Complex.exp_add]
    congr 1
    push_cast
    ring
  have hl : ∀ (k : ℕ) (z : ℝ), Profile.hermiteGaussFun k (2 * Real.pi * z / sc * w / √2) =
      Profile.line k 0 (sc / (Real.pi * w)) z := by
    intro k z
    unfold Profile.line
    congr 1
    have h2 : √2 * √2 = 2 := Real.mul_self_sqrt (by norm_num)
    have h2' : √2 ≠ 0 := by positivity
    field_simp
    rw [sq, h2, sub_zero]
  rw [hl, hl, Profile.line_eq, Profile.line_eq]
  unfold hermiteSpot hermiteGauss
  rw [ex, neg_div, add_div, neg_add, Real.exp_add]
  have hpi : ((√Real.pi : ℝ) : ℂ) * ((√Real.pi : ℝ) : ℂ) = ((Real.pi : ℝ) : ℂ) := by
    rw [← ofReal_mul, Real.mul_self_sqrt Real.pi_pos.le]
  push_cast
  rw [← hpi, pow_add]
  ring

/-- **C112.** A beam `HermiteGaussian(x0, y0, a, w, n, m)` on an SLM that does not modulate it is focused to the
Hermite-Gaussian mode of the same order and of waist `λf/(πw)`: for every accuracy `ε` and every part `[-K, K]²` of the
image plane there are a pixel size and an extent such that every simulation with pixels at most that large and an SLM at
least that large shows the spot with that accuracy at all pixels there. -/
theorem C112_hermite_spot {x0 y0 amp w sc : ℝ} (hw : 0 < w) (hsc : sc ≠ 0) (n m : ℕ) {ε K : ℝ} (hε : 0 < ε) :
    ∃ δ > 0, ∃ T, ∀ {s : Sim} {px py : ℕ} {h0 h : Profile.Heap} {f : Profile.Prof} {u : ℕ → ℕ → ℂ},
      Profile.New.run h0 (.hg x0 y0 amp w n m) = .ok (h, f) → Ready s px py h (.prof f) u (fun _ _ => 1) →
      s.dev.slm.wavelength * s.dev.slm.focal = sc → 0 < s.dev.slm.ps → s.dev.slm.ps ≤ δ →
      T ≤ s.dev.slm.Nx * s.dev.slm.ps / 2 → T ≤ s.dev.slm.Ny * s.dev.slm.ps / 2 →
      ∃ img g, (s.propagate h (.prof f)).1.imageField = some img ∧ s.imagePaddedGrid = .ok g ∧
        ∀ k < s.dev.slm.Ny + 2 * py, ∀ l < s.dev.slm.Nx + 2 * px,
          let ξ := g.1.get k l
          let η := g.2.get k l
          |ξ| ≤ K → |η| ≤ K →
          |‖img.get k l‖ - (|hermiteGauss 0 0 (Real.pi * w ^ 2 * amp / sc) (sc / (Real.pi * w)) n m ξ η|)| ≤ ε ∧
          (Even s.dev.slm.Nx → Even s.dev.slm.Ny → ‖img.get k l - hermiteSpot sc x0 y0 amp w n m ξ η‖ ≤ ε) := by
  set M := max (∫ t : ℝ, ‖(Profile.line n x0 w t : ℂ)‖) (∫ t : ℝ, ‖(Profile.line m y0 w t : ℂ)‖) with hM
  have hM0 : 0 ≤ M := le_max_of_le_left (integral_nonneg fun _ => norm_nonneg _)
  have hsc' : 0 < |sc| := abs_pos.mpr hsc
  set ε₁ := min 1 (ε * |sc| / ((|amp| + 1) * (2 * M + 1))) with hε₁
  have hpos : 0 < ε₁ := lt_min one_pos (by positivity)
  have hint : ∀ (k : ℕ) (c : ℝ), Integrable fun t : ℝ => (Profile.line k c w t : ℂ) := fun k c =>
    (Profile.integrable_line k c hw).ofReal (𝕜 := ℂ)
  have hint' : ∀ (k : ℕ) (c : ℝ), Integrable fun t : ℝ => (Profile.line' k c w t : ℂ) := fun k c =>
    (Profile.integrable_line' k c hw).ofReal (𝕜 := ℂ)
  have hcont : ∀ (k : ℕ) (c : ℝ), Continuous fun t : ℝ => (Profile.line' k c w t : ℂ) := fun k c =>
    continuous_ofReal.comp (Profile.continuous_line' k c w)
  obtain ⟨δ₁, hδ₁, T₁, -, H₁⟩ := Profile.oscillating_sum (K := 2 * Real.pi * K / |sc|)
    (fun t => (Profile.line_deriv n x0 w t).ofReal_comp) (hcont n x0) (hint n x0) (hint' n x0) hpos
  obtain ⟨δ₂, hδ₂, T₂, -, H₂⟩ := Profile.oscillating_sum (K := 2 * Real.pi * K / |sc|)
    (fun t => (Profile.line_deriv m y0 w t).ofReal_comp) (hcont m y0) (hint m y0) (hint' m y0) hpos
  refine ⟨min δ₁ δ₂, lt_min hδ₁ hδ₂, max T₁ T₂, ?_⟩
  intro s px py h0 h f u hnew r hs hps hps' hx hy
  obtain ⟨-, img, g, h1, h2, -, h4⟩ := C10_fraunhofer r
  refine ⟨img, g, h1, h2, fun k hk l hl => ?_⟩
  intro ξ η hξ hη
  have hs' : s.dev.slm.scaling = sc := hs
  have hb : ‖fraunhofer s.dev.slm (fun i j => u i j * 1) ξ η - hermiteSpot sc x0 y0 amp w n m ξ η‖ ≤ ε := by
    set d := s.dev.slm with hd
    rw [fraunhofer_eq d (fun i j => u i j * 1) (fun x y => ((amp * Profile.line n x0 w x * Profile.line m y0 w y : ℝ) : ℂ))
      (fun i hi j hj => by rw [mul_one]; exact hermite_values hw hnew r.input hi hj), hermiteSpot_eq hw hsc, hs']
    have e1 : ∀ x y : ℝ, (d.ps : ℂ) ^ 2 * (((amp * Profile.line n x0 w x * Profile.line m y0 w y : ℝ) : ℂ) *
        cexp (2 * Real.pi * I * ((ξ * x + η * y : ℝ) : ℂ) / ((sc : ℝ) : ℂ))) =
        (amp : ℂ) * (((d.ps : ℂ) * ((Profile.line n x0 w x : ℂ) * cexp (I * ((2 * Real.pi * ξ / sc : ℝ) : ℂ) * x))) *
          ((d.ps : ℂ) * ((Profile.line m y0 w y : ℂ) * cexp (I * ((2 * Real.pi * η / sc : ℝ) : ℂ) * y)))) := by
      intro x y
      have ex : cexp (2 * Real.pi * I * ((ξ * x + η * y : ℝ) : ℂ) / ((sc : ℝ) : ℂ)) =
          cexp (I * ((2 * Real.pi * ξ / sc : ℝ) : ℂ) * x) * cexp (I * ((2 * Real.pi * η / sc : ℝ) : ℂ) * y) := by
        rw [← Complex.exp_add]
        congr 1
        push_cast
        ring
      rw [ex]
      push_cast
      ring
    simp only [e1]
    have e2 : ∀ (A A' : ℕ → ℂ), ∑ j ∈ range d.Nx, ∑ i ∈ range d.Ny, (amp : ℂ) * (A j * A' i) =
        (amp : ℂ) * ((∑ j ∈ range d.Nx, A j) * ∑ i ∈ range d.Ny, A' i) := by
      intro A A'
      rw [sum_mul_sum]
      simp only [mul_sum]
    rw [e2]
    have hκ : ∀ z : ℝ, |z| ≤ K → |2 * Real.pi * z / sc| ≤ 2 * Real.pi * K / |sc| := by
      intro z hz
      rw [abs_div, abs_mul, abs_of_pos (by positivity : 0 < 2 * Real.pi)]
      gcongr
    have s1 := H₁ (2 * Real.pi * ξ / sc) (-(d.Nx * d.ps / 2)) d.ps d.Nx (fun j => -(d.Nx * d.ps / 2) + j * d.ps) (hκ ξ hξ)
      hps.le (hps'.trans (min_le_left _ _)) (fun k _ => ⟨le_rfl, by nlinarith⟩) (by linarith [le_max_left T₁ T₂])
      (by linarith [le_max_left T₁ T₂])
    have s2 := H₂ (2 * Real.pi * η / sc) (-(d.Ny * d.ps / 2)) d.ps d.Ny (fun j => -(d.Ny * d.ps / 2) + (j + 1) * d.ps) (hκ η hη)
      hps.le (hps'.trans (min_le_right _ _)) (fun k _ => ⟨by nlinarith, le_rfl⟩) (by linarith [le_max_right T₁ T₂])
      (by linarith [le_max_right T₁ T₂])
    have nrm : ∀ (k : ℕ) (c κ : ℝ), (∫ t : ℝ, ‖(Profile.line k c w t : ℂ)‖) ≤ M →
        ‖∫ t : ℝ, (Profile.line k c w t : ℂ) * cexp (I * κ * t)‖ ≤ M := by
      intro k c κ hle
      refine ((norm_integral_le_integral_norm _).trans_eq ?_).trans hle
      simp only [norm_mul, Profile.norm_phase, mul_one]
    have hp := prod_error hM0 s1 s2 (nrm n x0 _ (le_max_left _ _)) (nrm m y0 _ (le_max_right _ _))
    rw [← mul_sub, ← mul_sub, norm_mul, norm_mul, norm_real, norm_real, Real.norm_eq_abs, Real.norm_eq_abs, abs_div, abs_one,
      ← mul_assoc, one_div_mul_eq_div]
    refine (mul_le_mul_of_nonneg_left hp (by positivity)).trans ?_
    have h5 : (M + ε₁) * (M + ε₁) - M ^ 2 ≤ ε₁ * (2 * M + 1) := by
      have : ε₁ ≤ 1 := min_le_left _ _
      nlinarith
    have h6 : ε₁ * ((|amp| + 1) * (2 * M + 1)) ≤ ε * |sc| := by
      rw [← le_div_iff₀ (by positivity)]
      exact min_le_right _ _
    rw [div_mul_eq_mul_div, div_le_iff₀ hsc']
    have h7 := mul_le_mul_of_nonneg_left h5 (abs_nonneg amp)
    have h8 : 0 ≤ ε₁ * (2 * M + 1) := by positivity
    linarith
  refine ⟨?_, fun hx hy => ?_⟩
  · rw [(h4 k hk l hl).1]
    have hn : ‖hermiteSpot sc x0 y0 amp w n m ξ η‖ =
        |hermiteGauss 0 0 (Real.pi * w ^ 2 * amp / sc) (sc / (Real.pi * w)) n m ξ η| := by
      unfold hermiteSpot
      rw [norm_mul, norm_mul, norm_pow, norm_I, one_pow, one_mul,
        show 2 * Real.pi * I * ((ξ * x0 + η * y0 : ℝ) : ℂ) / ((sc : ℝ) : ℂ) =
        ((2 * Real.pi * (ξ * x0 + η * y0) / sc : ℝ) : ℂ) * I by push_cast; ring, norm_exp_ofReal_mul_I, mul_one, norm_real,
        Real.norm_eq_abs]
    rw [← hn]
    exact (abs_norm_sub_norm_le _ _).trans hb
  · rw [(h4 k hk l hl).2 hx hy]
    exact hb

/-- For every pixel size and extent there is such a simulation: a square DMD with all mirrors on, with a mode of order
(1, 0). -/
example (h0 : Profile.Heap) {δ : ℝ} (hδ : 0 < δ) (T : ℝ) : ∃ (s : Sim) (h : Profile.Heap) (f : Profile.Prof) (u : ℕ → ℕ → ℂ),
    Profile.New.run h0 (.hg 1 0 3 1 1 0) = .ok (h, f) ∧ Ready s 3 1 h (.prof f) u (fun _ _ => 1) ∧
    s.dev.slm.wavelength * s.dev.slm.focal = 2 ∧ 0 < s.dev.slm.ps ∧ s.dev.slm.ps ≤ δ ∧
    T ≤ s.dev.slm.Nx * s.dev.slm.ps / 2 ∧ T ≤ s.dev.slm.Ny * s.dev.slm.ps / 2 ∧ Even s.dev.slm.Nx ∧ Even s.dev.slm.Ny := by
  obtain ⟨N, hN⟩ := exists_nat_ge (|T| / δ + 1)
  have hT : T ≤ N * δ := by
    have h1 : |T| / δ ≤ N := by linarith
    rw [div_le_iff₀ hδ] at h1
    exact (le_abs_self T).trans h1
  have hN0 : 0 < 2 * N := by
    have h1 : (0 : ℝ) < N := by
      have : 0 ≤ |T| / δ := by positivity
      linarith
    have : 0 < N := by exact_mod_cast h1
    omega
  let s : Sim := ⟨.dmd (DMD.new ⟨1, 2, 2 * N, 2 * N, δ⟩ 4 0 false) (.bool ⟨.mat (2 * N) (2 * N), fun _ _ => true⟩), 3, 1, none, none, none⟩
  obtain ⟨r, hr⟩ : ∃ r, Profile.New.run h0 (.hg 1 0 3 1 1 0) = .ok r := ⟨_, rfl⟩
  have hev := Profile.C56_formula h0 1 0 3 1 1 0 one_ne_zero hr
  obtain ⟨t, ht⟩ := (C64_profile_partial s.dev.slm r.1 r.2 true true).2 _ rfl hN0 hN0
    (fun i _ j _ => by rw [hev]; rfl)
  have hsh : t.shape = .mat s.dev.slm.Ny s.dev.slm.Nx := by
    obtain ⟨g, -, -, hs, -⟩ := (C64_profile_partial s.dev.slm r.1 r.2 true true).1 t ht
    rcases hs with hs | ⟨-, hc⟩
    · exact hs
    · have h1 := hc 1 0 2 0
      rw [hev, hev] at h1
      injection h1 with h1
      have h2 := ofReal_injective h1
      unfold Spec.hermiteGauss at h2
      simp only [← Profile.hermiteFun_rodrigues] at h2
      norm_num [Profile.hermiteFun, Profile.physHermite, Profile.aeval_two] at h2
  refine ⟨s, r.1, r.2, t.get, hr, ⟨rfl, rfl, hN0, hN0, ?_, ?_, ⟨t, ht, hsh, fun _ _ _ _ => rfl⟩,
    ⟨_, rfl, rfl, fun i _ j _ => ?_⟩⟩, ?_, hδ, le_rfl, ?_, ?_, ?_, ?_⟩
  · norm_num [s, Device.slm, DMD.new]
  · exact hδ.ne'
  · simp [Tensor.map]
  · norm_num [s, Device.slm, DMD.new]
  · simp only [s, Device.slm, DMD.new]; push_cast; linarith
  · simp only [s, Device.slm, DMD.new]; push_cast; linarith
  · exact even_two_mul N
  · exact even_two_mul N

end PySLM2.Sim
