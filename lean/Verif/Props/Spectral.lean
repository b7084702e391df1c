import Verif.Lemmas.Poisson
import Verif.Props.Continuum
import Verif.Props.Geometry
import Verif.Spec.Spectral

/-!
# C170: Gaussian beams are simulated up to exponentially small errors
-/

noncomputable section

open MeasureTheory Finset Complex

namespace PySLM2.Sim

open Riemann Spec

theorem imageGrid_x {g : Tensor ℝ × Tensor ℝ} {Nx Ny : ℕ} {dx dy : ℝ} (hg : IsImageGrid g Nx Ny dx dy) (i : ℕ) {j : ℕ} (hj : j < Nx) :
    g.1.get i j = ((j : ℝ) - (Nx / 2 : ℕ)) * dx := by
  have h : ∀ j < Nx, g.1.get i j = g.1.get i 0 + j * dx := by
    intro j
    induction j with
    | zero => intro _; simp
    | succ j ih =>
      intro hj
      have := hg.stepX i j hj
      rw [ih (by omega)] at this
      push_cast
      linarith
  have h0 := hg.originX i
  rw [h _ (by omega)] at h0
  rw [h j hj]
  linarith

theorem imageGrid_y {g : Tensor ℝ × Tensor ℝ} {Nx Ny : ℕ} {dx dy : ℝ} (hg : IsImageGrid g Nx Ny dx dy) {i : ℕ} (j : ℕ) (hi : i < Ny) :
    g.2.get i j = -(((i : ℝ) - (Ny / 2 : ℕ)) * dy) := by
  have h : ∀ i < Ny, g.2.get i j = g.2.get 0 j - i * dy := by
    intro i
    induction i with
    | zero => intro _; simp
    | succ i ih =>
      intro hi
      have := hg.stepY i j hi
      rw [ih (by omega)] at this
      push_cast
      linarith
  have h0 := hg.originY j
  rw [h _ (by omega)] at h0
  rw [h i hi]
  linarith

theorem offset_le {n j : ℕ} (hj : j < n) : |(j : ℝ) - (n / 2 : ℕ)| ≤ n / 2 := by
  have h1 : ((n / 2 : ℕ) : ℝ) ≤ n / 2 := Nat.cast_div_le
  have h2 : (n : ℝ) ≤ 2 * (n / 2 : ℕ) + 1 := by exact_mod_cast (by omega : n ≤ 2 * (n / 2) + 1)
  have h3 : (j : ℝ) + 1 ≤ n := by exact_mod_cast hj
  have h4 : (0 : ℝ) ≤ j := by positivity
  rw [abs_le]
  constructor <;> linarith

/-- All points of the image plane grid are in the range in which the samples distinguish spatial frequencies. -/
theorem freq_le {n j : ℕ} (hj : j < n) {sc ps : ℝ} (hsc : sc ≠ 0) (hps : 0 < ps) :
    |2 * Real.pi * (((j : ℝ) - (n / 2 : ℕ)) * (sc / (n * ps))) / sc| * ps ≤ Real.pi := by
  have hn : (0 : ℝ) < n := by exact_mod_cast (by omega : 0 < n)
  have e : 2 * Real.pi * (((j : ℝ) - (n / 2 : ℕ)) * (sc / (n * ps))) / sc = 2 * Real.pi / (n * ps) * ((j : ℝ) - (n / 2 : ℕ)) := by
    field_simp
  rw [e, abs_mul, abs_of_pos (by positivity : 0 < 2 * Real.pi / (n * ps))]
  have := offset_le hj
  calc 2 * Real.pi / (n * ps) * |(j : ℝ) - (n / 2 : ℕ)| * ps ≤ 2 * Real.pi / (n * ps) * (n / 2) * ps := by gcongr
    _ = Real.pi := by field_simp

variable {s : Sim} {px py : ℕ} {h : Profile.Heap} {u m : ℕ → ℕ → ℂ}

theorem gaussian_sampled (d : SLM) (U : ℕ → ℕ → ℂ) (hps : 0 < d.ps) (hsc : d.scaling ≠ 0) {x0 y0 amp w Tx Ty : ℝ} (hw : 0 < w)
    (hTx : 0 ≤ Tx) (hTy : 0 ≤ Ty) (hx : |x0| + Tx + d.ps ≤ d.Nx * d.ps / 2) (hy : |y0| + Ty + d.ps ≤ d.Ny * d.ps / 2)
    (hU : ∀ i < d.Ny, ∀ j < d.Nx, U i j = ((amp * Real.exp (-((d.fourierGrid.1.get i j - x0) ^ 2 / w ^ 2)) *
      Real.exp (-((d.fourierGrid.2.get i j - y0) ^ 2 / w ^ 2)) : ℝ) : ℂ)) {ξ η : ℝ}
    (hξ : |2 * Real.pi * ξ / d.scaling| * d.ps ≤ Real.pi) (hη : |2 * Real.pi * η / d.scaling| * d.ps ≤ Real.pi) :
    ‖fraunhofer d U ξ η - gaussianSpot d.scaling x0 y0 amp w ξ η‖ ≤ |amp| / |d.scaling| *
      ((√Real.pi * w + sampledError d.ps w Tx) * (√Real.pi * w + sampledError d.ps w Ty) - Real.pi * w ^ 2) := by
  refine gaussian_fraunhofer_of d U hsc hw hU ?_ ?_
  · exact gauss_sum_poisson x0 _ (-(d.Nx * d.ps / 2)) hw hps hTx hξ (by linarith [neg_abs_le x0])
      (by linarith [le_abs_self x0])
  · have := gauss_sum_poisson y0 (2 * Real.pi * η / d.scaling) (-(d.Ny * d.ps / 2) + d.ps) (N := d.Ny) hw hps hTy hη
      (by linarith [neg_abs_le y0]) (by linarith [le_abs_self y0])
    refine le_trans (le_of_eq ?_) this
    congr 2
    refine sum_congr rfl fun i _ => ?_
    congr 2
    ring

/-- **C170.** A Gaussian beam on an SLM that does not modulate it: at every pixel of the image the simulated field is the focal spot of Gaussian
optics, up to the part of the beam that misses the SLM and a term of order `exp(-(πw/(2 ps))²)`. -/
theorem C170_spot {f : Profile.Prof} {h0 : Profile.Heap} {x0 y0 amp w Tx Ty : ℝ} (hw : 0 < w) (hTx : 0 ≤ Tx) (hTy : 0 ≤ Ty)
    (hnew : Profile.New.run h0 (.hg x0 y0 amp w 0 0) = .ok (h, f)) (r : Ready s px py h (.prof f) u fun _ _ => 1)
    (hps : 0 < s.dev.slm.ps) (hx : |x0| + Tx + s.dev.slm.ps ≤ s.dev.slm.Nx * s.dev.slm.ps / 2)
    (hy : |y0| + Ty + s.dev.slm.ps ≤ s.dev.slm.Ny * s.dev.slm.ps / 2) :
    ∃ img g, (s.propagate h (.prof f)).1.imageField = some img ∧ s.imagePaddedGrid = .ok g ∧
      ∀ k < s.dev.slm.Ny + 2 * py, ∀ l < s.dev.slm.Nx + 2 * px,
        let ξ := g.1.get k l
        let η := g.2.get k l
        let sc := s.dev.slm.wavelength * s.dev.slm.focal
        let err := |amp| / |sc| * ((√Real.pi * w + sampledError s.dev.slm.ps w Tx) * (√Real.pi * w + sampledError s.dev.slm.ps w Ty) -
          Real.pi * w ^ 2)
        |‖img.get k l‖ - Real.pi * w ^ 2 * |amp| / |sc| * Real.exp (-((ξ ^ 2 + η ^ 2) / (sc / (Real.pi * w)) ^ 2))| ≤ err ∧
        (Even s.dev.slm.Nx → Even s.dev.slm.Ny → ‖img.get k l - gaussianSpot sc x0 y0 amp w ξ η‖ ≤ err) := by
  obtain ⟨-, img, g, h1, h2, -, h4⟩ := C10_fraunhofer r
  have hgrid := (C06_image_padded_grid s px py r.hpx r.hpy).2 g h2
  refine ⟨img, g, h1, h2, fun k hk l hl => ?_⟩
  have hξ : |2 * Real.pi * g.1.get k l / s.dev.slm.scaling| * s.dev.slm.ps ≤ Real.pi := by
    rw [imageGrid_x hgrid k hl]
    exact freq_le hl r.hsc hps
  have hη : |2 * Real.pi * g.2.get k l / s.dev.slm.scaling| * s.dev.slm.ps ≤ Real.pi := by
    rw [imageGrid_y hgrid l hk, mul_neg, neg_div, abs_neg]
    exact freq_le hk r.hsc hps
  have hb := gaussian_sampled s.dev.slm (fun i j => u i j * 1) hps r.hsc hw hTx hTy hx hy
    (fun i hi j hj => by rw [mul_one]; exact gaussian_values hw hnew r.input hi hj) hξ hη
  intro ξ η sc err
  refine ⟨?_, fun hx hy => ?_⟩
  · rw [(h4 k hk l hl).1]
    have hn : ‖gaussianSpot sc x0 y0 amp w ξ η‖ =
        Real.pi * w ^ 2 * |amp| / |sc| * Real.exp (-((ξ ^ 2 + η ^ 2) / (sc / (Real.pi * w)) ^ 2)) := by
      unfold gaussianSpot
      rw [norm_mul, show 2 * Real.pi * I * ((ξ * x0 + η * y0 : ℝ) : ℂ) / ((sc : ℝ) : ℂ) =
        ((2 * Real.pi * (ξ * x0 + η * y0) / sc : ℝ) : ℂ) * I by push_cast; ring, norm_exp_ofReal_mul_I, mul_one, norm_real,
        Real.norm_eq_abs, abs_mul, abs_div, abs_mul, abs_of_pos (Real.exp_pos _),
        abs_of_pos (by positivity : 0 < Real.pi * w ^ 2)]
    rw [← hn]
    exact (abs_norm_sub_norm_le _ _).trans hb
  · rw [(h4 k hk l hl).2 hx hy]
    exact hb

/-- **C170.** The input power of a Gaussian beam is `a²πw²/2` up to errors of the same kind. -/
theorem C170_power {f : Profile.Prof} {h0 : Profile.Heap} {x0 y0 amp w Tx Ty : ℝ} (hw : 0 < w) (hTx : 0 ≤ Tx) (hTy : 0 ≤ Ty)
    (hnew : Profile.New.run h0 (.hg x0 y0 amp w 0 0) = .ok (h, f)) (r : Ready s px py h (.prof f) u m)
    (hps : 0 < s.dev.slm.ps) (hx : |x0| + Tx + s.dev.slm.ps ≤ s.dev.slm.Nx * s.dev.slm.ps / 2)
    (hy : |y0| + Ty + s.dev.slm.ps ≤ s.dev.slm.Ny * s.dev.slm.ps / 2) :
    ∃ P, (s.propagate h (.prof f)).1.inputPower = .ok P ∧
      |P - amp ^ 2 * Real.pi * w ^ 2 / 2| ≤ amp ^ 2 * ((√Real.pi * (w / √2) + sampledError s.dev.slm.ps (w / √2) Tx) *
        (√Real.pi * (w / √2) + sampledError s.dev.slm.ps (w / √2) Ty) - Real.pi * w ^ 2 / 2) := by
  refine ⟨slmPower s.dev.slm u, by rw [propagate_ready r]; exact (propagated_powers r).1, ?_⟩
  have hw' : 0 < w / √2 := by positivity
  have hw2 : (w / √2) ^ 2 = w ^ 2 / 2 := by rw [div_pow, Real.sq_sqrt (by norm_num)]
  have hsc : s.dev.slm.scaling ≠ 0 := r.hsc
  have h0' : |2 * Real.pi * 0 / s.dev.slm.scaling| * s.dev.slm.ps ≤ Real.pi := by simp [Real.pi_pos.le]
  have hb := gaussian_sampled s.dev.slm (fun i j => ((‖u i j‖ ^ 2 : ℝ) : ℂ)) hps r.hsc (amp := amp ^ 2) hw' hTx hTy hx hy
    (fun i hi j hj => by
      rw [gaussian_values hw hnew r.input hi hj, norm_real, Real.norm_eq_abs, sq_abs, mul_pow, mul_pow, ← Real.exp_nat_mul,
        ← Real.exp_nat_mul, hw2]
      congr 4
      · push_cast
        field_simp
      · push_cast
        field_simp) h0' h0'
  have hP : fraunhofer s.dev.slm (fun i j => ((‖u i j‖ ^ 2 : ℝ) : ℂ)) 0 0 =
      ((slmPower s.dev.slm u / s.dev.slm.scaling : ℝ) : ℂ) := by
    unfold fraunhofer slmPower
    simp only [zero_mul, add_zero, ofReal_zero, mul_zero, zero_div, Complex.exp_zero, mul_one]
    unfold SLM.scaling
    push_cast
    ring
  have hG : gaussianSpot s.dev.slm.scaling x0 y0 (amp ^ 2) (w / √2) 0 0 =
      ((amp ^ 2 * Real.pi * w ^ 2 / 2 / s.dev.slm.scaling : ℝ) : ℂ) := by
    unfold gaussianSpot
    simp only [zero_mul, add_zero, ofReal_zero, mul_zero, zero_div, Complex.exp_zero, mul_one, neg_zero, Real.exp_zero,
      ne_eq, OfNat.ofNat_ne_zero, not_false_eq_true, zero_pow]
    rw [hw2]
    congr 1
    ring
  rw [hP, hG, ← ofReal_sub, norm_real, Real.norm_eq_abs, ← sub_div, abs_div, abs_of_nonneg (sq_nonneg amp),
    div_mul_eq_mul_div, div_le_div_iff_of_pos_right (abs_pos.mpr hsc), hw2] at hb
  rw [mul_div_assoc Real.pi]
  exact hb

/-- **C170.** The part that is cut off is small. -/
theorem C170_tail {w T : ℝ} (hw : 0 < w) (hT : 0 < T) :
    0 ≤ gaussTail w T ∧ gaussTail w T ≤ √Real.pi * w / 2 * Real.exp (-(T ^ 2 / w ^ 2)) ∧
      gaussTail w T ≤ w ^ 2 / (2 * T) * Real.exp (-(T ^ 2 / w ^ 2)) := by
  refine ⟨setIntegral_nonneg measurableSet_Ioi fun _ _ => (Real.exp_pos _).le, ?_, ?_⟩
  · simpa [gaussTail] using gauss_tail 0 T hw hT.le
  · simpa [gaussTail] using mills 0 hw hT

/-! ## The hypotheses can be met -/

/-- A Gaussian beam can be propagated from every DMD with all mirrors on. -/
theorem gaussian_ready (d : DMD) (h0 : Profile.Heap) (x0 y0 : ℝ) {amp w : ℝ} (hamp : amp ≠ 0) (hw : w ≠ 0) (hNx : 0 < d.slm.Nx)
    (hNy : 0 < d.slm.Ny) (hsc : d.slm.wavelength * d.slm.focal ≠ 0) (hps : d.slm.ps ≠ 0) :
    ∃ h f u, Profile.New.run h0 (.hg x0 y0 amp w 0 0) = .ok (h, f) ∧
      ∀ px py : ℕ, Ready ⟨.dmd d (.bool ⟨.mat d.slm.Ny d.slm.Nx, fun _ _ => true⟩), px, py, none, none, none⟩ px py h (.prof f) u (fun _ _ => 1) := by
  obtain ⟨r, hr⟩ : ∃ r, Profile.New.run h0 (.hg x0 y0 amp w 0 0) = .ok r := ⟨_, rfl⟩
  have hev := Profile.C56_formula h0 x0 y0 amp w 0 0 hw hr
  obtain ⟨t, ht⟩ := (C64_profile_partial d.slm r.1 r.2 true true).2 _ rfl hNx hNy
    (fun i _ j _ => by rw [hev]; rfl)
  have hsh : t.shape = .mat d.slm.Ny d.slm.Nx := by
    obtain ⟨g, -, -, hs, -⟩ := (C64_profile_partial d.slm r.1 r.2 true true).1 t ht
    rcases hs with hs | ⟨-, hc⟩
    · exact hs
    · have h1 := hc x0 y0 (x0 + w) y0
      rw [hev, hev] at h1
      injection h1 with h1
      have h2 := ofReal_injective h1
      norm_num [Spec.hermiteGauss, rodrigues_zero, hamp] at h2
      exact absurd h2 hw
  refine ⟨r.1, r.2, t.get, hr, fun px py => ⟨rfl, rfl, hNx, hNy, hsc, hps, ⟨t, ht, hsh, fun _ _ _ _ => rfl⟩,
    ⟨_, rfl, rfl, fun i _ j _ => ?_⟩⟩⟩
  simp [Tensor.map]

/-- C170: a beam of 3 mm, 1 mm off the axis, on a DLP9500, cut off at 4.5 mm. -/
example (h0 : Profile.Heap) : ∃ h f u, Profile.New.run h0 (.hg 1e-3 0 2 3e-3 0 0) = .ok (h, f) ∧
    ∃ s : Sim, s.dev.slm = Model.DLP9500.slm 369e-9 30e-3 ∧ Ready s 100 50 h (.prof f) u (fun _ _ => 1) ∧ 0 < s.dev.slm.ps ∧
      |(1e-3 : ℝ)| + 4.5e-3 + s.dev.slm.ps ≤ s.dev.slm.Nx * s.dev.slm.ps / 2 ∧
      |(0 : ℝ)| + 4.5e-3 + s.dev.slm.ps ≤ s.dev.slm.Ny * s.dev.slm.ps / 2 := by
  obtain ⟨h, f, u, h1, h2⟩ := gaussian_ready ⟨Model.DLP9500.slm 369e-9 30e-3, 4, 0, true⟩ h0 1e-3 0 (amp := 2) (w := 3e-3) (by norm_num)
    (by norm_num) (by decide) (by decide) (by norm_num [Model.slm]) (by norm_num [Model.slm])
  refine ⟨h, f, u, h1, _, rfl, h2 100 50, ?_, ?_, ?_⟩
  · simp only [Device.slm]; norm_num [Model.slm]
  · simp only [Device.slm]; norm_num [Model.slm]
  · simp only [Device.slm]; norm_num [Model.slm]

end PySLM2.Sim
