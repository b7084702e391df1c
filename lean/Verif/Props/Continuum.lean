import Verif.Lemmas.Continuum
import Verif.Props.Propagation
import Verif.Props.Modes
import Verif.Props.Sampling

/-!
# C93, C94, C95: the simulated image and the diffraction integral
-/

noncomputable section

open MeasureTheory Finset Complex

namespace PySLM2.Sim

open Riemann Spec

variable {s : Sim} {px py : ℕ} {h : Profile.Heap} {a : ProfArg} {u m : ℕ → ℕ → ℂ}

/-- The difference of the sum and the integral. -/
theorem fraunhofer_sub_integral (d : SLM) (U : ℕ → ℕ → ℂ) (hps : 0 < d.ps) (hsc : d.scaling ≠ 0)
    {E : ℝ → ℝ → ℂ} {B L : ℝ} (hB : 0 ≤ B) (hL : 0 ≤ L) (hE : SmoothOn (d.Nx * d.ps / 2) (d.Ny * d.ps / 2) E B L)
    (hU : ∀ i < d.Ny, ∀ j < d.Nx, U i j = E (d.fourierGrid.1.get i j) (d.fourierGrid.2.get i j)) (ξ η : ℝ) :
    ‖fraunhofer d U ξ η - fraunhoferIntegral d.scaling (d.Nx * d.ps / 2) (d.Ny * d.ps / 2) E ξ η‖ ≤
      (d.Nx * d.ps) * (d.Ny * d.ps) / |d.scaling| * d.ps * (2 * L + 2 * Real.pi * B * (|ξ| + |η|) / |d.scaling|) := by
  rw [fraunhofer_eq d U E hU, fraunhoferIntegral, ← mul_sub, norm_mul]
  set X := d.Nx * d.ps / 2 with hX
  set Y := d.Ny * d.ps / 2 with hY
  have eX : -X + d.Nx * d.ps = X := by rw [hX]; ring
  have eY : -Y + d.Ny * d.ps = Y := by rw [hY]; ring
  have ph : ∀ x y : ℝ, cexp (2 * Real.pi * I * ((ξ * x + η * y : ℝ) : ℂ) / ((d.scaling : ℝ) : ℂ)) =
      cexp (I * ((2 * Real.pi * (ξ * x + η * y) / d.scaling : ℝ) : ℂ)) := by
    intro x y
    congr 1
    push_cast
    ring
  have hn : ∀ α : ℝ, ‖cexp (I * (α : ℂ))‖ = 1 := fun α => by rw [mul_comm, norm_exp_ofReal_mul_I]
  have key : ∀ E1 E2 : ℂ, ∀ α β : ℝ, ‖E1‖ ≤ B →
      ‖E1 * cexp (I * (α : ℂ)) - E2 * cexp (I * (β : ℂ))‖ ≤ ‖E1 - E2‖ + B * |α - β| := by
    intro E1 E2 α β hb
    have e : E1 * cexp (I * (α : ℂ)) - E2 * cexp (I * (β : ℂ)) =
        (E1 - E2) * cexp (I * (β : ℂ)) + E1 * (cexp (I * (α : ℂ)) - cexp (I * (β : ℂ))) := by ring
    rw [e]
    refine (norm_add_le _ _).trans ?_
    rw [norm_mul, norm_mul, hn, mul_one]
    exact add_le_add le_rfl (mul_le_mul hb (norm_exp_sub_le α β) (norm_nonneg _) hB)
  have main := lipschitz2 (G := fun x y : ℝ => E x y *
      cexp (2 * Real.pi * I * ((ξ * x + η * y : ℝ) : ℂ) / ((d.scaling : ℝ) : ℂ))) (a := -X) (b := -Y) (h := d.ps)
    (Kx := L + B * (2 * Real.pi * |ξ| / |d.scaling|)) (Ky := L + B * (2 * Real.pi * |η| / |d.scaling|)) (N := d.Nx) (M := d.Ny)
    (p := fun j => -X + j * d.ps) (q := fun i => -Y + (i + 1) * d.ps) hps.le (by positivity) (by positivity)
    (by
      rw [eX, eY]
      intro x hx x' hx' y hy
      simp only [ph]
      refine (key _ _ _ _ (hE.bound x hx y hy)).trans ?_
      rw [add_mul]
      refine add_le_add ((hE.lip x hx y hy x' hx' y hy).trans_eq (by rw [sub_self, abs_zero, add_zero])) (le_of_eq ?_)
      rw [← sub_div, ← mul_sub, add_sub_add_right_eq_sub, ← mul_sub, abs_div, abs_mul, abs_mul, abs_mul,
        abs_two, abs_of_pos Real.pi_pos]
      ring)
    (by
      rw [eX, eY]
      intro x hx y hy y' hy'
      simp only [ph]
      refine (key _ _ _ _ (hE.bound x hx y hy)).trans ?_
      rw [add_mul]
      refine add_le_add ((hE.lip x hx y hy x hx y' hy').trans_eq (by rw [sub_self, abs_zero, zero_add])) (le_of_eq ?_)
      rw [← sub_div, ← mul_sub, add_sub_add_left_eq_sub, ← mul_sub, abs_div, abs_mul, abs_mul, abs_mul,
        abs_two, abs_of_pos Real.pi_pos]
      ring)
    (fun k _ => ⟨le_rfl, by nlinarith⟩) (fun k _ => ⟨by nlinarith, le_rfl⟩)
  rw [eX, eY] at main
  rw [norm_real, Real.norm_eq_abs, abs_div, abs_one]
  refine (mul_le_mul_of_nonneg_left main (by positivity)).trans_eq ?_
  have : |d.scaling| ≠ 0 := abs_ne_zero.mpr hsc
  field_simp
  ring

/-- **C93.** If the field behind the SLM consists of samples of a bounded Lipschitz field `E`, the simulated image
differs from the diffraction integral of `E` over the area of the SLM by at most
`area/(λf) · ps · (2L + 2πB(|ξ| + |η|)/(λf))`: the field itself for even sizes, its modulus for all sizes. -/
theorem C93_continuum (r : Ready s px py h a u m) (hps : 0 < s.dev.slm.ps) {E : ℝ → ℝ → ℂ} {B L : ℝ} (hB : 0 ≤ B)
    (hL : 0 ≤ L) (hE : SmoothOn (s.dev.slm.Nx * s.dev.slm.ps / 2) (s.dev.slm.Ny * s.dev.slm.ps / 2) E B L)
    (hU : ∀ i < s.dev.slm.Ny, ∀ j < s.dev.slm.Nx,
      u i j * m i j = E (s.dev.slm.fourierGrid.1.get i j) (s.dev.slm.fourierGrid.2.get i j)) :
    ∃ img g, (s.propagate h a).1.imageField = some img ∧ s.imagePaddedGrid = .ok g ∧
      ∀ k < s.dev.slm.Ny + 2 * py, ∀ l < s.dev.slm.Nx + 2 * px,
        let ξ := g.1.get k l
        let η := g.2.get k l
        let sc := s.dev.slm.wavelength * s.dev.slm.focal
        let width := s.dev.slm.Nx * s.dev.slm.ps
        let height := s.dev.slm.Ny * s.dev.slm.ps
        let ideal := fraunhoferIntegral sc (width / 2) (height / 2) E ξ η
        let err := width * height / |sc| * s.dev.slm.ps * (2 * L + 2 * Real.pi * B * (|ξ| + |η|) / |sc|)
        |‖img.get k l‖ - ‖ideal‖| ≤ err ∧ (Even s.dev.slm.Nx → Even s.dev.slm.Ny → ‖img.get k l - ideal‖ ≤ err) := by
  obtain ⟨-, img, g, h1, h2, -, h4⟩ := C10_fraunhofer r
  refine ⟨img, g, h1, h2, fun k hk l hl => ?_⟩
  have hb := fraunhofer_sub_integral s.dev.slm (fun i j => u i j * m i j) hps r.hsc hB hL hE hU (g.1.get k l) (g.2.get k l)
  intro ξ η sc width height ideal err
  refine ⟨?_, fun hx hy => ?_⟩
  · rw [(h4 k hk l hl).1]
    exact (abs_norm_sub_norm_le _ _).trans hb
  · rw [(h4 k hk l hl).2 hx hy]
    exact hb

/-- The values a profile gives on the pixels. -/
theorem input_values {f : Profile.Prof} (hin : InputField s h (.prof f) u) {i j : ℕ} (hi : i < s.dev.slm.Ny) (hj : j < s.dev.slm.Nx) :
    Profile.eval h f (s.dev.slm.fourierGrid.1.get i j) (s.dev.slm.fourierGrid.2.get i j) = some (u i j) := by
  obtain ⟨t, ht, hsh, hv⟩ := hin
  obtain ⟨g, hg, -, -, he⟩ := (C64_profile_partial s.dev.slm h f true true).1 t ht
  have hg' : g = s.dev.slm.fourierGrid := by
    simp only [SLM.planeGrid, if_true] at hg
    injection hg with hg
    exact hg.symm
  subst hg'
  obtain ⟨v, h1, h2⟩ := he i hi j hj
  rw [h1, ← hv i hi j hj, ← Tensor.at_eq_get hsh hi hj, h2]
  rfl

theorem rodrigues_zero (t : ℝ) : Spec.rodrigues 0 t = 1 := by
  simp only [Spec.rodrigues, pow_zero, one_mul, iteratedDeriv_zero, ← Real.exp_add, add_neg_cancel, Real.exp_zero]

/-- The samples of a Gaussian beam. -/
theorem gaussian_values {f : Profile.Prof} {h0 : Profile.Heap} {x0 y0 amp w : ℝ} (hw : 0 < w)
    (hr : Profile.New.run h0 (.hg x0 y0 amp w 0 0) = .ok (h, f)) (hin : InputField s h (.prof f) u) {i j : ℕ}
    (hi : i < s.dev.slm.Ny) (hj : j < s.dev.slm.Nx) :
    u i j = ((amp * Real.exp (-((s.dev.slm.fourierGrid.1.get i j - x0) ^ 2 / w ^ 2)) *
      Real.exp (-((s.dev.slm.fourierGrid.2.get i j - y0) ^ 2 / w ^ 2)) : ℝ) : ℂ) := by
  have h1 := input_values hin hi hj
  rw [Profile.C56_formula h0 x0 y0 amp w 0 0 hw.ne' hr] at h1
  injection h1 with h1
  rw [← h1]
  congr 1
  unfold Spec.hermiteGauss
  rw [rodrigues_zero, rodrigues_zero, mul_one, mul_one, mul_assoc, ← Real.exp_add]
  congr 2
  ring

/-- The diffraction sum of a Gaussian is the product of two sums of Gaussians. -/
theorem gaussian_fraunhofer_of (d : SLM) (U : ℕ → ℕ → ℂ) (hsc : d.scaling ≠ 0) {x0 y0 amp w ε ε' ξ η : ℝ} (hw : 0 < w)
    (hU : ∀ i < d.Ny, ∀ j < d.Nx, U i j = ((amp * Real.exp (-((d.fourierGrid.1.get i j - x0) ^ 2 / w ^ 2)) *
      Real.exp (-((d.fourierGrid.2.get i j - y0) ^ 2 / w ^ 2)) : ℝ) : ℂ))
    (s1 : ‖∑ j ∈ range d.Nx, (d.ps : ℂ) * gauss x0 w (2 * Real.pi * ξ / d.scaling) (-(d.Nx * d.ps / 2) + j * d.ps) -
      ((√Real.pi * w * Real.exp (-(w ^ 2 * (2 * Real.pi * ξ / d.scaling) ^ 2 / 4)) : ℝ) : ℂ) *
        cexp (I * (2 * Real.pi * ξ / d.scaling : ℝ) * x0)‖ ≤ ε)
    (s2 : ‖∑ i ∈ range d.Ny, (d.ps : ℂ) * gauss y0 w (2 * Real.pi * η / d.scaling) (-(d.Ny * d.ps / 2) + (i + 1) * d.ps) -
      ((√Real.pi * w * Real.exp (-(w ^ 2 * (2 * Real.pi * η / d.scaling) ^ 2 / 4)) : ℝ) : ℂ) *
        cexp (I * (2 * Real.pi * η / d.scaling : ℝ) * y0)‖ ≤ ε') :
    ‖fraunhofer d U ξ η - gaussianSpot d.scaling x0 y0 amp w ξ η‖ ≤ |amp| / |d.scaling| *
      ((√Real.pi * w + ε) * (√Real.pi * w + ε') - Real.pi * w ^ 2) := by
  rw [fraunhofer_eq d U (fun x y => ((amp * Real.exp (-((x - x0) ^ 2 / w ^ 2)) * Real.exp (-((y - y0) ^ 2 / w ^ 2)) : ℝ) : ℂ)) hU]
  set κ := 2 * Real.pi * ξ / d.scaling with hκ
  set κ' := 2 * Real.pi * η / d.scaling with hκ'
  have e1 : ∀ x y : ℝ, (d.ps : ℂ) ^ 2 * (((amp * Real.exp (-((x - x0) ^ 2 / w ^ 2)) * Real.exp (-((y - y0) ^ 2 / w ^ 2)) : ℝ) : ℂ) *
      cexp (2 * Real.pi * I * ((ξ * x + η * y : ℝ) : ℂ) / ((d.scaling : ℝ) : ℂ))) =
      (amp : ℂ) * (((d.ps : ℂ) * gauss x0 w κ x) * ((d.ps : ℂ) * gauss y0 w κ' y)) := by
    intro x y
    have ex : cexp (2 * Real.pi * I * ((ξ * x + η * y : ℝ) : ℂ) / ((d.scaling : ℝ) : ℂ)) =
        cexp (I * κ * x) * cexp (I * κ' * y) := by
      rw [← Complex.exp_add, hκ, hκ']
      congr 1
      push_cast
      ring
    unfold gauss
    rw [ex, Complex.exp_add, Complex.exp_add]
    push_cast
    ring
  simp only [e1]
  have e2 : ∀ (A A' : ℕ → ℂ), ∑ j ∈ range d.Nx, ∑ i ∈ range d.Ny, (amp : ℂ) * (A j * A' i) =
      (amp : ℂ) * ((∑ j ∈ range d.Nx, A j) * ∑ i ∈ range d.Ny, A' i) := by
    intro A A'
    rw [sum_mul_sum]
    simp only [mul_sum]
  rw [e2]
  have nrm : ∀ c k : ℝ, ‖((√Real.pi * w * Real.exp (-(w ^ 2 * k ^ 2 / 4)) : ℝ) : ℂ) * cexp (I * k * c)‖ ≤ √Real.pi * w := by
    intro c k
    rw [norm_mul, show I * (k : ℂ) * c = ((k * c : ℝ) : ℂ) * I by push_cast; ring, norm_exp_ofReal_mul_I, mul_one, norm_real,
      Real.norm_eq_abs, abs_of_nonneg (by positivity)]
    refine mul_le_of_le_one_right (by positivity) ?_
    rw [Real.exp_le_one_iff, neg_nonpos]
    positivity
  have hp := prod_error (by positivity) s1 s2 (nrm x0 κ) (nrm y0 κ')
  have spot : gaussianSpot d.scaling x0 y0 amp w ξ η = ((1 / d.scaling : ℝ) : ℂ) * ((amp : ℂ) *
      ((((√Real.pi * w * Real.exp (-(w ^ 2 * κ ^ 2 / 4)) : ℝ) : ℂ) * cexp (I * κ * x0)) *
        (((√Real.pi * w * Real.exp (-(w ^ 2 * κ' ^ 2 / 4)) : ℝ) : ℂ) * cexp (I * κ' * y0)))) := by
    unfold gaussianSpot
    have ex : cexp (2 * Real.pi * I * ((ξ * x0 + η * y0 : ℝ) : ℂ) / ((d.scaling : ℝ) : ℂ)) =
        cexp (I * κ * x0) * cexp (I * κ' * y0) := by
      rw [← Complex.exp_add, hκ, hκ']
      congr 1
      push_cast
      ring
    have er : Real.pi * w ^ 2 * amp / d.scaling * Real.exp (-((ξ ^ 2 + η ^ 2) / (d.scaling / (Real.pi * w)) ^ 2)) =
        1 / d.scaling * (amp * ((√Real.pi * w * Real.exp (-(w ^ 2 * κ ^ 2 / 4))) * (√Real.pi * w * Real.exp (-(w ^ 2 * κ' ^ 2 / 4))))) := by
      have hexp : Real.exp (-((ξ ^ 2 + η ^ 2) / (d.scaling / (Real.pi * w)) ^ 2)) =
          Real.exp (-(w ^ 2 * κ ^ 2 / 4)) * Real.exp (-(w ^ 2 * κ' ^ 2 / 4)) := by
        rw [← Real.exp_add, hκ, hκ']
        congr 1
        field_simp
        ring
      rw [hexp]
      have hpi : √Real.pi * √Real.pi = Real.pi := Real.mul_self_sqrt Real.pi_pos.le
      have : ∀ A A' : ℝ, Real.pi * w ^ 2 * amp / d.scaling * (A * A') =
          1 / d.scaling * (amp * ((√Real.pi * w * A) * (√Real.pi * w * A'))) := by
        intro A A'
        rw [show (√Real.pi * w * A) * (√Real.pi * w * A') = (√Real.pi * √Real.pi) * w ^ 2 * (A * A') by ring, hpi]
        ring
      exact this _ _
    rw [er, ex]
    push_cast
    ring
  rw [spot, ← mul_sub, ← mul_sub, norm_mul, norm_mul, norm_real, norm_real, Real.norm_eq_abs, Real.norm_eq_abs, abs_div, abs_one,
    ← mul_assoc, one_div_mul_eq_div]
  refine mul_le_mul_of_nonneg_left (hp.trans_eq ?_) (by positivity)
  rw [mul_pow, Real.sq_sqrt Real.pi_pos.le]

theorem gaussian_fraunhofer (d : SLM) (U : ℕ → ℕ → ℂ) (hps : 0 < d.ps) (hsc : d.scaling ≠ 0) {x0 y0 amp w T : ℝ} (hw : 0 < w)
    (hT : 0 ≤ T) (hx : |x0| + T ≤ d.Nx * d.ps / 2) (hy : |y0| + T ≤ d.Ny * d.ps / 2)
    (hU : ∀ i < d.Ny, ∀ j < d.Nx, U i j = ((amp * Real.exp (-((d.fourierGrid.1.get i j - x0) ^ 2 / w ^ 2)) *
      Real.exp (-((d.fourierGrid.2.get i j - y0) ^ 2 / w ^ 2)) : ℝ) : ℂ)) (ξ η : ℝ) :
    ‖fraunhofer d U ξ η - gaussianSpot d.scaling x0 y0 amp w ξ η‖ ≤ |amp| / |d.scaling| *
      ((√Real.pi * w + gaussError d.ps w T (2 * Real.pi * ξ / d.scaling)) *
        (√Real.pi * w + gaussError d.ps w T (2 * Real.pi * η / d.scaling)) - Real.pi * w ^ 2) := by
  refine gaussian_fraunhofer_of d U hsc hw hU ?_ ?_
  · exact gauss_sum x0 _ (a := -(d.Nx * d.ps / 2)) (h := d.ps) (T := T) hw hps.le hT (N := d.Nx)
      (p := fun j => -(d.Nx * d.ps / 2) + j * d.ps) (fun k _ => ⟨le_rfl, by nlinarith⟩)
      (by linarith [neg_abs_le x0]) (by linarith [le_abs_self x0])
  · exact gauss_sum y0 _ (a := -(d.Ny * d.ps / 2)) (h := d.ps) (T := T) hw hps.le hT (N := d.Ny)
      (p := fun j => -(d.Ny * d.ps / 2) + (j + 1) * d.ps) (fun k _ => ⟨by nlinarith, le_rfl⟩)
      (by linarith [neg_abs_le y0]) (by linarith [le_abs_self y0])

/-- **C94.** A Gaussian beam `HermiteGaussian(x0, y0, a, w)` reflected by an SLM that does not modulate it (all mirrors
on, or zero phase) and that covers at least a distance `T` around the centre of the beam gives the focal spot of
waist `λf/(πw)` of Gaussian optics, with the error `gaussError` (of order `ps` and `exp(-T²/w²)`) in both
directions. -/
theorem C94_gaussian_spot {f : Profile.Prof} {h0 : Profile.Heap} {x0 y0 amp w T : ℝ} (hw : 0 < w) (hT : 0 ≤ T)
    (hnew : Profile.New.run h0 (.hg x0 y0 amp w 0 0) = .ok (h, f)) (r : Ready s px py h (.prof f) u fun _ _ => 1)
    (hps : 0 < s.dev.slm.ps) (hx : |x0| + T ≤ s.dev.slm.Nx * s.dev.slm.ps / 2)
    (hy : |y0| + T ≤ s.dev.slm.Ny * s.dev.slm.ps / 2) :
    ∃ img g, (s.propagate h (.prof f)).1.imageField = some img ∧ s.imagePaddedGrid = .ok g ∧
      ∀ k < s.dev.slm.Ny + 2 * py, ∀ l < s.dev.slm.Nx + 2 * px,
        let ξ := g.1.get k l
        let η := g.2.get k l
        let sc := s.dev.slm.wavelength * s.dev.slm.focal
        let err := |amp| / |sc| * ((√Real.pi * w + gaussError s.dev.slm.ps w T (2 * Real.pi * ξ / sc)) *
          (√Real.pi * w + gaussError s.dev.slm.ps w T (2 * Real.pi * η / sc)) - Real.pi * w ^ 2)
        |‖img.get k l‖ - Real.pi * w ^ 2 * |amp| / |sc| * Real.exp (-((ξ ^ 2 + η ^ 2) / (sc / (Real.pi * w)) ^ 2))| ≤ err ∧
        (Even s.dev.slm.Nx → Even s.dev.slm.Ny → ‖img.get k l - gaussianSpot sc x0 y0 amp w ξ η‖ ≤ err) := by
  obtain ⟨-, img, g, h1, h2, -, h4⟩ := C10_fraunhofer r
  refine ⟨img, g, h1, h2, fun k hk l hl => ?_⟩
  have hb := gaussian_fraunhofer s.dev.slm (fun i j => u i j * 1) hps r.hsc hw hT hx hy
    (fun i hi j hj => by rw [mul_one]; exact gaussian_values hw hnew r.input hi hj) (g.1.get k l) (g.2.get k l)
  intro ξ η sc err
  refine ⟨?_, fun hx hy => ?_⟩
  · rw [(h4 k hk l hl).1]
    have hn : ‖gaussianSpot sc x0 y0 amp w ξ η‖ =
        Real.pi * w ^ 2 * |amp| / |sc| * Real.exp (-((ξ ^ 2 + η ^ 2) / (sc / (Real.pi * w)) ^ 2)) := by
      unfold gaussianSpot
      rw [norm_mul, show 2 * Real.pi * I * ((ξ * x0 + η * y0 : ℝ) : ℂ) / ((sc : ℝ) : ℂ) =
        ((2 * Real.pi * (ξ * x0 + η * y0) / sc : ℝ) : ℂ) * I by push_cast; ring, norm_exp_ofReal_mul_I, mul_one, norm_real,
        Real.norm_eq_abs, abs_mul, abs_div, abs_mul, abs_of_pos (Real.exp_pos _),
        abs_of_pos (by positivity : 0 < Real.pi * w ^ 2)]
    rw [← hn]
    exact (abs_norm_sub_norm_le _ _).trans hb
  · rw [(h4 k hk l hl).2 hx hy]
    exact hb

/-- **C95.** For the same beam `get_input_power()` is within the same kind of error of the power `a²πw²/2` of the beam. -/
theorem C95_gaussian_power {f : Profile.Prof} {h0 : Profile.Heap} {x0 y0 amp w T : ℝ} (hw : 0 < w) (hT : 0 ≤ T)
    (hnew : Profile.New.run h0 (.hg x0 y0 amp w 0 0) = .ok (h, f)) (r : Ready s px py h (.prof f) u m)
    (hps : 0 < s.dev.slm.ps) (hx : |x0| + T ≤ s.dev.slm.Nx * s.dev.slm.ps / 2)
    (hy : |y0| + T ≤ s.dev.slm.Ny * s.dev.slm.ps / 2) :
    ∃ P, (s.propagate h (.prof f)).1.inputPower = .ok P ∧
      let ε := 2 * s.dev.slm.ps + √Real.pi * w / √2 * Real.exp (-(2 * T ^ 2 / w ^ 2))
      |P - amp ^ 2 * Real.pi * w ^ 2 / 2| ≤ amp ^ 2 * ((√Real.pi * w / √2 + ε) ^ 2 - Real.pi * w ^ 2 / 2) := by
  refine ⟨slmPower s.dev.slm u, by rw [propagate_ready r]; exact (propagated_powers r).1, ?_⟩
  intro ε
  have hw' : 0 < w / √2 := by positivity
  have hw2 : (w / √2) ^ 2 = w ^ 2 / 2 := by rw [div_pow, Real.sq_sqrt (by norm_num)]
  have hsc : s.dev.slm.scaling ≠ 0 := r.hsc
  have hb := gaussian_fraunhofer s.dev.slm (fun i j => ((‖u i j‖ ^ 2 : ℝ) : ℂ)) hps r.hsc (amp := amp ^ 2) hw' hT hx hy
    (fun i hi j hj => by
      rw [gaussian_values hw hnew r.input hi hj, norm_real, Real.norm_eq_abs, sq_abs, mul_pow, mul_pow, ← Real.exp_nat_mul,
        ← Real.exp_nat_mul, hw2]
      congr 4
      · push_cast
        field_simp
      · push_cast
        field_simp) 0 0
  have hP : fraunhofer s.dev.slm (fun i j => ((‖u i j‖ ^ 2 : ℝ) : ℂ)) 0 0 =
      ((slmPower s.dev.slm u / s.dev.slm.scaling : ℝ) : ℂ) := by
    unfold fraunhofer slmPower
    simp only [zero_mul, add_zero, ofReal_zero, mul_zero, zero_div, Complex.exp_zero, mul_one]
    unfold SLM.scaling
    push_cast
    ring
  have hG : gaussianSpot s.dev.slm.scaling x0 y0 (amp ^ 2) (w / √2) 0 0 =
      ((amp ^ 2 * Real.pi * w ^ 2 / 2 / s.dev.slm.scaling : ℝ) : ℂ) := by
    unfold gaussianSpot
    simp only [zero_mul, add_zero, ofReal_zero, mul_zero, zero_div, Complex.exp_zero, mul_one, neg_zero, Real.exp_zero,
      ne_eq, OfNat.ofNat_ne_zero, not_false_eq_true, zero_pow]
    rw [hw2]
    congr 1
    ring
  rw [hP, hG, ← ofReal_sub, norm_real, Real.norm_eq_abs, ← sub_div, abs_div, abs_of_nonneg (sq_nonneg amp),
    div_mul_eq_mul_div, div_le_div_iff_of_pos_right (abs_pos.mpr hsc)] at hb
  refine hb.trans_eq ?_
  unfold gaussError
  simp only [mul_zero, zero_div, abs_zero, zero_mul, add_zero]
  rw [hw2]
  simp only [ε]
  rw [show T ^ 2 / (w ^ 2 / 2) = 2 * T ^ 2 / w ^ 2 by field_simp]
  ring

/-! ## The hypotheses can be met -/

/-- The DMD of `exDmd` with all mirrors on. -/
def exOn : Sim := ⟨.dmd exDmd (.bool ⟨.mat 2 4, fun _ _ => true⟩), 3, 1, none, none, none⟩

/-- C93: the field `x + iy` on the DMD with all mirrors on. -/
example (h : Profile.Heap) :
    let E : ℝ → ℝ → ℂ := fun x y => x + I * y
    let t : Tensor ℂ := ⟨.mat 2 4, fun i j => E (exDmd.slm.fourierGrid.1.get i j) (exDmd.slm.fourierGrid.2.get i j)⟩
    Ready exOn 3 1 h (.ndarray .cplx t) t.get (fun _ _ => 1) ∧
    SmoothOn (exDmd.slm.Nx * exDmd.slm.ps / 2) (exDmd.slm.Ny * exDmd.slm.ps / 2) E 6 1 := by
  refine ⟨⟨rfl, rfl, by decide, by decide, ?_, ?_, ⟨_, rfl, rfl, fun _ _ _ _ => rfl⟩, ⟨_, rfl, rfl, fun i _ j _ => ?_⟩⟩,
    ⟨fun x hx y hy => ?_, fun x _ y _ x' _ y' _ => ?_⟩⟩
  · norm_num [exOn, Device.slm, exDmd]
  · norm_num [exOn, Device.slm, exDmd]
  · simp [Tensor.map]
  · norm_num [exDmd] at hx hy
    refine (norm_add_le _ _).trans ?_
    rw [norm_mul, norm_I, one_mul, norm_real, norm_real, Real.norm_eq_abs, Real.norm_eq_abs]
    have h1 := abs_le.mpr hx
    have h2 := abs_le.mpr hy
    linarith
  · rw [show (x : ℂ) + I * y - (x' + I * y') = ((x - x' : ℝ) : ℂ) + I * ((y - y' : ℝ) : ℂ) by push_cast; ring]
    refine (norm_add_le _ _).trans ?_
    rw [norm_mul, norm_I, one_mul, norm_real, norm_real, Real.norm_eq_abs, Real.norm_eq_abs, one_mul]

/-- C94, C95: a Gaussian beam of waist 1 displaced by 1, and the distance `T = 2`. -/
example (h0 : Profile.Heap) : ∃ h f u, Profile.New.run h0 (.hg 1 0 3 1 0 0) = .ok (h, f) ∧
    Ready exOn 3 1 h (.prof f) u (fun _ _ => 1) ∧
    |(1 : ℝ)| + 2 ≤ exOn.dev.slm.Nx * exOn.dev.slm.ps / 2 ∧ |(0 : ℝ)| + 2 ≤ exOn.dev.slm.Ny * exOn.dev.slm.ps / 2 := by
  obtain ⟨r, hr⟩ : ∃ r, Profile.New.run h0 (.hg 1 0 3 1 0 0) = .ok r := ⟨_, rfl⟩
  have hev := Profile.C56_formula h0 1 0 3 1 0 0 one_ne_zero hr
  obtain ⟨t, ht⟩ := (C64_profile_partial exOn.dev.slm r.1 r.2 true true).2 _ rfl (by decide) (by decide)
    (fun i _ j _ => by rw [hev]; rfl)
  have hsh : t.shape = .mat exOn.dev.slm.Ny exOn.dev.slm.Nx := by
    obtain ⟨g, -, -, hs, -⟩ := (C64_profile_partial exOn.dev.slm r.1 r.2 true true).1 t ht
    rcases hs with hs | ⟨-, hc⟩
    · exact hs
    · have h1 := hc 1 0 2 0
      rw [hev, hev] at h1
      injection h1 with h1
      have h2 := ofReal_injective h1
      norm_num [Spec.hermiteGauss, rodrigues_zero] at h2
  refine ⟨r.1, r.2, t.get, hr, ⟨rfl, rfl, by decide, by decide, ?_, ?_, ⟨t, ht, hsh, fun _ _ _ _ => rfl⟩,
    ⟨_, rfl, rfl, fun i _ j _ => ?_⟩⟩, ?_, ?_⟩
  · norm_num [exOn, Device.slm, exDmd]
  · norm_num [exOn, Device.slm, exDmd]
  · simp [Tensor.map]
  · norm_num [exOn, Device.slm, exDmd]
  · norm_num [exOn, Device.slm, exDmd]

end PySLM2.Sim
