import Verif.Props.Spectral
import Verif.Props.Pack
import Verif.Props.Zernike
import Mathlib.Analysis.Complex.ExponentialBounds

/-!
# C171: the optical tests of the package, for exact arithmetic and all parameters
-/

noncomputable section

open MeasureTheory Finset Complex

namespace PySLM2.Sim

open Riemann Spec

theorem exp_neg_le {n : ℕ} {x : ℝ} (hx : n ≤ x) : Real.exp (-x) ≤ (10 / 27 : ℝ) ^ n := by
  have h1 : Real.exp (-x) ≤ Real.exp (-(n : ℝ)) := by rw [Real.exp_le_exp]; linarith
  refine h1.trans ?_
  rw [Real.exp_neg, ← Real.exp_one_pow n, ← inv_pow]
  refine pow_le_pow_left₀ (by positivity) ?_ n
  have h2 := Real.exp_one_gt_d9
  rw [show (10 / 27 : ℝ) = (2.7)⁻¹ by norm_num]
  exact inv_anti₀ (by norm_num) (by linarith)

/-- Sampling errors do not matter for beams wider than three pixels. -/
theorem aliasing_small {ps w : ℝ} (hps : 0 < ps) (hw : 3 * ps ≤ w) :
    0 ≤ 2 * Real.exp (-(Real.pi * w / (2 * ps)) ^ 2) / (1 - Real.exp (-(Real.pi * w / (2 * ps)) ^ 2) ^ 4) ∧
    2 * Real.exp (-(Real.pi * w / (2 * ps)) ^ 2) / (1 - Real.exp (-(Real.pi * w / (2 * ps)) ^ 2) ^ 4) ≤ 1e-7 := by
  have h1 : (4.5 : ℝ) ≤ Real.pi * w / (2 * ps) := by
    rw [le_div_iff₀ (by positivity)]
    nlinarith [Real.pi_gt_three]
  have h2 : ((20 : ℕ) : ℝ) ≤ (Real.pi * w / (2 * ps)) ^ 2 := by
    push_cast
    nlinarith
  have h3 := exp_neg_le h2
  have h4 : Real.exp (-(Real.pi * w / (2 * ps)) ^ 2) ≤ 1e-8 := h3.trans (by norm_num)
  have h5 := Real.exp_pos (-(Real.pi * w / (2 * ps)) ^ 2)
  generalize Real.exp (-(Real.pi * w / (2 * ps)) ^ 2) = q at h4 h5
  have h6 : q ^ 4 ≤ 1 / 2 := (pow_le_pow_left₀ h5.le h4 4).trans (by norm_num)
  refine ⟨div_nonneg (by linarith) (by linarith), ?_⟩
  rw [div_le_iff₀ (by linarith)]
  have : (1e-7 : ℝ) * (1 / 2) ≤ 1e-7 * (1 - q ^ 4) := by gcongr; linarith
  refine le_trans ?_ this
  norm_num at h4 ⊢
  linarith

theorem sampledError_nonneg {ps w T : ℝ} (hps : 0 < ps) (hw : 3 * ps ≤ w) (hT : 0 < T) : 0 ≤ sampledError ps w T := by
  have hw0 : 0 < w := by linarith
  have h1 := (C170_tail hw0 hT).1
  have h2 := (aliasing_small hps hw).1
  unfold sampledError
  positivity

theorem sampledError_le {ps w T α : ℝ} (hps : 0 < ps) (hw : 3 * ps ≤ w) (hT : 0 < T) (hα : Real.exp (-(T ^ 2 / w ^ 2)) ≤ α) :
    sampledError ps w T ≤ √Real.pi * w * (α + 1e-7) := by
  have hw0 : 0 < w := by linarith
  have h1 := (C170_tail hw0 hT).2.1
  have h2 := (aliasing_small hps hw).2
  have h3 : √Real.pi * w / 2 * Real.exp (-(T ^ 2 / w ^ 2)) ≤ √Real.pi * w / 2 * α := by gcongr
  have h4 := mul_le_mul_of_nonneg_left h2 (by positivity : 0 ≤ √Real.pi * w)
  unfold sampledError
  linarith

theorem sampledError_le' {ps w T α : ℝ} (hps : 0 < ps) (hw : 3 * ps ≤ w) (hT : 0 < T)
    (hα : w / (√Real.pi * T) * Real.exp (-(T ^ 2 / w ^ 2)) ≤ α) : sampledError ps w T ≤ √Real.pi * w * (α + 1e-7) := by
  have hw0 : 0 < w := by linarith
  have h1 := (C170_tail hw0 hT).2.2
  have h2 := (aliasing_small hps hw).2
  have h3 : w ^ 2 / (2 * T) * Real.exp (-(T ^ 2 / w ^ 2)) ≤ √Real.pi * w / 2 * α := by
    have hp : 0 < √Real.pi := Real.sqrt_pos.mpr Real.pi_pos
    calc _ = √Real.pi * w / 2 * (w / (√Real.pi * T) * Real.exp (-(T ^ 2 / w ^ 2))) := by field_simp
      _ ≤ _ := by gcongr
  have h4 := mul_le_mul_of_nonneg_left h2 (by positivity : 0 ≤ √Real.pi * w)
  unfold sampledError
  linarith

/-- Relative errors of a product -/
theorem prod_rel {A ex ey dx dy tol : ℝ} (hA : 0 ≤ A) (hx0 : 0 ≤ ex) (hy : ey ≤ A * dy) (hx : ex ≤ A * dx) (hdy : 0 ≤ dy)
    (ht : (1 + dx) * (1 + dy) ≤ 1 + tol) : (A + ex) * (A + ey) - A ^ 2 ≤ tol * A ^ 2 := by
  have h1 : (A + ex) * (A + ey) ≤ (A * (1 + dx)) * (A * (1 + dy)) := by
    have a1 : A + ex ≤ A * (1 + dx) := by linarith
    have a2 : A + ey ≤ A * (1 + dy) := by linarith
    have a3 : 0 ≤ A * (1 + dy) := by positivity
    have a4 : 0 ≤ A + ex := by positivity
    nlinarith
  nlinarith [mul_le_mul_of_nonneg_left ht (sq_nonneg A)]

variable {s : Sim} {px py : ℕ} {h : Profile.Heap} {u m : ℕ → ℕ → ℂ}

/-- **C171** (`test/test_simulation.py:44-61`): on a DLP9500 the input power of a centred Gaussian beam is `0.5 * pi * a**2 * w**2` with the relative
tolerance `1e-3`; the test has `w = 3 mm`, `a = 1.1` and paddings of 1000. -/
theorem C171_input_power {f : Profile.Prof} {h0 : Profile.Heap} {amp w lam foc : ℝ} (hw : 0.1e-3 ≤ w) (hw3 : w ≤ 3e-3)
    (hdev : s.dev.slm = Model.DLP9500.slm lam foc)
    (hnew : Profile.New.run h0 (.hg 0 0 amp w 0 0) = .ok (h, f)) (r : Ready s px py h (.prof f) u m) :
    ∃ P, (s.propagate h (.prof f)).1.inputPower = .ok P ∧
      |P - 0.5 * Real.pi * amp ^ 2 * w ^ 2| ≤ 1e-3 * (0.5 * Real.pi * amp ^ 2 * w ^ 2) := by
  have hw0 : 0 < w := by norm_num at hw; linarith
  have eN : s.dev.slm.Nx = 1920 := by rw [hdev]; rfl
  have eM : s.dev.slm.Ny = 1080 := by rw [hdev]; rfl
  have eps : s.dev.slm.ps = 10.8 * 1e-6 := by rw [hdev]; rfl
  have hps : 0 < s.dev.slm.ps := by rw [eps]; norm_num
  obtain ⟨P, hP, hb⟩ := C170_power (x0 := 0) (y0 := 0) (Tx := 10.3e-3) (Ty := 5.82e-3) hw0 (by norm_num) (by norm_num) hnew r hps
    (by rw [eN, eps]; norm_num) (by rw [eM, eps]; norm_num)
  refine ⟨P, hP, ?_⟩
  have h2 : (0 : ℝ) < √2 := by positivity
  have hsq2 : √2 ≤ 2 := by rw [Real.sqrt_le_left (by norm_num)]; norm_num
  have hW : 3 * s.dev.slm.ps ≤ w / √2 := by
    rw [le_div_iff₀ h2, eps]
    norm_num at hw ⊢
    nlinarith
  have hWsq : (w / √2) ^ 2 = w ^ 2 / 2 := by rw [div_pow, Real.sq_sqrt (by norm_num)]
  have hwsq : w ^ 2 ≤ (3e-3 : ℝ) ^ 2 := by gcongr
  have ax : Real.exp (-((10.3e-3 : ℝ) ^ 2 / (w / √2) ^ 2)) ≤ 1e-6 := by
    refine (exp_neg_le (n := 20) ?_).trans (by norm_num)
    rw [hWsq, le_div_iff₀ (by positivity)]
    norm_num at hwsq ⊢
    linarith
  have ay : Real.exp (-((5.82e-3 : ℝ) ^ 2 / (w / √2) ^ 2)) ≤ 9.6e-4 := by
    refine (exp_neg_le (n := 7) ?_).trans (by norm_num)
    rw [hWsq, le_div_iff₀ (by positivity)]
    norm_num at hwsq ⊢
    linarith
  have bx := sampledError_le hps hW (by norm_num) ax
  have b := sampledError_le hps hW (by norm_num) ay
  have b0 := sampledError_nonneg (T := 10.3e-3) hps hW (by norm_num)
  have hA : (√Real.pi * (w / √2)) ^ 2 = Real.pi * w ^ 2 / 2 := by
    rw [mul_pow, Real.sq_sqrt Real.pi_pos.le, hWsq]
    ring
  have hr := prod_rel (tol := 1e-3) (by positivity) b0 b bx (by norm_num) (by norm_num)
  rw [hA] at hr
  have := mul_le_mul_of_nonneg_left hr (sq_nonneg amp)
  rw [show 0.5 * Real.pi * amp ^ 2 * w ^ 2 = amp ^ 2 * Real.pi * w ^ 2 / 2 by ring]
  refine hb.trans (this.trans_eq ?_)
  ring

/-- The two Gaussians of the scaling test differ little. -/
theorem spot_target {z X : ℝ} (hz : 100 ≤ z) (hX : 0 ≤ X) :
    |(1 + z ^ 2) / z * Real.exp (-(X * (1 + 1 / z ^ 2))) - √(1 + z ^ 2) * Real.exp (-X)| ≤ 3e-4 * √(1 + z ^ 2) := by
  have hz0 : 0 < z := by linarith
  set S := √(1 + z ^ 2) with hS
  have hS2 : S ^ 2 = 1 + z ^ 2 := Real.sq_sqrt (by positivity)
  have hS0 : 0 < S := by positivity
  have hSz : z ≤ S := by
    rw [hS]
    exact Real.le_sqrt_of_sq_le (by linarith)
  have hSz' : S ≤ z * (1 + 1 / (2 * z ^ 2)) := by
    rw [hS, Real.sqrt_le_left (by positivity)]
    have : (z * (1 + 1 / (2 * z ^ 2))) ^ 2 = z ^ 2 + 1 + 1 / (4 * z ^ 2) := by field_simp; ring
    rw [this]
    have : 0 < 1 / (4 * z ^ 2) := by positivity
    linarith
  have hzz : 1 / z ^ 2 ≤ 1e-4 := by
    rw [div_le_iff₀ (by positivity)]
    nlinarith
  -- the ratio of the amplitudes
  have hr : S / z ≤ 1 + 1e-4 := by
    rw [div_le_iff₀ hz0]
    have : 1 / (2 * z ^ 2) ≤ 1e-4 := by
      rw [show 1 / (2 * z ^ 2) = 1 / z ^ 2 / 2 by ring]
      have : 0 ≤ 1 / z ^ 2 := by positivity
      linarith
    nlinarith
  have hr1 : 1 ≤ S / z := by rwa [one_le_div hz0]
  have e1 : (1 + z ^ 2) / z = S * (S / z) := by
    rw [← hS2]
    ring
  rw [e1]
  have hE : 0 < Real.exp (-X) := Real.exp_pos _
  have hXE : X * Real.exp (-X) ≤ 1 := by
    have := Real.add_one_le_exp X
    rw [Real.exp_neg, ← div_eq_mul_inv, div_le_one (Real.exp_pos X)]
    linarith
  have hE1 : Real.exp (-X) ≤ 1 := by
    rw [Real.exp_le_one_iff]
    linarith
  have hF : Real.exp (-(X * (1 + 1 / z ^ 2))) ≤ Real.exp (-X) := by
    rw [Real.exp_le_exp]
    have : 0 ≤ X * (1 / z ^ 2) := by positivity
    linarith
  have hF' : Real.exp (-X) - 1e-4 ≤ Real.exp (-(X * (1 + 1 / z ^ 2))) := by
    have : Real.exp (-(X * (1 + 1 / z ^ 2))) = Real.exp (-X) * Real.exp (-(X / z ^ 2)) := by
      rw [← Real.exp_add]
      congr 1
      ring
    rw [this]
    have h1 : 1 - X / z ^ 2 ≤ Real.exp (-(X / z ^ 2)) := by
      have := Real.add_one_le_exp (-(X / z ^ 2))
      linarith
    have h2 := mul_le_mul_of_nonneg_left h1 hE.le
    have h3 : Real.exp (-X) * (X / z ^ 2) = X * Real.exp (-X) * (1 / z ^ 2) := by ring
    have h4 : X * Real.exp (-X) * (1 / z ^ 2) ≤ 1 * 1e-4 := by gcongr
    linarith
  generalize Real.exp (-(X * (1 + 1 / z ^ 2))) = F at *
  generalize Real.exp (-X) = G at *
  generalize S / z = ρ at *
  rw [show S * ρ * F - S * G = S * (ρ * F - G) by ring, abs_mul, abs_of_pos hS0, mul_comm]
  refine mul_le_mul_of_nonneg_right ?_ hS0.le
  rw [abs_le]
  constructor <;> norm_num at * <;> nlinarith

theorem peak_ratio {z : ℝ} (hz : 100 ≤ z) : (1 + z ^ 2) / z ≤ 1.001 * √(1 + z ^ 2) := by
  have hz0 : 0 < z := by linarith
  have h1 : √(1 + z ^ 2) ≤ 1.001 * z := by
    rw [Real.sqrt_le_left (by positivity)]
    nlinarith
  have h2 : √(1 + z ^ 2) ^ 2 = 1 + z ^ 2 := Real.sq_sqrt (by positivity)
  have h3 := Real.sqrt_nonneg (1 + z ^ 2)
  rw [div_le_iff₀ hz0]
  nlinarith

/-- **C171** (`test/test_slm.py:8-31`): on a DLP7000 with all mirrors on, the image of a wide Gaussian beam is the Gaussian of the waist `w_f` for which
the beam was calculated, with a tolerance of 1.5% of the peak (`assert_array_almost_equal` with that many decimals); the test has `w_f = 1 um` and
`2 um`. -/
theorem C171_scaling {f : Profile.Prof} {h0 : Profile.Heap} {ai wf wi af : ℝ} (hai : 0 < ai) (hw1 : 1e-6 ≤ wf) (hw2 : wf ≤ 2e-6)
    (hwi : wi = wf * √(1 + (25e-3 / (Real.pi * wf ^ 2 / 369e-9)) ^ 2)) (haf : af = wi / wf * ai)
    (hdev : s.dev.slm = Model.DLP7000.slm 369e-9 25e-3)
    (hnew : Profile.New.run h0 (.hg 0 0 ai wi 0 0) = .ok (h, f)) (r : Ready s px py h (.prof f) u fun _ _ => 1)
    {h1 : Profile.Heap} {target : Profile.Heap × Profile.Prof} (ht : Profile.New.run h1 (.hg 0 0 af wf 0 0) = .ok target) :
    ∃ img g, (s.propagate h (.prof f)).1.imageField = some img ∧ s.imagePaddedGrid = .ok g ∧
      ∀ k < s.dev.slm.Ny + 2 * py, ∀ l < s.dev.slm.Nx + 2 * px,
        ∃ v, Profile.eval target.1 target.2 (g.1.get k l) (g.2.get k l) = some v ∧ ‖img.get k l - v‖ ≤ 1.5e-2 * af := by
  have hwf0 : 0 < wf := by norm_num at hw1; linarith
  have eN : s.dev.slm.Nx = 1024 := by rw [hdev]; rfl
  have eM : s.dev.slm.Ny = 768 := by rw [hdev]; rfl
  have eps : s.dev.slm.ps = 13.68 * 1e-6 := by rw [hdev]; rfl
  have esc : s.dev.slm.wavelength * s.dev.slm.focal = 369e-9 * 25e-3 := by rw [hdev]; rfl
  have hps : 0 < s.dev.slm.ps := by rw [eps]; norm_num
  have hp1 := Real.pi_gt_d4
  have hp2 := Real.pi_lt_d4
  have hpi := Real.pi_pos
  set z : ℝ := 25e-3 / (Real.pi * wf ^ 2 / 369e-9) with hz
  have hzw : z * (Real.pi * wf ^ 2) = 25e-3 * 369e-9 := by
    rw [hz]
    field_simp
  have hwf2 : wf ^ 2 ≤ (2e-6 : ℝ) ^ 2 := by gcongr
  have hz0 : 0 < z := by rw [hz]; positivity
  have hz100 : 100 ≤ z := by
    by_contra hlt
    push Not at hlt
    have h2 : z * (Real.pi * wf ^ 2) ≤ 100 * (3.1416 * (2e-6 : ℝ) ^ 2) := by gcongr
    rw [hzw] at h2
    norm_num at h2
  have hzwf : wf * z * Real.pi * wf = 25e-3 * 369e-9 := by rw [← hzw]; ring
  set S := √(1 + z ^ 2) with hS
  have hS2 : S ^ 2 = 1 + z ^ 2 := Real.sq_sqrt (by positivity)
  have hS0 : 0 < S := by positivity
  have hSz : z ≤ S := by
    rw [hS]
    exact Real.le_sqrt_of_sq_le (by linarith)
  have hSz' : S ≤ z + 1 := by
    rw [hS, Real.sqrt_le_left (by positivity)]
    nlinarith
  have hwi1 : 1e-3 ≤ wi := by
    have h2 : wf * z ≤ wi := by rw [hwi]; gcongr
    by_contra hlt
    push Not at hlt
    have h3 : wf * z * Real.pi * wf ≤ 1e-3 * 3.1416 * 2e-6 := by
      have : wf * z ≤ 1e-3 := by linarith
      gcongr
    rw [hzwf] at h3
    norm_num at h3
  have hwi2 : wi ≤ 2.94e-3 := by
    have h2 : wi ≤ wf * z + wf := by
      rw [hwi]
      nlinarith
    have h3 : wf * z ≤ 2.937e-3 := by
      by_contra hlt
      push Not at hlt
      have h4 : (2.937e-3 : ℝ) * 3.1415 * 1e-6 ≤ wf * z * Real.pi * wf := by
        gcongr
      rw [hzwf] at h4
      norm_num at h4
    norm_num at hw2 h3 ⊢
    linarith
  have hwi0 : 0 < wi := by norm_num at hwi1; linarith
  obtain ⟨img, g, hi, hg, hb⟩ := C170_spot (x0 := 0) (y0 := 0) (Tx := 6.98e-3) (Ty := 5.239e-3) hwi0 (by norm_num) (by norm_num) hnew r hps
    (by rw [eN, eps]; norm_num) (by rw [eM, eps]; norm_num)
  refine ⟨img, g, hi, hg, fun k hk l hl => ⟨_, Profile.C56_formula h1 0 0 af wf 0 0 hwf0.ne' ht _ _, ?_⟩⟩
  have hb := (hb k hk l hl).2 (by rw [eN]; decide) (by rw [eM]; decide)
  generalize g.1.get k l = ξ at *
  generalize g.2.get k l = η at *
  have hsp : (1.77 : ℝ) ≤ √Real.pi := Real.le_sqrt_of_sq_le (by norm_num at hp1 ⊢; linarith)
  have hwisq : wi ^ 2 ≤ (2.94e-3 : ℝ) ^ 2 := by gcongr
  have hW : 3 * s.dev.slm.ps ≤ wi := by
    rw [eps]
    norm_num at hwi1 ⊢
    linarith
  have he := Real.exp_one_gt_d9
  have ex : Real.exp (-((6.98e-3 : ℝ) ^ 2 / wi ^ 2)) ≤ 4.3e-3 := by
    have h2 : Real.exp (-((6.98e-3 : ℝ) ^ 2 / wi ^ 2)) ≤ Real.exp (-5.6) := by
      rw [Real.exp_le_exp, neg_le_neg_iff, le_div_iff₀ (by positivity)]
      norm_num at hwisq ⊢
      linarith
    refine h2.trans ?_
    rw [Real.exp_neg, show (5.6 : ℝ) = (5 : ℕ) * 1 + 0.6 by norm_num, Real.exp_add, Real.exp_nat_mul]
    have h3 : (1.6 : ℝ) ≤ Real.exp 0.6 := by
      have := Real.add_one_le_exp (0.6 : ℝ)
      norm_num at this ⊢
      linarith
    have h4 : (2.718 : ℝ) ^ 5 * 1.6 ≤ Real.exp 1 ^ 5 * Real.exp 0.6 := by
      have : (2.718 : ℝ) ≤ Real.exp 1 := by norm_num at he ⊢; linarith
      gcongr
    refine (inv_anti₀ (by norm_num) h4).trans (by norm_num)
  have ey : Real.exp (-((5.239e-3 : ℝ) ^ 2 / wi ^ 2)) ≤ 4.21e-2 := by
    have h2 : Real.exp (-((5.239e-3 : ℝ) ^ 2 / wi ^ 2)) ≤ Real.exp (-3.17) := by
      rw [Real.exp_le_exp, neg_le_neg_iff, le_div_iff₀ (by positivity)]
      norm_num at hwisq ⊢
      linarith
    refine h2.trans ?_
    rw [Real.exp_neg, show (3.17 : ℝ) = (3 : ℕ) * 1 + 0.17 by norm_num, Real.exp_add, Real.exp_nat_mul]
    have h3 : (1.184 : ℝ) ≤ Real.exp 0.17 := by
      have := Real.quadratic_le_exp_of_nonneg (by norm_num : (0 : ℝ) ≤ 0.17)
      norm_num at this ⊢
      linarith
    have h4 : (2.718 : ℝ) ^ 3 * 1.184 ≤ Real.exp 1 ^ 3 * Real.exp 0.17 := by
      have : (2.718 : ℝ) ≤ Real.exp 1 := by norm_num at he ⊢; linarith
      gcongr
    refine (inv_anti₀ (by norm_num) h4).trans (by norm_num)
  have ax : wi / (√Real.pi * 6.98e-3) * Real.exp (-((6.98e-3 : ℝ) ^ 2 / wi ^ 2)) ≤ 1.1e-3 := by
    have : wi / (√Real.pi * 6.98e-3) ≤ 2.94e-3 / (1.77 * 6.98e-3) := by gcongr
    refine (mul_le_mul this ex (Real.exp_pos _).le (by norm_num)).trans (by norm_num)
  have ay : wi / (√Real.pi * 5.239e-3) * Real.exp (-((5.239e-3 : ℝ) ^ 2 / wi ^ 2)) ≤ 1.336e-2 := by
    have : wi / (√Real.pi * 5.239e-3) ≤ 2.94e-3 / (1.77 * 5.239e-3) := by gcongr
    refine (mul_le_mul this ey (Real.exp_pos _).le (by norm_num)).trans (by norm_num)
  have bx := sampledError_le' hps hW (by norm_num) ax
  have b := sampledError_le' hps hW (by norm_num) ay
  have b0 := sampledError_nonneg (T := 6.98e-3) hps hW (by norm_num)
  have hr := prod_rel (tol := 1.45e-2) (by positivity) b0 b bx (by norm_num) (by norm_num)
  rw [mul_pow, Real.sq_sqrt hpi.le] at hr
  simp only [esc] at hb
  set sc : ℝ := 369e-9 * 25e-3 with hsc
  have hscz : sc = z * (Real.pi * wf ^ 2) := by rw [hzw, hsc]; ring
  have hsc0 : 0 < sc := by rw [hsc]; norm_num
  have hpeak : Real.pi * wi ^ 2 / sc = (1 + z ^ 2) / z := by
    rw [hwi, hscz, mul_pow, hS2]
    field_simp
  have hafS : af = S * ai := by
    rw [haf, hwi]
    field_simp
  have hspot : gaussianSpot sc 0 0 ai wi ξ η = ((ai * ((1 + z ^ 2) / z * Real.exp (-((ξ ^ 2 + η ^ 2) / wf ^ 2 * (1 + 1 / z ^ 2)))) : ℝ) : ℂ) := by
    unfold gaussianSpot
    have e1 : (ξ ^ 2 + η ^ 2) / (sc / (Real.pi * wi)) ^ 2 = (ξ ^ 2 + η ^ 2) / wf ^ 2 * (1 + 1 / z ^ 2) := by
      rw [hwi, hscz]
      rw [show z * (Real.pi * wf ^ 2) / (Real.pi * (wf * S)) = z * wf / S by field_simp, div_pow, hS2]
      field_simp
      ring
    rw [e1, ← hpeak]
    simp only [mul_zero, add_zero, ofReal_zero, zero_div, Complex.exp_zero, mul_one]
    congr 1
    ring
  have hval : Spec.hermiteGauss 0 0 af wf 0 0 ξ η = ai * (S * Real.exp (-((ξ ^ 2 + η ^ 2) / wf ^ 2))) := by
    unfold Spec.hermiteGauss
    rw [rodrigues_zero, rodrigues_zero, hafS, sub_zero, sub_zero, neg_div]
    ring
  have h2 := spot_target (X := (ξ ^ 2 + η ^ 2) / wf ^ 2) hz100 (by positivity)
  have h3 : ‖gaussianSpot sc 0 0 ai wi ξ η - (Spec.hermiteGauss 0 0 af wf 0 0 ξ η : ℂ)‖ ≤ 3e-4 * af := by
    rw [hspot, hval, ← ofReal_sub, ← mul_sub, norm_real, Real.norm_eq_abs, abs_mul, abs_of_pos hai, hafS]
    have := mul_le_mul_of_nonneg_left h2 hai.le
    linarith
  have h4 : ‖img.get k l - gaussianSpot sc 0 0 ai wi ξ η‖ ≤ 1.46e-2 * af := by
    refine hb.trans ?_
    rw [abs_of_pos hai, abs_of_pos hsc0]
    have h5 := mul_le_mul_of_nonneg_left hr (by positivity : 0 ≤ ai / sc)
    refine h5.trans ?_
    rw [show ai / sc * (1.45e-2 * (Real.pi * wi ^ 2)) = 1.45e-2 * ai * (Real.pi * wi ^ 2 / sc) by ring, hpeak, hafS]
    have h6 : (1 + z ^ 2) / z ≤ 1.001 * S := peak_ratio hz100
    have h7 : 1.45e-2 * ai * ((1 + z ^ 2) / z) ≤ 1.45e-2 * ai * (1.001 * S) := by gcongr
    refine h7.trans ?_
    have : 0 < S * ai := by positivity
    rw [show (1.45e-2 : ℝ) * ai * (1.001 * S) = 1.45e-2 * 1.001 * (S * ai) by ring]
    refine mul_le_mul_of_nonneg_right ?_ this.le
    norm_num
  have h8 := norm_add_le (img.get k l - gaussianSpot sc 0 0 ai wi ξ η) (gaussianSpot sc 0 0 ai wi ξ η - (Spec.hermiteGauss 0 0 af wf 0 0 ξ η : ℂ))
  rw [sub_add_sub_cancel] at h8
  have haf0 : 0 < af := by rw [hafS]; positivity
  refine h8.trans ((add_le_add h4 h3).trans ?_)
  rw [← add_mul]
  exact mul_le_mul_of_nonneg_right (by norm_num) haf0.le

/-- **C171** (`test/test_simulation.py:8-22`): with paddings of half the (even) size the padded image plane grid taken every two pixels is the unpadded
one. -/
theorem C171_padded_grid (hpx : s.px = (s.dev.slm.Nx / 2 : ℕ)) (hpy : s.py = (s.dev.slm.Ny / 2 : ℕ)) (hx : Even s.dev.slm.Nx) (hy : Even s.dev.slm.Ny)
    {g g' : Tensor ℝ × Tensor ℝ} (hg : s.dev.slm.imageGrid = .ok g) (hg' : s.imagePaddedGrid = .ok g') :
    ∀ i < s.dev.slm.Ny, ∀ j < s.dev.slm.Nx, g'.1.get (2 * i) (2 * j) = g.1.get i j ∧ g'.2.get (2 * i) (2 * j) = g.2.get i j := by
  obtain ⟨a, ha⟩ := hx
  obtain ⟨b, hb⟩ := hy
  obtain ⟨h1, h2⟩ := C08_padding_refines s _ _ 2 hpx hpy g g' hg hg'
  intro i hi j hj
  refine ⟨h1 (by omega) i (2 * i) j (2 * j) hj (by omega) ?_, h2 (by omega) i (2 * i) j (2 * j) hi (by omega) ?_⟩
  · rw [Nat.mul_div_cancel_left _ (by norm_num), show s.dev.slm.Nx / 2 = a by omega, ha]
    push_cast
    ring
  · rw [Nat.mul_div_cancel_left _ (by norm_num), show s.dev.slm.Ny / 2 = b by omega, hb]
    push_cast
    ring

/-- **C171** (`test/test_simulation.py:25-41`): these paddings leave the pixel area on the SLM as it is and divide that in the image by four. -/
theorem C171_pixel_area {s' : Sim} (hdev : s'.dev.slm = s.dev.slm) (h0 : s'.px = 0 ∧ s'.py = 0)
    (hpx : s.px = (s.dev.slm.Nx / 2 : ℕ)) (hpy : s.py = (s.dev.slm.Ny / 2 : ℕ)) (hx : Even s.dev.slm.Nx) (hy : Even s.dev.slm.Ny)
    (hx0 : 0 < s.dev.slm.Nx) (hy0 : 0 < s.dev.slm.Ny) (hps : 0 < s.dev.slm.ps) (hsc : s.dev.slm.wavelength * s.dev.slm.focal ≠ 0) :
    s'.fourierPixelArea = s.fourierPixelArea ∧ 0 < s.fourierPixelArea ∧
      ∃ area, 0 < area ∧ s.imagePixelArea = .ok area ∧ s'.imagePixelArea = .ok (4 * area) := by
  obtain ⟨a, ha⟩ := hx
  obtain ⟨b, hb⟩ := hy
  have hNx : s.NxInt = 2 * (s.dev.slm.Nx : ℤ) := by unfold NxInt; rw [hpx]; omega
  have hNy : s.NyInt = 2 * (s.dev.slm.Ny : ℤ) := by unfold NyInt; rw [hpy]; omega
  have hNx' : s'.NxInt = (s.dev.slm.Nx : ℤ) := by unfold NxInt; rw [hdev, h0.1]; omega
  have hNy' : s'.NyInt = (s.dev.slm.Ny : ℤ) := by unfold NyInt; rw [hdev, h0.2]; omega
  have hs : s.dev.slm.scaling ≠ 0 := hsc
  have hX : (0 : ℝ) < s.dev.slm.Nx := by exact_mod_cast hx0
  have hY : (0 : ℝ) < s.dev.slm.Ny := by exact_mod_cast hy0
  refine ⟨by unfold fourierPixelArea; rw [hdev], by unfold fourierPixelArea; positivity,
    s.dev.slm.scaling ^ 2 / (4 * (s.dev.slm.Nx * s.dev.slm.Ny)) / s.dev.slm.ps ^ 2, by positivity, ?_, ?_⟩
  · unfold imagePixelArea
    rw [if_neg, hNx, hNy]
    · congr 3
      push_cast
      ring
    · rw [hNx, hNy]
      push Not
      refine ⟨by positivity, by positivity⟩
  · unfold imagePixelArea
    rw [if_neg, hNx', hNy', hdev]
    · congr 1
      push_cast
      field_simp
    · rw [hNx', hNy', hdev]
      push Not
      refine ⟨by positivity, by positivity⟩

/-- **C171** (`test/test_simulation.py:90-109`): with all mirrors on, input, output and image power agree, and do not depend on the paddings. -/
theorem C171_energy {s' : Sim} {px' py' : ℕ} {a : ProfArg} (r : Ready s px py h a u fun _ _ => 1) (r' : Ready s' px' py' h a u fun _ _ => 1)
    (hdev : s'.dev.slm = s.dev.slm) :
    ∃ P, (s.propagate h a).1.inputPower = .ok P ∧ (s'.propagate h a).1.inputPower = .ok P ∧ (s'.propagate h a).1.outputPower = .ok P ∧
      (s'.propagate h a).1.imagePower = .ok P := by
  obtain ⟨h1, h2, h3, h4⟩ := C13_padding_power r r' hdev
  obtain ⟨P, e1, e2, e3⟩ := C12_energy r
  simp only [mul_one] at e3
  refine ⟨P, by rw [h1, e3], by rw [← h2, h1, e3], by rw [← h3, e1], by rw [← h4, e2]⟩

/-- C171: the beam of the test of the input power -/
example (h0 : Profile.Heap) : ∃ h f u, Profile.New.run h0 (.hg 0 0 5 0.5e-3 0 0) = .ok (h, f) ∧
    ∃ s : Sim, s.dev.slm = Model.DLP9500.slm 369e-9 30e-3 ∧ Ready s 0 0 h (.prof f) u (fun _ _ => 1) ∧ (0.1e-3 : ℝ) ≤ 0.5e-3 ∧ (0.5e-3 : ℝ) ≤ 3e-3 := by
  obtain ⟨h, f, u, h1, h2⟩ := gaussian_ready ⟨Model.DLP9500.slm 369e-9 30e-3, 4, 0, true⟩ h0 0 0 (amp := 5) (w := 0.5e-3) (by norm_num)
    (by norm_num) (by decide) (by decide) (by norm_num [Model.slm]) (by norm_num [Model.slm])
  exact ⟨h, f, u, h1, _, rfl, h2 0 0, by norm_num, by norm_num⟩

/-- C171: the beam of the test of the scaling factor, and two simulations of it with different paddings -/
example (h0 : Profile.Heap) {wi : ℝ} (hwi : wi = 1.5e-6 * √(1 + (25e-3 / (Real.pi * 1.5e-6 ^ 2 / 369e-9)) ^ 2)) :
    ∃ h f u, Profile.New.run h0 (.hg 0 0 1 wi 0 0) = .ok (h, f) ∧
    ∃ s s' : Sim, s.dev.slm = Model.DLP7000.slm 369e-9 25e-3 ∧ s'.dev.slm = s.dev.slm ∧ Ready s 512 384 h (.prof f) u (fun _ _ => 1) ∧
      Ready s' 0 0 h (.prof f) u (fun _ _ => 1) := by
  have hw : wi ≠ 0 := by
    rw [hwi]
    have : 0 < √(1 + (25e-3 / (Real.pi * 1.5e-6 ^ 2 / 369e-9)) ^ 2) := by positivity
    positivity
  obtain ⟨h, f, u, h1, h2⟩ := gaussian_ready ⟨Model.DLP7000.slm 369e-9 25e-3, 4, 0, true⟩ h0 0 0 (amp := 1) (w := wi) (by norm_num)
    hw (by decide) (by decide) (by norm_num [Model.slm]) (by norm_num [Model.slm])
  exact ⟨h, f, u, h1, _, _, rfl, by rfl, h2 512 384, h2 0 0⟩

/-- C171: the devices of the tests have even numbers of pixels and these paddings. -/
example : let s : Sim := ⟨.dmd ⟨Model.DLP9500.slm 369e-9 30e-3, 4, 0, true⟩ (.bool ⟨.mat 1080 1920, fun _ _ => true⟩), 960, 540, none, none, none⟩
    s.px = (s.dev.slm.Nx / 2 : ℕ) ∧ s.py = (s.dev.slm.Ny / 2 : ℕ) ∧ Even s.dev.slm.Nx ∧ Even s.dev.slm.Ny ∧ 768 * 1024 = 8 * 98304 :=
  ⟨rfl, rfl, ⟨960, rfl⟩, ⟨540, rfl⟩, rfl⟩

end PySLM2.Sim

namespace PySLM2.DMD

/-- **C171** (`test/test_slm.py:106-112`): all mirrors off pack to zero bytes, all mirrors on to bytes `0xff`, on every device with a multiple of eight
mirrors. -/
theorem C171_pack {M N k : ℕ} (hk : M * N = 8 * k) (b : Bool) :
    packDmdState (.bool ⟨.mat M N, fun _ _ => b⟩) = .ok (List.replicate (M * N / 8) (if b then 0xff else 0)) := by
  obtain ⟨bytes, h1, h2, h3, h4, h5⟩ := C41_pack (t := ⟨.mat M N, fun _ _ => b⟩) (M := M) (N := N) rfl
  have hlen : bytes.length = k := by
    rw [h2]
    have : ((M * N : ℚ)) / 8 = k := by
      have : (M * N : ℚ) = 8 * k := by exact_mod_cast hk
      rw [this]
      ring
    rw [this, Nat.ceil_natCast]
  rw [h1]
  congr 1
  rw [show M * N / 8 = k by omega]
  refine List.ext_getElem (by simp [hlen]) fun n hn _ => ?_
  rw [List.getElem_replicate]
  refine Nat.eq_of_testBit_eq fun q => ?_
  have hb := h3 _ (List.getElem_mem hn)
  by_cases hq : q < 8
  · have hlt : 8 * n + (7 - q) < M * N := by omega
    have hN : 0 < N := by
      rcases Nat.eq_zero_or_pos N with e | e
      · subst e; omega
      · exact e
    have := h4 ((8 * n + (7 - q)) / N) (Nat.div_lt_of_lt_mul (by rwa [mul_comm M N] at hlt)) ((8 * n + (7 - q)) % N) (Nat.mod_lt _ hN)
    rw [mul_comm _ N, Nat.div_add_mod, show (8 * n + (7 - q)) / 8 = n by omega, show 7 - (8 * n + (7 - q)) % 8 = q by omega,
      List.getD_eq_getElem _ _ hn] at this
    rw [this]
    cases b
    · simp
    · have : ∀ q < 8, Nat.testBit 0xff q = true := by decide
      exact (this q hq).symm
  · have h256 : ∀ v : ℕ, v < 256 → v.testBit q = false := fun v hv =>
      Nat.testBit_lt_two_pow (lt_of_lt_of_le hv (by
        have : 2 ^ 8 ≤ 2 ^ q := Nat.pow_le_pow_right (by norm_num) (by omega)
        omega))
    rw [h256 _ hb, h256 _ (by cases b <;> decide)]

end PySLM2.DMD

namespace PySLM2.Profile

/-- Table 2 of Thibos et al., as in `test/test_profile.py:105-116` -/
def thibos (n m : ℤ) (ρ φ : ℝ) : Option ℝ :=
  match n, m with
  | 0, 0 => some 1
  | 1, -1 => some (2 * ρ * Real.sin φ)
  | 1, 1 => some (2 * ρ * Real.cos φ)
  | 2, -2 => some (√6 * ρ ^ 2 * Real.sin (2 * φ))
  | 2, 0 => some (√3 * (2 * ρ ^ 2 - 1))
  | 2, 2 => some (√6 * ρ ^ 2 * Real.cos (2 * φ))
  | 3, -3 => some (√8 * ρ ^ 3 * Real.sin (3 * φ))
  | 3, -1 => some (√8 * (3 * ρ ^ 3 - 2 * ρ) * Real.sin φ)
  | 3, 1 => some (√8 * (3 * ρ ^ 3 - 2 * ρ) * Real.cos φ)
  | 3, 3 => some (√8 * ρ ^ 3 * Real.cos (3 * φ))
  | _, _ => none

/-- **C171** (`test/test_profile.py:94-140`): `Zernike(1, radius, n, m, extrapolate)` is the function of the table, for all radii and points (inside the
radius, if not extrapolated). -/
theorem C171_zernike (h : Heap) {R : ℝ} (hR : 0 < R) {n m : ℤ} {x y v : ℝ} (ex : Bool)
    (hv : thibos n m (√(x ^ 2 + y ^ 2) / R) (Complex.arg (x + y * I)) = some v) (hin : ex = true ∨ √(x ^ 2 + y ^ 2) / R ≤ 1) :
    ∃ r, New.run h (.zernike 1 R n m true ex) = .ok r ∧ eval r.1 r.2 x y = some (v : ℂ) := by
  have key : Spec.ZernikeIndex n m ∧ Spec.zernikeNorm n m * Spec.zernikeMode n m R x y = v := by
    have s4 : √4 = 2 := by rw [show (4 : ℝ) = 2 ^ 2 by norm_num]; exact Real.sqrt_sq (by norm_num)
    unfold thibos at hv
    unfold Spec.ZernikeIndex Spec.zernikeNorm Spec.zernikeMode Spec.angular Spec.radial
    split at hv <;> first
      | (injection hv with hv
         subst hv
         refine ⟨⟨by decide, by decide⟩, ?_⟩
         norm_num [Finset.sum_range_succ, Nat.factorial, s4, show (Int.toNat 2) = 2 from rfl, show (Int.toNat 3) = 3 from rfl, show (Int.toNat 1) = 1 from rfl]
         try ring)
      | cases hv
  obtain ⟨r, hr, he⟩ := C60_formula h 1 R true ex key.1 hR
  refine ⟨r, hr, ?_⟩
  rw [he, if_neg, one_mul, if_pos rfl, key.2]
  rintro ⟨e1, e2⟩
  rcases hin with e | e
  · rw [e] at e1; cases e1
  · rw [div_le_one hR] at e
    linarith

/-- C171: the ten modes of the test -/
example (ρ φ : ℝ) : ∀ q ∈ [((0 : ℤ), (0 : ℤ)), (1, -1), (1, 1), (2, -2), (2, 0), (2, 2), (3, -3), (3, -1), (3, 1), (3, 3)],
    (thibos q.1 q.2 ρ φ).isSome := by
  simp [thibos]

end PySLM2.Profile
