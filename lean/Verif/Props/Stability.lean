import Verif.Props.RandomImage
import Verif.Props.Lcos
import Mathlib.Analysis.SpecialFunctions.Trigonometric.Bounds

/-!
# C129: small faults of the SLM have small effects
-/

noncomputable section

open Complex Finset

namespace PySLM2.Sim

/-- **C129.** Two propagations on devices of the same geometry and with the same paddings, whatever the input fields and the SLM
states: the power of the difference of the images is the power of the difference of the fields behind the SLMs, and no pixel
of the images differs by more than the sum of the differences on the SLM times `ps² / (λ f)`. -/
theorem C129_difference {s s' : Sim} {px py : ℕ} {h h' : Profile.Heap} {a a' : ProfArg} {u u' m m' : ℕ → ℕ → ℂ}
    (r : Ready s px py h a u m) (r' : Ready s' px py h' a' u' m') (hdev : s'.dev.slm = s.dev.slm) :
    ∃ img img' area, (s.propagate h a).1.imageField = some img ∧ (s'.propagate h' a').1.imageField = some img' ∧
      s.imagePixelArea = .ok area ∧
      (∑ k ∈ range (s.dev.slm.Ny + 2 * py), ∑ l ∈ range (s.dev.slm.Nx + 2 * px), ‖img.get k l - img'.get k l‖ ^ 2) * area =
        (∑ i ∈ range s.dev.slm.Ny, ∑ j ∈ range s.dev.slm.Nx, ‖u i j * m i j - u' i j * m' i j‖ ^ 2) * s.dev.slm.ps ^ 2 ∧
      ∀ k < s.dev.slm.Ny + 2 * py, ∀ l < s.dev.slm.Nx + 2 * px, ‖img.get k l - img'.get k l‖ ≤
        s.dev.slm.ps ^ 2 / |s.dev.slm.wavelength * s.dev.slm.focal| *
          ∑ i ∈ range s.dev.slm.Ny, ∑ j ∈ range s.dev.slm.Nx, ‖u i j * m i j - u' i j * m' i j‖ := by
  have hNx := r.hNx
  have hNy := r.hNy
  have hps := r.hps
  have hsc : s.dev.slm.scaling ≠ 0 := r.hsc
  have h1 : ((s.dev.slm.Nx + 2 * px : ℕ) : ℝ) ≠ 0 := by exact_mod_cast (by omega)
  have h2 : ((s.dev.slm.Ny + 2 * py : ℕ) : ℝ) ≠ 0 := by exact_mod_cast (by omega)
  have harea : s.imagePixelArea =
      .ok (s.dev.slm.scaling ^ 2 / ((s.dev.slm.Nx + 2 * px) * (s.dev.slm.Ny + 2 * py) : ℕ) / s.dev.slm.ps ^ 2) := by
    rw [imagePixelArea_nat r.hpx r.hpy, Nx_eq r.hpx, Ny_eq r.hpy, if_neg]
    push Not
    refine ⟨?_, pow_ne_zero 2 hps⟩
    have : 0 < (s.dev.slm.Nx + 2 * px) * (s.dev.slm.Ny + 2 * py) := Nat.mul_pos (by omega) (by omega)
    omega
  obtain ⟨g, hg⟩ := imagePaddedGrid_ok r
  have hg' : s'.imagePaddedGrid = .ok g := by
    rw [← hg]
    rw [imagePaddedGrid_nat r.hpx r.hpy, imagePaddedGrid_nat r'.hpx r'.hpy, Nx_eq r.hpx, Ny_eq r.hpy, Nx_eq r'.hpx, Ny_eq r'.hpy, hdev]
  obtain ⟨img, e1, e2⟩ := DMD.image_fieldAt r hg
  obtain ⟨img', e1', e2'⟩ := DMD.image_fieldAt r' hg'
  rw [hdev] at e2'
  refine ⟨img, img', _, e1, e1', harea, ?_, fun k hk l hl => ?_⟩
  · rw [propagate_ready r] at e1
    rw [propagate_ready r'] at e1'
    have hgain : s'.gain = s.gain := by
      unfold gain fourierPixelArea
      rw [Nx_eq r.hpx, Ny_eq r.hpy, Nx_eq r'.hpx, Ny_eq r'.hpy, hdev]
    set D := pad2 s.dev.slm.Ny s.dev.slm.Nx py px fun i j => u i j * m i j - u' i j * m' i j with hD
    have hdiff : ∀ k l, img.get k l - img'.get k l =
        centredIdft (s.dev.slm.Ny + 2 * py) (s.dev.slm.Nx + 2 * px) D k l * (s.gain : ℂ) := by
      intro k l
      rw [← Option.some.inj e1, ← Option.some.inj e1']
      simp only
      rw [hdev, hgain, ← sub_mul]
      congr 1
      have hlin := centredIdft_lin (s.dev.slm.Ny + 2 * py) (s.dev.slm.Nx + 2 * px) 1 (-1)
        (pad2 s.dev.slm.Ny s.dev.slm.Nx py px fun i j => u i j * m i j)
        (pad2 s.dev.slm.Ny s.dev.slm.Nx py px fun i j => u' i j * m' i j) k l
      rw [one_mul, neg_one_mul, ← sub_eq_add_neg] at hlin
      rw [← hlin]
      congr 1
      funext i j
      simp only [hD, pad2]
      split_ifs <;> ring
    have hn : ∀ z w : ℂ, ‖z * w‖ ^ 2 = ‖z‖ ^ 2 * ‖w‖ ^ 2 := fun z w => by rw [norm_mul, mul_pow]
    simp only [hdiff, hn _ (s.gain : ℂ), ← Finset.sum_mul]
    rw [← sum_norm_pad2 s.dev.slm.Ny s.dev.slm.Nx py px (fun i j => u i j * m i j - u' i j * m' i j),
      ← centredIdft_parseval (s.dev.slm.Ny + 2 * py) (s.dev.slm.Nx + 2 * px) D]
    have hgn : ‖(s.gain : ℂ)‖ ^ 2 = s.gain ^ 2 := by
      rw [Complex.norm_real, Real.norm_eq_abs, sq_abs]
    rw [hgn, gain, Nx_eq r.hpx, Ny_eq r.hpy, fourierPixelArea]
    rw [Nat.cast_mul]
    field_simp
  · obtain ⟨c, hc, hlin⟩ := DMD.fieldAt_lin s.dev.slm (fun _ _ => 1) (g.1.get k l) (g.2.get k l)
    have l1 := hlin fun i j => u i j * m i j
    have l2 := hlin fun i j => u' i j * m' i j
    simp only [one_mul] at l1 l2
    rw [e2 k hk l hl, e2' k hk l hl, l1, l2, ← sum_sub_distrib]
    have hcn : ∀ ij, ‖c ij‖ = s.dev.slm.ps ^ 2 / |s.dev.slm.wavelength * s.dev.slm.focal| := by
      intro ij
      have := hc ij
      rw [norm_one, one_pow, mul_one] at this
      have hs : s.dev.slm.ps ^ 2 / |s.dev.slm.wavelength * s.dev.slm.focal| = |s.dev.slm.ps ^ 2 / s.dev.slm.scaling| := by
        rw [abs_div, abs_of_nonneg (sq_nonneg s.dev.slm.ps)]; rfl
      rw [hs, ← abs_of_nonneg (norm_nonneg (c ij))]
      exact (sq_eq_sq_iff_abs_eq_abs _ _).mp this
    refine (norm_sum_le _ _).trans (le_of_eq ?_)
    rw [sum_product, mul_sum]
    refine sum_congr rfl fun i _ => ?_
    rw [mul_sum]
    refine sum_congr rfl fun j _ => ?_
    rw [← mul_sub, norm_mul, hcn]

end PySLM2.Sim

namespace PySLM2.DMD

open Sim Lib

/-- **C129** for a DMD: if the mirrors differ from the intended state at some pixels (stuck mirrors, rounding of the
pattern), the power of the error of the image is the power of the beam on those mirrors, and the error at every image pixel is
at most `ps² / (λ f)` times the sum of the field on them. -/
theorem C129_mirrors {d : DMD} {h : Profile.Heap} {a : ProfArg} {s : Sim} {st : StateArr} (hdev : s.dev = .dmd d st)
    {px py : ℕ} {u m : ℕ → ℕ → ℂ} (r : Ready s px py h a u m) {t t' : Tensor Bool} (ht : t.shape = .mat d.slm.Ny d.slm.Nx)
    (ht' : t'.shape = .mat d.slm.Ny d.slm.Nx) :
    ∃ img img' area, ((showing s d (.bool t)).propagate h a).1.imageField = some img ∧
      ((showing s d (.bool t')).propagate h a).1.imageField = some img' ∧ s.imagePixelArea = .ok area ∧
      (∑ k ∈ range (d.slm.Ny + 2 * py), ∑ l ∈ range (d.slm.Nx + 2 * px), ‖img.get k l - img'.get k l‖ ^ 2) * area =
        (∑ i ∈ range d.slm.Ny, ∑ j ∈ range d.slm.Nx, if t.get i j = t'.get i j then 0 else ‖u i j‖ ^ 2) * d.slm.ps ^ 2 ∧
      ∀ k < d.slm.Ny + 2 * py, ∀ l < d.slm.Nx + 2 * px, ‖img.get k l - img'.get k l‖ ≤
        d.slm.ps ^ 2 / |d.slm.wavelength * d.slm.focal| *
          ∑ i ∈ range d.slm.Ny, ∑ j ∈ range d.slm.Nx, if t.get i j = t'.get i j then 0 else ‖u i j‖ := by
  obtain ⟨img, img', area, h1, h2, h3, h4, h5⟩ := C129_difference (showing_ready hdev r (bool_modulation d ht))
    (showing_ready hdev r (bool_modulation d ht')) rfl
  have hn : ∀ i j, ‖u i j * (if t.get i j = true then 1 else 0) - u i j * (if t'.get i j = true then 1 else 0)‖ =
      if t.get i j = t'.get i j then 0 else ‖u i j‖ := by
    intro i j
    cases t.get i j <;> cases t'.get i j <;> simp
  have hn2 : ∀ i j, (if t.get i j = t'.get i j then 0 else ‖u i j‖) ^ 2 = if t.get i j = t'.get i j then 0 else ‖u i j‖ ^ 2 := by
    intro i j
    split_ifs <;> simp
  simp only [hn, hn2] at h4 h5
  have hsame : s.imagePixelArea = (showing s d (.bool t)).imagePixelArea := by
    have hs : (showing s d (.bool t)).dev.slm = s.dev.slm := by rw [hdev]; rfl
    rw [imagePixelArea_nat r.hpx r.hpy, imagePixelArea_nat (s := showing s d (.bool t)) r.hpx r.hpy, Sim.Nx_eq r.hpx, Sim.Ny_eq r.hpy, Sim.Nx_eq (s := showing s d (.bool t)) r.hpx,
      Sim.Ny_eq (s := showing s d (.bool t)) r.hpy, hs]
  exact ⟨img, img', area, h1, h2, hsame.trans h3, h4, h5⟩

end PySLM2.DMD

namespace PySLM2.LCOS

open Sim Lib

theorem shows_modulation {l : LCOS} {φ : ℕ → ℕ → ℝ} (h : Shows l φ) :
    Modulation (.lcos l) fun i j => cexp (-I * φ i j) := by
  refine ⟨_, rfl, h.2.1, fun i hi j hj => ?_⟩
  show cexp (-I * l.state.arr.get i j) = _
  rw [h.2.2 i hi j hj]

theorem exp_sub_le (x y : ℝ) : ‖cexp (-I * x) - cexp (-I * y)‖ ≤ |x - y| := by
  have h1 : cexp (-I * x) - cexp (-I * y) = cexp (((-y : ℝ) : ℂ) * I) * (cexp (((y - x : ℝ) : ℂ) * I) - 1) := by
    rw [mul_sub, ← Complex.exp_add, mul_one]
    congr 2 <;> · push_cast; ring
  rw [h1, norm_mul, Complex.norm_exp_ofReal_mul_I, one_mul, mul_comm, abs_sub_comm, ← Real.norm_eq_abs]
  exact Real.norm_exp_I_mul_ofReal_sub_one_le

/-- **C129** for an LCOS SLM: phase errors of at most `δ` (modulo whole turns) change the image by at most `δ²` times the
power of the beam. -/
theorem C129_phases {l l' : LCOS} {h : Profile.Heap} {a : ProfArg} {s : Sim} (hdev : s.dev = .lcos l) (hslm : l'.slm = l.slm)
    {px py : ℕ} {u m : ℕ → ℕ → ℂ} (r : Ready s px py h a u m) {φ φ' : ℕ → ℕ → ℝ} (hφ : Shows l φ) (hφ' : Shows l' φ') {δ : ℝ}
    (hδ : ∀ i < l.slm.Ny, ∀ j < l.slm.Nx, ∃ n : ℤ, |φ' i j - φ i j - n * (2 * Real.pi)| ≤ δ) :
    ∃ img img' area P, (s.propagate h a).1.imageField = some img ∧
      (({ s with dev := .lcos l' } : Sim).propagate h a).1.imageField = some img' ∧ s.imagePixelArea = .ok area ∧
      (s.propagate h a).1.inputPower = .ok P ∧
      (∑ k ∈ range (l.slm.Ny + 2 * py), ∑ j ∈ range (l.slm.Nx + 2 * px), ‖img.get k j - img'.get k j‖ ^ 2) * area ≤
        δ ^ 2 * P := by
  have hs : s.dev.slm = l.slm := by rw [hdev]; rfl
  have r1 : Ready s px py h a u fun i j => cexp (-I * φ i j) :=
    ⟨r.hpx, r.hpy, r.hNx, r.hNy, r.hsc, r.hps, r.input, by rw [hdev]; exact shows_modulation hφ⟩
  have hs' : ({ s with dev := .lcos l' } : Sim).dev.slm = s.dev.slm := by rw [hs, ← hslm]; rfl
  have r2 : Ready ({ s with dev := .lcos l' } : Sim) px py h a u fun i j => cexp (-I * φ' i j) := by
    refine ⟨r.hpx, r.hpy, ?_, ?_, ?_, ?_, ?_, shows_modulation hφ'⟩
    · rw [hs']; exact r.hNx
    · rw [hs']; exact r.hNy
    · rw [hs']; exact r.hsc
    · rw [hs']; exact r.hps
    · have := r.input
      unfold InputField at this ⊢
      rwa [hs']
  obtain ⟨img, img', area, h1, h2, h3, h4, -⟩ := C129_difference r1 r2 hs'
  have hP : (s.propagate h a).1.inputPower = .ok (slmPower s.dev.slm u) := by
    rw [propagate_ready r]; exact (propagated_powers r).1
  rw [hs] at h4 hP
  refine ⟨img, img', area, _, h1, h2, h3, hP, ?_⟩
  rw [h4]
  unfold slmPower
  rw [← mul_assoc]
  refine mul_le_mul_of_nonneg_right ?_ (sq_nonneg _)
  rw [mul_sum]
  refine sum_le_sum fun i hi => ?_
  rw [mul_sum]
  refine sum_le_sum fun j hj => ?_
  rw [← mul_sub, norm_mul, mul_pow, mul_comm]
  refine mul_le_mul_of_nonneg_right ?_ (sq_nonneg _)
  obtain ⟨n, hn⟩ := hδ i (mem_range.mp hi) j (mem_range.mp hj)
  have hper : cexp (-I * φ i j) = cexp (-I * ((φ i j + n * (2 * Real.pi) : ℝ) : ℂ)) := by
    rw [Complex.exp_eq_exp_iff_exists_int]
    exact ⟨n, by push_cast; ring⟩
  rw [hper]
  refine pow_le_pow_left₀ (norm_nonneg _) ((exp_sub_le _ _).trans ?_) 2
  rw [abs_sub_comm, show φ' i j - (φ i j + n * (2 * Real.pi)) = φ' i j - φ i j - n * (2 * Real.pi) by ring]
  exact hn

/-- C129_phases: two holograms on a 4 x 6 SLM that differ by 0.1, and a beam. -/
example (h : Profile.Heap) (φ : ℕ → ℕ → ℝ) :
    let l : LCOS := { exLcos with state := phaseState exLcos.slm φ }
    let l' : LCOS := { exLcos with state := phaseState exLcos.slm fun i j => φ i j + 0.1 }
    Shows l φ ∧ Shows l' (fun i j => φ i j + 0.1) ∧
    (∀ i < l.slm.Ny, ∀ j < l.slm.Nx, ∃ n : ℤ, |(φ i j + 0.1) - φ i j - n * (2 * Real.pi)| ≤ (0.1 : ℝ)) ∧
    Ready ⟨.lcos l, 2, 0, none, none, none⟩ 2 0 h (.ndarray .cplx ⟨.mat 4 6, fun i j => i + j * I⟩) (fun i j => i + j * I)
      (fun i j => cexp (-I * φ i j)) := by
  refine ⟨shows_phaseState _ _, shows_phaseState _ _, fun i _ j _ => ⟨0, ?_⟩, rfl, rfl, Nat.succ_pos 5, Nat.succ_pos 3, ?_, ?_,
    ⟨_, rfl, rfl, fun _ _ _ _ => rfl⟩, shows_modulation (shows_phaseState _ _)⟩
  · rw [Int.cast_zero, zero_mul, sub_zero, add_sub_cancel_left, abs_of_nonneg (by norm_num)]
  · show (3 : ℝ) * 5 ≠ 0; norm_num
  · show (2 : ℝ) ≠ 0; norm_num

end PySLM2.LCOS

namespace PySLM2.DMD

open Sim Lib

/-- C129_difference, C129_mirrors: the checkerboard of `exSim` with one mirror stuck. -/
example (h : Profile.Heap) : exSim.dev = .dmd exDmd (.bool exState) ∧ (∃ u m, Ready exSim 3 1 h exInput u m) ∧
    exState.shape = .mat exDmd.slm.Ny exDmd.slm.Nx ∧
    (⟨.mat 2 4, fun i j => exState.get i j || decide (i = 0 ∧ j = 1)⟩ : Tensor Bool).shape = .mat exDmd.slm.Ny exDmd.slm.Nx :=
  ⟨rfl, ⟨_, _, exReady h⟩, rfl, rfl⟩

end PySLM2.DMD
