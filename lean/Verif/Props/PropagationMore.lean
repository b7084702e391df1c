import Verif.Lemmas.SimulationMore
import Verif.Props.Propagation

/-!
# C84 - C86: tilts, symmetries and overlaps

`Ready s px py h a u m` as in `Verif/Props/Propagation.lean`: the field behind the SLM is `u i j * m i j`.
-/

noncomputable section

open Complex Finset

namespace PySLM2.Sim

open Lib

variable {s s' : Sim} {px py : ℕ} {h h' : Profile.Heap} {a a' : ProfArg} {u m u' m' : ℕ → ℕ → ℂ}

/-- **C84.** If the fields behind the SLM of two simulations on the same device differ by the linear phase
`exp(2 pi i (x0 X + y0 Y) / (wavelength f))` (`X`, `Y` from `fourier_plane_grid`), then what one shows at the image
plane point `(x + x0, y + y0)` the other shows at `(x, y)`: the same intensity, and for even sizes the same field. -/
theorem C84_tilt (r : Ready s px py h a u m) (r' : Ready s' px py h' a' u' m') (hdev : s'.dev.slm = s.dev.slm) (x0 y0 : ℝ)
    (htilt : ∀ i < s.dev.slm.Ny, ∀ j < s.dev.slm.Nx, u' i j * m' i j = u i j * m i j * cexp (2 * Real.pi * I *
      ((x0 * s.dev.slm.fourierGrid.1.get i j + y0 * s.dev.slm.fourierGrid.2.get i j : ℝ) : ℂ) /
        ((s.dev.slm.wavelength * s.dev.slm.focal : ℝ) : ℂ)))
    {g : Tensor ℝ × Tensor ℝ} (hg : s.imagePaddedGrid = .ok g) :
    ∃ img img', (s.propagate h a).1.imageField = some img ∧ (s'.propagate h' a').1.imageField = some img' ∧
      ∀ k < s.dev.slm.Ny + 2 * py, ∀ l < s.dev.slm.Nx + 2 * px,
      ∀ k' < s.dev.slm.Ny + 2 * py, ∀ l' < s.dev.slm.Nx + 2 * px,
        g.1.get k' l' = g.1.get k l + x0 → g.2.get k' l' = g.2.get k l + y0 →
          ‖img'.get k l‖ = ‖img.get k' l'‖ ∧
          (Even s.dev.slm.Nx → Even s.dev.slm.Ny → img'.get k l = img.get k' l') := by
  obtain ⟨-, img, g₁, h1, h2, h3, h4⟩ := C10_fraunhofer r
  obtain ⟨-, img', g₂, h1', h2', h3', h4'⟩ := C10_fraunhofer r'
  obtain rfl : g₁ = g := Except.ok.inj (h2.symm.trans hg)
  have hgg : g₂ = g₁ := by
    have e : s'.imagePaddedGrid = s.imagePaddedGrid := by
      rw [imagePaddedGrid_nat r.hpx r.hpy, imagePaddedGrid_nat r'.hpx r'.hpy, Nx_eq r.hpx, Ny_eq r.hpy, Nx_eq r'.hpx, Ny_eq r'.hpy, hdev]
    rw [e] at h2'
    exact Except.ok.inj (h2'.symm.trans hg)
  subst hgg
  rw [hdev] at h4'
  have key : ∀ x y, fraunhofer s.dev.slm (fun i j => u' i j * m' i j) x y =
      fraunhofer s.dev.slm (fun i j => u i j * m i j) (x + x0) (y + y0) := fun x y => by
    rw [fraunhofer_congr htilt, fraunhofer_tilt s.dev.slm (fun i j => u i j * m i j)]
  refine ⟨img, img', h1, h1', fun k hk l hl k' hk' l' hl' hx hy => ⟨?_, fun ex ey => ?_⟩⟩
  · rw [(h4' k hk l hl).1, (h4 k' hk' l' hl').1, hx, hy, key]
  · rw [(h4' k hk l hl).2 ex ey, (h4 k' hk' l' hl').2 ex ey, hx, hy, key]

/-- **C85.** If the field behind the SLM is real (for instance a DMD under a real input), the image is symmetric about the
optical axis: opposite pixels have complex conjugate fields, hence equal intensities.  In particular both diffraction
orders carry the same pattern, turned by 180 degrees. -/
theorem C85_real_field (r : Ready s px py h a u m)
    (hreal : ∀ i < s.dev.slm.Ny, ∀ j < s.dev.slm.Nx, (u i j * m i j).im = 0)
    {g : Tensor ℝ × Tensor ℝ} (hg : s.imagePaddedGrid = .ok g) :
    ∃ img, (s.propagate h a).1.imageField = some img ∧
      ∀ k < s.dev.slm.Ny + 2 * py, ∀ l < s.dev.slm.Nx + 2 * px,
      ∀ k' < s.dev.slm.Ny + 2 * py, ∀ l' < s.dev.slm.Nx + 2 * px,
        g.1.get k' l' = - g.1.get k l → g.2.get k' l' = - g.2.get k l →
          img.get k' l' = (starRingEnd ℂ) (img.get k l) := by
  rw [propagate_ready r]
  refine ⟨_, rfl, fun k hk l hl k' hk' l' hl' hx hy => ?_⟩
  simp only
  rw [propagated_image_fieldAt r hg hk hl, propagated_image_fieldAt r hg hk' hl', hx, hy, ← fieldAt_conj]
  exact fieldAt_congr (fun i hi j hj => (Complex.conj_eq_iff_im.2 (hreal i hi j hj)).symm) _ _

/-- **C85**, devices: turning the pattern behind the SLM by 180 degrees turns the image intensity by 180 degrees. -/
theorem C85_half_turn (r : Ready s px py h a u m) (r' : Ready s' px py h' a' u' m') (hdev : s'.dev.slm = s.dev.slm)
    (hturn : ∀ i < s.dev.slm.Ny, ∀ j < s.dev.slm.Nx, u' i j * m' i j =
      u (s.dev.slm.Ny - 1 - i) (s.dev.slm.Nx - 1 - j) * m (s.dev.slm.Ny - 1 - i) (s.dev.slm.Nx - 1 - j))
    {g : Tensor ℝ × Tensor ℝ} (hg : s.imagePaddedGrid = .ok g) :
    ∃ img img', (s.propagate h a).1.imageField = some img ∧ (s'.propagate h' a').1.imageField = some img' ∧
      ∀ k < s.dev.slm.Ny + 2 * py, ∀ l < s.dev.slm.Nx + 2 * px,
      ∀ k' < s.dev.slm.Ny + 2 * py, ∀ l' < s.dev.slm.Nx + 2 * px,
        g.1.get k' l' = - g.1.get k l → g.2.get k' l' = - g.2.get k l → ‖img'.get k l‖ = ‖img.get k' l'‖ := by
  obtain ⟨-, img, g₁, h1, h2, h3, h4⟩ := C10_fraunhofer r
  obtain ⟨-, img', g₂, h1', h2', h3', h4'⟩ := C10_fraunhofer r'
  obtain rfl : g₁ = g := Except.ok.inj (h2.symm.trans hg)
  have hgg : g₂ = g₁ := by
    have e : s'.imagePaddedGrid = s.imagePaddedGrid := by
      rw [imagePaddedGrid_nat r.hpx r.hpy, imagePaddedGrid_nat r'.hpx r'.hpy, Nx_eq r.hpx, Ny_eq r.hpy, Nx_eq r'.hpx, Ny_eq r'.hpy, hdev]
    rw [e] at h2'
    exact Except.ok.inj (h2'.symm.trans hg)
  subst hgg
  rw [hdev] at h4'
  refine ⟨img, img', h1, h1', fun k hk l hl k' hk' l' hl' hx hy => ?_⟩
  rw [(h4' k hk l hl).1, (h4 k' hk' l' hl').1, hx, hy, fraunhofer_congr hturn,
    norm_fraunhofer_turn s.dev.slm (fun i j => u i j * m i j)]

/-- **C86.** Propagation preserves overlaps: the sum of `img * conj(img')` over the image plane times its pixel area is
that of the fields behind the SLM times theirs, for any two fields and paddings of the same size. -/
theorem C86_overlap (r : Ready s px py h a u m) (r' : Ready s' px py h' a' u' m') (hdev : s'.dev.slm = s.dev.slm) :
    ∃ img img' A, (s.propagate h a).1.imageField = some img ∧ (s'.propagate h' a').1.imageField = some img' ∧
      s.imagePixelArea = .ok A ∧
      (∑ k ∈ range (s.dev.slm.Ny + 2 * py), ∑ l ∈ range (s.dev.slm.Nx + 2 * px),
        img.get k l * (starRingEnd ℂ) (img'.get k l)) * (A : ℂ) =
      (∑ i ∈ range s.dev.slm.Ny, ∑ j ∈ range s.dev.slm.Nx, (u i j * m i j) * (starRingEnd ℂ) (u' i j * m' i j)) *
        (s.fourierPixelArea : ℂ) := by
  rw [propagate_ready r, propagate_ready r']
  have hNx := r.hNx
  have hNy := r.hNy
  have hps := r.hps
  have hsc : s.dev.slm.scaling ≠ 0 := r.hsc
  have h1 : ((s.dev.slm.Nx + 2 * px : ℕ) : ℝ) ≠ 0 := by exact_mod_cast (by omega)
  have h2 : ((s.dev.slm.Ny + 2 * py : ℕ) : ℝ) ≠ 0 := by exact_mod_cast (by omega)
  have harea : s.imagePixelArea = .ok (s.dev.slm.scaling ^ 2 /
      ((s.dev.slm.Nx + 2 * px) * (s.dev.slm.Ny + 2 * py) : ℕ) / s.dev.slm.ps ^ 2) := by
    rw [imagePixelArea_nat r.hpx r.hpy, Nx_eq r.hpx, Ny_eq r.hpy, if_neg]
    push Not
    refine ⟨?_, pow_ne_zero 2 hps⟩
    have : 0 < (s.dev.slm.Nx + 2 * px) * (s.dev.slm.Ny + 2 * py) := Nat.mul_pos (by omega) (by omega)
    omega
  refine ⟨_, _, _, rfl, rfl, harea, ?_⟩
  simp only [hdev]
  have hgain : s'.gain = s.gain := by
    unfold gain fourierPixelArea
    rw [Nx_eq r.hpx, Ny_eq r.hpy, Nx_eq r'.hpx, Ny_eq r'.hpy, hdev]
  rw [hgain]
  have e : ∀ z w : ℂ, z * (s.gain : ℂ) * (starRingEnd ℂ) (w * (s.gain : ℂ)) =
      z * (starRingEnd ℂ) w * ((s.gain : ℂ) * (s.gain : ℂ)) := fun z w => by
    rw [map_mul, Complex.conj_ofReal]; ring
  simp only [e, ← Finset.sum_mul]
  rw [← sum_inner_pad2 s.dev.slm.Ny s.dev.slm.Nx py px (fun i j => u i j * m i j) (fun i j => u' i j * m' i j),
    ← centredIdft_inner (s.dev.slm.Ny + 2 * py) (s.dev.slm.Nx + 2 * px)
      (pad2 s.dev.slm.Ny s.dev.slm.Nx py px fun i j => u i j * m i j)
      (pad2 s.dev.slm.Ny s.dev.slm.Nx py px fun i j => u' i j * m' i j)]
  have hg : ((s.gain : ℂ) * (s.gain : ℂ)) * ((s.dev.slm.scaling ^ 2 /
      ((s.dev.slm.Nx + 2 * px) * (s.dev.slm.Ny + 2 * py) : ℕ) / s.dev.slm.ps ^ 2 : ℝ) : ℂ) =
      (((s.dev.slm.Ny + 2 * py : ℕ) : ℂ) * ((s.dev.slm.Nx + 2 * px : ℕ) : ℂ)) * (s.fourierPixelArea : ℂ) := by
    have : (s.gain * s.gain) * (s.dev.slm.scaling ^ 2 /
        ((s.dev.slm.Nx + 2 * px) * (s.dev.slm.Ny + 2 * py) : ℕ) / s.dev.slm.ps ^ 2) =
        (((s.dev.slm.Ny + 2 * py : ℕ) : ℝ) * ((s.dev.slm.Nx + 2 * px : ℕ) : ℝ)) * s.fourierPixelArea := by
      rw [gain, Nx_eq r.hpx, Ny_eq r.hpy, fourierPixelArea]
      rw [Nat.cast_mul]
      field_simp
    exact_mod_cast this
  rw [mul_assoc, hg]
  ring

/-! ## Concrete cases -/

/-- C84: the chequerboard of `exSim`, the input tilted by one image pixel in `x`. -/
example (h : Profile.Heap) :
    let t : ℕ → ℕ → ℂ := fun i j => ((i : ℂ) + j * I + 1) * cexp (2 * Real.pi * I *
      (((3 / 4 : ℝ) * exSim.dev.slm.fourierGrid.1.get i j + 0 * exSim.dev.slm.fourierGrid.2.get i j : ℝ) : ℂ) /
        ((exSim.dev.slm.wavelength * exSim.dev.slm.focal : ℝ) : ℂ))
    Ready exSim 3 1 h (.ndarray .cplx ⟨.mat 2 4, t⟩) t (fun i j => if (i + j) % 2 = 0 then 1 else 0) ∧
    ∃ k l k' l' : ℕ, k < 4 ∧ l < 10 ∧ k' < 4 ∧ l' < 10 ∧ ∀ g, exSim.imagePaddedGrid = .ok g →
      g.1.get k' l' = g.1.get k l + 3 / 4 ∧ g.2.get k' l' = g.2.get k l + 0 := by
  intro t
  refine ⟨⟨(exReady h).hpx, (exReady h).hpy, (exReady h).hNx, (exReady h).hNy, (exReady h).hsc, (exReady h).hps,
    ⟨_, rfl, rfl, fun _ _ _ _ => rfl⟩, (exReady h).modulation⟩, 2, 5, 2, 6, by norm_num, by norm_num, by norm_num, by norm_num, ?_⟩
  intro g hg
  rw [imagePaddedGrid_nat (exReady h).hpx (exReady h).hpy] at hg
  unfold imageGridOf at hg
  rw [Nx_eq (exReady h).hpx, Ny_eq (exReady h).hpy, if_neg] at hg
  · obtain rfl := Except.ok.inj hg
    norm_num [exSim, Device.slm, exDmd, imageX_eq, imageY_eq, SLM.scaling]
  · norm_num [exSim, Device.slm, exDmd]

/-- C85: a real input on the same chequerboard. -/
example (h : Profile.Heap) :
    Ready exSim 3 1 h (.ndarray .cplx ⟨.mat 2 4, fun i j => (i : ℂ) + 2 * j⟩) (fun i j => (i : ℂ) + 2 * j)
      (fun i j => if (i + j) % 2 = 0 then 1 else 0) ∧
    ∀ i < exSim.dev.slm.Ny, ∀ j < exSim.dev.slm.Nx,
      (((i : ℂ) + 2 * j) * (if (i + j) % 2 = 0 then 1 else 0)).im = 0 := by
  refine ⟨⟨(exReady h).hpx, (exReady h).hpy, (exReady h).hNx, (exReady h).hNy, (exReady h).hsc, (exReady h).hps,
    ⟨_, rfl, rfl, fun _ _ _ _ => rfl⟩, (exReady h).modulation⟩, fun i _ j _ => ?_⟩
  split_ifs <;> simp

end PySLM2.Sim
