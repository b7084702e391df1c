import Verif.Props.Stability
import Verif.Props.PropagationMore

/-!
# C141: aberrations, offsets and tilts on an LCOS SLM
-/

noncomputable section

open Complex Finset

namespace PySLM2.Sim

open Lib LCOS

variable {s s' : Sim} {l l' : LCOS} {px py : ℕ} {h h' : Profile.Heap} {a a' : ProfArg} {u u' m m' : ℕ → ℕ → ℂ}
  {φ φ' : ℕ → ℕ → ℝ}

theorem Ready.shows (r : Ready s px py h a u m) (hdev : s.dev = .lcos l) (hφ : Shows l φ) :
    Ready s px py h a u fun i j => cexp (-I * φ i j) :=
  ⟨r.hpx, r.hpy, r.hNx, r.hNy, r.hsc, r.hps, r.input, by rw [hdev]; exact shows_modulation hφ⟩

theorem slmPower_norm_congr {S : SLM} {U V : ℕ → ℕ → ℂ} (hUV : ∀ i < S.Ny, ∀ j < S.Nx, ‖U i j‖ = ‖V i j‖) :
    slmPower S U = slmPower S V := by
  unfold slmPower
  congr 1
  exact sum_congr rfl fun i hi => sum_congr rfl fun j hj => by rw [hUV i (mem_range.mp hi) j (mem_range.mp hj)]

theorem norm_exp_I (x : ℝ) : ‖cexp (I * x)‖ = 1 := by rw [mul_comm, norm_exp_ofReal_mul_I]

theorem norm_exp_neg_I (x : ℝ) : ‖cexp (-I * x)‖ = 1 := by
  have := norm_exp_I (-x)
  rwa [show I * ((-x : ℝ) : ℂ) = -I * x by push_cast; ring] at this

theorem exp_turn (x : ℝ) (n : ℤ) : cexp (-I * ((x + n * (2 * Real.pi) : ℝ) : ℂ)) = cexp (-I * x) := by
  rw [show -I * ((x + n * (2 * Real.pi) : ℝ) : ℂ) = -I * x + ((-n : ℤ) : ℂ) * (2 * Real.pi * I) by push_cast; ring,
    Complex.exp_add, exp_int_mul_two_pi_mul_I, mul_one]

/-- **C141.** Two simulations with LCOS SLMs of the same geometry and the same paddings. The second input beam is the first one
with the aberration `Φ`; the second SLM shows the phases of the first one plus `Φ` plus a constant `c` (up to whole turns, and
whatever it likes where there is no light). Then the second image is the first one times `exp(-i c)`: same intensities, same
powers. -/
theorem C141_aberration (r : Ready s px py h a u m) (r' : Ready s' px py h' a' u' m') (hdev : s.dev = .lcos l)
    (hdev' : s'.dev = .lcos l') (hslm : l'.slm = l.slm) (hφ : Shows l φ) (hφ' : Shows l' φ') (Φ : ℕ → ℕ → ℝ) (c : ℝ)
    (hu : ∀ i < l.slm.Ny, ∀ j < l.slm.Nx, u' i j = u i j * cexp (I * Φ i j))
    (hc : ∀ i < l.slm.Ny, ∀ j < l.slm.Nx, u i j ≠ 0 → ∃ n : ℤ, φ' i j = φ i j + Φ i j + c + n * (2 * Real.pi)) :
    ∃ img img' P, (s.propagate h a).1.imageField = some img ∧ (s'.propagate h' a').1.imageField = some img' ∧
      (∀ k < l.slm.Ny + 2 * py, ∀ j < l.slm.Nx + 2 * px, img'.get k j = cexp (-I * c) * img.get k j) ∧
      (∀ k < l.slm.Ny + 2 * py, ∀ j < l.slm.Nx + 2 * px, ‖img'.get k j‖ ^ 2 = ‖img.get k j‖ ^ 2) ∧
      (s.propagate h a).1.inputPower = .ok P ∧ (s.propagate h a).1.outputPower = .ok P ∧ (s.propagate h a).1.imagePower = .ok P ∧
      (s'.propagate h' a').1.inputPower = .ok P ∧ (s'.propagate h' a').1.outputPower = .ok P ∧
      (s'.propagate h' a').1.imagePower = .ok P := by
  have hs : s.dev.slm = l.slm := by rw [hdev]; rfl
  have hs' : s'.dev.slm = l.slm := by rw [hdev', ← hslm]; rfl
  have r1 := r.shows hdev hφ
  have r2 := r'.shows hdev' hφ'
  obtain ⟨g, hg⟩ := imagePaddedGrid_ok r
  have hg' : s'.imagePaddedGrid = .ok g := by
    rw [← hg]
    rw [imagePaddedGrid_nat r.hpx r.hpy, imagePaddedGrid_nat r'.hpx r'.hpy, Nx_eq r.hpx, Ny_eq r.hpy, Nx_eq r'.hpx, Ny_eq r'.hpy, hs, hs']
  obtain ⟨img, e1, e2⟩ := DMD.image_fieldAt r1 hg
  obtain ⟨img', e1', e2'⟩ := DMD.image_fieldAt r2 hg'
  rw [hs] at e2
  rw [hs'] at e2'
  have hfield : ∀ i < l.slm.Ny, ∀ j < l.slm.Nx,
      u' i j * cexp (-I * φ' i j) = u i j * (cexp (-I * c) * cexp (-I * φ i j)) := fun i hi j hj => by
    rw [hu i hi j hj]
    by_cases h0 : u i j = 0
    · simp [h0]
    · obtain ⟨n, hn⟩ := hc i hi j hj h0
      rw [hn, exp_turn, mul_assoc, ← Complex.exp_add, ← Complex.exp_add]
      congr 2
      push_cast
      ring
  have himg : ∀ k < l.slm.Ny + 2 * py, ∀ j < l.slm.Nx + 2 * px, img'.get k j = cexp (-I * c) * img.get k j :=
    fun k hk j hj => by
      rw [e2' k hk j hj, e2 k hk j hj, fieldAt_congr hfield]
      obtain ⟨w, -, hw⟩ := DMD.fieldAt_lin l.slm u (g.1.get k j) (g.2.get k j)
      rw [hw, hw, mul_sum]
      exact sum_congr rfl fun ij _ => by ring
  have p1 := propagated_powers r1
  have p2 := propagated_powers r2
  rw [show s.propagated px py u (fun i j => cexp (-I * φ i j)) = (s.propagate h a).1 by rw [propagate_ready r1]] at p1
  rw [show s'.propagated px py u' (fun i j => cexp (-I * φ' i j)) = (s'.propagate h' a').1 by rw [propagate_ready r2]] at p2
  rw [hs] at p1
  rw [hs'] at p2
  have q1 : slmPower l.slm (fun i j => u i j * cexp (-I * φ i j)) = slmPower l.slm u :=
    slmPower_norm_congr fun i _ j _ => by rw [norm_mul, norm_exp_neg_I, mul_one]
  have q2 : slmPower l.slm (fun i j => u' i j * cexp (-I * φ' i j)) = slmPower l.slm u :=
    slmPower_norm_congr fun i hi j hj => by rw [hu i hi j hj, norm_mul, norm_mul, norm_exp_neg_I, norm_exp_I, mul_one, mul_one]
  have q3 : slmPower l.slm u' = slmPower l.slm u :=
    slmPower_norm_congr fun i hi j hj => by rw [hu i hi j hj, norm_mul, norm_exp_I, mul_one]
  rw [q1] at p1
  rw [q2, q3] at p2
  refine ⟨img, img', _, e1, e1', himg, fun k hk j hj => ?_, p1.1, p1.2.1, p1.2.2, p2.1, p2.2.1, p2.2.2⟩
  rw [himg k hk j hj, norm_mul, norm_exp_neg_I, one_mul]

/-- **C141**, tilts. The SLM shows the phases of the other one minus `2π (x0 X + y0 Y) / (λ f)` (up to whole turns): its image at
`(x, y)` has the intensity of the other image at `(x + x0, y + y0)`. -/
theorem C141_tilt (r : Ready s px py h a u m) (hdev : s.dev = .lcos l) (r' : Ready s' px py h' a' u m') (hdev' : s'.dev = .lcos l')
    (hslm : l'.slm = l.slm) (hφ : Shows l φ) (hφ' : Shows l' φ') (x0 y0 : ℝ)
    (hc : ∀ i < l.slm.Ny, ∀ j < l.slm.Nx, u i j ≠ 0 → ∃ n : ℤ, φ' i j = φ i j -
      2 * Real.pi * (x0 * l.slm.fourierGrid.1.get i j + y0 * l.slm.fourierGrid.2.get i j) / (l.slm.wavelength * l.slm.focal) +
        n * (2 * Real.pi))
    {g : Tensor ℝ × Tensor ℝ} (hg : s.imagePaddedGrid = .ok g) :
    ∃ img img', (s.propagate h a).1.imageField = some img ∧ (s'.propagate h' a').1.imageField = some img' ∧
      ∀ k < l.slm.Ny + 2 * py, ∀ j < l.slm.Nx + 2 * px, ∀ k' < l.slm.Ny + 2 * py, ∀ j' < l.slm.Nx + 2 * px,
        g.1.get k' j' = g.1.get k j + x0 → g.2.get k' j' = g.2.get k j + y0 → ‖img'.get k j‖ ^ 2 = ‖img.get k' j'‖ ^ 2 := by
  have hs : s.dev.slm = l.slm := by rw [hdev]; rfl
  have hs' : s'.dev.slm = l.slm := by rw [hdev', ← hslm]; rfl
  obtain ⟨img, img', h1, h2, h3⟩ := C84_tilt (r.shows hdev hφ) (r'.shows hdev' hφ') (hs'.trans hs.symm) x0 y0
    (fun i hi j hj => by
      rw [hs] at hi hj ⊢
      by_cases h0 : u i j = 0
      · simp [h0]
      · obtain ⟨n, hn⟩ := hc i hi j hj h0
        rw [hn, exp_turn, mul_assoc (u i j), ← Complex.exp_add]
        congr 2
        push_cast
        ring) hg
  rw [hs] at h3
  exact ⟨img, img', h1, h2, fun k hk j hj k' hk' j' hj' hx hy => by rw [(h3 k hk j hj k' hk' j' hj' hx hy).1]⟩

/-- The hypotheses can be met: a beam with a quadratic aberration on the 4 x 6 SLM of the examples and a pixel without light. -/
example (h : Profile.Heap) :
    let u : ℕ → ℕ → ℂ := fun i j => i + j
    let Φ : ℕ → ℕ → ℝ := fun i j => i ^ 2 + 3 * j
    let u' : ℕ → ℕ → ℂ := fun i j => u i j * cexp (I * Φ i j)
    let φ : ℕ → ℕ → ℝ := fun i j => i * j
    let φ' : ℕ → ℕ → ℝ := fun i j => φ i j + Φ i j + 5 + (j : ℤ) * (2 * Real.pi)
    let l : LCOS := { exLcos with state := phaseState exLcos.slm φ }
    let l' : LCOS := { exLcos with state := phaseState exLcos.slm φ' }
    Shows l φ ∧ Shows l' φ' ∧ u 0 0 = 0 ∧ u 1 1 ≠ 0 ∧
    Ready ⟨.lcos l, 2, 0, none, none, none⟩ 2 0 h (.ndarray .cplx ⟨.mat 4 6, u⟩) u (fun i j => cexp (-I * φ i j)) ∧
    Ready ⟨.lcos l', 2, 0, none, none, none⟩ 2 0 h (.ndarray .cplx ⟨.mat 4 6, u'⟩) u' (fun i j => cexp (-I * φ' i j)) ∧
    ∀ i < l.slm.Ny, ∀ j < l.slm.Nx, u i j ≠ 0 → ∃ n : ℤ, φ' i j = φ i j + Φ i j + 5 + n * (2 * Real.pi) := by
  intro u Φ u' φ φ' l l'
  have h3 : (3 : ℝ) * 5 ≠ 0 := by norm_num
  have h2 : (2 : ℝ) ≠ 0 := by norm_num
  refine ⟨shows_phaseState _ _, shows_phaseState _ _, by simp [u], by simp [u],
    ⟨rfl, rfl, Nat.succ_pos 5, Nat.succ_pos 3, h3, h2, ⟨_, rfl, rfl, fun _ _ _ _ => rfl⟩, shows_modulation (shows_phaseState _ _)⟩,
    ⟨rfl, rfl, Nat.succ_pos 5, Nat.succ_pos 3, h3, h2, ⟨_, rfl, rfl, fun _ _ _ _ => rfl⟩, shows_modulation (shows_phaseState _ _)⟩,
    fun i _ j _ _ => ⟨j, rfl⟩⟩

/-- C141_tilt: the same SLM, steered by one pixel of the image plane. -/
example (h : Profile.Heap) :
    let u : ℕ → ℕ → ℂ := fun i j => i + j
    let φ : ℕ → ℕ → ℝ := fun i j => i * j
    let φ' : ℕ → ℕ → ℝ := fun i j => φ i j - 2 * Real.pi *
      ((3 / 4 : ℝ) * exLcos.slm.fourierGrid.1.get i j + 0 * exLcos.slm.fourierGrid.2.get i j) /
        (exLcos.slm.wavelength * exLcos.slm.focal) + (i : ℤ) * (2 * Real.pi)
    let l : LCOS := { exLcos with state := phaseState exLcos.slm φ }
    let l' : LCOS := { exLcos with state := phaseState exLcos.slm φ' }
    Shows l φ ∧ Shows l' φ' ∧
    Ready ⟨.lcos l, 2, 0, none, none, none⟩ 2 0 h (.ndarray .cplx ⟨.mat 4 6, u⟩) u (fun i j => cexp (-I * φ i j)) ∧
    Ready ⟨.lcos l', 2, 0, none, none, none⟩ 2 0 h (.ndarray .cplx ⟨.mat 4 6, u⟩) u (fun i j => cexp (-I * φ' i j)) ∧
    ∃ g, (⟨.lcos l, 2, 0, none, none, none⟩ : Sim).imagePaddedGrid = .ok g ∧ g.1.get 2 6 = g.1.get 2 5 + 3 / 4 ∧
      g.2.get 2 6 = g.2.get 2 5 + 0 := by
  intro u φ φ' l l'
  have h3 : (3 : ℝ) * 5 ≠ 0 := by norm_num
  have h2 : (2 : ℝ) ≠ 0 := by norm_num
  have r : Ready ⟨.lcos l, 2, 0, none, none, none⟩ 2 0 h (.ndarray .cplx ⟨.mat 4 6, u⟩) u (fun i j => cexp (-I * φ i j)) :=
    ⟨rfl, rfl, Nat.succ_pos 5, Nat.succ_pos 3, h3, h2, ⟨_, rfl, rfl, fun _ _ _ _ => rfl⟩, shows_modulation (shows_phaseState _ _)⟩
  obtain ⟨g, hg⟩ := imagePaddedGrid_ok r
  refine ⟨shows_phaseState _ _, shows_phaseState _ _, r,
    ⟨rfl, rfl, Nat.succ_pos 5, Nat.succ_pos 3, h3, h2, ⟨_, rfl, rfl, fun _ _ _ _ => rfl⟩, shows_modulation (shows_phaseState _ _)⟩,
    g, hg, ?_⟩
  replace hg := (imagePaddedGrid_inv hg).2.2
  unfold imageGridOf at hg
  rw [Nx_eq r.hpx, Ny_eq r.hpy, if_neg] at hg
  · obtain rfl := Except.ok.inj hg
    norm_num [l, Device.slm, exLcos, LCOS.new, imageX_eq, imageY_eq, SLM.scaling]
  · norm_num [l, Device.slm, exLcos, LCOS.new]

end PySLM2.Sim
