import Verif.Props.Stability

/-!
# C134: how bright a pixel of the image can be
-/

noncomputable section

open Complex Finset

namespace PySLM2.Sim

open Lib LCOS

/-- The field if all the light arrives in phase: `ps² / (λ f)` times the sum of the field amplitudes on the SLM. -/
def inPhase (s : SLM) (u : ℕ → ℕ → ℂ) : ℝ :=
  s.ps ^ 2 / |s.wavelength * s.focal| * ∑ i ∈ range s.Ny, ∑ j ∈ range s.Nx, ‖u i j‖

/-- The phases that steer the beam `u` to the point `(ξ, η)` of the image plane. -/
def steer (s : SLM) (u : ℕ → ℕ → ℂ) (ξ η : ℝ) (i j : ℕ) : ℝ :=
  Complex.arg (u i j) + 2 * Real.pi * (ξ * s.fourierGrid.1.get i j + η * s.fourierGrid.2.get i j) / (s.wavelength * s.focal)

/-- A DMD with binary mirrors or an LCOS SLM that shows real phases. -/
def Passive (d : Device) : Prop := (∃ d' t, d = .dmd d' (.bool t)) ∨ ∃ l φ, d = .lcos l ∧ Shows l φ

theorem Passive.norm_le {d : Device} (hd : Passive d) {m : ℕ → ℕ → ℂ} (hm : Modulation d m) {i j : ℕ} (hi : i < d.slm.Ny)
    (hj : j < d.slm.Nx) : ‖m i j‖ ≤ 1 := by
  obtain ⟨t, ht, hsh, hv⟩ := hm
  rcases hd with ⟨d', t', rfl⟩ | ⟨l, φ, rfl, hφ⟩
  · rw [← hv i hi j hj]
    injection ht with ht
    subst ht
    simp only [Tensor.map]
    split_ifs <;> simp
  · obtain ⟨t', ht', -, hv'⟩ := shows_modulation hφ
    rw [ht] at ht'
    injection ht' with ht'
    subst ht'
    rw [← hv i hi j hj, hv' i hi j hj]
    simp only
    rw [show -I * (φ i j : ℂ) = ((-φ i j : ℝ) : ℂ) * I by push_cast; ring, norm_exp_ofReal_mul_I]

/-- **C134.** No state of a binary DMD and no hologram of an LCOS SLM makes a pixel of the image brighter than if all the
light of the beam arrived there in phase. -/
theorem C134_limit {s : Sim} {px py : ℕ} {h : Profile.Heap} {a : ProfArg} {u m : ℕ → ℕ → ℂ} (r : Ready s px py h a u m)
    (hd : Passive s.dev) :
    ∃ img, (s.propagate h a).1.imageField = some img ∧
      ∀ k < s.dev.slm.Ny + 2 * py, ∀ l < s.dev.slm.Nx + 2 * px, ‖img.get k l‖ ≤ inPhase s.dev.slm u := by
  obtain ⟨-, img, g, h1, -, -, h4⟩ := C10_fraunhofer r
  refine ⟨img, h1, fun k hk l hl => ?_⟩
  rw [(h4 k hk l hl).1]
  unfold fraunhofer inPhase
  rw [norm_mul, norm_real, Real.norm_eq_abs, abs_div, abs_of_nonneg (sq_nonneg s.dev.slm.ps)]
  refine mul_le_mul_of_nonneg_left ?_ (by positivity)
  refine (norm_sum_le _ _).trans (sum_le_sum fun i hi => (norm_sum_le _ _).trans (sum_le_sum fun j hj => ?_))
  simp only
  have hm := hd.norm_le r.modulation (mem_range.mp hi) (mem_range.mp hj)
  rw [norm_mul, norm_mul]
  have he : ∀ x y : ℝ, ‖cexp (2 * Real.pi * I * (x : ℂ) / (y : ℂ))‖ = 1 := by
    intro x y
    rw [show 2 * Real.pi * I * (x : ℂ) / (y : ℂ) = ((2 * Real.pi * x / y : ℝ) : ℂ) * I by push_cast; ring, norm_exp_ofReal_mul_I]
  rw [he, mul_one]
  exact mul_le_of_le_one_right (norm_nonneg _) hm

/-- **C134.** If the phases of an LCOS SLM agree with those that steer the beam to a pixel of the image, up to a constant,
whole turns and errors of mean square `σ²` (weighted with the amplitude of the beam), then the field at that pixel is at
least `1 - σ²/2` of the largest possible one. -/
theorem C134_strehl {s : Sim} {l : LCOS} {px py : ℕ} {h : Profile.Heap} {a : ProfArg} {u m : ℕ → ℕ → ℂ}
    (r : Ready s px py h a u m) (hdev : s.dev = .lcos l) {φ : ℕ → ℕ → ℝ} (hφ : Shows l φ) :
    ∃ img g, (s.propagate h a).1.imageField = some img ∧ s.imagePaddedGrid = .ok g ∧
      ∀ k < l.slm.Ny + 2 * py, ∀ q < l.slm.Nx + 2 * px, ∀ (c σ : ℝ) (n : ℕ → ℕ → ℤ),
        ∑ i ∈ range l.slm.Ny, ∑ j ∈ range l.slm.Nx,
          ‖u i j‖ * (φ i j - steer l.slm u (g.1.get k q) (g.2.get k q) i j - c - n i j * (2 * Real.pi)) ^ 2 ≤
          σ ^ 2 * ∑ i ∈ range l.slm.Ny, ∑ j ∈ range l.slm.Nx, ‖u i j‖ →
        (1 - σ ^ 2 / 2) * inPhase l.slm u ≤ ‖img.get k q‖ := by
  have hs : s.dev.slm = l.slm := by rw [hdev]; rfl
  have r1 : Ready s px py h a u fun i j => cexp (-I * φ i j) :=
    ⟨r.hpx, r.hpy, r.hNx, r.hNy, r.hsc, r.hps, r.input, by rw [hdev]; exact shows_modulation hφ⟩
  obtain ⟨-, img, g, h1, h2, -, h4⟩ := C10_fraunhofer r1
  rw [hs] at h4
  refine ⟨img, g, h1, h2, fun k hk q hq c σ n hle => ?_⟩
  rw [(h4 k hk q hq).1]
  set ξ := g.1.get k q
  set η := g.2.get k q
  set e : ℕ → ℕ → ℝ := fun i j => φ i j - steer l.slm u ξ η i j - c - n i j * (2 * Real.pi) with he
  unfold fraunhofer inPhase
  rw [norm_mul, norm_real, Real.norm_eq_abs, abs_div, abs_of_nonneg (sq_nonneg l.slm.ps), mul_left_comm]
  refine mul_le_mul_of_nonneg_left ?_ (by positivity)
  have hterm : ∀ i j, u i j * cexp (-I * φ i j) * cexp (2 * Real.pi * I *
      ((ξ * l.slm.fourierGrid.1.get i j + η * l.slm.fourierGrid.2.get i j : ℝ) : ℂ) /
        ((l.slm.wavelength * l.slm.focal : ℝ) : ℂ)) =
      cexp (((-c : ℝ) : ℂ) * I) * ((‖u i j‖ : ℂ) * cexp (((-e i j : ℝ) : ℂ) * I)) := by
    intro i j
    conv_lhs => rw [← Complex.norm_mul_exp_arg_mul_I (u i j)]
    rw [mul_assoc, mul_assoc, ← Complex.exp_add, ← Complex.exp_add, mul_left_comm, ← Complex.exp_add]
    congr 1
    rw [Complex.exp_eq_exp_iff_exists_int]
    refine ⟨-n i j, ?_⟩
    simp only [he, steer]
    push_cast
    ring
  simp only [hterm, ← mul_sum]
  rw [norm_mul, norm_exp_ofReal_mul_I, one_mul]
  refine le_trans ?_ (Complex.re_le_norm _)
  rw [re_sum]
  simp only [re_sum, re_ofReal_mul, exp_ofReal_mul_I_re, Real.cos_neg]
  have hcos : ∑ i ∈ range l.slm.Ny, ∑ j ∈ range l.slm.Nx, (‖u i j‖ - ‖u i j‖ * e i j ^ 2 / 2) ≤
      ∑ i ∈ range l.slm.Ny, ∑ j ∈ range l.slm.Nx, ‖u i j‖ * Real.cos (e i j) := by
    refine sum_le_sum fun i _ => sum_le_sum fun j _ => ?_
    have := mul_le_mul_of_nonneg_left (Real.one_sub_sq_div_two_le_cos (x := e i j)) (norm_nonneg (u i j))
    linarith
  refine le_trans ?_ hcos
  simp only [sum_sub_distrib, ← sum_div]
  linarith

/-- **C134.** The largest possible field is reached by the steering phases. -/
theorem C134_attained {s : Sim} {l : LCOS} {px py : ℕ} {h : Profile.Heap} {a : ProfArg} {u m : ℕ → ℕ → ℂ}
    (r : Ready s px py h a u m) (hdev : s.dev = .lcos l) {φ : ℕ → ℕ → ℝ} (hφ : Shows l φ) :
    ∃ img g, (s.propagate h a).1.imageField = some img ∧ s.imagePaddedGrid = .ok g ∧
      ∀ k < l.slm.Ny + 2 * py, ∀ q < l.slm.Nx + 2 * px,
        (∀ i < l.slm.Ny, ∀ j < l.slm.Nx, φ i j = steer l.slm u (g.1.get k q) (g.2.get k q) i j) →
        ‖img.get k q‖ = inPhase l.slm u := by
  obtain ⟨img, g, h1, h2, h3⟩ := C134_strehl r hdev hφ
  obtain ⟨img', h1', h4⟩ := C134_limit r (Or.inr ⟨l, φ, hdev, hφ⟩)
  rw [h1] at h1'
  injection h1' with h1'
  subst h1'
  have hs : s.dev.slm = l.slm := by rw [hdev]; rfl
  rw [hs] at h4
  refine ⟨img, g, h1, h2, fun k hk q hq hst => le_antisymm (h4 k hk q hq) ?_⟩
  have := h3 k hk q hq 0 0 (fun _ _ => 0) (le_of_eq (by
    rw [zero_pow two_ne_zero, zero_mul]
    refine sum_eq_zero fun i hi => sum_eq_zero fun j hj => ?_
    rw [hst i (mem_range.mp hi) j (mem_range.mp hj)]
    simp))
  simpa using this

/-- C134: a beam on a 4 x 6 SLM with phases that steer it to any point up to errors of 0.1 at every pixel, and a DMD. -/
example (h : Profile.Heap) (ξ η : ℝ) :
    let u : ℕ → ℕ → ℂ := fun i j => i + j * I
    let φ : ℕ → ℕ → ℝ := fun i j => steer exLcos.slm u ξ η i j + 0.1
    let l : LCOS := { exLcos with state := phaseState exLcos.slm φ }
    Shows l φ ∧ Ready ⟨.lcos l, 2, 0, none, none, none⟩ 2 0 h (.ndarray .cplx ⟨.mat 4 6, u⟩) u (fun i j => cexp (-I * φ i j)) ∧
    (∑ i ∈ range l.slm.Ny, ∑ j ∈ range l.slm.Nx, ‖u i j‖ * (φ i j - steer l.slm u ξ η i j - 0 - (0 : ℤ) * (2 * Real.pi)) ^ 2 ≤
      0.1 ^ 2 * ∑ i ∈ range l.slm.Ny, ∑ j ∈ range l.slm.Nx, ‖u i j‖) ∧ Passive exSim.dev := by
  intro u φ l
  refine ⟨shows_phaseState _ _, ⟨rfl, rfl, Nat.succ_pos 5, Nat.succ_pos 3, ?_, ?_,
    ⟨_, rfl, rfl, fun _ _ _ _ => rfl⟩, shows_modulation (shows_phaseState _ _)⟩, ?_, Or.inl ⟨_, _, rfl⟩⟩
  · show (3 : ℝ) * 5 ≠ 0; norm_num
  · show (2 : ℝ) ≠ 0; norm_num
  · rw [mul_sum]
    refine sum_le_sum fun i _ => ?_
    rw [mul_sum]
    refine sum_le_sum fun j _ => le_of_eq ?_
    simp only [φ, l]
    push_cast
    ring

end PySLM2.Sim
