import Verif.Lemmas.ModeMatching

/-! Helper lemmas about mode matching: pixel values, scaling, orders of diffraction. -/

noncomputable section

open Complex Finset

namespace PySLM2.DMD

open Lib

theorem realArg_realArray (d : DMD) (h : Profile.Heap) (A : ℕ → ℕ → ℝ) :
    RealArg d h (realArray d.slm A) A := by
  refine ⟨_, rfl, Tensor.denotes_of_mat rfl fun i _ j _ => ?_⟩
  simp [castTo, Tensor.map]

theorem gratingArgs_realArray (d : DMD) (h : Profile.Heap) (A φin φout : ℕ → ℕ → ℝ) :
    GratingArgs d h (realArray d.slm A) (realArray d.slm φin) (realArray d.slm φout) A φin φout :=
  ⟨realArg_realArray d h A, realArg_realArray d h φin, realArg_realArray d h φout⟩

/-! ### Amplitudes -/

/-- Nowhere dark where light is needed, and light is needed somewhere. -/
def Lit (s : SLM) (u F : ℕ → ℕ → ℂ) : Prop :=
  (∀ i < s.Ny, ∀ j < s.Nx, F i j ≠ 0 → u i j ≠ 0) ∧ ∃ i < s.Ny, ∃ j < s.Nx, F i j ≠ 0

theorem ratio_fin {u F : ℕ → ℕ → ℂ} {i j : ℕ} (h : F i j ≠ 0 → u i j ≠ 0) :
    ratio u F i j = .fin (‖F i j‖ / ‖u i j‖) := by
  unfold ratio ratioPixel
  by_cases hF : F i j = 0
  · rw [if_pos (by rw [hF, norm_zero]), hF, norm_zero, zero_div]
  · rw [if_neg (norm_ne_zero_iff.mpr hF)]
    unfold XR.divFin
    rw [if_neg (norm_ne_zero_iff.mpr (h hF))]

theorem ratio_dark {u F : ℕ → ℕ → ℂ} {i j : ℕ} (hF : F i j ≠ 0) (hu : u i j = 0) :
    ratio u F i j = .pinf := by
  unfold ratio ratioPixel
  rw [if_neg (norm_ne_zero_iff.mpr hF)]
  unfold XR.divFin
  rw [if_pos (by rw [hu, norm_zero]), if_neg (norm_ne_zero_iff.mpr hF), if_pos (norm_pos_iff.mpr hF)]

theorem ratio_cases (u F : ℕ → ℕ → ℂ) (i j : ℕ) :
    (F i j ≠ 0 ∧ u i j = 0 ∧ ratio u F i j = .pinf) ∨
      ((F i j ≠ 0 → u i j ≠ 0) ∧ ratio u F i j = .fin (‖F i j‖ / ‖u i j‖)) := by
  by_cases h : F i j ≠ 0 ∧ u i j = 0
  · exact Or.inl ⟨h.1, h.2, ratio_dark h.1 h.2⟩
  · have : F i j ≠ 0 → u i j ≠ 0 := fun h1 h2 => h ⟨h1, h2⟩
    exact Or.inr ⟨this, ratio_fin this⟩

theorem amp_lit {s : SLM} (hNx : 0 < s.Nx) (hNy : 0 < s.Ny) {u F : ℕ → ℕ → ℂ} (hl : Lit s u F) :
    ∃ m, 0 < m ∧ reduceMax s.Ny s.Nx (ratio u F) = .fin m ∧
      (∀ i < s.Ny, ∀ j < s.Nx, ‖F i j‖ / ‖u i j‖ ≤ m) ∧
      ∃ i < s.Ny, ∃ j < s.Nx, ‖F i j‖ / ‖u i j‖ = m := by
  obtain ⟨h1, i, hi, j, hj, hF⟩ := hl
  obtain ⟨m, hm, hle, hex⟩ := reduceMax_fin hNy hNx
    (fun i hi j hj => ratio_fin (u := u) (F := F) (h1 i hi j hj))
  refine ⟨m, ?_, hm, hle, hex⟩
  refine lt_of_lt_of_le ?_ (hle i hi j hj)
  exact div_pos (norm_pos_iff.mpr hF) (norm_pos_iff.mpr (h1 i hi j hj hF))

theorem div_fin {a m : ℝ} (hm : m ≠ 0) : (XR.fin a).div (.fin m) = .fin (a / m) := by
  show XR.divFin a m = _
  unfold XR.divFin
  rw [if_neg hm]

/-! ### Pixel values -/

theorem cos_signed_congr {neg : Bool} {q q' : Pix} (x : ℝ) (n : ℤ)
    (h : q'.phaseOut - q'.phaseIn = q.phaseOut - q.phaseIn + 2 * Real.pi * n) :
    Real.cos (x - ((signedPhases neg q').2 - (signedPhases neg q').1)) =
      Real.cos (x - ((signedPhases neg q).2 - (signedPhases neg q).1)) := by
  unfold signedPhases
  cases neg
  · simp only [Bool.false_eq_true, if_false]
    rw [h, ← Real.cos_add_int_mul_two_pi _ n]
    congr 1
    ring
  · simp only [if_true]
    have : -q'.phaseOut - -q'.phaseIn = -(q.phaseOut - q.phaseIn) - 2 * Real.pi * n := by
      linear_combination -h
    rw [this, ← Real.cos_sub_int_mul_two_pi _ n]
    congr 1
    ring

theorem pixels_phase {p theta : ℝ} {neg : Bool} {q q' : Pix} (n : ℤ) (ha : q'.amp = q.amp) (hx : q'.x = q.x)
    (hy : q'.y = q.y) (h : q'.phaseOut - q'.phaseIn = q.phaseOut - q.phaseIn + 2 * Real.pi * n) :
    idealPixel p theta neg q' = idealPixel p theta neg q ∧
      ∀ r, randomDuty p theta r neg q' = randomDuty p theta r neg q := by
  unfold idealPixel randomDuty
  simp only [ha, hx, hy, cos_signed_congr _ n h, implies_true, and_self]

theorem pixels_zero {p theta : ℝ} {neg : Bool} {q q' : Pix} (ha : q'.amp = q.amp)
    (h : q.amp = .fin 0 ∨ q.amp = .nan) :
    idealPixel p theta neg q' = idealPixel p theta neg q ∧
      ∀ r, randomDuty p theta r neg q' = randomDuty p theta r neg q := by
  unfold idealPixel randomDuty
  rw [ha]
  by_cases hp : p = 0
  · simp only [hp, if_true, implies_true, and_self]
  · simp only [hp, if_false]
    rcases h with h | h <;> rw [h]
    · refine ⟨?_, fun r => ?_⟩
      · simp [XR.mul]
      · have : asinX (.fin 0) = .fin 0 := by
          have h1 : asinX (.fin 0) = if -1 ≤ (0 : ℝ) ∧ (0 : ℝ) ≤ 1 then .fin (Real.arcsin 0) else .nan := rfl
          rw [h1, if_pos (by norm_num), Real.arcsin_zero]
        rw [this]
        simp
    · exact ⟨rfl, fun r => rfl⟩

/-- Phase differences under a common factor. -/
theorem arg_scale {a b : ℝ} (ha : 0 < a) (hb : 0 < b) {c u F : ℂ} (hc : c ≠ 0) (hu : u ≠ 0) (hF : F ≠ 0) :
    ∃ n : ℤ, arg ((b * c) * F) - arg ((a * c) * u) = arg F - arg u + 2 * Real.pi * n := by
  rw [mul_assoc, mul_assoc, Complex.arg_real_mul _ ha, Complex.arg_real_mul _ hb]
  have h1 := Complex.arg_mul_coe_angle hc hF
  have h2 := Complex.arg_mul_coe_angle hc hu
  have h3 : ((arg (c * F) - arg (c * u) : ℝ) : Real.Angle) = ((arg F - arg u : ℝ) : Real.Angle) := by
    rw [Real.Angle.coe_sub, Real.Angle.coe_sub, h1, h2]
    abel
  rw [Real.Angle.angle_eq_iff_two_pi_dvd_sub] at h3
  obtain ⟨k, hk⟩ := h3
  exact ⟨k, by linear_combination hk⟩

theorem ratio_scale {a b : ℝ} (ha : 0 < a) (hb : 0 < b) {c : ℂ} (hc : ‖c‖ = 1) (u F : ℕ → ℕ → ℂ) :
    ratio (fun i j => (a * c) * u i j) (fun i j => (b * c) * F i j) =
      fun i j => (ratio u F i j).smul (b / a) := by
  funext i j
  have hn : ∀ (x : ℝ) (z : ℂ), 0 < x → ‖(x * c) * z‖ = x * ‖z‖ := by
    intro x z hx
    rw [norm_mul, norm_mul, hc, mul_one, Complex.norm_real, Real.norm_of_nonneg hx.le]
  have hc0 : c ≠ 0 := by rintro rfl; simp at hc
  have ha0 : ((a : ℝ) : ℂ) * c ≠ 0 := mul_ne_zero (by exact_mod_cast ha.ne') hc0
  have hb0 : ((b : ℝ) : ℂ) * c ≠ 0 := mul_ne_zero (by exact_mod_cast hb.ne') hc0
  rcases ratio_cases u F i j with ⟨h1, h2, h3⟩ | ⟨h1, h2⟩
  · rw [h3]
    exact ratio_dark (mul_ne_zero hb0 h1) (by rw [h2, mul_zero])
  · rw [h2, ratio_fin]
    · rw [hn b _ hb, hn a _ ha]
      show _ = XR.fin _
      congr 1
      rw [mul_div_mul_comm]
    · intro h3
      exact mul_ne_zero ha0 (h1 (right_ne_zero_of_mul h3))

/-! ### Orders of diffraction -/

/-- A pixel of the modulated field as a sum of three terms. -/
theorem three_orders {u F : ℂ} {m φ : ℝ} (hm : m ≠ 0) (hl : F ≠ 0 → u ≠ 0) :
    u * ((‖F‖ / ‖u‖ / m * (Real.cos (φ - (phaseOutPixel F - arg u)) / 2 + 1 / 2) : ℝ) : ℂ) =
      F / (4 * m) * cexp (-(φ * I)) + u / ‖u‖ * ‖F‖ / (2 * m) +
        (u / ‖u‖) ^ 2 * (starRingEnd ℂ) F / (4 * m) * cexp (φ * I) := by
  by_cases hF : F = 0
  · subst hF
    simp
  have hu := hl hF
  have hm' : (m : ℂ) ≠ 0 := by exact_mod_cast hm
  have hun : ((‖u‖ : ℝ) : ℂ) ≠ 0 := by exact_mod_cast norm_ne_zero_iff.mpr hu
  have hFn : ((‖F‖ : ℝ) : ℂ) ≠ 0 := by exact_mod_cast norm_ne_zero_iff.mpr hF
  have hpo : phaseOutPixel F = arg F := by unfold phaseOutPixel; rw [if_neg hF]
  rw [hpo]
  set p := cexp (arg u * I) with hp
  set q := cexp (arg F * I) with hq
  set z := cexp (φ * I) with hz
  have hp0 : p ≠ 0 := Complex.exp_ne_zero _
  have hq0 : q ≠ 0 := Complex.exp_ne_zero _
  have hz0 : z ≠ 0 := Complex.exp_ne_zero _
  have eu : u = ‖u‖ * p := (Complex.norm_mul_exp_arg_mul_I u).symm
  have eF : F = ‖F‖ * q := (Complex.norm_mul_exp_arg_mul_I F).symm
  have ecF : (starRingEnd ℂ) F = ‖F‖ * q⁻¹ := by
    conv_lhs => rw [eF]
    rw [map_mul, Complex.conj_ofReal, hq, ← Complex.exp_conj, ← Complex.exp_neg]
    simp
  have ez : cexp (-(φ * I)) = z⁻¹ := by rw [hz, Complex.exp_neg]
  have ecos : ((Real.cos (φ - (arg F - arg u)) : ℝ) : ℂ) = (z * q⁻¹ * p + z⁻¹ * q * p⁻¹) / 2 := by
    rw [Complex.ofReal_cos, Complex.cos]
    have e1 : cexp (((φ - (arg F - arg u) : ℝ) : ℂ) * I) = z * q⁻¹ * p := by
      rw [hz, hq, hp, ← Complex.exp_neg, ← Complex.exp_add, ← Complex.exp_add]
      congr 1
      push_cast
      ring
    have e2 : cexp (-((φ - (arg F - arg u) : ℝ) : ℂ) * I) = z⁻¹ * q * p⁻¹ := by
      rw [hz, hq, hp, ← Complex.exp_neg, ← Complex.exp_neg, ← Complex.exp_add, ← Complex.exp_add]
      congr 1
      push_cast
      ring
    rw [e1, e2]
  have e3 : u / ((‖u‖ : ℝ) : ℂ) = p := by rw [div_eq_iff hun]; rw [mul_comm]; exact eu
  rw [ez, ecF, e3]
  have e4 : F / (4 * m) = ‖F‖ * q / (4 * m) := by rw [← eF]
  rw [e4]
  push_cast at ecos ⊢
  rw [ecos]
  have e5 : u * (((‖F‖ : ℝ) : ℂ) / ((‖u‖ : ℝ) : ℂ) / m * ((z * q⁻¹ * p + z⁻¹ * q * p⁻¹) / 2 / 2 + 1 / 2)) =
      (u / ((‖u‖ : ℝ) : ℂ)) * ((‖F‖ : ℝ) : ℂ) / m * ((z * q⁻¹ * p + z⁻¹ * q * p⁻¹) / 2 / 2 + 1 / 2) := by
    ring
  rw [e5, e3]
  field_simp
  ring

/-- The phase of displacing the grating's origin by half a pixel for odd sizes. -/
def oddPhase (s : SLM) (x y : ℝ) : ℂ :=
  cexp (((2 * Real.pi * ((x * ((s.Nx : ℝ) / 2 - (s.Nx / 2 : ℕ)) +
    y * ((s.Ny / 2 : ℕ) - (s.Ny : ℝ) / 2)) * s.ps / s.scaling) : ℝ) : ℂ) * I)

theorem oddPhase_even (s : SLM) (x y : ℝ) (hx : Even s.Nx) (hy : Even s.Ny) : oddPhase s x y = 1 := by
  have h : ∀ n : ℕ, Even n → ((n / 2 : ℕ) : ℝ) = (n : ℝ) / 2 := by
    rintro n ⟨k, rfl⟩
    rw [show (k + k) / 2 = k by omega]; push_cast; ring
  unfold oddPhase
  rw [h _ hx, h _ hy]
  simp

theorem norm_oddPhase (s : SLM) (x y : ℝ) : ‖oddPhase s x y‖ = 1 := by
  unfold oddPhase
  rw [Complex.norm_exp_ofReal_mul_I]

/-- Multiplying by the carrier displaces the image. -/
theorem fieldAt_carrier (d : DMD) (hp : d.p ≠ 0) (hsc : d.slm.scaling ≠ 0) (V : ℕ → ℕ → ℂ) (σ x y : ℝ) :
    Sim.fieldAt d.slm (fun i j => V i j *
      cexp ((σ * d.carrier (d.slm.fourierX i j) (d.slm.fourierY i j) : ℝ) * I)) x y =
    Sim.fieldAt d.slm V (x + σ * (Real.cos d.theta * d.slm.scaling / d.p))
      (y + σ * (Real.sin d.theta * d.slm.scaling / d.p)) *
    oddPhase d.slm (-(σ * (Real.cos d.theta * d.slm.scaling / d.p)))
      (-(σ * (Real.sin d.theta * d.slm.scaling / d.p))) := by
  unfold Sim.fieldAt oddPhase
  rw [mul_assoc ((_ : ℝ) : ℂ), Finset.sum_mul]
  congr 1
  refine Finset.sum_congr rfl fun i _ => ?_
  rw [Finset.sum_mul]
  refine Finset.sum_congr rfl fun j _ => ?_
  rw [mul_assoc (V i j), mul_assoc (V i j), ← Complex.exp_add, ← Complex.exp_add]
  congr 2
  unfold carrier
  rw [fourierX_eq, fourierY_eq]
  generalize d.slm.Nx / 2 = cx
  generalize d.slm.Ny / 2 = cy
  have hp' : ((d.p : ℝ) : ℂ) ≠ 0 := by exact_mod_cast hp
  have hs' : ((d.slm.scaling : ℝ) : ℂ) ≠ 0 := by exact_mod_cast hsc
  push_cast
  field_simp
  ring

theorem fieldAt_add (s : SLM) (U V W : ℕ → ℕ → ℂ) (x y : ℝ) :
    Sim.fieldAt s (fun i j => U i j + V i j + W i j) x y =
      Sim.fieldAt s U x y + Sim.fieldAt s V x y + Sim.fieldAt s W x y := by
  unfold Sim.fieldAt
  rw [← mul_add, ← mul_add, ← Finset.sum_add_distrib, ← Finset.sum_add_distrib]
  congr 1
  refine Finset.sum_congr rfl fun i _ => ?_
  rw [← Finset.sum_add_distrib, ← Finset.sum_add_distrib]
  exact Finset.sum_congr rfl fun j _ => by ring

theorem fieldAt_congr (s : SLM) {U V : ℕ → ℕ → ℂ} (h : ∀ i < s.Ny, ∀ j < s.Nx, U i j = V i j) (x y : ℝ) :
    Sim.fieldAt s U x y = Sim.fieldAt s V x y := by
  unfold Sim.fieldAt
  congr 1
  exact Finset.sum_congr rfl fun i hi => Finset.sum_congr rfl fun j hj => by
    rw [h i (mem_range.mp hi) j (mem_range.mp hj)]

/-- The spectrum diffracts to the interpolated target. -/
theorem fieldAt_spectrum (s : SLM) (hNx : 0 < s.Nx) (hNy : 0 < s.Ny) (T : ℕ → ℕ → ℂ) (c : ℂ) (x y : ℝ) :
    Sim.fieldAt s (fun i j => spectrum s T i j * c) x y =
      ((s.ps ^ 2 / s.scaling * s.Nx * s.Ny : ℝ) : ℂ) * c * interp s T x y := by
  unfold Sim.fieldAt interp
  have hx : (s.Nx : ℂ) ≠ 0 := by exact_mod_cast hNx.ne'
  have hy : (s.Ny : ℂ) ≠ 0 := by exact_mod_cast hNy.ne'
  have h1 : ((s.ps ^ 2 / s.scaling * s.Nx * s.Ny : ℝ) : ℂ) * c * (1 / (s.Nx * s.Ny : ℂ)) =
      ((s.ps ^ 2 / s.scaling : ℝ) : ℂ) * c := by
    push_cast
    field_simp
  rw [← mul_assoc _ (1 / (s.Nx * s.Ny : ℂ)), h1, mul_assoc _ c, Finset.mul_sum _ _ c]
  congr 1
  refine Finset.sum_congr rfl fun i _ => ?_
  rw [Finset.mul_sum]
  refine Finset.sum_congr rfl fun j _ => ?_
  unfold SLM.scaling
  ring

theorem interp_pixel (s : SLM) (hsc : s.scaling ≠ 0) (hps : s.ps ≠ 0) (T : ℕ → ℕ → ℂ)
    {g : Tensor ℝ × Tensor ℝ} (hg : s.imageGrid = .ok g) {k l : ℕ} (hk : k < s.Ny) (hl : l < s.Nx) :
    interp s T (g.1.get k l) (g.2.get k l) = T k l := by
  have hgx : g.1.get k l = ((l : ℝ) - (s.Nx / 2 : ℕ)) * (s.scaling / (s.Nx * s.ps)) ∧
      g.2.get k l = ((s.Ny / 2 : ℕ) - (k : ℝ)) * (s.scaling / (s.Ny * s.ps)) := by
    unfold SLM.imageGrid imageGridOf at hg
    split_ifs at hg
    obtain rfl := Except.ok.inj hg
    exact ⟨imageX_eq hl _ _ k, imageY_eq hk _ _ l⟩
  rw [hgx.1, hgx.2, ← centredIdft_targetFp T hk hl, centredIdft_eq _ hk hl]
  unfold interp
  rw [mul_comm (s.Nx : ℂ)]
  congr 1
  refine Finset.sum_congr rfl fun i hi => ?_
  refine Finset.sum_congr rfl fun j hj => ?_
  rw [spectrum_eq s T (mem_range.mp hi) (mem_range.mp hj)]
  congr 1
  rw [Ec, Ec, ← Complex.exp_add]
  congr 1
  show _ * (((_ * _ * s.ps / s.scaling + _ * _ * s.ps / s.scaling : ℝ)) : ℂ) = _
  have hx : (s.Nx : ℂ) ≠ 0 := by exact_mod_cast (by omega : s.Nx ≠ 0)
  have hy : (s.Ny : ℂ) ≠ 0 := by exact_mod_cast (by omega : s.Ny ≠ 0)
  have hp' : ((s.ps : ℝ) : ℂ) ≠ 0 := by exact_mod_cast hps
  have hs' : ((s.scaling : ℝ) : ℂ) ≠ 0 := by exact_mod_cast hsc
  generalize s.Nx / 2 = cx
  generalize s.Ny / 2 = cy
  push_cast
  field_simp
  ring

end PySLM2.DMD
