import Verif.Lemmas.RandomOrders
import Verif.Props.Orders
import Verif.Props.Aberration
import Verif.Props.RandomImage

/-!
# C98, C99: the brightness of the hologram, and the diffraction orders of the random method

`orderAmplitude` and `orderField` are in `Verif/Spec/RandomOrders.lean`.
-/

noncomputable section

open MeasureTheory ProbabilityTheory Finset Complex Filter Topology

namespace PySLM2.DMD

open Lib Sim

/-- **C98.** The hologram is the brightest possible: for every method, if any amplitudes `A'` with `|A'| ≤ 1` make the
modulus of the transmitted field `eta'` times that of the wanted field, then `eta'` is at most the `eta` that
`calculate_dmd_state` returns. -/
theorem C98_brightest {d : DMD} {h : Profile.Heap} {inp target : ProfArg} {window : Option ProfArg}
    {u T w : ℕ → ℕ → ℂ} (m : Matching d h inp target window u T w)
    (hsc : 0 < d.slm.wavelength * d.slm.focal) (hps : d.slm.ps ≠ 0)
    (hlit : ∀ i < d.slm.Ny, ∀ j < d.slm.Nx, spectrum d.slm T i j * w i j ≠ 0 → u i j ≠ 0)
    (hne : ∃ i < d.slm.Ny, ∃ j < d.slm.Nx, spectrum d.slm T i j * w i j ≠ 0)
    {method : String} {kw : CalcKwargs} {draw : ℕ → ℕ → ℝ} {st : StateArr} {eta : XR}
    (hcalc : d.calculateDmdState h inp target method window kw draw = ⟨.rebind st, .ok eta⟩)
    {A' : ℕ → ℕ → ℝ} {eta' : ℝ} (hA' : ∀ i < d.slm.Ny, ∀ j < d.slm.Nx, |A' i j| ≤ 1)
    (hreal : ∀ i < d.slm.Ny, ∀ j < d.slm.Nx, |A' i j| * ‖u i j‖ =
      eta' * (d.slm.wavelength * d.slm.focal) / (d.slm.ps ^ 2 * d.slm.Nx * d.slm.Ny) * ‖spectrum d.slm T i j * w i j‖) :
    ∃ e : ℝ, eta = .fin e ∧ eta' ≤ e := by
  have hl : Lit d.slm u (wspec d.slm T w) := ⟨hlit, hne⟩
  obtain ⟨mx, hpos, hle, ⟨i0, hi0, j0, hj0, he⟩, hcalc'⟩ := calculate_lit m hl
  have hsc' : d.slm.scaling ≠ 0 := hsc.ne'
  have hsc0 : 0 < d.slm.scaling := hsc
  have hNx : (0 : ℝ) < d.slm.Nx := by exact_mod_cast m.hNx
  have hNy : (0 : ℝ) < d.slm.Ny := by exact_mod_cast m.hNy
  have hps2 : 0 < d.slm.ps ^ 2 := by positivity
  obtain ⟨tin, amp, pin, pout, h1, h2, h3, h4, h5, h6⟩ := hcalc' method kw draw
  have heta : eta = .fin (d.slm.ps ^ 2 / d.slm.scaling * d.slm.Nx * d.slm.Ny / mx) := by
    cases hf : d.forwardKwargs h tin method kw with
    | error e =>
      rw [hf] at h6
      rw [calculate_of_error h6] at hcalc
      injection hcalc with a b
      cases a
    | ok kf =>
      rw [hf] at h6
      simp only at h6
      cases hg : d.grating amp pin pout method kf draw with
      | error e =>
        rw [hg] at h6
        rw [calculate_of_error h6] at hcalc
        injection hcalc with a b
        cases a
      | ok g =>
        rw [hg] at h6
        rw [calculate_of_grating h6, etaOf_fin hsc' hpos.ne'] at hcalc
        injection hcalc with a b
        injection b with b
        exact b.symm
  refine ⟨_, heta, ?_⟩
  have hF : wspec d.slm T w i0 j0 ≠ 0 := by
    intro hF
    rw [hF, norm_zero, zero_div] at he
    exact hpos.ne he
  have hu : 0 < ‖u i0 j0‖ := norm_pos_iff.mpr (hlit i0 hi0 j0 hj0 hF)
  have h7 := hreal i0 hi0 j0 hj0
  have h8 := hA' i0 hi0 j0 hj0
  have h9 : ‖spectrum d.slm T i0 j0 * w i0 j0‖ = mx * ‖u i0 j0‖ := by
    rw [← he]
    show ‖wspec d.slm T w i0 j0‖ = _
    field_simp
  rw [h9, ← mul_assoc] at h7
  have h10 : |A' i0 j0| = eta' * (d.slm.wavelength * d.slm.focal) / (d.slm.ps ^ 2 * d.slm.Nx * d.slm.Ny) * mx :=
    mul_right_cancel₀ hu.ne' h7
  rw [h10] at h8
  have e1 : d.slm.wavelength * d.slm.focal = d.slm.scaling := rfl
  rw [e1, div_mul_eq_mul_div, div_le_one (by positivity)] at h8
  rw [le_div_iff₀ hpos, div_mul_eq_mul_div, div_mul_eq_mul_div, le_div_iff₀ hsc0]
  linarith

/-- The orders of method `random` with a window and behind a screen. -/
theorem random_orders_window {d : DMD} {h : Profile.Heap} {inp target inp' : ProfArg} {window : Option ProfArg}
    {u T w φ : ℕ → ℕ → ℂ}
    (m : Matching d h inp target window u T w)
    (hin' : ArrayArg d.slm h inp' fun i j => u i j * φ i j)
    (hp : d.p ≠ 0) (hsc : d.slm.wavelength * d.slm.focal ≠ 0) (hps : d.slm.ps ≠ 0)
    (hne : ∃ i < d.slm.Ny, ∃ j < d.slm.Nx, spectrum d.slm T i j * w i j ≠ 0)
    (hlit : ∀ i < d.slm.Ny, ∀ j < d.slm.Nx, spectrum d.slm T i j * w i j ≠ 0 → u i j ≠ 0) :
    ∃ (eta : ℝ) (A : ℕ → ℕ → ℝ) (o : ℝ × ℝ) (gi : Tensor ℝ × Tensor ℝ) (κ : ℤ → ℂ), eta ≠ 0 ∧ d.firstOrderOrigin = .ok o ∧ d.slm.imageGrid = .ok gi ∧
      (∀ n, ‖κ n‖ = 1) ∧ (Even d.slm.Nx → Even d.slm.Ny → ∀ n, κ n = 1) ∧
      (∀ i < d.slm.Ny, ∀ j < d.slm.Nx, 0 ≤ A i j ∧ A i j ≤ 1 ∧ A i j * ‖u i j‖ =
        eta * (d.slm.wavelength * d.slm.focal) / (d.slm.ps ^ 2 * d.slm.Nx * d.slm.Ny) * ‖spectrum d.slm T i j * w i j‖) ∧
      (∀ (kw : CalcKwargs) (r : ℝ), 0 < r → kw.r.getD 10 = r →
        ∀ (Ω : Type) [MeasurableSpace Ω] (μ : Measure Ω) [IsProbabilityMeasure μ] (draw : Ω → ℕ → ℕ → ℝ),
        (∀ i < d.slm.Ny, ∀ j < d.slm.Nx, Measurable fun ω => draw ω i j) →
        (∀ i < d.slm.Ny, ∀ j < d.slm.Nx, μ.map (fun ω => draw ω i j) = volume.restrict (Set.Ico 0 1)) →
        ∀ (s : Sim) (px py : ℕ), s.px = px → s.py = py →
        ∃ (t : Ω → Tensor Bool) (img : Ω → Tensor ℂ) (g : Tensor ℝ × Tensor ℝ),
          (∀ ω, d.calculateDmdState h inp target "random" window kw (draw ω) = ⟨.rebind (.bool (t ω)), .ok (.fin eta)⟩ ∧
            ((showing s d (.bool (t ω))).propagate h inp').1.imageField = some (img ω) ∧
            (showing s d (.bool (t ω))).imagePaddedGrid = .ok g) ∧
          ∀ k < d.slm.Ny + 2 * py, ∀ l < d.slm.Nx + 2 * px,
            HasSum (fun n : ℤ => fieldAt d.slm (fun i j => orderField u (fun i j => spectrum d.slm T i j * w i j) A r n i j * φ i j)
                (g.1.get k l - n * (if d.neg then -o.1 else o.1)) (g.2.get k l - n * (if d.neg then -o.2 else o.2)) * κ n)
              (∫ ω, (img ω).get k l ∂μ)) ∧
      ∀ x y : ℝ, Tendsto (fun r => fieldAt d.slm (fun i j => orderField u (fun i j => spectrum d.slm T i j * w i j) A r 1 i j * φ i j) x y) atTop
        (𝓝 (eta / Real.pi * Spec.blurred d.slm gi (fun i j => w i j * φ i j) T x y)) := by
  classical
  obtain ⟨tin2, hti2, hts2, htg2⟩ := hin'
  obtain ⟨hNx, hNy⟩ := And.intro m.hNx m.hNy
  set F : ℕ → ℕ → ℂ := fun i j => spectrum d.slm T i j * w i j with hF
  have hw : wspec d.slm T w = F := rfl
  have hsc' : d.slm.scaling ≠ 0 := hsc
  have hl : Lit d.slm u (wspec d.slm T w) := ⟨hlit, hne⟩
  obtain ⟨mx, hpos, hle, -, hcalc⟩ := calculate_lit m hl
  rw [hw] at hle
  set eta := d.slm.ps ^ 2 / d.slm.scaling * d.slm.Nx * d.slm.Ny / mx with heta
  have hNx' : (d.slm.Nx : ℝ) ≠ 0 := by exact_mod_cast hNx.ne'
  have hNy' : (d.slm.Ny : ℝ) ≠ 0 := by exact_mod_cast hNy.ne'
  have hmx := hpos.ne'
  have heta0 : eta ≠ 0 := by
    rw [heta]
    refine div_ne_zero (mul_ne_zero (mul_ne_zero (div_ne_zero (pow_ne_zero 2 hps) hsc') hNx') hNy') hmx
  have hK : eta * (d.slm.wavelength * d.slm.focal) / (d.slm.ps ^ 2 * d.slm.Nx * d.slm.Ny) = 1 / mx := by
    have e : d.slm.wavelength * d.slm.focal = d.slm.scaling := rfl
    rw [e, heta]
    field_simp
  set x0 := Real.cos d.theta * d.slm.scaling / d.p with hx0
  set y0 := Real.sin d.theta * d.slm.scaling / d.p with hy0
  set σ : ℝ := if d.neg then -1 else 1 with hσ
  have hσx : ∀ z : ℝ, (if d.neg then -z else z) = σ * z := by
    intro z
    rw [hσ]
    cases d.neg <;> simp
  have hσ2 : σ * σ = 1 := by rw [hσ]; split_ifs <;> norm_num
  have ho : d.firstOrderOrigin = .ok (x0, y0) := by
    unfold firstOrderOrigin
    rw [if_neg hp]
  let A : ℕ → ℕ → ℝ := fun i j => ‖F i j‖ / ‖u i j‖ / mx
  have hA0 : ∀ i j, 0 ≤ A i j := fun i j => by positivity
  have hA1 : ∀ i < d.slm.Ny, ∀ j < d.slm.Nx, A i j ≤ 1 := fun i hi j hj => (div_le_one hpos).mpr (hle i hi j hj)
  have hAu : ∀ i < d.slm.Ny, ∀ j < d.slm.Nx, A i j * ‖u i j‖ = 1 / mx * ‖F i j‖ := by
    intro i hi j hj
    by_cases hF0 : F i j = 0
    · simp [A, hF0]
    · have hu : ‖u i j‖ ≠ 0 := norm_ne_zero_iff.mpr (hlit i hi j hj hF0)
      simp only [A]
      field_simp
  obtain ⟨gi, hgi⟩ : ∃ gi, d.slm.imageGrid = .ok gi := by
    unfold SLM.imageGrid imageGridOf
    rw [if_neg]
    · exact ⟨_, rfl⟩
    · simp only [mul_eq_zero, not_or]
      exact ⟨⟨hNx', hps⟩, ⟨hNy', hps⟩⟩
  refine ⟨eta, A, (x0, y0), gi, fun n => oddPhase d.slm (n * (σ * x0)) (n * (σ * y0)), heta0, ho, hgi,
    fun n => norm_oddPhase _ _ _, fun hx hy n => oddPhase_even _ _ _ hx hy,
    fun i hi j hj => ⟨hA0 i j, hA1 i hi j hj, by rw [hK]; exact hAu i hi j hj⟩, ?_, ?_⟩
  · intro kw r hr hkw Ω _ μ _ draw hm hu s px py hpx hpy
    let q : ℕ → ℕ → ℝ := d.duty r A (fun i j => arg (u i j)) (fun i j => arg (F i j))
    have hst : ∀ ω, ∃ t : Tensor Bool, d.calculateDmdState h inp target "random" window kw (draw ω) =
        ⟨.rebind (.bool t), .ok (.fin eta)⟩ ∧ t.shape = .mat d.slm.Ny d.slm.Nx ∧
        ∀ i < d.slm.Ny, ∀ j < d.slm.Nx, (t.get i j = true ↔ draw ω i j < q i j) := by
      intro ω
      obtain ⟨tin', amp, pin, pout, h1, h2, h3, h4, h5, h6⟩ := hcalc "random" kw (draw ω)
      rw [hw] at h3 h5
      obtain ⟨-, -, ⟨t, g1, g2, g3⟩⟩ := grating_elementwise h3 h4 h5 { r := kw.r, N := kw.N, s := kw.s } (draw ω)
      have h7 : d.forwardKwargs h tin' "random" kw = .ok { r := kw.r, N := kw.N, s := kw.s } := rfl
      rw [h7] at h6
      simp only at h6
      rw [g1] at h6
      have h9 := calculate_of_grating h6
      rw [etaOf_fin hsc' hpos.ne'] at h9
      refine ⟨t, h9, g2, fun i hi j hj => ?_⟩
      rw [g3 i hi j hj, hkw]
      have hpx : d.pixelX (fun i j => .fin (‖F i j‖ / ‖u i j‖ / mx)) (fun i j => arg (u i j)) (fun i j => arg (F i j)) i j =
          d.pixel A (fun i j => arg (u i j)) (fun i j => arg (F i j)) i j := rfl
      rw [hpx, randomDuty_eq d hp, if_pos ⟨by linarith [hA0 i j], hA1 i hi j hj⟩]
      rfl
    choose t htc htsh htb using hst
    have rdy : Ready (showing s d (grey d q)) px py h inp' (fun i j => u i j * φ i j) fun i j => (q i j : ℂ) :=
      ⟨hpx, hpy, hNx, hNy, hsc, hps, ⟨tin2, hti2, hts2, htg2⟩, grey_modulation d q⟩
    obtain ⟨img, avg, i1, i2, i3⟩ := dither_image (s := showing s d (grey d q)) rfl rdy μ draw hm hu t htsh q
      (fun i hi j hj => ⟨duty_nonneg d hr.le A _ _ _ _ (hA0 i j), (duty_lt_one d r A _ _ _ _).le⟩) htb
    obtain ⟨g, hg⟩ := imagePaddedGrid_ok rdy
    refine ⟨t, img, g, fun ω => ⟨htc ω, i1 ω, hg⟩, fun k hk l hl => ?_⟩
    rw [(i3 k hk l hl).1]
    obtain ⟨avg', a1, a2⟩ := image_fieldAt rdy hg
    have : avg' = avg := by
      have := a1.symm.trans i2
      exact Option.some.inj this
    rw [← this, a2 k hk l hl]
    simp only [hσx]
    have key : ∀ n : ℤ, fieldAt d.slm (fun i j => orderField u F A r n i j * φ i j) (g.1.get k l - n * (σ * x0)) (g.2.get k l - n * (σ * y0)) *
        oddPhase d.slm (n * (σ * x0)) (n * (σ * y0)) = fieldAt d.slm (fun i j => orderField u F A r n i j * φ i j *
          cexp (((-(n * σ)) * d.carrier (d.slm.fourierX i j) (d.slm.fourierY i j) : ℝ) * I)) (g.1.get k l) (g.2.get k l) := by
      intro n
      rw [fieldAt_carrier d hp hsc' (fun i j => orderField u F A r n i j * φ i j) (-(n * σ)), ← hx0, ← hy0]
      congr 2 <;> ring
    simp only [key]
    refine fieldAt_hasSum d.slm (fun i hi j hj => ?_) _ _
    have hs := (pulse_hasSum r (A i j) (-σ * d.carrier (d.slm.fourierX i j) (d.slm.fourierY i j) +
      (arg (F i j) - arg (u i j)))).mul_left (u i j * φ i j)
    have hq : pulse r (Real.arcsin (A i j)) (-σ * d.carrier (d.slm.fourierX i j) (d.slm.fourierY i j) +
        (arg (F i j) - arg (u i j))) = q i j := by
      have hd : -σ * d.carrier (d.slm.fourierX i j) (d.slm.fourierY i j) + (arg (F i j) - arg (u i j)) =
          -σ * d.detuning (fun i j => arg (u i j)) (fun i j => arg (F i j)) i j := by
        unfold detuning
        rw [hσx]
        show _ = -σ * (d.carrier (d.slm.fourierX i j) (d.slm.fourierY i j) - _)
        linear_combination -(arg (F i j) - arg (u i j)) * hσ2
      have hcos : Real.cos (-σ * d.detuning (fun i j => arg (u i j)) (fun i j => arg (F i j)) i j) =
          Real.cos (d.detuning (fun i j => arg (u i j)) (fun i j => arg (F i j)) i j) := by
        rw [hσ]
        split_ifs
        · rw [neg_neg, one_mul]
        · rw [neg_one_mul, Real.cos_neg]
      rw [hd]
      unfold pulse
      rw [hcos]
      rfl
    rw [hq] at hs
    have hterm : ∀ n : ℤ, orderField u F A r n i j * φ i j *
        cexp (((-(n * σ)) * d.carrier (d.slm.fourierX i j) (d.slm.fourierY i j) : ℝ) * I) =
        u i j * φ i j * ((orderAmplitude r (A i j) n : ℂ) * cexp ((n * (-σ * d.carrier (d.slm.fourierX i j) (d.slm.fourierY i j) +
          (arg (F i j) - arg (u i j))) : ℝ) * I)) := by
      intro n
      unfold orderField
      have e : cexp ((n * (arg (F i j) - arg (u i j)) : ℝ) * I) *
          cexp (((-(n * σ)) * d.carrier (d.slm.fourierX i j) (d.slm.fourierY i j) : ℝ) * I) =
          cexp ((n * (-σ * d.carrier (d.slm.fourierX i j) (d.slm.fourierY i j) +
            (arg (F i j) - arg (u i j))) : ℝ) * I) := by
        rw [← Complex.exp_add]
        congr 1
        push_cast
        ring
      rw [← e]
      ring
    simp only [hterm]
    exact hs
  · intro x y
    have hlim : ∀ i < d.slm.Ny, ∀ j < d.slm.Nx, Tendsto (fun r => orderField u F A r 1 i j) atTop
        (𝓝 (F i j * ((1 / (Real.pi * mx) : ℝ) : ℂ))) := by
      intro i hi j hj
      have h1 := orderAmplitude_tendsto (hA0 i j) 1 one_ne_zero
      simp only [Int.cast_one, one_mul] at h1
      rw [Real.sin_arcsin (by linarith [hA0 i j]) (hA1 i hi j hj)] at h1
      have h2 := (((continuous_ofReal.tendsto _).comp h1).const_mul (u i j)).mul_const
        (cexp ((((1 : ℤ) : ℝ) * (arg (F i j) - arg (u i j)) : ℝ) * I))
      have e : u i j * ((A i j / Real.pi : ℝ) : ℂ) * cexp ((((1 : ℤ) : ℝ) * (arg (F i j) - arg (u i j)) : ℝ) * I) =
          F i j * ((1 / (Real.pi * mx) : ℝ) : ℂ) := by
        have e1 : u i j = ‖u i j‖ * cexp (arg (u i j) * I) := (Complex.norm_mul_exp_arg_mul_I _).symm
        have e2 : F i j = ‖F i j‖ * cexp (arg (F i j) * I) := (Complex.norm_mul_exp_arg_mul_I _).symm
        have e3 : ((A i j * ‖u i j‖ : ℝ) : ℂ) = ((1 / mx * ‖F i j‖ : ℝ) : ℂ) := by rw [hAu i hi j hj]
        have e4 : cexp ((((1 : ℤ) : ℝ) * (arg (F i j) - arg (u i j)) : ℝ) * I) * cexp (arg (u i j) * I) = cexp (arg (F i j) * I) := by
          rw [← Complex.exp_add]
          congr 1
          push_cast
          ring
        generalize cexp ((((1 : ℤ) : ℝ) * (arg (F i j) - arg (u i j)) : ℝ) * I) = E at e4 ⊢
        have hpi : (Real.pi : ℂ) ≠ 0 := by exact_mod_cast Real.pi_pos.ne'
        have hmc : (mx : ℂ) ≠ 0 := by exact_mod_cast hmx
        calc u i j * ((A i j / Real.pi : ℝ) : ℂ) * E
            = ‖u i j‖ * cexp (arg (u i j) * I) * ((A i j / Real.pi : ℝ) : ℂ) * E := by rw [← e1]
          _ = ((A i j * ‖u i j‖ : ℝ) : ℂ) * (E * cexp (arg (u i j) * I)) / Real.pi := by push_cast; ring
          _ = (‖F i j‖ * cexp (arg (F i j) * I)) * ((1 / (Real.pi * mx) : ℝ) : ℂ) := by
            rw [e3, e4]; push_cast; field_simp
          _ = F i j * ((1 / (Real.pi * mx) : ℝ) : ℂ) := by rw [← e2]
      rw [← e]
      exact h2
    have := fieldAt_tendsto d.slm (fun i hi j hj => (hlim i hi j hj).mul_const (φ i j)) x y
    have e0 : (fun i j => F i j * ((1 / (Real.pi * mx) : ℝ) : ℂ) * φ i j) =
        fun i j => spectrum d.slm T i j * (w i j * φ i j) * ((1 / (Real.pi * mx) : ℝ) : ℂ) := by
      funext i j; rw [hF]; ring
    rw [e0] at this
    rw [fieldAt_screen d.slm hNx hNy hsc hps hgi T (fun i j => w i j * φ i j)] at this
    have e1 : ((d.slm.ps ^ 2 / d.slm.scaling * d.slm.Nx * d.slm.Ny : ℝ) : ℂ) * ((1 / (Real.pi * mx) : ℝ) : ℂ) = (eta : ℂ) / Real.pi := by
      rw [heta, ← ofReal_mul, ← ofReal_div]
      congr 1
      field_simp
    rw [e1] at this
    exact this

/-- **C119**, method `random`: as C99, when the device is illuminated with the input `u` of the calculation times a
screen `φ` (`exp (i Φ)` for an aberration `Φ`).  Every order is multiplied by the screen on the SLM, and as the steepness
`r` grows the first order tends to `eta / pi` times the target blurred by the point spread function of the screen. -/
theorem C119_random {d : DMD} {h : Profile.Heap} {inp target inp' : ProfArg} {u T φ : ℕ → ℕ → ℂ}
    (hNx : 0 < d.slm.Nx) (hNy : 0 < d.slm.Ny) (hin : ArrayArg d.slm h inp u) (ht : TargetArg d.slm h target T)
    (hin' : ArrayArg d.slm h inp' fun i j => u i j * φ i j)
    (hp : d.p ≠ 0) (hsc : d.slm.wavelength * d.slm.focal ≠ 0) (hps : d.slm.ps ≠ 0)
    (hne : ∃ k < d.slm.Ny, ∃ l < d.slm.Nx, T k l ≠ 0)
    (hlit : ∀ i < d.slm.Ny, ∀ j < d.slm.Nx, spectrum d.slm T i j ≠ 0 → u i j ≠ 0) :
    ∃ (eta : ℝ) (A : ℕ → ℕ → ℝ) (o : ℝ × ℝ) (gi : Tensor ℝ × Tensor ℝ) (κ : ℤ → ℂ), eta ≠ 0 ∧ d.firstOrderOrigin = .ok o ∧ d.slm.imageGrid = .ok gi ∧
      (∀ n, ‖κ n‖ = 1) ∧ (Even d.slm.Nx → Even d.slm.Ny → ∀ n, κ n = 1) ∧
      (∀ i < d.slm.Ny, ∀ j < d.slm.Nx, 0 ≤ A i j ∧ A i j ≤ 1 ∧ A i j * ‖u i j‖ =
        eta * (d.slm.wavelength * d.slm.focal) / (d.slm.ps ^ 2 * d.slm.Nx * d.slm.Ny) * ‖spectrum d.slm T i j‖) ∧
      (∀ (kw : CalcKwargs) (r : ℝ), 0 < r → kw.r.getD 10 = r →
        ∀ (Ω : Type) [MeasurableSpace Ω] (μ : Measure Ω) [IsProbabilityMeasure μ] (draw : Ω → ℕ → ℕ → ℝ),
        (∀ i < d.slm.Ny, ∀ j < d.slm.Nx, Measurable fun ω => draw ω i j) →
        (∀ i < d.slm.Ny, ∀ j < d.slm.Nx, μ.map (fun ω => draw ω i j) = volume.restrict (Set.Ico 0 1)) →
        ∀ (s : Sim) (px py : ℕ), s.px = px → s.py = py →
        ∃ (t : Ω → Tensor Bool) (img : Ω → Tensor ℂ) (g : Tensor ℝ × Tensor ℝ),
          (∀ ω, d.calculateDmdState h inp target "random" none kw (draw ω) = ⟨.rebind (.bool (t ω)), .ok (.fin eta)⟩ ∧
            ((showing s d (.bool (t ω))).propagate h inp').1.imageField = some (img ω) ∧
            (showing s d (.bool (t ω))).imagePaddedGrid = .ok g) ∧
          ∀ k < d.slm.Ny + 2 * py, ∀ l < d.slm.Nx + 2 * px,
            HasSum (fun n : ℤ => fieldAt d.slm (fun i j => orderField u (spectrum d.slm T) A r n i j * φ i j)
                (g.1.get k l - n * (if d.neg then -o.1 else o.1)) (g.2.get k l - n * (if d.neg then -o.2 else o.2)) * κ n)
              (∫ ω, (img ω).get k l ∂μ)) ∧
      ∀ x y : ℝ, Tendsto (fun r => fieldAt d.slm (fun i j => orderField u (spectrum d.slm T) A r 1 i j * φ i j) x y) atTop
        (𝓝 (eta / Real.pi * Spec.blurred d.slm gi φ T x y)) := by
  obtain ⟨tin, hti, hts, htg⟩ := hin
  have m : Matching d h inp target none u T (fun _ _ => 1) :=
    ⟨hNx, hNy, ⟨tin, hti, Tensor.denotes_of_mat hts htg⟩, ht, fun _ _ => rfl⟩
  have := random_orders_window m hin' hp hsc hps (by simpa only [mul_one] using spectrum_ne_zero d.slm hne)
    (by simpa only [mul_one] using hlit)
  simp only [mul_one, one_mul] at this
  exact this

/-- **C99.** Mode matching with method `random`, uniform draws: `calculate_dmd_state` returns the same `eta` whatever the
draws; averaged over the draws, the image of the input field is the sum over all diffraction orders `n` of the image of
`orderField n`, displaced by `n` times `± first_order_origin`; and as the steepness `r` grows, the first order tends to
`eta / pi` times the (interpolated) target.  `A` are the amplitudes of C25; `κ n` are constant phase factors that are 1
for even sizes. -/
theorem C99_random_orders {d : DMD} {h : Profile.Heap} {inp target : ProfArg} {u T : ℕ → ℕ → ℂ}
    (hNx : 0 < d.slm.Nx) (hNy : 0 < d.slm.Ny) (hin : ArrayArg d.slm h inp u) (ht : TargetArg d.slm h target T)
    (hp : d.p ≠ 0) (hsc : d.slm.wavelength * d.slm.focal ≠ 0) (hps : d.slm.ps ≠ 0)
    (hne : ∃ k < d.slm.Ny, ∃ l < d.slm.Nx, T k l ≠ 0)
    (hlit : ∀ i < d.slm.Ny, ∀ j < d.slm.Nx, spectrum d.slm T i j ≠ 0 → u i j ≠ 0) :
    ∃ (eta : ℝ) (A : ℕ → ℕ → ℝ) (o : ℝ × ℝ) (κ : ℤ → ℂ), eta ≠ 0 ∧ d.firstOrderOrigin = .ok o ∧
      (∀ n, ‖κ n‖ = 1) ∧ (Even d.slm.Nx → Even d.slm.Ny → ∀ n, κ n = 1) ∧
      (∀ i < d.slm.Ny, ∀ j < d.slm.Nx, 0 ≤ A i j ∧ A i j ≤ 1 ∧ A i j * ‖u i j‖ =
        eta * (d.slm.wavelength * d.slm.focal) / (d.slm.ps ^ 2 * d.slm.Nx * d.slm.Ny) * ‖spectrum d.slm T i j‖) ∧
      (∀ (kw : CalcKwargs) (r : ℝ), 0 < r → kw.r.getD 10 = r →
        ∀ (Ω : Type) [MeasurableSpace Ω] (μ : Measure Ω) [IsProbabilityMeasure μ] (draw : Ω → ℕ → ℕ → ℝ),
        (∀ i < d.slm.Ny, ∀ j < d.slm.Nx, Measurable fun ω => draw ω i j) →
        (∀ i < d.slm.Ny, ∀ j < d.slm.Nx, μ.map (fun ω => draw ω i j) = volume.restrict (Set.Ico 0 1)) →
        ∀ (s : Sim) (px py : ℕ), s.px = px → s.py = py →
        ∃ (t : Ω → Tensor Bool) (img : Ω → Tensor ℂ) (g : Tensor ℝ × Tensor ℝ),
          (∀ ω, d.calculateDmdState h inp target "random" none kw (draw ω) = ⟨.rebind (.bool (t ω)), .ok (.fin eta)⟩ ∧
            ((showing s d (.bool (t ω))).propagate h inp).1.imageField = some (img ω) ∧
            (showing s d (.bool (t ω))).imagePaddedGrid = .ok g) ∧
          ∀ k < d.slm.Ny + 2 * py, ∀ l < d.slm.Nx + 2 * px,
            HasSum (fun n : ℤ => fieldAt d.slm (orderField u (spectrum d.slm T) A r n)
                (g.1.get k l - n * (if d.neg then -o.1 else o.1)) (g.2.get k l - n * (if d.neg then -o.2 else o.2)) * κ n)
              (∫ ω, (img ω).get k l ∂μ)) ∧
      ∀ x y : ℝ, Tendsto (fun r => fieldAt d.slm (orderField u (spectrum d.slm T) A r 1) x y) atTop
        (𝓝 (eta / Real.pi * interp d.slm T x y)) := by
  have hin' : ArrayArg d.slm h inp fun i j => u i j * (fun _ _ => 1 : ℕ → ℕ → ℂ) i j := by
    simpa only [mul_one] using hin
  obtain ⟨eta, A, o, gi, κ, h1, h2, h3, h4, h5, h6, h7, h8⟩ :=
    C119_random hNx hNy hin ht hin' hp hsc hps hne hlit
  simp only [mul_one] at h7 h8
  refine ⟨eta, A, o, κ, h1, h2, h4, h5, h6, h7, fun x y => ?_⟩
  rw [← blurred_one d.slm hNx hNy hsc hps h3]
  exact h8 x y

/-- **C99**, the other orders: with sharp edges order `n` of a pixel with requested amplitude `a` has the amplitude
`sin(n asin(a)) / (n pi)`; for `n = 1` this is `a / pi`. -/
theorem C99_order_amplitudes {a : ℝ} (h0 : 0 ≤ a) (n : ℤ) (hn : n ≠ 0) :
    Tendsto (fun r => orderAmplitude r a n) atTop (𝓝 (Real.sin (n * Real.arcsin a) / (n * Real.pi))) :=
  orderAmplitude_tendsto h0 n hn

/-- C98, C99: the hypotheses hold for a spot target and an input field that is not constant (draws: see the example of
C97). -/
example (h : Profile.Heap) (neg : Bool) :
    let d : DMD := { Sim.exDmd with neg := neg }
    0 < d.slm.Nx ∧ 0 < d.slm.Ny ∧ ArrayArg d.slm h (exArray fun i j => i + j * I + 1) (fun i j => i + j * I + 1) ∧
    TargetArg d.slm h (exArray exSpot) exSpot ∧ d.p ≠ 0 ∧ 0 < d.slm.wavelength * d.slm.focal ∧ d.slm.ps ≠ 0 ∧
    (∃ k < d.slm.Ny, ∃ l < d.slm.Nx, exSpot k l ≠ 0) ∧
    ∀ i < d.slm.Ny, ∀ j < d.slm.Nx, spectrum d.slm exSpot i j ≠ 0 → (i + j * I + 1 : ℂ) ≠ 0 := by
  refine ⟨(by decide : 0 < 4), (by decide : 0 < 2), ⟨_, rfl, rfl, fun _ _ _ _ => rfl⟩,
    ⟨_, rfl, rfl, fun _ _ _ _ => rfl⟩, by norm_num [Sim.exDmd], by norm_num [Sim.exDmd],
    by norm_num [Sim.exDmd], ⟨0, (by decide : 0 < 2), 1, (by decide : 1 < 4), by simp [exSpot]⟩, fun i _ j _ _ hc => ?_⟩
  have := congrArg Complex.re hc
  simp at this
  have h0 : (0 : ℝ) ≤ i := Nat.cast_nonneg i
  linarith

/-- C98 is not vacuous: whenever its other hypotheses hold there is a call that succeeds and there are amplitudes as
required, with `eta'` half of the returned value. -/
example {d : DMD} {h : Profile.Heap} {inp target : ProfArg} {u T w : ℕ → ℕ → ℂ} (m : Matching d h inp target none u T w)
    (hsc : 0 < d.slm.wavelength * d.slm.focal) (hps : d.slm.ps ≠ 0)
    (hlit : ∀ i < d.slm.Ny, ∀ j < d.slm.Nx, spectrum d.slm T i j * w i j ≠ 0 → u i j ≠ 0)
    (hne : ∃ i < d.slm.Ny, ∃ j < d.slm.Nx, spectrum d.slm T i j * w i j ≠ 0) (draw : ℕ → ℕ → ℝ) :
    ∃ (st : StateArr) (eta : ℝ) (A' : ℕ → ℕ → ℝ), 0 < eta ∧
      d.calculateDmdState h inp target "simple" none {} draw = ⟨.rebind st, .ok (.fin eta)⟩ ∧
      (∀ i < d.slm.Ny, ∀ j < d.slm.Nx, |A' i j| ≤ 1) ∧ ∀ i < d.slm.Ny, ∀ j < d.slm.Nx, |A' i j| * ‖u i j‖ =
        eta / 2 * (d.slm.wavelength * d.slm.focal) / (d.slm.ps ^ 2 * d.slm.Nx * d.slm.Ny) * ‖spectrum d.slm T i j * w i j‖ := by
  obtain ⟨A, eta, h0, h1, -, h2⟩ := C25_normalised m hsc hps hlit hne
  have hf : Forwarded d h inp "simple" {} {} := ⟨rfl, rfl, rfl, fun hc => by simp at hc⟩
  rcases h2 "simple" {} {} draw hf with ⟨st, st', a1, a2, a3⟩ | ⟨e, a1, a2⟩
  · refine ⟨st, eta, fun i j => A i j / 2, h0, a1, fun i hi j hj => ?_, fun i hi j hj => ?_⟩
    · obtain ⟨b1, b2, -⟩ := h1 i hi j hj
      rw [abs_of_nonneg (by linarith)]
      linarith
    · obtain ⟨b1, b2, -, b3⟩ := h1 i hi j hj
      rw [abs_of_nonneg (by linarith)]
      linear_combination b3 / 2
  · obtain ⟨-, ⟨t, c1, -⟩, -⟩ := setGrating_eq (gratingArgs_realArray d h A (fun i j => arg (u i j))
      (fun i j => arg (spectrum d.slm T i j * w i j))) {} draw
    rw [c1] at a2
    injection a2 with a2 _
    cases a2

end PySLM2.DMD
