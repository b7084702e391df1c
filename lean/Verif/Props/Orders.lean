import Verif.Lemmas.ModeMatching3
import Verif.Props.ModeMatching

/-!
# C23, C24: what the ideal hologram diffracts into

`interp d.slm T` is the band-limited interpolation of the target (`C23_interp`: it agrees with the target at
the image plane pixels), `Sim.fraunhofer` the diffraction integral of C10.
-/

noncomputable section

open Complex Finset

namespace PySLM2.DMD

open Lib

/-- **C23**, interpolation: at the pixels of `image_plane_grid` the interpolated target is the target. -/
theorem C23_interp (s : SLM) (hsc : s.wavelength * s.focal ≠ 0) (hps : s.ps ≠ 0) (T : ℕ → ℕ → ℂ)
    {g : Tensor ℝ × Tensor ℝ} (hg : s.imageGrid = .ok g) {k l : ℕ} (hk : k < s.Ny) (hl : l < s.Nx) :
    interp s T (g.1.get k l) (g.2.get k l) = T k l :=
  interp_pixel s hsc hps T hg hk hl

/-- The zeroth order term on the SLM: half the mean transmission of the hologram. -/
def zerothOrder (d : DMD) (u T : ℕ → ℕ → ℂ) (eta : ℝ) (i j : ℕ) : ℂ :=
  u i j / ‖u i j‖ * ‖spectrum d.slm T i j‖ *
    ((eta * (d.slm.wavelength * d.slm.focal) / (d.slm.ps ^ 2 * d.slm.Nx * d.slm.Ny) : ℝ) : ℂ) / 2

/-- The opposite order on the SLM: the conjugated transform with twice the phase of the input. -/
def oppositeOrder (d : DMD) (u T : ℕ → ℕ → ℂ) (eta : ℝ) (i j : ℕ) : ℂ :=
  (u i j / ‖u i j‖) ^ 2 * (starRingEnd ℂ) (spectrum d.slm T i j) *
    ((eta * (d.slm.wavelength * d.slm.focal) / (d.slm.ps ^ 2 * d.slm.Nx * d.slm.Ny) : ℝ) : ℂ) / 4

/-- Amplitude of the first order on the SLM, per unit of the transform of the target. -/
def firstAmp (d : DMD) (eta : ℝ) : ℂ :=
  ((eta * (d.slm.wavelength * d.slm.focal) / (d.slm.ps ^ 2 * d.slm.Nx * d.slm.Ny) : ℝ) : ℂ) / 4

theorem firstAmp_eta {d : DMD} (hNx : 0 < d.slm.Nx) (hNy : 0 < d.slm.Ny)
    (hsc : d.slm.wavelength * d.slm.focal ≠ 0) (hps : d.slm.ps ≠ 0) (eta : ℝ) :
    ((d.slm.ps ^ 2 / d.slm.scaling * d.slm.Nx * d.slm.Ny : ℝ) : ℂ) * firstAmp d eta = (eta : ℂ) / 4 := by
  have hNx' : (d.slm.Nx : ℝ) ≠ 0 := by exact_mod_cast hNx.ne'
  have hNy' : (d.slm.Ny : ℝ) ≠ 0 := by exact_mod_cast hNy.ne'
  unfold firstAmp SLM.scaling
  rw [← mul_div_assoc, ← Complex.ofReal_mul]
  congr 2
  generalize d.slm.wavelength * d.slm.focal = c at *
  field_simp

/-- The zeroth order on the SLM, for the field `F` the hologram is to produce there. -/
def zerothOf (d : DMD) (u F : ℕ → ℕ → ℂ) (eta : ℝ) (i j : ℕ) : ℂ :=
  u i j / ‖u i j‖ * ‖F i j‖ *
    ((eta * (d.slm.wavelength * d.slm.focal) / (d.slm.ps ^ 2 * d.slm.Nx * d.slm.Ny) : ℝ) : ℂ) / 2

/-- The opposite order on the SLM, for the field `F` the hologram is to produce there. -/
def oppositeOf (d : DMD) (u F : ℕ → ℕ → ℂ) (eta : ℝ) (i j : ℕ) : ℂ :=
  (u i j / ‖u i j‖) ^ 2 * (starRingEnd ℂ) (F i j) *
    ((eta * (d.slm.wavelength * d.slm.focal) / (d.slm.ps ^ 2 * d.slm.Nx * d.slm.Ny) : ℝ) : ℂ) / 4

/-- The orders with a window and behind a screen: the hologram was calculated for the input `u`, and the device is illuminated
with `u` times `φ`.  Each order is multiplied by the screen on the SLM. -/
theorem orders_window {d : DMD} {h : Profile.Heap} {inp target inp' : ProfArg} {window : Option ProfArg}
    {u T w φ : ℕ → ℕ → ℂ}
    (m : Matching d h inp target window u T w)
    (hin' : ArrayArg d.slm h inp' fun i j => u i j * φ i j)
    (hp : d.p ≠ 0) (hsc : d.slm.wavelength * d.slm.focal ≠ 0) (hps : d.slm.ps ≠ 0)
    (hne : ∃ i < d.slm.Ny, ∃ j < d.slm.Nx, spectrum d.slm T i j * w i j ≠ 0)
    (hlit : ∀ i < d.slm.Ny, ∀ j < d.slm.Nx, spectrum d.slm T i j * w i j ≠ 0 → u i j ≠ 0)
    (kw : CalcKwargs) (draw : ℕ → ℕ → ℝ) :
    ∃ (st : StateArr) (eta : ℝ) (o : ℝ × ℝ) (κ κ' : ℂ), eta ≠ 0 ∧ ‖κ‖ = 1 ∧ ‖κ'‖ = 1 ∧
      (Even d.slm.Nx → Even d.slm.Ny → κ = 1 ∧ κ' = 1) ∧
      (κ = oddPhase d.slm (if d.neg then -o.1 else o.1) (if d.neg then -o.2 else o.2) ∧
        κ' = oddPhase d.slm (-(if d.neg then -o.1 else o.1)) (-(if d.neg then -o.2 else o.2))) ∧
      d.calculateDmdState h inp target "ideal" window kw draw = ⟨.rebind st, .ok (.fin eta)⟩ ∧
      d.firstOrderOrigin = .ok o ∧
      ∀ (s : Sim) (px py : ℕ), s.dev = .dmd d st → s.px = px → s.py = py →
        (s.propagate h inp').2 = .ok () ∧
        ∃ img g, (s.propagate h inp').1.imageField = some img ∧ s.imagePaddedGrid = .ok g ∧
          img.shape = .mat (d.slm.Ny + 2 * py) (d.slm.Nx + 2 * px) ∧
          ∀ k < d.slm.Ny + 2 * py, ∀ l < d.slm.Nx + 2 * px,
            img.get k l =
              Sim.fieldAt d.slm (fun i j => spectrum d.slm T i j * w i j * φ i j * firstAmp d eta)
                (g.1.get k l - (if d.neg then -o.1 else o.1)) (g.2.get k l - (if d.neg then -o.2 else o.2)) * κ +
              Sim.fieldAt d.slm (fun i j => zerothOf d u (fun i j => spectrum d.slm T i j * w i j) eta i j * φ i j) (g.1.get k l) (g.2.get k l) +
              Sim.fieldAt d.slm (fun i j => oppositeOf d u (fun i j => spectrum d.slm T i j * w i j) eta i j * φ i j)
                (g.1.get k l + (if d.neg then -o.1 else o.1))
                (g.2.get k l + (if d.neg then -o.2 else o.2)) * κ' := by
  classical
  obtain ⟨tin2, hti2, hts2, htg2⟩ := hin'
  obtain ⟨hNx, hNy⟩ := And.intro m.hNx m.hNy
  set F : ℕ → ℕ → ℂ := fun i j => spectrum d.slm T i j * w i j with hF
  have hw : wspec d.slm T w = F := rfl
  have hsc' : d.slm.scaling ≠ 0 := hsc
  have hl : Lit d.slm u (wspec d.slm T w) := ⟨hlit, hne⟩
  obtain ⟨mx, hpos, -, -, hcalc⟩ := calculate_lit m hl
  obtain ⟨tin', amp, pin, pout, h1, h2, h3, h4, h5, h6⟩ := hcalc "ideal" kw draw
  rw [hw] at h3 h5
  obtain ⟨⟨t, g1, g2, g3⟩, -, -⟩ := grating_elementwise h3 h4 h5 { r := kw.r, N := kw.N, s := kw.s } draw
  have h7 : d.forwardKwargs h tin' "ideal" kw = .ok { r := kw.r, N := kw.N, s := kw.s } := rfl
  rw [h7] at h6
  simp only at h6
  rw [g1] at h6
  have h9 := calculate_of_grating h6
  rw [etaOf_fin hsc' hpos.ne'] at h9
  set eta := d.slm.ps ^ 2 / d.slm.scaling * d.slm.Nx * d.slm.Ny / mx with heta
  have hNx' : (d.slm.Nx : ℝ) ≠ 0 := by exact_mod_cast hNx.ne'
  have hNy' : (d.slm.Ny : ℝ) ≠ 0 := by exact_mod_cast hNy.ne'
  have hmx := hpos.ne'
  have heta0 : eta ≠ 0 := by
    rw [heta]
    refine div_ne_zero (mul_ne_zero (mul_ne_zero (div_ne_zero (pow_ne_zero 2 hps) hsc') hNx') hNy') hmx
  have hK : eta * (d.slm.wavelength * d.slm.focal) / (d.slm.ps ^ 2 * d.slm.Nx * d.slm.Ny) = 1 / mx := by
    have e : d.slm.wavelength * d.slm.focal = d.slm.scaling := rfl
    rw [e, heta]
    field_simp
  set x0 := Real.cos d.theta * d.slm.scaling / d.p with hx0
  set y0 := Real.sin d.theta * d.slm.scaling / d.p with hy0
  set σ : ℝ := if d.neg then -1 else 1 with hσ
  have hσx : ∀ z : ℝ, (if d.neg then -z else z) = σ * z := by
    intro z
    rw [hσ]
    cases d.neg <;> simp
  have ho : d.firstOrderOrigin = .ok (x0, y0) := by
    unfold firstOrderOrigin
    rw [if_neg hp]
  -- the transmission
  have hpix : ∀ i < d.slm.Ny, ∀ j < d.slm.Nx, t.get i j =
      .fin (‖F i j‖ / ‖u i j‖ / mx * (Real.cos (σ * d.carrier (d.slm.fourierX i j)
        (d.slm.fourierY i j) - (phaseOutPixel (F i j) - arg (u i j))) / 2 + 1 / 2)) := by
    intro i hi j hj
    rw [g3 i hi j hj]
    have := idealPixel_eq d hp (fun i j => ‖F i j‖ / ‖u i j‖ / mx) (fun i j => arg (u i j))
      (fun i j => arg (F i j)) i j
    refine this.trans ?_
    congr 3
    congr 1
    rw [phaseOutPixel_eq]
    have hd : d.detuning (fun i j => arg (u i j)) (fun i j => arg (F i j)) i j =
        σ * (σ * d.carrier (d.slm.fourierX i j) (d.slm.fourierY i j) -
          (arg (F i j) - arg (u i j))) := by
      unfold detuning
      rw [hσx, hσ]
      show d.carrier (d.slm.fourierX i j) (d.slm.fourierY i j) - _ = _
      cases d.neg
      · simp
      · simp only [if_true]; ring
    rw [hd, hσ]
    cases d.neg
    · simp
    · simp only [if_true, neg_one_mul, Real.cos_neg]
  let M : ℕ → ℕ → ℂ := fun i j => ((‖F i j‖ / ‖u i j‖ / mx *
      (Real.cos (σ * d.carrier (d.slm.fourierX i j) (d.slm.fourierY i j) -
        (phaseOutPixel (F i j) - arg (u i j))) / 2 + 1 / 2) : ℝ) : ℂ)
  have hmod : Sim.Modulation (.dmd d (.float t)) M := by
    refine ⟨t.map fun a => ((XR.val a : ℝ) : ℂ), ?_, g2, fun i hi j hj => ?_⟩
    · show stateTensor (.float t) = _
      unfold stateTensor
      simp only
      rw [if_pos]
      rw [g2]
      exact fun i hi j hj => ⟨_, hpix i hi j hj⟩
    · show ((XR.val (t.get i j) : ℝ) : ℂ) = _
      rw [hpix i hi j hj]
      rfl
  refine ⟨.float t, eta, (x0, y0), oddPhase d.slm (σ * x0) (σ * y0), oddPhase d.slm (-(σ * x0)) (-(σ * y0)),
    heta0, norm_oddPhase _ _ _, norm_oddPhase _ _ _,
    fun hx hy => ⟨oddPhase_even _ _ _ hx hy, oddPhase_even _ _ _ hx hy⟩,
    by simp only [hσx, and_self], h9, ho, ?_⟩
  intro s px py hdev hpx hpy
  have hslm : s.dev.slm = d.slm := by rw [hdev]; rfl
  have r : Sim.Ready s px py h inp' (fun i j => u i j * φ i j) M := by
    refine ⟨hpx, hpy, ?_, ?_, ?_, ?_, ?_, ?_⟩
    rotate_left 4
    · unfold Sim.InputField
      rw [hslm]
      exact ⟨tin2, hti2, hts2, htg2⟩
    · rw [hdev]; exact hmod
    all_goals rw [hslm]; assumption
  obtain ⟨g, hg⟩ := Sim.imagePaddedGrid_ok r
  rw [Sim.propagate_ready r]
  refine ⟨rfl, _, g, rfl, hg, by rw [← hslm], fun k hk l hl => ?_⟩
  simp only
  rw [← hslm] at hk hl
  rw [Sim.propagated_image_fieldAt r hg hk hl, hslm]
  generalize g.1.get k l = x
  generalize g.2.get k l = y
  rw [hσx, hσx]
  have hsplit : ∀ i < d.slm.Ny, ∀ j < d.slm.Nx, u i j * φ i j * M i j =
      F i j * φ i j * firstAmp d eta *
          cexp ((-σ * d.carrier (d.slm.fourierX i j) (d.slm.fourierY i j) : ℝ) * I) +
        zerothOf d u F eta i j * φ i j +
        oppositeOf d u F eta i j * φ i j *
          cexp ((σ * d.carrier (d.slm.fourierX i j) (d.slm.fourierY i j) : ℝ) * I) := by
    intro i hi j hj
    rw [mul_right_comm]
    refine (congrArg (· * φ i j) (three_orders (F := F i j) hmx (hlit i hi j hj))).trans ?_
    unfold zerothOf oppositeOf firstAmp
    rw [hK]
    have hmc : (mx : ℂ) ≠ 0 := by exact_mod_cast hmx
    rw [show cexp (-(((σ * d.carrier (d.slm.fourierX i j) (d.slm.fourierY i j) : ℝ) : ℂ) * I)) =
      cexp ((-σ * d.carrier (d.slm.fourierX i j) (d.slm.fourierY i j) : ℝ) * I) by
        congr 1; push_cast; ring]
    push_cast
    generalize cexp _ = E1
    generalize cexp _ = E2
    generalize F i j = f
    field_simp
  rw [fieldAt_congr d.slm hsplit, fieldAt_add,
    fieldAt_carrier d hp hsc' (fun i j => F i j * φ i j * firstAmp d eta) (-σ),
    fieldAt_carrier d hp hsc' (fun i j => oppositeOf d u F eta i j * φ i j) σ]
  rw [← hx0, ← hy0]
  congr 2
  rw [show x + -σ * x0 = x - σ * x0 by ring, show y + -σ * y0 = y - σ * y0 by ring,
    show -(-σ * x0) = σ * x0 by ring, show -(-σ * y0) = σ * y0 by ring]

/-- The orders behind a screen: the hologram was calculated for the input `u`, and the device is illuminated
with `u` times `φ`.  Each order is multiplied by the screen on the SLM. -/
theorem orders_screen {d : DMD} {h : Profile.Heap} {inp target inp' : ProfArg} {u T φ : ℕ → ℕ → ℂ}
    (hNx : 0 < d.slm.Nx) (hNy : 0 < d.slm.Ny) (hin : ArrayArg d.slm h inp u) (ht : TargetArg d.slm h target T)
    (hin' : ArrayArg d.slm h inp' fun i j => u i j * φ i j)
    (hp : d.p ≠ 0) (hsc : d.slm.wavelength * d.slm.focal ≠ 0) (hps : d.slm.ps ≠ 0)
    (hne : ∃ k < d.slm.Ny, ∃ l < d.slm.Nx, T k l ≠ 0)
    (hlit : ∀ i < d.slm.Ny, ∀ j < d.slm.Nx, spectrum d.slm T i j ≠ 0 → u i j ≠ 0)
    (kw : CalcKwargs) (draw : ℕ → ℕ → ℝ) :
    ∃ (st : StateArr) (eta : ℝ) (o : ℝ × ℝ) (κ κ' : ℂ), eta ≠ 0 ∧ ‖κ‖ = 1 ∧ ‖κ'‖ = 1 ∧
      (Even d.slm.Nx → Even d.slm.Ny → κ = 1 ∧ κ' = 1) ∧
      (κ = oddPhase d.slm (if d.neg then -o.1 else o.1) (if d.neg then -o.2 else o.2) ∧
        κ' = oddPhase d.slm (-(if d.neg then -o.1 else o.1)) (-(if d.neg then -o.2 else o.2))) ∧
      d.calculateDmdState h inp target "ideal" none kw draw = ⟨.rebind st, .ok (.fin eta)⟩ ∧
      d.firstOrderOrigin = .ok o ∧
      ∀ (s : Sim) (px py : ℕ), s.dev = .dmd d st → s.px = px → s.py = py →
        (s.propagate h inp').2 = .ok () ∧
        ∃ img g, (s.propagate h inp').1.imageField = some img ∧ s.imagePaddedGrid = .ok g ∧
          img.shape = .mat (d.slm.Ny + 2 * py) (d.slm.Nx + 2 * px) ∧
          ∀ k < d.slm.Ny + 2 * py, ∀ l < d.slm.Nx + 2 * px,
            img.get k l =
              Sim.fieldAt d.slm (fun i j => spectrum d.slm T i j * φ i j * firstAmp d eta)
                (g.1.get k l - (if d.neg then -o.1 else o.1)) (g.2.get k l - (if d.neg then -o.2 else o.2)) * κ +
              Sim.fieldAt d.slm (fun i j => zerothOrder d u T eta i j * φ i j) (g.1.get k l) (g.2.get k l) +
              Sim.fieldAt d.slm (fun i j => oppositeOrder d u T eta i j * φ i j) (g.1.get k l + (if d.neg then -o.1 else o.1))
                (g.2.get k l + (if d.neg then -o.2 else o.2)) * κ' := by
  obtain ⟨tin, hti, hts, htg⟩ := hin
  have m : Matching d h inp target none u T (fun _ _ => 1) :=
    ⟨hNx, hNy, ⟨tin, hti, Tensor.denotes_of_mat hts htg⟩, ht, fun _ _ => rfl⟩
  have := orders_window m hin' hp hsc hps (by simpa only [mul_one] using spectrum_ne_zero d.slm hne)
    (by simpa only [mul_one] using hlit) kw draw
  simp only [mul_one] at this
  exact this

/-- **C23 / C24**, any sizes, either sign of the order: mode matching with method `ideal` succeeds, and
propagating the input field afterwards - in a simulation with any padding - gives `eta / 4` times the target
(interpolated) displaced by `± first_order_origin`, plus the zeroth order, plus the opposite order displaced
the other way.  The displacement has the sign `-` for `negative_order`.  `κ`, `κ'` are constant phase factors
that are 1 for even sizes (for odd sizes the pixel grid is half a pixel off its origin). -/
theorem C23_orders {d : DMD} {h : Profile.Heap} {inp target : ProfArg} {u T : ℕ → ℕ → ℂ}
    (hNx : 0 < d.slm.Nx) (hNy : 0 < d.slm.Ny) (hin : ArrayArg d.slm h inp u) (ht : TargetArg d.slm h target T)
    (hp : d.p ≠ 0) (hsc : d.slm.wavelength * d.slm.focal ≠ 0) (hps : d.slm.ps ≠ 0)
    (hne : ∃ k < d.slm.Ny, ∃ l < d.slm.Nx, T k l ≠ 0)
    (hlit : ∀ i < d.slm.Ny, ∀ j < d.slm.Nx, spectrum d.slm T i j ≠ 0 → u i j ≠ 0)
    (kw : CalcKwargs) (draw : ℕ → ℕ → ℝ) :
    ∃ (st : StateArr) (eta : ℝ) (o : ℝ × ℝ) (κ κ' : ℂ), eta ≠ 0 ∧ ‖κ‖ = 1 ∧ ‖κ'‖ = 1 ∧
      (Even d.slm.Nx → Even d.slm.Ny → κ = 1 ∧ κ' = 1) ∧
      d.calculateDmdState h inp target "ideal" none kw draw = ⟨.rebind st, .ok (.fin eta)⟩ ∧
      d.firstOrderOrigin = .ok o ∧
      ∀ (s : Sim) (px py : ℕ), s.dev = .dmd d st → s.px = px → s.py = py →
        (s.propagate h inp).2 = .ok () ∧
        ∃ img g, (s.propagate h inp).1.imageField = some img ∧ s.imagePaddedGrid = .ok g ∧
          img.shape = .mat (d.slm.Ny + 2 * py) (d.slm.Nx + 2 * px) ∧
          ∀ k < d.slm.Ny + 2 * py, ∀ l < d.slm.Nx + 2 * px,
            img.get k l =
              (eta / 4 : ℂ) * interp d.slm T (g.1.get k l - (if d.neg then -o.1 else o.1))
                (g.2.get k l - (if d.neg then -o.2 else o.2)) * κ +
              Sim.fieldAt d.slm (zerothOrder d u T eta) (g.1.get k l) (g.2.get k l) +
              Sim.fieldAt d.slm (oppositeOrder d u T eta) (g.1.get k l + (if d.neg then -o.1 else o.1))
                (g.2.get k l + (if d.neg then -o.2 else o.2)) * κ' := by
  have hin' : ArrayArg d.slm h inp fun i j => u i j * (fun _ _ => 1 : ℕ → ℕ → ℂ) i j := by
    simpa only [mul_one] using hin
  obtain ⟨st, eta, o, κ, κ', h1, h2, h3, h4, -, h5, h6, h7⟩ :=
    orders_screen hNx hNy hin ht hin' hp hsc hps hne hlit kw draw
  refine ⟨st, eta, o, κ, κ', h1, h2, h3, h4, h5, h6, fun s px py a b c => ?_⟩
  obtain ⟨h8, img, g, h9, h10, h11, h12⟩ := h7 s px py a b c
  refine ⟨h8, img, g, h9, h10, h11, fun k hk l hl => ?_⟩
  rw [h12 k hk l hl]
  simp only [mul_one]
  rw [fieldAt_spectrum d.slm hNx hNy, firstAmp_eta hNx hNy hsc hps]

/-- **C23.** Even device, no padding needed: the image of the ideal hologram is exactly `eta / 4` times the
target displaced by `first_order_origin`, plus the diffraction integrals of the zeroth order and of the
opposite order (displaced the other way). -/
theorem C23_first_order {d : DMD} {h : Profile.Heap} {inp target : ProfArg} {u T : ℕ → ℕ → ℂ}
    (hneg : d.neg = false) (hNx : 0 < d.slm.Nx) (hNy : 0 < d.slm.Ny) (hEx : Even d.slm.Nx) (hEy : Even d.slm.Ny)
    (hin : ArrayArg d.slm h inp u) (ht : TargetArg d.slm h target T)
    (hp : d.p ≠ 0) (hsc : d.slm.wavelength * d.slm.focal ≠ 0) (hps : d.slm.ps ≠ 0)
    (hne : ∃ k < d.slm.Ny, ∃ l < d.slm.Nx, T k l ≠ 0)
    (hlit : ∀ i < d.slm.Ny, ∀ j < d.slm.Nx, spectrum d.slm T i j ≠ 0 → u i j ≠ 0)
    (kw : CalcKwargs) (draw : ℕ → ℕ → ℝ) :
    ∃ (st : StateArr) (eta : ℝ) (o : ℝ × ℝ), eta ≠ 0 ∧
      d.calculateDmdState h inp target "ideal" none kw draw = ⟨.rebind st, .ok (.fin eta)⟩ ∧
      d.firstOrderOrigin = .ok o ∧
      ∀ (s : Sim) (px py : ℕ), s.dev = .dmd d st → s.px = px → s.py = py →
        (s.propagate h inp).2 = .ok () ∧
        ∃ img g, (s.propagate h inp).1.imageField = some img ∧ s.imagePaddedGrid = .ok g ∧
          img.shape = .mat (d.slm.Ny + 2 * py) (d.slm.Nx + 2 * px) ∧
          ∀ k < d.slm.Ny + 2 * py, ∀ l < d.slm.Nx + 2 * px,
            img.get k l =
              (eta / 4 : ℂ) * interp d.slm T (g.1.get k l - o.1) (g.2.get k l - o.2) +
              Sim.fraunhofer d.slm (zerothOrder d u T eta) (g.1.get k l) (g.2.get k l) +
              Sim.fraunhofer d.slm (oppositeOrder d u T eta) (g.1.get k l + o.1) (g.2.get k l + o.2) := by
  obtain ⟨st, eta, o, κ, κ', h1, -, -, h2, h3, h4, h5⟩ :=
    C23_orders hNx hNy hin ht hp hsc hps hne hlit kw draw
  obtain ⟨rfl, rfl⟩ := h2 hEx hEy
  refine ⟨st, eta, o, h1, h3, h4, fun s px py a b c => ?_⟩
  obtain ⟨h6, img, g, h7, h8, h9, h10⟩ := h5 s px py a b c
  refine ⟨h6, img, g, h7, h8, h9, fun k hk l hl => ?_⟩
  rw [h10 k hk l hl, hneg]
  simp only [Bool.false_eq_true, if_false, mul_one]
  rw [Sim.fieldAt_even _ _ _ _ hEx hEy, Sim.fieldAt_even _ _ _ _ hEx hEy]

/-- **C24.** With `negative_order=True` the target appears displaced by minus `first_order_origin`. -/
theorem C24_negative_order {d : DMD} {h : Profile.Heap} {inp target : ProfArg} {u T : ℕ → ℕ → ℂ}
    (hneg : d.neg = true) (hNx : 0 < d.slm.Nx) (hNy : 0 < d.slm.Ny) (hEx : Even d.slm.Nx) (hEy : Even d.slm.Ny)
    (hin : ArrayArg d.slm h inp u) (ht : TargetArg d.slm h target T)
    (hp : d.p ≠ 0) (hsc : d.slm.wavelength * d.slm.focal ≠ 0) (hps : d.slm.ps ≠ 0)
    (hne : ∃ k < d.slm.Ny, ∃ l < d.slm.Nx, T k l ≠ 0)
    (hlit : ∀ i < d.slm.Ny, ∀ j < d.slm.Nx, spectrum d.slm T i j ≠ 0 → u i j ≠ 0)
    (kw : CalcKwargs) (draw : ℕ → ℕ → ℝ) :
    ∃ (st : StateArr) (eta : ℝ) (o : ℝ × ℝ), eta ≠ 0 ∧
      d.calculateDmdState h inp target "ideal" none kw draw = ⟨.rebind st, .ok (.fin eta)⟩ ∧
      d.firstOrderOrigin = .ok o ∧
      ∀ (s : Sim) (px py : ℕ), s.dev = .dmd d st → s.px = px → s.py = py →
        (s.propagate h inp).2 = .ok () ∧
        ∃ img g, (s.propagate h inp).1.imageField = some img ∧ s.imagePaddedGrid = .ok g ∧
          img.shape = .mat (d.slm.Ny + 2 * py) (d.slm.Nx + 2 * px) ∧
          ∀ k < d.slm.Ny + 2 * py, ∀ l < d.slm.Nx + 2 * px,
            img.get k l =
              (eta / 4 : ℂ) * interp d.slm T (g.1.get k l + o.1) (g.2.get k l + o.2) +
              Sim.fraunhofer d.slm (zerothOrder d u T eta) (g.1.get k l) (g.2.get k l) +
              Sim.fraunhofer d.slm (oppositeOrder d u T eta) (g.1.get k l - o.1) (g.2.get k l - o.2) := by
  obtain ⟨st, eta, o, κ, κ', h1, -, -, h2, h3, h4, h5⟩ :=
    C23_orders hNx hNy hin ht hp hsc hps hne hlit kw draw
  obtain ⟨rfl, rfl⟩ := h2 hEx hEy
  refine ⟨st, eta, o, h1, h3, h4, fun s px py a b c => ?_⟩
  obtain ⟨h6, img, g, h7, h8, h9, h10⟩ := h5 s px py a b c
  refine ⟨h6, img, g, h7, h8, h9, fun k hk l hl => ?_⟩
  rw [h10 k hk l hl, hneg]
  simp only [if_true, mul_one, sub_neg_eq_add, ← sub_eq_add_neg]
  rw [Sim.fieldAt_even _ _ _ _ hEx hEy, Sim.fieldAt_even _ _ _ _ hEx hEy]

/-- C23, C24: the hypotheses hold for a spot target and an input field that is not constant, for either sign
of the order. -/
example (h : Profile.Heap) (neg : Bool) :
    let d : DMD := { Sim.exDmd with neg := neg }
    0 < d.slm.Nx ∧ 0 < d.slm.Ny ∧ Even d.slm.Nx ∧ Even d.slm.Ny ∧
    ArrayArg d.slm h (exArray fun i j => i + j * I + 1) (fun i j => i + j * I + 1) ∧
    TargetArg d.slm h (exArray exSpot) exSpot ∧ d.p ≠ 0 ∧ d.slm.wavelength * d.slm.focal ≠ 0 ∧ d.slm.ps ≠ 0 ∧
    (∃ k < d.slm.Ny, ∃ l < d.slm.Nx, exSpot k l ≠ 0) ∧
    ∀ i < d.slm.Ny, ∀ j < d.slm.Nx, spectrum d.slm exSpot i j ≠ 0 → (i + j * I + 1 : ℂ) ≠ 0 := by
  refine ⟨(by decide : 0 < 4), (by decide : 0 < 2), (by decide : Even 4), (by decide : Even 2), ⟨_, rfl, rfl, fun _ _ _ _ => rfl⟩,
    ⟨_, rfl, rfl, fun _ _ _ _ => rfl⟩, by norm_num [Sim.exDmd], by norm_num [Sim.exDmd],
    by norm_num [Sim.exDmd], ⟨0, (by decide : 0 < 2), 1, (by decide : 1 < 4), by simp [exSpot]⟩, fun i _ j _ _ hc => ?_⟩
  have := congrArg Complex.re hc
  simp at this
  have h0 : (0 : ℝ) ≤ i := Nat.cast_nonneg i
  linarith

end PySLM2.DMD
