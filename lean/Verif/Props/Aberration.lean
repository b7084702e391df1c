import Verif.Spec.Aberration
import Verif.Props.Orders

/-!
# C119: aberrations and their correction (`examples/aberration_correction.py`)
-/

noncomputable section

open Complex Finset

namespace PySLM2.DMD

open Lib Spec

/-- The transform of the target behind a screen diffracts to the blurred target. -/
theorem fieldAt_screen (s : SLM) (hNx : 0 < s.Nx) (hNy : 0 < s.Ny) (hsc : s.scaling ≠ 0) (hps : s.ps ≠ 0)
    {g : Tensor ℝ × Tensor ℝ} (hg : s.imageGrid = .ok g) (T φ : ℕ → ℕ → ℂ) (c : ℂ) (x y : ℝ) :
    Sim.fieldAt s (fun i j => spectrum s T i j * φ i j * c) x y =
      ((s.ps ^ 2 / s.scaling * s.Nx * s.Ny : ℝ) : ℂ) * c * blurred s g φ T x y := by
  have hx : (s.Nx : ℂ) ≠ 0 := by exact_mod_cast hNx.ne'
  have hy : (s.Ny : ℂ) ≠ 0 := by exact_mod_cast hNy.ne'
  have hgx : ∀ k < s.Ny, ∀ l < s.Nx, g.1.get k l = ((l : ℝ) - (s.Nx / 2 : ℕ)) * (s.scaling / (s.Nx * s.ps)) ∧
      g.2.get k l = ((s.Ny / 2 : ℕ) - (k : ℝ)) * (s.scaling / (s.Ny * s.ps)) := by
    intro k hk l hl
    unfold SLM.imageGrid imageGridOf at hg
    split_ifs at hg
    obtain rfl := Except.ok.inj hg
    exact ⟨imageX_eq hl _ _ k, imageY_eq hk _ _ l⟩
  have h1 : ((s.ps ^ 2 / s.scaling * s.Nx * s.Ny : ℝ) : ℂ) * c * (1 / (s.Nx * s.Ny : ℂ)) =
      ((s.ps ^ 2 / s.scaling : ℝ) : ℂ) * c := by
    push_cast
    field_simp
  unfold Sim.fieldAt blurred psf
  simp only [mul_left_comm (_ : ℂ) (1 / (s.Nx * s.Ny : ℂ)), ← Finset.mul_sum]
  have h2 : ∀ S : ℂ, 1 / (s.Nx * s.Ny : ℂ) * (((s.ps ^ 2 / s.scaling * s.Nx * s.Ny : ℝ) : ℂ) * c * S) =
      ((s.ps ^ 2 / s.scaling : ℝ) : ℂ) * (c * S) := fun S => by
    rw [← mul_assoc _ c, ← h1]; ring
  rw [h2]
  congr 1
  simp only [Finset.mul_sum]
  -- the sums over the target pixels inside
  have hR : ∀ f : ℕ → ℕ → ℕ → ℕ → ℂ,
      (∑ k ∈ range s.Ny, ∑ l ∈ range s.Nx, ∑ i ∈ range s.Ny, ∑ j ∈ range s.Nx, f k l i j) =
      ∑ i ∈ range s.Ny, ∑ j ∈ range s.Nx, ∑ k ∈ range s.Ny, ∑ l ∈ range s.Nx, f k l i j := by
    intro f
    rw [Finset.sum_congr rfl fun k _ => Finset.sum_comm, Finset.sum_comm]
    refine Finset.sum_congr rfl fun i _ => ?_
    rw [Finset.sum_congr rfl fun k _ => Finset.sum_comm, Finset.sum_comm]
  rw [hR]
  refine Finset.sum_congr rfl fun i hi => Finset.sum_congr rfl fun j hj => ?_
  unfold spectrum
  simp only [Finset.sum_mul]
  refine Finset.sum_congr rfl fun k hk => Finset.sum_congr rfl fun l hl => ?_
  obtain ⟨e1, e2⟩ := hgx k (mem_range.mp hk) l (mem_range.mp hl)
  rw [e1, e2]
  have e3 : ∀ E₁ E₂ E₃ : ℂ, E₁ * E₂ = E₃ →
      T k l * E₁ * φ i j * c * E₂ = c * (T k l * (φ i j * E₃)) := by
    rintro E₁ E₂ _ rfl; ring
  refine e3 _ _ _ ?_
  rw [← Complex.exp_add]
  congr 1
  have hs : s.wavelength * s.focal = s.scaling := rfl
  rw [hs]
  have hp' : ((s.ps : ℝ) : ℂ) ≠ 0 := by exact_mod_cast hps
  have hs' : ((s.scaling : ℝ) : ℂ) ≠ 0 := by exact_mod_cast hsc
  generalize s.Nx / 2 = a
  generalize s.Ny / 2 = b
  push_cast
  field_simp
  ring

/-- Without a screen nothing is blurred. -/
theorem blurred_one (s : SLM) (hNx : 0 < s.Nx) (hNy : 0 < s.Ny) (hsc : s.scaling ≠ 0) (hps : s.ps ≠ 0)
    {g : Tensor ℝ × Tensor ℝ} (hg : s.imageGrid = .ok g) (T : ℕ → ℕ → ℂ) (x y : ℝ) :
    blurred s g (fun _ _ => 1) T x y = interp s T x y := by
  have h1 := fieldAt_screen s hNx hNy hsc hps hg T (fun _ _ => 1) 1 x y
  have h2 := fieldAt_spectrum s hNx hNy T 1 x y
  simp only [mul_one] at h1 h2
  have hx : (s.Nx : ℝ) ≠ 0 := by exact_mod_cast hNx.ne'
  have hy : (s.Ny : ℝ) ≠ 0 := by exact_mod_cast hNy.ne'
  refine mul_left_cancel₀ (Complex.ofReal_ne_zero.mpr ?_) (h1.symm.trans h2)
  exact mul_ne_zero (mul_ne_zero (div_ne_zero (pow_ne_zero 2 hps) hsc) hx) hy

/-- The strength of the input is all that enters the amplitudes. -/
theorem eta_of_lit {d : DMD} {h : Profile.Heap} {inp target : ProfArg} {window : Option ProfArg}
    {u T w : ℕ → ℕ → ℂ} (m : Matching d h inp target window u T w) (hl : Lit d.slm u (wspec d.slm T w)) {mx : ℝ}
    (hle : ∀ i < d.slm.Ny, ∀ j < d.slm.Nx, ‖wspec d.slm T w i j‖ / ‖u i j‖ ≤ mx)
    (hex : ∃ i < d.slm.Ny, ∃ j < d.slm.Nx, ‖wspec d.slm T w i j‖ / ‖u i j‖ = mx)
    (hsc : d.slm.scaling ≠ 0) (method : String) (kw : CalcKwargs) (draw : ℕ → ℕ → ℝ) {v : XR}
    (hv : (d.calculateDmdState h inp target method window kw draw).result = .ok v) :
    v = .fin (d.slm.ps ^ 2 / d.slm.scaling * d.slm.Nx * d.slm.Ny / mx) := by
  obtain ⟨mx', hpos, hle', hex', hc⟩ := calculate_lit m hl
  have hmx : mx' = mx := by
    obtain ⟨i, hi, j, hj, e⟩ := hex
    obtain ⟨i', hi', j', hj', e'⟩ := hex'
    exact le_antisymm (e' ▸ hle i' hi' j' hj') (e ▸ hle' i hi j hj)
  subst hmx
  obtain ⟨tin, amp, pin, pout, -, -, -, -, -, h6⟩ := hc method kw draw
  unfold calculateDmdState at hv
  rw [h6] at hv
  rcases hk : d.forwardKwargs h tin method kw with e | kw'
  · rw [hk] at hv; exact absurd hv (by simp [fail])
  · rw [hk] at hv
    simp only at hv
    rcases hg : d.grating amp pin pout method kw' draw with e | g
    · rw [hg] at hv; exact absurd hv (by simp [fail])
    · rw [hg] at hv
      simp only at hv
      rw [etaOf_fin hsc hpos.ne'] at hv
      exact (Except.ok.inj hv).symm

/-- **C119**, the price of the correction: two inputs of the same strength (that differ by an aberration) have
the same `eta`, for every method, window and keyword arguments with which the calls succeed. -/
theorem C119_same_eta {d : DMD} {h : Profile.Heap} {inp inp' target : ProfArg} {window : Option ProfArg}
    {u u' T w : ℕ → ℕ → ℂ} (m : Matching d h inp target window u T w)
    (m' : Matching d h inp' target window u' T w)
    (hsame : ∀ i < d.slm.Ny, ∀ j < d.slm.Nx, ‖u' i j‖ = ‖u i j‖)
    (hsc : d.slm.wavelength * d.slm.focal ≠ 0)
    (hlit : ∀ i < d.slm.Ny, ∀ j < d.slm.Nx, spectrum d.slm T i j * w i j ≠ 0 → u i j ≠ 0)
    (hne : ∃ i < d.slm.Ny, ∃ j < d.slm.Nx, spectrum d.slm T i j * w i j ≠ 0)
    (method method' : String) (kw kw' : CalcKwargs) (draw draw' : ℕ → ℕ → ℝ) {v v' : XR}
    (hv : (d.calculateDmdState h inp target method window kw draw).result = .ok v)
    (hv' : (d.calculateDmdState h inp' target method' window kw' draw').result = .ok v') :
    v = v' ∧ ∃ eta : ℝ, v = .fin eta := by
  have hl : Lit d.slm u (wspec d.slm T w) := ⟨hlit, hne⟩
  have hl' : Lit d.slm u' (wspec d.slm T w) := by
    refine ⟨fun i hi j hj hw hu => hlit i hi j hj hw ?_, hne⟩
    have := hsame i hi j hj
    rw [hu, norm_zero] at this
    exact norm_eq_zero.mp this.symm
  obtain ⟨mx, -, hle, hex, -⟩ := calculate_lit m hl
  have e := eta_of_lit m hl hle hex hsc method kw draw hv
  have e' := eta_of_lit m' hl' (mx := mx) (fun i hi j hj => by rw [hsame i hi j hj]; exact hle i hi j hj)
    (by obtain ⟨i, hi, j, hj, e⟩ := hex; exact ⟨i, hi, j, hj, by rw [hsame i hi j hj]; exact e⟩)
    hsc method' kw' draw' hv'
  exact ⟨e.trans e'.symm, _, e⟩

/-- **C119**, correction: an input `u` with an aberration of arbitrary phase `Φ`.  The hologram calculated with
the aberration in the input profile has the same `eta` as the one for the input without, and its first order is
`eta / 4` times the target: what the hologram for `u` would give if there were no aberration.  The first order
of the hologram that was calculated without is the same with the target blurred by the point spread function of
the aberration. -/
theorem C119_correction {d : DMD} {h : Profile.Heap} {inp inp' target : ProfArg} {u T : ℕ → ℕ → ℂ}
    {Φ : ℕ → ℕ → ℝ} (hNx : 0 < d.slm.Nx) (hNy : 0 < d.slm.Ny) (hin : ArrayArg d.slm h inp u)
    (hin' : ArrayArg d.slm h inp' fun i j => u i j * cexp (Φ i j * I)) (ht : TargetArg d.slm h target T)
    (hp : d.p ≠ 0) (hsc : d.slm.wavelength * d.slm.focal ≠ 0) (hps : d.slm.ps ≠ 0)
    (hne : ∃ k < d.slm.Ny, ∃ l < d.slm.Nx, T k l ≠ 0)
    (hlit : ∀ i < d.slm.Ny, ∀ j < d.slm.Nx, spectrum d.slm T i j ≠ 0 → u i j ≠ 0)
    (kw : CalcKwargs) (draw : ℕ → ℕ → ℝ) :
    ∃ (st st' : StateArr) (eta : ℝ) (o : ℝ × ℝ) (gi : Tensor ℝ × Tensor ℝ) (κ κ' : ℂ), eta ≠ 0 ∧
      ‖κ‖ = 1 ∧ ‖κ'‖ = 1 ∧ (Even d.slm.Nx → Even d.slm.Ny → κ = 1 ∧ κ' = 1) ∧
      d.calculateDmdState h inp target "ideal" none kw draw = ⟨.rebind st, .ok (.fin eta)⟩ ∧
      d.calculateDmdState h inp' target "ideal" none kw draw = ⟨.rebind st', .ok (.fin eta)⟩ ∧
      d.firstOrderOrigin = .ok o ∧ d.slm.imageGrid = .ok gi ∧
      ∀ (s : Sim) (px py : ℕ), s.px = px → s.py = py →
        -- not corrected
        (s.dev = .dmd d st → (s.propagate h inp').2 = .ok () ∧
          ∃ img g, (s.propagate h inp').1.imageField = some img ∧ s.imagePaddedGrid = .ok g ∧
          img.shape = .mat (d.slm.Ny + 2 * py) (d.slm.Nx + 2 * px) ∧
          ∀ k < d.slm.Ny + 2 * py, ∀ l < d.slm.Nx + 2 * px, img.get k l =
            (eta / 4 : ℂ) * blurred d.slm gi (fun i j => cexp (Φ i j * I)) T
              (g.1.get k l - (if d.neg then -o.1 else o.1)) (g.2.get k l - (if d.neg then -o.2 else o.2)) * κ +
            Sim.fieldAt d.slm (fun i j => zerothOrder d u T eta i j * cexp (Φ i j * I)) (g.1.get k l) (g.2.get k l) +
            Sim.fieldAt d.slm (fun i j => oppositeOrder d u T eta i j * cexp (Φ i j * I))
              (g.1.get k l + (if d.neg then -o.1 else o.1)) (g.2.get k l + (if d.neg then -o.2 else o.2)) * κ') ∧
        -- corrected
        (s.dev = .dmd d st' → (s.propagate h inp').2 = .ok () ∧
          ∃ img g, (s.propagate h inp').1.imageField = some img ∧ s.imagePaddedGrid = .ok g ∧
          img.shape = .mat (d.slm.Ny + 2 * py) (d.slm.Nx + 2 * px) ∧
          ∀ k < d.slm.Ny + 2 * py, ∀ l < d.slm.Nx + 2 * px, img.get k l =
            (eta / 4 : ℂ) * interp d.slm T
              (g.1.get k l - (if d.neg then -o.1 else o.1)) (g.2.get k l - (if d.neg then -o.2 else o.2)) * κ +
            Sim.fieldAt d.slm (fun i j => zerothOrder d u T eta i j * cexp (Φ i j * I)) (g.1.get k l) (g.2.get k l) +
            Sim.fieldAt d.slm (fun i j => oppositeOrder d u T eta i j * cexp (Φ i j * I) ^ 2)
              (g.1.get k l + (if d.neg then -o.1 else o.1)) (g.2.get k l + (if d.neg then -o.2 else o.2)) * κ') := by
  have hnorm : ∀ i j, ‖u i j * cexp (Φ i j * I)‖ = ‖u i j‖ := fun i j => by
    rw [norm_mul, Complex.norm_exp_ofReal_mul_I, mul_one]
  have hlit' : ∀ i < d.slm.Ny, ∀ j < d.slm.Nx, spectrum d.slm T i j ≠ 0 → u i j * cexp (Φ i j * I) ≠ 0 :=
    fun i hi j hj hs => mul_ne_zero (hlit i hi j hj hs) (Complex.exp_ne_zero _)
  have hin1 : ArrayArg d.slm h inp' fun i j =>
      (fun i j => u i j * cexp (Φ i j * I)) i j * (fun _ _ => 1 : ℕ → ℕ → ℂ) i j := by
    simpa only [mul_one] using hin'
  obtain ⟨st, eta, o, κ, κ', h1, h2, h3, h4, ⟨rfl, rfl⟩, h5, h6, h7⟩ :=
    orders_screen hNx hNy hin ht hin' hp hsc hps hne hlit kw draw
  obtain ⟨st', eta', o', _, _, -, -, -, -, ⟨rfl, rfl⟩, h5', h6', h7'⟩ :=
    orders_screen hNx hNy hin' ht hin1 hp hsc hps hne hlit' kw draw
  obtain rfl := Except.ok.inj (h6.symm.trans h6')
  have heta : eta' = eta := by
    have hF : ∀ {a : ProfArg} {v : ℕ → ℕ → ℂ}, ArrayArg d.slm h a v → FieldArg d.slm h a v :=
      fun ⟨t, ht, hs, hg⟩ => ⟨t, ht, Tensor.denotes_of_mat hs hg⟩
    have m : Matching d h inp target none u T (fun _ _ => 1) := ⟨hNx, hNy, hF hin, ht, fun _ _ => rfl⟩
    have m' : Matching d h inp' target none (fun i j => u i j * cexp (Φ i j * I)) T (fun _ _ => 1) :=
      ⟨hNx, hNy, hF hin', ht, fun _ _ => rfl⟩
    have := C119_same_eta m m' (fun i _ j _ => hnorm i j) hsc
      (fun i hi j hj hs => hlit i hi j hj (by rwa [mul_one] at hs))
      (by simpa only [mul_one] using spectrum_ne_zero d.slm hne) "ideal" "ideal" kw kw draw draw
      (v := .fin eta) (v' := .fin eta') (by rw [h5]) (by rw [h5'])
    exact (XR.fin.inj this.1).symm
  subst heta
  obtain ⟨gi, hgi⟩ : ∃ gi, d.slm.imageGrid = .ok gi := by
    unfold SLM.imageGrid imageGridOf
    rw [if_neg]
    · exact ⟨_, rfl⟩
    · have h1 : (d.slm.Nx : ℝ) ≠ 0 := by exact_mod_cast hNx.ne'
      have h2 : (d.slm.Ny : ℝ) ≠ 0 := by exact_mod_cast hNy.ne'
      simp only [mul_eq_zero, not_or]
      exact ⟨⟨h1, hps⟩, ⟨h2, hps⟩⟩
  refine ⟨st, st', eta', o, gi, _, _, h1, h2, h3, h4, h5, h5', h6, hgi, fun s px py a b => ⟨fun c => ?_, fun c => ?_⟩⟩
  · obtain ⟨h8, img, g, h9, h10, h11, h12⟩ := h7 s px py c a b
    refine ⟨h8, img, g, h9, h10, h11, fun k hk l hl => ?_⟩
    rw [h12 k hk l hl, fieldAt_screen d.slm hNx hNy hsc hps hgi, firstAmp_eta hNx hNy hsc hps]
  · obtain ⟨h8, img, g, h9, h10, h11, h12⟩ := h7' s px py c a b
    refine ⟨h8, img, g, h9, h10, h11, fun k hk l hl => ?_⟩
    rw [h12 k hk l hl]
    simp only [mul_one]
    rw [fieldAt_spectrum d.slm hNx hNy, firstAmp_eta hNx hNy hsc hps]
    have hz : ∀ i j, zerothOrder d (fun i j => u i j * cexp (Φ i j * I)) T eta' i j =
        zerothOrder d u T eta' i j * cexp (Φ i j * I) := by
      intro i j
      unfold zerothOrder
      rw [hnorm]
      ring
    have hop : ∀ i j, oppositeOrder d (fun i j => u i j * cexp (Φ i j * I)) T eta' i j =
        oppositeOrder d u T eta' i j * cexp (Φ i j * I) ^ 2 := by
      intro i j
      unfold oppositeOrder
      rw [hnorm]
      ring
    rw [fieldAt_congr d.slm (fun i _ j _ => hz i j), fieldAt_congr d.slm (fun i _ j _ => hop i j)]

/-- **C119**, how bad it is: the point spread function of an aberration is at most 1 everywhere, and at the
centre it is the mean of `exp (i Φ)`; it is 1 in modulus there exactly if the aberration is constant up to whole
turns. -/
theorem C119_strehl (s : SLM) (hNx : 0 < s.Nx) (hNy : 0 < s.Ny) (Φ : ℕ → ℕ → ℝ) :
    (∀ x y, ‖psf s (fun i j => cexp (Φ i j * I)) x y‖ ≤ 1) ∧
    psf s (fun i j => cexp (Φ i j * I)) 0 0 =
      (∑ i ∈ range s.Ny, ∑ j ∈ range s.Nx, cexp (Φ i j * I)) / (s.Nx * s.Ny) ∧
    (‖psf s (fun i j => cexp (Φ i j * I)) 0 0‖ = 1 ↔
      ∀ i < s.Ny, ∀ j < s.Nx, cexp (Φ i j * I) = cexp (Φ 0 0 * I)) := by
  have hx : (s.Nx : ℝ) ≠ 0 := by exact_mod_cast hNx.ne'
  have hy : (s.Ny : ℝ) ≠ 0 := by exact_mod_cast hNy.ne'
  have hc : psf s (fun i j => cexp (Φ i j * I)) 0 0 =
      (∑ i ∈ range s.Ny, ∑ j ∈ range s.Nx, cexp (Φ i j * I)) / (s.Nx * s.Ny) := by
    unfold psf
    simp only [zero_mul, zero_div, add_zero, Complex.ofReal_zero, mul_zero, Complex.exp_zero, mul_one]
    ring
  have hn : ‖(s.Nx * s.Ny : ℂ)‖ = s.Nx * s.Ny := by
    rw [norm_mul, Complex.norm_natCast, Complex.norm_natCast]
  have hpos : (0 : ℝ) < s.Nx * s.Ny := by positivity
  refine ⟨fun x y => ?_, hc, ?_, fun h => ?_⟩
  · unfold psf
    rw [norm_mul, norm_div, norm_one, hn, one_div_mul_eq_div, div_le_one hpos]
    refine (norm_sum_le _ _).trans ((Finset.sum_le_sum fun i _ => (norm_sum_le _ _).trans
      (Finset.sum_le_sum fun j _ => le_of_eq ?_)).trans (b := ∑ i ∈ range s.Ny, ∑ j ∈ range s.Nx, (1 : ℝ)) ?_)
    · rw [norm_mul, Complex.norm_exp_ofReal_mul_I, one_mul,
        show ∀ t : ℝ, (2 * Real.pi * I : ℂ) * (t : ℂ) = ((2 * Real.pi * t : ℝ) : ℂ) * I by
          intro t; push_cast; ring, Complex.norm_exp_ofReal_mul_I]
    · simp only [Finset.sum_const, Finset.card_range, nsmul_eq_mul, mul_one]
      exact (mul_comm _ _).le
  · intro h
    rw [hc, norm_div, hn, div_eq_one_iff_eq hpos.ne'] at h
    -- the sum of unit vectors has the maximal length, so all point in its direction
    set S := ∑ i ∈ range s.Ny, ∑ j ∈ range s.Nx, cexp (Φ i j * I) with hS
    set N : ℝ := s.Nx * s.Ny with hN
    have hS0 : S ≠ 0 := by rw [← norm_pos_iff, h]; exact hpos
    set e : ℂ := S / ‖S‖ with he
    have he1 : ‖e‖ = 1 := by
      rw [he, norm_div, Complex.norm_real, norm_norm, div_self (norm_ne_zero_iff.mpr hS0)]
    have hle : ∀ p ∈ range s.Ny ×ˢ range s.Nx, (cexp (Φ p.1 p.2 * I) * (starRingEnd ℂ) e).re ≤ 1 := by
      intro p _
      refine (Complex.re_le_norm _).trans (le_of_eq ?_)
      rw [norm_mul, Complex.norm_exp_ofReal_mul_I, RCLike.norm_conj, he1, mul_one]
    have hsum : ∑ p ∈ range s.Ny ×ˢ range s.Nx, (cexp (Φ p.1 p.2 * I) * (starRingEnd ℂ) e).re =
        ∑ p ∈ range s.Ny ×ˢ range s.Nx, (1 : ℝ) := by
      rw [← Complex.re_sum, ← Finset.sum_mul, Finset.sum_product, ← hS, he, map_div₀, Complex.conj_ofReal,
        ← mul_div_assoc, Complex.mul_conj, Complex.normSq_eq_norm_sq, ← Complex.ofReal_div, Complex.ofReal_re, h,
        pow_two, mul_div_assoc, div_self hpos.ne', mul_one]
      simp only [Finset.sum_const, Finset.card_product, Finset.card_range, nsmul_eq_mul, mul_one]
      rw [hN]
      push_cast
      ring
    have hall := (Finset.sum_eq_sum_iff_of_le hle).mp hsum
    have hdir : ∀ i < s.Ny, ∀ j < s.Nx, cexp (Φ i j * I) = e := by
      intro i hi j hj
      have hr := hall (i, j) (Finset.mem_product.mpr ⟨mem_range.mpr hi, mem_range.mpr hj⟩)
      simp only at hr
      have hone : cexp (Φ i j * I) * (starRingEnd ℂ) e = 1 := by
        have hnm : ‖cexp (Φ i j * I) * (starRingEnd ℂ) e‖ = 1 := by
          rw [norm_mul, Complex.norm_exp_ofReal_mul_I, RCLike.norm_conj, he1, mul_one]
        have hsq := Complex.sq_norm (cexp (Φ i j * I) * (starRingEnd ℂ) e)
        rw [hnm, Complex.normSq_apply, hr] at hsq
        have him : (cexp (Φ i j * I) * (starRingEnd ℂ) e).im = 0 := by
          have : (cexp (Φ i j * I) * (starRingEnd ℂ) e).im * (cexp (Φ i j * I) * (starRingEnd ℂ) e).im = 0 := by
            linarith
          exact mul_self_eq_zero.mp this
        exact Complex.ext hr him
      have hee : (starRingEnd ℂ) e * e = 1 := by
        rw [mul_comm, Complex.mul_conj, Complex.normSq_eq_norm_sq, he1]
        norm_num
      calc cexp (Φ i j * I) = cexp (Φ i j * I) * ((starRingEnd ℂ) e * e) := by rw [hee, mul_one]
        _ = e := by rw [← mul_assoc, hone, one_mul]
    intro i hi j hj
    rw [hdir i hi j hj, hdir 0 hNy 0 hNx]
  · rw [hc, Finset.sum_congr rfl fun i hi => Finset.sum_congr rfl fun j hj =>
      h i (mem_range.mp hi) j (mem_range.mp hj)]
    simp only [Finset.sum_const, Finset.card_range, nsmul_eq_mul]
    rw [norm_div, norm_mul, norm_mul, Complex.norm_exp_ofReal_mul_I, hn, Complex.norm_natCast,
      Complex.norm_natCast]
    field_simp

/-- C119: the hypotheses hold for a spot target, an input field that is not constant and an aberration that is
not constant. -/
example (h : Profile.Heap) :
    let d := Sim.exDmd
    let Φ : ℕ → ℕ → ℝ := fun i j => i ^ 2 + j
    0 < d.slm.Nx ∧ 0 < d.slm.Ny ∧ ArrayArg d.slm h (exArray fun i j => i + j * I + 1) (fun i j => i + j * I + 1) ∧
    ArrayArg d.slm h (exArray fun i j => (i + j * I + 1) * cexp (Φ i j * I))
      (fun i j => (i + j * I + 1) * cexp (Φ i j * I)) ∧
    TargetArg d.slm h (exArray exSpot) exSpot ∧ d.p ≠ 0 ∧ d.slm.wavelength * d.slm.focal ≠ 0 ∧ d.slm.ps ≠ 0 ∧
    (∃ k < d.slm.Ny, ∃ l < d.slm.Nx, exSpot k l ≠ 0) ∧
    (∀ i < d.slm.Ny, ∀ j < d.slm.Nx, spectrum d.slm exSpot i j ≠ 0 → (i + j * I + 1 : ℂ) ≠ 0) ∧
    ∀ i j : ℕ, ‖((i : ℂ) + j * I + 1) * cexp (Φ i j * I)‖ = ‖(i : ℂ) + j * I + 1‖ := by
  refine ⟨(by decide : 0 < 4), (by decide : 0 < 2), ⟨_, rfl, rfl, fun _ _ _ _ => rfl⟩,
    ⟨_, rfl, rfl, fun _ _ _ _ => rfl⟩, ⟨_, rfl, rfl, fun _ _ _ _ => rfl⟩, by norm_num [Sim.exDmd],
    by norm_num [Sim.exDmd], by norm_num [Sim.exDmd],
    ⟨0, (by decide : 0 < 2), 1, (by decide : 1 < 4), by simp [exSpot]⟩, fun i _ j _ _ hc => ?_, fun i j => ?_⟩
  · have := congrArg Complex.re hc
    simp at this
    have h0 : (0 : ℝ) ≤ i := Nat.cast_nonneg i
    linarith
  · rw [norm_mul, Complex.norm_exp_ofReal_mul_I, mul_one]

end PySLM2.DMD
