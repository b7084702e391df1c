import Verif.Spec.Interchange

/-!
# C110: profiles and arrays are interchangeable; C111: units of length do not matter
-/

noncomputable section

namespace PySLM2

open Lib Profile

section congr

variable {R : ArgRel} {d d' : DMD}

theorem profileToReal_congr {s s' : SLM} {h : Heap} {a a' : ProfArg} {p : Bool}
    (hR : s'.profileToTensor h a' p false = s.profileToTensor h a p false) :
    s'.profileToReal h a' p = s.profileToReal h a p := by
  unfold SLM.profileToReal
  rw [hR]

theorem gratingOfArgs_congr (hG : ∀ a b c m kw dr, d'.grating a b c m kw dr = d.grating a b c m kw dr)
    (hR : ∀ p h a a' x, R p h a a' → d'.slm.profileToTensor h a' p x = d.slm.profileToTensor h a p x)
    {h : Heap} {a b c a' b' c' : ProfArg} (ha : R true h a a') (hb : R true h b b') (hc : R true h c c')
    (m : String) (kw : Kwargs) (dr : ℕ → ℕ → ℝ) :
    d'.gratingOfArgs h a' b' c' m kw dr = d.gratingOfArgs h a b c m kw dr := by
  unfold DMD.gratingOfArgs
  rw [profileToReal_congr (hR _ _ _ _ _ ha), profileToReal_congr (hR _ _ _ _ _ hb),
    profileToReal_congr (hR _ _ _ _ _ hc)]
  simp only [hG]

theorem calcGrating_congr (hG : ∀ a b c m kw dr, d'.grating a b c m kw dr = d.grating a b c m kw dr)
    (hR : ∀ p h a a' x, R p h a a' → d'.slm.profileToTensor h a' p x = d.slm.profileToTensor h a p x)
    {h : Heap} {a b a' b' : ProfArg} {w w' s s' : Option ProfArg} (ha : R true h a a') (hb : R false h b b')
    (hw : OptRel (R true h) w w') (hs : OptRel (R false h) s s')
    (m : String) (r : Option ℝ) (N : Option ℕ) (sc : Option ℝ) (dr : ℕ → ℕ → ℝ) :
    d'.calcGrating h a' b' m w' ⟨r, N, sc, s'⟩ dr = d.calcGrating h a b m w ⟨r, N, sc, s⟩ dr := by
  have h1 : d'.windowTensor h w' = d.windowTensor h w := by
    cases w <;> cases w' <;> simp only [OptRel] at hw
    · rfl
    · unfold DMD.windowTensor
      simp only [hR _ _ _ _ _ hw]
  have h2 : ∀ t, d'.forwardKwargs h t m ⟨r, N, sc, s'⟩ = d.forwardKwargs h t m ⟨r, N, sc, s⟩ := by
    intro t
    cases s <;> cases s' <;> simp only [OptRel] at hs
    · rfl
    · unfold DMD.forwardKwargs
      simp only [hR _ _ _ _ _ hs]
  unfold DMD.calcGrating
  rw [hR _ _ _ _ _ ha, hR _ _ _ _ _ hb, h1]
  simp only [h2, hG]

theorem call_congr (hx : d'.slm.Nx = d.slm.Nx) (hy : d'.slm.Ny = d.slm.Ny)
    (hG : ∀ a b c m kw dr, d'.grating a b c m kw dr = d.grating a b c m kw dr)
    (hE : ∀ e, DMD.etaOf d'.slm e = DMD.etaOf d.slm e)
    (hR : ∀ p h a a' x, R p h a a' → d'.slm.profileToTensor h a' p x = d.slm.profileToTensor h a p x)
    {c c' : DMD.Call} (hc : DMD.SameCall R c c') (cur : StateArr) :
    d'.call cur c' = d.call cur c ∧ d'.returns cur c' = d.returns cur c := by
  cases hc with
  | off =>
    have h1 : d'.allOff = d.allOff := by unfold DMD.allOff; rw [hx, hy]
    simp [DMD.returns, DMD.call, h1]
  | on =>
    have h1 : d'.allOn = d.allOn := by unfold DMD.allOn; rw [hx, hy]
    simp [DMD.returns, DMD.call, h1]
  | setGrating m kw dr ha hb hc =>
    simp [DMD.returns, DMD.call, DMD.setDmdGratingState, gratingOfArgs_congr hG hR ha hb hc]
  | patch i j dia m kw dr ha hb hc =>
    simp [DMD.returns, DMD.call, DMD.circularPatch, gratingOfArgs_congr hG hR ha hb hc, hx, hy]
  | calculate m r N sc dr ha hb hw hs =>
    simp [DMD.returns, DMD.call, DMD.calculateDmdState, calcGrating_congr hG hR ha hb hw hs, hE]

theorem run_congr (hx : d'.slm.Nx = d.slm.Nx) (hy : d'.slm.Ny = d.slm.Ny)
    (hG : ∀ a b c m kw dr, d'.grating a b c m kw dr = d.grating a b c m kw dr)
    (hE : ∀ e, DMD.etaOf d'.slm e = DMD.etaOf d.slm e)
    (hR : ∀ p h a a' x, R p h a a' → d'.slm.profileToTensor h a' p x = d.slm.profileToTensor h a p x)
    {cs cs' : List DMD.Call} (hc : List.Forall₂ (DMD.SameCall R) cs cs') (cur : StateArr) :
    d'.runCalls cur cs' = d.runCalls cur cs := by
  induction hc generalizing cur with
  | nil => rfl
  | cons h1 _ ih =>
    simp only [DMD.runCalls]
    rw [(call_congr hx hy hG hE hR h1 cur).1]
    exact ih _

end congr

theorem castTo_castTo (x : Bool) (t : Tensor ℂ) : castTo x (castTo true t) = castTo x t := by
  unfold castTo; rfl

theorem sampled_eq {s : SLM} {p : Bool} {h : Heap} {a a' : ProfArg} (hs : SampledAs s p h a a') (x : Bool) :
    s.profileToTensor h a' p x = s.profileToTensor h a p x := by
  have key : ∀ f t, s.profileToTensor h (.prof f) p true = .ok t →
      s.profileToTensor h (.prof f) p x = .ok (castTo x t) := by
    intro f t ht
    unfold SLM.profileToTensor at ht ⊢
    cases p with
    | true =>
      simp only [if_true] at ht ⊢
      cases hsm : sample h f s.fourierGrid.1 s.fourierGrid.2 with
      | error e => rw [hsm] at ht; simp at ht
      | ok t' => rw [hsm] at ht; simp only [Except.ok.injEq] at ht ⊢; rw [← ht]; rfl
    | false =>
      simp only [Bool.false_eq_true, if_false] at ht ⊢
      cases hg : s.imageGrid with
      | error e => rw [hg] at ht; simp at ht
      | ok g =>
        rw [hg] at ht
        simp only at ht ⊢
        cases hsm : sample h f g.1 g.2 with
        | error e => rw [hsm] at ht; simp at ht
        | ok t' => rw [hsm] at ht; simp only [Except.ok.injEq] at ht ⊢; rw [← ht]; rfl
  cases hs with
  | same => rfl
  | tensor k ht => rw [key _ _ ht]; rfl
  | ndarray k ht => rw [key _ _ ht]; rfl

/-- **C110.** In every call of a `DMD` a profile can be replaced by the array or tensor of its samples in the plane where
it is used: the call has the same effect and returns the same value, or raises the same exception; hence every history
of calls leaves the same state. -/
theorem C110_dmd (d : DMD) :
    (∀ c c', DMD.SameCall (SampledAs d.slm) c c' → ∀ cur, d.call cur c' = d.call cur c ∧
      d.returns cur c' = d.returns cur c) ∧
    ∀ cs cs', List.Forall₂ (DMD.SameCall (SampledAs d.slm)) cs cs' → ∀ cur, d.runCalls cur cs' = d.runCalls cur cs :=
  ⟨fun _ _ hc cur => call_congr rfl rfl (fun _ _ _ _ _ _ => rfl) (fun _ => rfl) (fun _ _ _ _ x h => sampled_eq h x) hc cur,
    fun _ _ hc cur => run_congr rfl rfl (fun _ _ _ _ _ _ => rfl) (fun _ => rfl) (fun _ _ _ _ x h => sampled_eq h x) hc cur⟩

/-- **C110** for holograms and simulations. -/
theorem C110_others {h : Heap} {inp inp' target target' : ProfArg} :
    (∀ (l : LCOS) {w w' : Option ProfArg} (_ : SampledAs l.slm true h inp inp') (_ : SampledAs l.slm false h target target')
        (_ : OptRel (SampledAs l.slm false h) w w') (method : String) (N : Option ℕ) (m : Option ℝ) (u : ℕ → ℕ → ℝ),
      l.calculateHologram h inp' target' method ⟨N, w', m⟩ u = l.calculateHologram h inp target method ⟨N, w, m⟩ u) ∧
    ∀ (s : Sim), SampledAs s.dev.slm true h inp inp' → s.propagate h inp' = s.propagate h inp := by
  refine ⟨?_, ?_⟩
  · intro l w w' hi ht hw method N m u
    have h1 : LCOS.forwardKwargs l.slm h method ⟨N, w', m⟩ = LCOS.forwardKwargs l.slm h method ⟨N, w, m⟩ := by
      cases w <;> cases w' <;> simp only [OptRel] at hw
      · rfl
      · unfold LCOS.forwardKwargs
        simp only [sampled_eq hw]
    unfold LCOS.calculateHologram LCOS.hologram
    rw [sampled_eq hi, profileToReal_congr (sampled_eq ht _), h1]
  · intro s hi
    unfold Sim.propagate
    rw [sampled_eq hi]

/-! ## Units -/

variable {c : ℝ}

theorem fftfreq_units (hc : c ≠ 0) (n : ℕ) (d : ℝ) (i : ℕ) : fftfreq n (c * d) i = fftfreq n d i / c := by
  unfold fftfreq
  split_ifs <;> rw [div_div] <;> congr 1 <;> ring

theorem imageX_units (hc : c ≠ 0) (n : ℕ) (s : SLM) (i j : ℕ) :
    imageX n (s.inUnits c).ps (s.inUnits c).scaling i j = c * imageX n s.ps s.scaling i j := by
  unfold imageX SLM.inUnits SLM.scaling
  simp only
  rw [fftfreq_units hc]
  field_simp

theorem imageY_units (hc : c ≠ 0) (n : ℕ) (s : SLM) (i j : ℕ) :
    imageY n (s.inUnits c).ps (s.inUnits c).scaling i j = c * imageY n s.ps s.scaling i j := by
  unfold imageY SLM.inUnits SLM.scaling
  simp only
  rw [fftfreq_units hc]
  field_simp

theorem fourier_units (s : SLM) (i j : ℝ) :
    ((s.inUnits c).indexToCoord i j).1 = c * (s.indexToCoord i j).1 ∧
      ((s.inUnits c).indexToCoord i j).2 = c * (s.indexToCoord i j).2 := by
  unfold SLM.indexToCoord SLM.inUnits
  constructor <;> simp only <;> ring

theorem eval_units (hc : c ≠ 0) (h : Heap) (f : Prof) (x y : ℝ) :
    eval h (.rescaleY (.rescaleX f c) c) (c * x) (c * y) = eval h f x y := by
  rw [eval, if_neg hc, eval, if_neg hc, mul_div_cancel_left₀ _ hc, mul_div_cancel_left₀ _ hc]

theorem sample_units (hc : c ≠ 0) (h : Heap) (f : Prof) {x y x' y' : Tensor ℝ} (hs : x'.shape = x.shape)
    (hx : ∀ i j, x'.get i j = c * x.get i j) (hy : ∀ i j, y'.get i j = c * y.get i j) :
    sample h (.rescaleY (.rescaleX f c) c) x' y' = sample h f x y := by
  unfold sample
  have h1 : rankZero (.rescaleY (.rescaleX f c) c) = rankZero f := by simp only [rankZero]
  have h2 : eval h (.rescaleY (.rescaleX f c) c) 0 0 = eval h f 0 0 := by
    have := eval_units hc h f 0 0
    simpa using this
  rw [h1, h2, hs]
  simp only [hx, hy, eval_units hc]

theorem imageGrid_units (hc : c ≠ 0) (Nx Ny : ℕ) (s : SLM) :
    (imageGridOf Nx Ny (s.inUnits c).ps (s.inUnits c).scaling =
      match imageGridOf Nx Ny s.ps s.scaling with
      | .error e => .error e
      | .ok g => .ok (g.1.map (c * ·), g.2.map (c * ·))) := by
  unfold imageGridOf
  have h1 : ((Nx : ℝ) * (s.inUnits c).ps = 0 ∨ (Ny : ℝ) * (s.inUnits c).ps = 0) ↔
      ((Nx : ℝ) * s.ps = 0 ∨ (Ny : ℝ) * s.ps = 0) := by
    simp [SLM.inUnits, hc]
  by_cases h2 : (Nx : ℝ) * s.ps = 0 ∨ (Ny : ℝ) * s.ps = 0
  · rw [if_pos h2, if_pos (h1.mpr h2)]
  · rw [if_neg h2, if_neg (fun h => h2 (h1.mp h))]
    simp only [Tensor.map]
    congr 3
    · funext i j; exact imageX_units hc _ _ _ _
    · funext i j; exact imageY_units hc _ _ _ _

theorem rescaled_eq (hc : c ≠ 0) {s : SLM} {p : Bool} {h : Heap} {a a' : ProfArg} (hs : Rescaled c p h a a') (x : Bool) :
    (s.inUnits c).profileToTensor h a' p x = s.profileToTensor h a p x := by
  cases hs with
  | prof _ _ f =>
    unfold SLM.profileToTensor
    simp only
    cases p with
    | true =>
      simp only [if_true]
      rw [sample_units hc h f (x := s.fourierGrid.1) (y := s.fourierGrid.2) (x' := (s.inUnits c).fourierGrid.1)
        (y' := (s.inUnits c).fourierGrid.2) rfl (fun i j => (fourier_units s i j).1) (fun i j => (fourier_units s i j).2)]
    | false =>
      simp only [Bool.false_eq_true, if_false]
      have h1 := imageGrid_units hc s.Nx s.Ny s
      unfold SLM.imageGrid
      have h2 : (s.inUnits c).Nx = s.Nx := rfl
      have h3 : (s.inUnits c).Ny = s.Ny := rfl
      rw [h2, h3, h1]
      cases imageGridOf s.Nx s.Ny s.ps s.scaling with
      | error e => rfl
      | ok g =>
        simp only
        rw [sample_units hc h f (x := g.1) (y := g.2) (x' := g.1.map (c * ·)) (y' := g.2.map (c * ·)) rfl (fun i j => rfl) (fun i j => rfl)]
  | tensor => rfl
  | ndarray => rfl
  | num _ _ z => cases z <;> rfl

theorem pixAt_units (hc : c ≠ 0) (s : SLM) (amp : Tensor XR) (a b : Tensor ℝ) (i j : ℕ) :
    pixAt amp a b (s.inUnits c).fourierGrid.1 (s.inUnits c).fourierGrid.2 i j =
      { pixAt amp a b s.fourierGrid.1 s.fourierGrid.2 i j with
        x := c * (pixAt amp a b s.fourierGrid.1 s.fourierGrid.2 i j).x
        y := c * (pixAt amp a b s.fourierGrid.1 s.fourierGrid.2 i j).y } := by
  unfold pixAt
  simp only [SLM.fourierGrid, Tensor.at_, SLM.fourierX, SLM.fourierY, (fourier_units s _ _).1, (fourier_units s _ _).2]
  rfl

theorem gratingPhase_units (hc : c ≠ 0) (x y theta p : ℝ) :
    gratingPhase (c * x) (c * y) theta (c * p) = gratingPhase x y theta p := by
  unfold gratingPhase
  by_cases hp : p = 0
  · simp [hp]
  · field_simp

theorem ideal_units (hc : c ≠ 0) (p theta : ℝ) (neg : Bool) (q : Pix) :
    idealPixel (c * p) theta neg { q with x := c * q.x, y := c * q.y } = idealPixel p theta neg q := by
  unfold idealPixel
  simp only [gratingPhase_units hc, mul_eq_zero, hc, false_or]
  rfl

theorem simple_units (hc : c ≠ 0) (p theta : ℝ) (neg : Bool) (q : Pix) :
    simplePixel (c * p) theta neg { q with x := c * q.x, y := c * q.y } = simplePixel p theta neg q := by
  unfold simplePixel
  rw [ideal_units hc]

theorem duty_units (hc : c ≠ 0) (p theta r : ℝ) (neg : Bool) (q : Pix) :
    randomDuty (c * p) theta r neg { q with x := c * q.x, y := c * q.y } = randomDuty p theta r neg q := by
  unfold randomDuty
  simp only [gratingPhase_units hc, mul_eq_zero, hc, false_or]
  rfl

theorem random_units (hc : c ≠ 0) (p theta r : ℝ) (neg : Bool) (u : ℝ) (q : Pix) :
    randomPixel (c * p) theta r neg u { q with x := c * q.x, y := c * q.y } = randomPixel p theta r neg u q := by
  unfold randomPixel
  rw [duty_units hc]

theorem ifta_congr {amp : Tensor XR} {a b x y x' y' : Tensor ℝ} {p p' theta : ℝ} {neg : Bool}
    (hsh : gratingShape amp a b x' y' = gratingShape amp a b x y)
    (hG : ∀ i j, idealPixel p' theta neg (pixAt amp a b x' y' i j) = idealPixel p theta neg (pixAt amp a b x y i j))
    (inp window : Option (Tensor ℂ)) (steps : ℕ) (s : ℝ) :
    gratingIfta amp a b x' y' p' theta neg inp window steps s = gratingIfta amp a b x y p theta neg inp window steps s := by
  classical
  unfold gratingIfta
  rw [hsh]
  dsimp only
  have hv : (fun i j => XR.val ((XR.fin s).mul (idealPixel p' theta neg (pixAt amp a b x' y' i j)))) =
      fun i j => XR.val ((XR.fin s).mul (idealPixel p theta neg (pixAt amp a b x y i j))) := by
    funext i j; rw [hG]
  have hd : (fun i j => decide (((XR.fin s).mul (idealPixel p' theta neg (pixAt amp a b x' y' i j))).gtFin 0.5)) =
      fun i j => decide (((XR.fin s).mul (idealPixel p theta neg (pixAt amp a b x y i j))).gtFin 0.5) := by
    funext i j; rw [hG]
  rw [hd]
  simp only [hG]

theorem grating_units (hc : c ≠ 0) (s : SLM) (periodicity theta : ℝ) (neg : Bool) (amp : Tensor XR) (a b : Tensor ℝ)
    (m : String) (kw : Kwargs) (dr : ℕ → ℕ → ℝ) :
    (DMD.new (s.inUnits c) periodicity theta neg).grating amp a b m kw dr =
      (DMD.new s periodicity theta neg).grating amp a b m kw dr := by
  have hp : periodicity * (s.inUnits c).ps = c * (periodicity * s.ps) := by simp only [SLM.inUnits]; ring
  have hsh : gratingShape amp a b (s.inUnits c).fourierGrid.1 (s.inUnits c).fourierGrid.2 =
      gratingShape amp a b s.fourierGrid.1 s.fourierGrid.2 := rfl
  have hi : ∀ inp window steps sc, gratingIfta amp a b (s.inUnits c).fourierGrid.1 (s.inUnits c).fourierGrid.2
      (c * (periodicity * s.ps)) theta neg inp window steps sc =
      gratingIfta amp a b s.fourierGrid.1 s.fourierGrid.2 (periodicity * s.ps) theta neg inp window steps sc :=
    fun inp window steps sc => ifta_congr hsh (fun i j => by rw [pixAt_units hc, ideal_units hc]) inp window steps sc
  unfold DMD.grating DMD.new calculateDmdGrating
  simp only [hp, hi, hsh, pixAt_units hc, simple_units hc, ideal_units hc, random_units hc]

theorem eta_units (hc : c ≠ 0) (s : SLM) (e : XR) : DMD.etaOf (s.inUnits c) e = DMD.etaOf s e := by
  unfold DMD.etaOf
  have h1 : (s.inUnits c).scaling = c ^ 2 * s.scaling := by simp only [SLM.scaling, SLM.inUnits]; ring
  have h2 : (s.inUnits c).ps ^ 2 / (s.inUnits c).scaling = s.ps ^ 2 / s.scaling := by
    rw [h1]
    simp only [SLM.inUnits]
    rw [mul_pow, mul_div_mul_left _ _ (pow_ne_zero 2 hc)]
  rw [h2, h1]
  simp only [mul_eq_zero, pow_eq_zero_iff, ne_eq, OfNat.ofNat_ne_zero, not_false_eq_true, hc, false_or]
  rfl

theorem area_units (hc : c ≠ 0) (n : ℤ) (ps sc : ℝ) :
    (if n = 0 ∨ (c * ps) ^ 2 = 0 then .error .zeroDivisionError else .ok ((c ^ 2 * sc) ^ 2 / (n : ℤ) / (c * ps) ^ 2) :
      Except PyErr ℝ) =
      (if n = 0 ∨ ps ^ 2 = 0 then .error .zeroDivisionError else .ok (sc ^ 2 / (n : ℤ) / ps ^ 2) :
        Except PyErr ℝ).map (c ^ 2 * ·) := by
  by_cases h0 : n = 0 ∨ ps ^ 2 = 0
  · rw [if_pos h0, if_pos (h0.imp id fun h => by rw [mul_pow, h, mul_zero])]; rfl
  · have h0' : ¬ (n = 0 ∨ (c * ps) ^ 2 = 0) := by
      push Not at h0 ⊢
      exact ⟨h0.1, by rw [mul_pow]; exact mul_ne_zero (pow_ne_zero 2 hc) h0.2⟩
    rw [if_neg h0, if_neg h0']
    simp only [Except.map]
    congr 1
    push Not at h0
    have h9 : ps ≠ 0 := fun h => h0.2 (by rw [h]; ring)
    have h10 : (n : ℝ) ≠ 0 := by exact_mod_cast h0.1
    field_simp

/-- **C111.** Give the lengths of a DMD (wavelength, focal length, pixel size) in other units and magnify all profile
arguments accordingly: every call has the same effect and returns the same value (in particular the same `eta`), every
history of calls leaves the same state, and the position of the first order is the same in the new units. -/
theorem C111_dmd (hc : c ≠ 0) (s : SLM) (periodicity theta : ℝ) (neg : Bool) :
    let d := DMD.new s periodicity theta neg
    let d' := DMD.new (s.inUnits c) periodicity theta neg
    (∀ k k', DMD.SameCall (Rescaled c) k k' → ∀ cur, d'.call cur k' = d.call cur k ∧
      d'.returns cur k' = d.returns cur k) ∧
    (∀ ks ks', List.Forall₂ (DMD.SameCall (Rescaled c)) ks ks' → ∀ cur, d'.runCalls cur ks' = d.runCalls cur ks) ∧
    d'.firstOrderOrigin = d.firstOrderOrigin.map fun q => (c * q.1, c * q.2) := by
  intro d d'
  have hG : ∀ a b k m kw dr, d'.grating a b k m kw dr = d.grating a b k m kw dr :=
    fun a b k m kw dr => grating_units hc s periodicity theta neg a b k m kw dr
  have hS : d.slm = s := rfl
  have hS' : d'.slm = s.inUnits c := rfl
  have hx : d'.slm.Nx = d.slm.Nx := rfl
  have hy : d'.slm.Ny = d.slm.Ny := rfl
  have hE : ∀ e, DMD.etaOf d'.slm e = DMD.etaOf d.slm e := fun e => by rw [hS, hS']; exact eta_units hc s e
  have hR : ∀ p h a a' x, Rescaled c p h a a' → d'.slm.profileToTensor h a' p x = d.slm.profileToTensor h a p x :=
    fun p h a a' x hr => by rw [hS, hS']; exact rescaled_eq hc hr x
  have hp : d'.p = c * d.p := by simp only [d, d', DMD.new, SLM.inUnits]; ring
  have hs : d'.slm.scaling = c ^ 2 * d.slm.scaling := by simp only [d, d', DMD.new, SLM.inUnits, SLM.scaling]; ring
  have ht : d'.theta = d.theta := rfl
  clear_value d d'
  refine ⟨fun _ _ hk cur => call_congr hx hy hG hE hR hk cur, fun _ _ hk cur => run_congr hx hy hG hE hR hk cur, ?_⟩
  unfold DMD.firstOrderOrigin
  rw [hp, hs, ht]
  by_cases h0 : d.p = 0
  · simp [h0, Except.map]
  · rw [if_neg (mul_ne_zero hc h0), if_neg h0]
    simp only [Except.map]
    congr 2 <;> field_simp

/-- **C111** for holograms on an LCOS SLM. -/
theorem C111_lcos (hc : c ≠ 0) (s : SLM) (st : LcosState) {h : Heap} {inp inp' target target' : ProfArg}
    {w w' : Option ProfArg} (hi : Rescaled c true h inp inp') (ht : Rescaled c false h target target')
    (hw : OptRel (Rescaled c false h) w w') (method : String) (N : Option ℕ) (m : Option ℝ) (u : ℕ → ℕ → ℝ) :
    let o := (⟨s, st⟩ : LCOS).calculateHologram h inp target method ⟨N, w, m⟩ u
    let o' := (⟨s.inUnits c, st⟩ : LCOS).calculateHologram h inp' target' method ⟨N, w', m⟩ u
    o'.2 = o.2 ∧ o'.1.state = o.1.state ∧ o.1.slm = s ∧ o'.1.slm = s.inUnits c := by
  have h1 : LCOS.forwardKwargs (s.inUnits c) h method ⟨N, w', m⟩ = LCOS.forwardKwargs s h method ⟨N, w, m⟩ := by
    cases w <;> cases w' <;> simp only [OptRel] at hw
    · rfl
    · unfold LCOS.forwardKwargs
      simp only [rescaled_eq hc hw]
  have h2 : LCOS.hologram (s.inUnits c) h inp' target' method ⟨N, w', m⟩ u =
      LCOS.hologram s h inp target method ⟨N, w, m⟩ u := by
    unfold LCOS.hologram
    rw [rescaled_eq hc hi, profileToReal_congr (rescaled_eq hc ht _), h1]
  intro o o'
  simp only [o, o', LCOS.calculateHologram, h2]
  cases LCOS.hologram s h inp target method ⟨N, w, m⟩ u with
  | error e => exact ⟨rfl, rfl, rfl, rfl⟩
  | ok t => exact ⟨rfl, rfl, rfl, rfl⟩

/-- **C111** for simulations: the grids are the same in the new units, the propagation raises the same exceptions and
gives the same fields at corresponding pixels, and all powers are multiplied by the square of the unit ratio. -/
theorem C111_simulation (hc : c ≠ 0) {dev dev' : Device} (hd : Sim.SameIn c dev dev') (px py : ℤ) (f₁ f₂ f₃ : Option (Tensor ℂ))
    {h : Heap} {a a' : ProfArg} (ha : Rescaled c true h a a') :
    let s : Sim := ⟨dev, px, py, f₁, f₂, f₃⟩
    let s' : Sim := ⟨dev', px, py, f₁, f₂, f₃⟩
    s'.imagePaddedGrid = s.imagePaddedGrid.map (fun g => (g.1.map (c * ·), g.2.map (c * ·))) ∧
    s'.fourierPaddedGrid = s.fourierPaddedGrid.map (fun g => (g.1.map (c * ·), g.2.map (c * ·))) ∧
    (s'.propagate h a').2 = (s.propagate h a).2 ∧
    (s'.propagate h a').1.inputField = (s.propagate h a).1.inputField ∧
    (s'.propagate h a').1.outputField = (s.propagate h a).1.outputField ∧
    (s'.propagate h a').1.imageField = (s.propagate h a).1.imageField ∧
    (s'.propagate h a').1.inputPower = (s.propagate h a).1.inputPower.map (c ^ 2 * ·) ∧
    (s'.propagate h a').1.outputPower = (s.propagate h a).1.outputPower.map (c ^ 2 * ·) ∧
    (s'.propagate h a').1.imagePower = (s.propagate h a).1.imagePower.map (c ^ 2 * ·) := by
  intro s s'
  have hslm : dev'.slm = dev.slm.inUnits c := by cases hd <;> rfl
  have hst : dev'.stateTensor = dev.stateTensor := by cases hd <;> rfl
  have hsc : dev'.slm.scaling = c ^ 2 * dev.slm.scaling := by rw [hslm]; simp only [SLM.scaling, SLM.inUnits]; ring
  have hps : dev'.slm.ps = c * dev.slm.ps := by rw [hslm]; rfl
  have hNx : dev'.slm.Nx = dev.slm.Nx := by rw [hslm]; rfl
  have hNy : dev'.slm.Ny = dev.slm.Ny := by rw [hslm]; rfl
  have hfac : ∀ n : ℝ, n * (c * dev.slm.ps) ^ 2 / (c ^ 2 * dev.slm.scaling) = n * dev.slm.ps ^ 2 / dev.slm.scaling := by
    intro n
    rw [mul_pow, mul_left_comm, mul_div_mul_left _ _ (pow_ne_zero 2 hc)]
  have himg : ∀ g₁ g₂ g₃ out, Sim.imageOf ⟨dev', px, py, g₁, g₂, g₃⟩ out = Sim.imageOf ⟨dev, px, py, g₁, g₂, g₃⟩ out := by
    intro g₁ g₂ g₃ out
    unfold Sim.imageOf Sim.fourierPixelArea Sim.Nx Sim.Ny Sim.NxInt Sim.NyInt
    simp only [hsc, hps, hNx, hNy, hfac, mul_eq_zero, pow_eq_zero_iff, ne_eq, OfNat.ofNat_ne_zero, not_false_eq_true, hc,
      false_or]
  have hrun : (s'.propagate h a').2 = (s.propagate h a).2 ∧
      (s'.propagate h a').1 = { (s.propagate h a).1 with dev := dev' } ∧ (s.propagate h a).1.dev = dev ∧
      (s.propagate h a).1.px = px ∧ (s.propagate h a).1.py = py := by
    have h1 : dev'.slm.profileToTensor h a' true true = dev.slm.profileToTensor h a true true := by
      rw [hslm]; exact rescaled_eq hc ha true
    unfold Sim.propagate
    simp only [s, s', h1, hst, himg]
    cases dev.slm.profileToTensor h a true true with
    | error e => exact ⟨rfl, rfl, rfl, rfl, rfl⟩
    | ok inp =>
      simp only
      cases Sim.pad inp py px with
      | error e => exact ⟨rfl, rfl, rfl, rfl, rfl⟩
      | ok padded =>
        simp only
        cases dev.stateTensor with
        | error e => exact ⟨rfl, rfl, rfl, rfl, rfl⟩
        | ok st =>
          simp only
          cases Tensor.map2 (fun a b => a * b) inp st with
          | error e => exact ⟨rfl, rfl, rfl, rfl, rfl⟩
          | ok out =>
            simp only
            cases Sim.pad out py px with
            | error e => exact ⟨rfl, rfl, rfl, rfl, rfl⟩
            | ok outp =>
              simp only
              cases Sim.imageOf ⟨dev, px, py, some padded, some outp, f₃⟩ outp with
              | error e => exact ⟨rfl, rfl, rfl, rfl, rfl⟩
              | ok img => exact ⟨rfl, rfl, rfl, rfl, rfl⟩
  obtain ⟨h1, h2, h3, h4, h5⟩ := hrun
  generalize s.propagate h a = r at h1 h2 h3 h4 h5 ⊢
  obtain ⟨⟨rd, rpx, rpy, g₁, g₂, g₃⟩, rr⟩ := r
  simp only at h3 h4 h5
  subst h3 h4 h5
  rw [h2]
  refine ⟨?_, ?_, h1, rfl, rfl, rfl, ?_, ?_, ?_⟩
  · have h6 := imageGrid_units hc (s.Nx) (s.Ny) rd.slm
    unfold Sim.imagePaddedGrid
    have h7' : s'.NxInt = s.NxInt := by simp only [Sim.NxInt, s, s', hNx]
    have h8' : s'.NyInt = s.NyInt := by simp only [Sim.NyInt, s, s', hNy]
    have h7 : s'.Nx = s.Nx := congrArg Int.toNat h7'
    have h8 : s'.Ny = s.Ny := congrArg Int.toNat h8'
    have h9 : (rd.slm.inUnits c).ps ≠ 0 ↔ s.dev.slm.ps ≠ 0 := by
      show c * rd.slm.ps ≠ 0 ↔ rd.slm.ps ≠ 0
      simp [hc]
    rw [h7, h8, h7', h8', show s'.dev.slm = rd.slm.inUnits c from hslm, h6]
    by_cases hneg : s.dev.slm.ps ≠ 0 ∧ (s.NxInt < 0 ∨ s.NxInt ≠ 0 ∧ s.NyInt < 0)
    · rw [if_pos hneg, if_pos ⟨h9.2 hneg.1, hneg.2⟩]; rfl
    rw [if_neg hneg, if_neg fun h => hneg ⟨h9.1 h.1, h.2⟩]
    show _ = (imageGridOf s.Nx s.Ny rd.slm.ps rd.slm.scaling).map _
    cases imageGridOf s.Nx s.Ny rd.slm.ps rd.slm.scaling <;> rfl
  · have hX : s'.fourierPaddedX = fun i j => c * s.fourierPaddedX i j := by
      funext i j
      simp only [Sim.fourierPaddedX, s, s', hslm, (fourier_units _ _ _).1]
    have hY : s'.fourierPaddedY = fun i j => c * s.fourierPaddedY i j := by
      funext i j
      simp only [Sim.fourierPaddedY, s, s', hslm, (fourier_units _ _ _).2]
    have h1 : s'.NxInt = s.NxInt := by simp only [Sim.NxInt, s, s', hNx]
    have h2 : s'.NyInt = s.NyInt := by simp only [Sim.NyInt, s, s', hNy]
    have h3 : s'.Nx = s.Nx := congrArg Int.toNat h1
    have h4 : s'.Ny = s.Ny := congrArg Int.toNat h2
    unfold Sim.fourierPaddedGrid
    rw [hX, hY, h1, h2, h3, h4]
    by_cases hneg : s.NxInt < 0 ∨ s.NyInt < 0
    · rw [if_pos hneg, if_pos hneg]; rfl
    · rw [if_neg hneg, if_neg hneg]; rfl
  · cases g₁ with
    | none => rfl
    | some t =>
      simp only [Sim.inputPower, Sim.intensity, Option.map, Except.map, Sim.fourierPixelArea, hps]
      congr 1; ring
  · cases g₂ with
    | none => rfl
    | some t =>
      simp only [Sim.outputPower, Sim.intensity, Option.map, Except.map, Sim.fourierPixelArea, hps]
      congr 1; ring
  · have hA : Sim.imagePixelArea ⟨dev', rpx, rpy, g₁, g₂, g₃⟩ =
        (Sim.imagePixelArea ⟨rd, rpx, rpy, g₁, g₂, g₃⟩).map (c ^ 2 * ·) := by
      have hx : Sim.NxInt ⟨dev', rpx, rpy, g₁, g₂, g₃⟩ = Sim.NxInt ⟨rd, rpx, rpy, g₁, g₂, g₃⟩ := by simp only [Sim.NxInt, hNx]
      have hy : Sim.NyInt ⟨dev', rpx, rpy, g₁, g₂, g₃⟩ = Sim.NyInt ⟨rd, rpx, rpy, g₁, g₂, g₃⟩ := by simp only [Sim.NyInt, hNy]
      unfold Sim.imagePixelArea
      rw [hx, hy, hps, hsc]
      exact area_units hc _ _ _
    unfold Sim.imagePower
    simp only at hA ⊢
    rw [hA]
    cases Sim.imagePixelArea ⟨rd, rpx, rpy, g₁, g₂, g₃⟩ with
    | error e => rfl
    | ok ar =>
      cases g₃ with
      | none => rfl
      | some t =>
        simp only [Sim.intensity, Option.map, Except.map]
        congr 1; ring

/-- **C111** for `block_zeroth_order`: with the radius omitted or given in the new units, the same part of the image is
blocked. -/
theorem C111_block (hc : c ≠ 0) {dev dev' : Device} (hd : Sim.SameIn c dev dev') (px py : ℤ) (f₁ f₂ f₃ : Option (Tensor ℂ))
    (r : Option ℝ) :
    let o := Sim.blockZerothOrder ⟨dev, px, py, f₁, f₂, f₃⟩ r
    let o' := Sim.blockZerothOrder ⟨dev', px, py, f₁, f₂, f₃⟩ (r.map (c * ·))
    o'.2 = o.2 ∧ o'.1.inputField = o.1.inputField ∧ o'.1.outputField = o.1.outputField ∧
      o'.1.imageField = o.1.imageField ∧ o'.1.dev = dev' ∧ o.1.dev = dev := by
  cases hd with
  | lcos s st => exact ⟨rfl, rfl, rfl, rfl, rfl, rfl⟩
  | dmd s periodicity theta neg st =>
    intro o o'
    have hp : (DMD.new (s.inUnits c) periodicity theta neg).p = c * (DMD.new s periodicity theta neg).p := by
      simp only [DMD.new, SLM.inUnits]; ring
    have hs : (s.inUnits c).scaling = c ^ 2 * s.scaling := by simp only [SLM.inUnits, SLM.scaling]; ring
    have hr : ∀ x y p, Sim.blocked (c * x) (c * y) (Sim.defaultR2 (c ^ 2 * s.scaling) (c * p)) ↔
        Sim.blocked x y (Sim.defaultR2 s.scaling p) := by
      intro x y p
      unfold Sim.blocked Sim.defaultR2
      simp only [mul_eq_zero, hc, false_or, pow_eq_zero_iff, ne_eq, OfNat.ofNat_ne_zero, not_false_eq_true]
      by_cases h0 : p = 0
      · rw [if_pos h0, if_pos h0]; split_ifs <;> rfl
      · rw [if_neg h0, if_neg h0]
        have h1 : (c ^ 2 * s.scaling / (c * p) / 2) ^ 2 = c ^ 2 * (s.scaling / p / 2) ^ 2 := by field_simp
        have h2 : (c * x) ^ 2 + (c * y) ^ 2 = c ^ 2 * (x ^ 2 + y ^ 2) := by ring
        rw [h1, h2]
        simp only [XR.gtFin]
        exact mul_lt_mul_iff_right₀ (by positivity)
    have hr' : ∀ x y q, Sim.blocked (c * x) (c * y) (.fin ((c * q) ^ 2)) ↔ Sim.blocked x y (.fin (q ^ 2)) := by
      intro x y q
      unfold Sim.blocked
      have h2 : (c * x) ^ 2 + (c * y) ^ 2 = c ^ 2 * (x ^ 2 + y ^ 2) := by ring
      rw [mul_pow, h2]
      simp only [XR.gtFin]
      exact mul_lt_mul_iff_right₀ (by positivity)
    cases f₂ with
    | none => exact ⟨rfl, rfl, rfl, rfl, rfl, rfl⟩
    | some t₂ =>
      have hg : Sim.imagePaddedGrid ⟨.dmd (DMD.new (s.inUnits c) periodicity theta neg) st, px, py, f₁, some t₂, f₃⟩ =
          (Sim.imagePaddedGrid ⟨.dmd (DMD.new s periodicity theta neg) st, px, py, f₁, some t₂, f₃⟩).map
            (fun g => (g.1.map (c * ·), g.2.map (c * ·))) :=
        (C111_simulation hc (.dmd s periodicity theta neg st) px py f₁ (some t₂) f₃
          (h := ⟨fun _ => 0, fun _ => 0, 0⟩) (a := .num (.real 0)) (.num _ _ _)).1
      simp only [o, o', Sim.blockZerothOrder]
      rw [hg]
      cases Sim.imagePaddedGrid ⟨.dmd (DMD.new s periodicity theta neg) st, px, py, f₁, some t₂, f₃⟩ with
      | error e => exact ⟨rfl, rfl, rfl, rfl, rfl, rfl⟩
      | ok g =>
        simp only [Except.map]
        cases f₃ with
        | none => exact ⟨rfl, rfl, rfl, rfl, rfl, rfl⟩
        | some img =>
          have hN : Sim.Nx ⟨.dmd (DMD.new (s.inUnits c) periodicity theta neg) st, px, py, f₁, some t₂, some img⟩ =
              Sim.Nx ⟨.dmd (DMD.new s periodicity theta neg) st, px, py, f₁, some t₂, some img⟩ := rfl
          have hM : Sim.Ny ⟨.dmd (DMD.new (s.inUnits c) periodicity theta neg) st, px, py, f₁, some t₂, some img⟩ =
              Sim.Ny ⟨.dmd (DMD.new s periodicity theta neg) st, px, py, f₁, some t₂, some img⟩ := rfl
          simp only [hN, hM]
          cases bcast (.mat (Sim.Ny ⟨.dmd (DMD.new s periodicity theta neg) st, px, py, f₁, some t₂, some img⟩)
            (Sim.Nx ⟨.dmd (DMD.new s periodicity theta neg) st, px, py, f₁, some t₂, some img⟩)) img.shape with
          | none => exact ⟨rfl, rfl, rfl, rfl, rfl, rfl⟩
          | some sh =>
            refine ⟨rfl, rfl, rfl, ?_, rfl, rfl⟩
            simp only [Option.some.injEq]
            congr 1
            funext i j
            classical
            refine if_congr ?_ rfl rfl
            have h1 : ∀ t : Tensor ℝ, (t.map (c * ·)).at_ i j = c * t.at_ i j := fun ⟨sh, _⟩ => by cases sh <;> rfl
            rw [h1, h1]
            cases r with
            | none =>
              show Sim.blocked _ _ (Sim.defaultR2 (s.inUnits c).scaling _) ↔ _
              rw [hp, hs]
              exact hr _ _ _
            | some q => exact hr' _ _ q

/-- The hypotheses are satisfiable: a history with a profile, an array and a number, replaced by samples and in other
units. -/
example (h : Heap) (draw : ℕ → ℕ → ℝ) (t : Tensor ℂ) :
    let s : SLM := ⟨3, 5, 4, 2, 2⟩
    let d := DMD.new s 4 0 false
    let f : Prof := .circ 0 1 2
    let w : ProfArg := .num (.real 1)
    ∃ a', a' ≠ .prof f ∧ List.Forall₂ (DMD.SameCall (SampledAs d.slm))
      [.on, .calculate h w (.ndarray .cplx t) "random" (some (.prof f)) {} draw]
      [.on, .calculate h w (.ndarray .cplx t) "random" (some a') {} draw] := by
  intro s d f w
  have h1 : s.profileToTensor h (.prof f) true true = .ok ⟨.mat 2 4, fun i j =>
      (eval h f (s.fourierGrid.1.get i j) (s.fourierGrid.2.get i j)).getD 0⟩ := by
    simp [SLM.profileToTensor, sample, f, eval, rankZero, castTo, SLM.fourierGrid, s]
  exact ⟨.ndarray .real _, by simp, .cons .on (.cons (.calculate _ _ _ _ _ (.same _ _ _) (.same _ _ _) (.ndarray _ h1) trivial) .nil)⟩

example (h : Heap) (draw : ℕ → ℕ → ℝ) (t : Tensor ℂ) (f : Prof) : List.Forall₂ (DMD.SameCall (Rescaled 1000))
    [.on, .calculate h (.num (.real 1)) (.ndarray .cplx t) "random" (some (.prof f)) {} draw]
    [.on, .calculate h (.num (.real 1)) (.ndarray .cplx t) "random" (some (.prof (.rescaleY (.rescaleX f 1000) 1000))) {} draw] :=
  .cons .on (.cons (.calculate _ _ _ _ _ (.num _ _ _) (.ndarray _ _ _ _) (.prof _ _ _) trivial) .nil)

/-- A DMD simulation in metres and in millimetres, with a Gaussian beam. -/
example (st : StateArr) (h : Heap) (f : Prof) : (1000 : ℝ) ≠ 0 ∧
    Sim.SameIn 1000 (.dmd (DMD.new ⟨1, 2, 4, 6, 3⟩ 4 1 false) st) (.dmd (DMD.new ⟨1000 * 1, 1000 * 2, 4, 6, 1000 * 3⟩ 4 1 false) st) ∧
    Rescaled 1000 true h (.prof f) (.prof (.rescaleY (.rescaleX f 1000) 1000)) :=
  ⟨by norm_num, .dmd ⟨1, 2, 4, 6, 3⟩ 4 1 false st, .prof _ _ _⟩

end PySLM2
