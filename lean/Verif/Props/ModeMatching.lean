import Verif.Lemmas.ModeMatching3
import Verif.Props.Propagation

/-!
# C23 - C28: mode matching (`calculate_dmd_state`)

`Matching d h inp target window u T w` (in `Verif/Spec/Dmd.lean`) says: the device has pixels, the arguments
denote the input field `u`, the target `T` and the window `w`.  `spectrum d.slm T` is the (centred, discrete)
Fourier transform of the target.
-/

noncomputable section

open Complex Finset

namespace PySLM2.DMD

open Lib

/-- **C25.** If the target's (windowed) transform is not zero everywhere, and the input field vanishes only
where the transform does, then there are grating amplitudes `A` such that: `A` is between 0 and 1, reaches 1,
is 0 exactly where the transform is 0; `eta` is a positive number and ties `A * |input|` to the modulus of the
transform; and for every method `calculate_dmd_state` returns `eta` and does to the DMD exactly what
`set_dmd_grating_state` does with amplitudes `A` and the phases of the input field and the transform. -/
theorem C25_normalised {d : DMD} {h : Profile.Heap} {inp target : ProfArg} {window : Option ProfArg}
    {u T w : ℕ → ℕ → ℂ} (m : Matching d h inp target window u T w)
    (hsc : 0 < d.slm.wavelength * d.slm.focal) (hps : d.slm.ps ≠ 0)
    (hlit : ∀ i < d.slm.Ny, ∀ j < d.slm.Nx, spectrum d.slm T i j * w i j ≠ 0 → u i j ≠ 0)
    (hne : ∃ i < d.slm.Ny, ∃ j < d.slm.Nx, spectrum d.slm T i j * w i j ≠ 0) :
    ∃ (A : ℕ → ℕ → ℝ) (eta : ℝ), 0 < eta ∧
      (∀ i < d.slm.Ny, ∀ j < d.slm.Nx, 0 ≤ A i j ∧ A i j ≤ 1 ∧
        (A i j = 0 ↔ spectrum d.slm T i j * w i j = 0) ∧
        A i j * ‖u i j‖ = eta * (d.slm.wavelength * d.slm.focal) / (d.slm.ps ^ 2 * d.slm.Nx * d.slm.Ny) *
          ‖spectrum d.slm T i j * w i j‖) ∧
      (∃ i < d.slm.Ny, ∃ j < d.slm.Nx, A i j = 1) ∧
      ∀ (method : String) (kw : CalcKwargs) (kw' : Kwargs) (draw : ℕ → ℕ → ℝ),
        Forwarded d h inp method kw kw' →
        (∃ st st', d.calculateDmdState h inp target method window kw draw = ⟨.rebind st, .ok (.fin eta)⟩ ∧
          d.setDmdGratingState h (realArray d.slm A) (realArray d.slm fun i j => arg (u i j))
            (realArray d.slm fun i j => arg (spectrum d.slm T i j * w i j)) method kw' draw =
              ⟨.rebind st', .ok ()⟩ ∧ st.Same st') ∨
        (∃ e, d.calculateDmdState h inp target method window kw draw = ⟨.none, .error e⟩ ∧
          d.setDmdGratingState h (realArray d.slm A) (realArray d.slm fun i j => arg (u i j))
            (realArray d.slm fun i j => arg (spectrum d.slm T i j * w i j)) method kw' draw =
              ⟨.none, .error e⟩) := by
  have hl : Lit d.slm u (wspec d.slm T w) := ⟨hlit, hne⟩
  obtain ⟨mx, hpos, hle, ⟨i0, hi0, j0, hj0, he⟩, hcalc⟩ := calculate_lit m hl
  have hsc' : d.slm.scaling ≠ 0 := hsc.ne'
  have hNx : (0 : ℝ) < d.slm.Nx := by exact_mod_cast m.hNx
  have hNy : (0 : ℝ) < d.slm.Ny := by exact_mod_cast m.hNy
  have hps2 : 0 < d.slm.ps ^ 2 := by positivity
  refine ⟨fun i j => ‖wspec d.slm T w i j‖ / ‖u i j‖ / mx,
    d.slm.ps ^ 2 / d.slm.scaling * d.slm.Nx * d.slm.Ny / mx, ?_, ?_, ?_, ?_⟩
  · have : 0 < d.slm.scaling := hsc
    positivity
  · intro i hi j hj
    refine ⟨by positivity, (div_le_one hpos).mpr (hle i hi j hj), ?_, ?_⟩
    · rw [div_eq_zero_iff, div_eq_zero_iff, norm_eq_zero, norm_eq_zero]
      constructor
      · rintro ((h1 | h1) | h1)
        · exact h1
        · by_contra h2
          exact hlit i hi j hj h2 h1
        · exact absurd h1 hpos.ne'
      · exact fun h1 => Or.inl (Or.inl h1)
    · show _ = _ * ‖wspec d.slm T w i j‖
      have e : d.slm.wavelength * d.slm.focal = d.slm.scaling := rfl
      rw [e]
      by_cases hF : wspec d.slm T w i j = 0
      · simp only [hF, norm_zero, zero_div, zero_mul, mul_zero]
      · have hu : ‖u i j‖ ≠ 0 := norm_ne_zero_iff.mpr (hlit i hi j hj hF)
        field_simp
  · exact ⟨i0, hi0, j0, hj0, by simp only; rw [he, div_self hpos.ne']⟩
  · intro method kw kw' draw hf
    obtain ⟨tin, amp, pin, pout, h1, h2, h3, h4, h5, h6⟩ := hcalc method kw draw
    obtain ⟨ta, ti, tj, g1, g2, g3, g4⟩ := setGrating_of_grating (gratingArgs_realArray d h
      (fun i j => ‖wspec d.slm T w i j‖ / ‖u i j‖ / mx) (fun i j => arg (u i j))
      (fun i j => arg (wspec d.slm T w i j)))
    obtain ⟨kf, k1, k2, k3⟩ := forwarded_kwargs hf h1 h2
    have hs := grating_congr h3 h4 h5 g1 g2 g3 (fun i _ j _ => rfl) (fun r i _ j _ => rfl) method kf kw' k2 k3
      draw
    have g4' := g4 method kw' draw
    rw [k1] at h6
    simp only at h6
    cases hg : d.grating amp pin pout method kf draw with
    | error e =>
      rw [hg] at hs h6
      cases hg' : d.grating ta ti tj method kw' draw with
      | error e' =>
        rw [hg'] at hs g4'
        have : e = e' := hs
        subst this
        exact Or.inr ⟨e, calculate_of_error h6, g4'⟩
      | ok g' => rw [hg'] at hs; exact hs.elim
    | ok g =>
      rw [hg] at hs h6
      cases hg' : d.grating ta ti tj method kw' draw with
      | error e' => rw [hg'] at hs; exact hs.elim
      | ok g' =>
        rw [hg'] at hs g4'
        refine Or.inl ⟨g, g', ?_, g4', hs⟩
        rw [calculate_of_grating h6, etaOf_fin hsc' hpos.ne']

/-- **C25**, when the hypothesis on the transform holds: without a window, exactly for the targets that are
not zero everywhere. -/
theorem C25_spectrum_ne_zero (s : SLM) (T : ℕ → ℕ → ℂ) :
    (∃ i < s.Ny, ∃ j < s.Nx, spectrum s T i j ≠ 0) ↔ ∃ k < s.Ny, ∃ l < s.Nx, T k l ≠ 0 := by
  refine ⟨fun ⟨i, _, j, _, hF⟩ => ?_, spectrum_ne_zero s⟩
  by_contra hc
  push Not at hc
  exact hF (spectrum_zero s hc i j)

/-- **C26.** Multiplying the input by `a` and the target by `b` (both positive) and both by the same phase
factor `c` leaves the computed DMD state (or the exception) unchanged and multiplies `eta` by `a / b`, for
every method. -/
theorem C26_scaling {d : DMD} {h : Profile.Heap} {inp target inp' target' : ProfArg} {window : Option ProfArg}
    {u T w : ℕ → ℕ → ℂ} {a b : ℝ} (ha : 0 < a) (hb : 0 < b) {c : ℂ} (hc : ‖c‖ = 1)
    (m : Matching d h inp target window u T w)
    (m' : Matching d h inp' target' window (fun i j => (a * c) * u i j) (fun i j => (b * c) * T i j) w)
    (method : String) (kw : CalcKwargs) (draw : ℕ → ℕ → ℝ) :
    (d.calculateDmdState h inp target method window kw draw).effect.Same
      (d.calculateDmdState h inp' target' method window kw draw).effect ∧
    (d.calculateDmdState h inp' target' method window kw draw).result =
      (d.calculateDmdState h inp target method window kw draw).result.map fun eta => eta.mul (.fin (a / b)) := by
  have hc0 : c ≠ 0 := by rintro rfl; simp at hc
  have ha0 : ((a : ℝ) : ℂ) * c ≠ 0 := mul_ne_zero (by exact_mod_cast ha.ne') hc0
  have hb0 : ((b : ℝ) : ℂ) * c ≠ 0 := mul_ne_zero (by exact_mod_cast hb.ne') hc0
  have hba : 0 < b / a := div_pos hb ha
  have hF : wspec d.slm (fun i j => (b * c) * T i j) w = fun i j => (b * c) * wspec d.slm T w i j := by
    funext i j
    unfold wspec
    rw [spectrum_smul]
    ring
  obtain ⟨tin, amp, pin, pout, h1, h2, h3, h4, h5, h6⟩ := calcGrating_eq m method kw draw
  obtain ⟨tin', amp', pin', pout', h1', h2', h3', h4', h5', h6'⟩ := calcGrating_eq m' method kw draw
  rw [hF, ratio_scale ha hb hc] at h3' h6'
  rw [hF] at h5'
  rw [reduceMax_smul hba] at h3' h6'
  set mx := reduceMax d.slm.Ny d.slm.Nx (ratio u (wspec d.slm T w)) with hmx
  have h3'' := denotes_congr h3' fun i _ j _ => XR.smul_div hba (ratio u (wspec d.slm T w) i j) mx
  have hpix : ∀ i < d.slm.Ny, ∀ j < d.slm.Nx,
      idealPixel d.p d.theta d.neg (d.pixelX (fun i j => (ratio u (wspec d.slm T w) i j).div mx)
        (fun i j => arg ((a * c) * u i j)) (fun i j => phaseOutPixel ((b * c) * wspec d.slm T w i j)) i j) =
      idealPixel d.p d.theta d.neg (d.pixelX (fun i j => (ratio u (wspec d.slm T w) i j).div mx)
        (fun i j => arg (u i j)) (fun i j => phaseOutPixel (wspec d.slm T w i j)) i j) ∧
      ∀ r, randomDuty d.p d.theta r d.neg (d.pixelX (fun i j => (ratio u (wspec d.slm T w) i j).div mx)
        (fun i j => arg ((a * c) * u i j)) (fun i j => phaseOutPixel ((b * c) * wspec d.slm T w i j)) i j) =
      randomDuty d.p d.theta r d.neg (d.pixelX (fun i j => (ratio u (wspec d.slm T w) i j).div mx)
        (fun i j => arg (u i j)) (fun i j => phaseOutPixel (wspec d.slm T w i j)) i j) := by
    intro i hi j hj
    by_cases h0 : u i j ≠ 0 ∧ wspec d.slm T w i j ≠ 0
    · obtain ⟨n, hn⟩ := arg_scale ha hb hc0 h0.1 h0.2
      refine pixels_phase n rfl rfl rfl ?_
      simp only [pixelX, phaseOutPixel_eq]
      exact hn
    · exact pixels_zero rfl (ampX_dark hmx hi hj h0)
  have hkw : ∀ kf kf', d.forwardKwargs h tin method kw = .ok kf → d.forwardKwargs h tin' method kw = .ok kf' →
      ESame (d.grating amp pin pout method kf draw) (d.grating amp' pin' pout' method kf' draw) := by
    intro kf kf' hk hk'
    unfold forwardKwargs at hk hk'
    refine grating_congr h3 h4 h5 h3'' h4' h5' (fun i hi j hj => (hpix i hi j hj).1.symm)
      (fun r i hi j hj => ((hpix i hi j hj).2 r).symm) method kf kf' ?_ ?_ draw
    · split_ifs at hk hk' with hm
      · cases hw : kw.signalWindow with
        | none => rw [hw] at hk; simp at hk
        | some sw =>
          rw [hw] at hk hk'
          simp only at hk hk'
          cases ht : d.slm.profileToTensor h sw false true with
          | error e => rw [ht] at hk; simp at hk
          | ok tw =>
            rw [ht] at hk hk'
            obtain rfl := Except.ok.inj hk
            obtain rfl := Except.ok.inj hk'
            rfl
      · obtain rfl := Except.ok.inj hk
        obtain rfl := Except.ok.inj hk'
        rfl
    · intro hm
      rw [if_pos hm] at hk hk'
      cases hw : kw.signalWindow with
      | none => rw [hw] at hk; simp at hk
      | some sw =>
        rw [hw] at hk hk'
        simp only at hk hk'
        cases ht : d.slm.profileToTensor h sw false true with
        | error e => rw [ht] at hk; simp at hk
        | ok tw =>
          rw [ht] at hk hk'
          obtain rfl := Except.ok.inj hk
          obtain rfl := Except.ok.inj hk'
          exact ⟨rfl, rfl, rfl, tin, tin', u, a * c, rfl, rfl, ha0, h2, h2'⟩
  have hkw2 : (∃ e, d.forwardKwargs h tin method kw = .error e ∧ d.forwardKwargs h tin' method kw = .error e) ∨
      ∃ kf kf', d.forwardKwargs h tin method kw = .ok kf ∧ d.forwardKwargs h tin' method kw = .ok kf' := by
    unfold forwardKwargs
    by_cases hm : method = "ifta"
    · rw [if_pos hm, if_pos hm]
      cases kw.signalWindow with
      | none => exact Or.inl ⟨_, rfl, rfl⟩
      | some sw =>
        simp only
        cases d.slm.profileToTensor h sw false true with
        | error e => exact Or.inl ⟨_, rfl, rfl⟩
        | ok tw => exact Or.inr ⟨_, _, rfl, rfl⟩
    · rw [if_neg hm, if_neg hm]
      exact Or.inr ⟨_, _, rfl, rfl⟩
  rcases hkw2 with ⟨e, e1, e2⟩ | ⟨kf, kf', k1, k2⟩
  · rw [e1] at h6
    rw [e2] at h6'
    rw [calculate_of_error h6, calculate_of_error h6']
    exact ⟨trivial, rfl⟩
  · have hs := hkw kf kf' k1 k2
    rw [k1] at h6
    rw [k2] at h6'
    simp only at h6 h6'
    cases hg : d.grating amp pin pout method kf draw with
    | error e =>
      cases hg' : d.grating amp' pin' pout' method kf' draw with
      | error e' =>
        rw [hg] at hs h6
        rw [hg'] at hs h6'
        have : e = e' := hs
        subst this
        rw [calculate_of_error h6, calculate_of_error h6']
        exact ⟨trivial, rfl⟩
      | ok g' => rw [hg, hg'] at hs; exact hs.elim
    | ok g =>
      cases hg' : d.grating amp' pin' pout' method kf' draw with
      | error e' => rw [hg, hg'] at hs; exact hs.elim
      | ok g' =>
        rw [hg] at hs h6
        rw [hg'] at hs h6'
        rw [calculate_of_grating h6, calculate_of_grating h6']
        exact ⟨hs, etaOf_smul ha hb mx⟩

/-- **C27**, negation: with a target that is zero everywhere, `calculate_dmd_state` raises
`ZeroDivisionError` only after it has already switched all mirrors off (method `simple`) - whatever the DMD
showed before is lost. -/
theorem C27_refuted {d : DMD} {h : Profile.Heap} {inp target : ProfArg} {window : Option ProfArg}
    {u T w : ℕ → ℕ → ℂ} (m : Matching d h inp target window u T w)
    (hT : ∀ k < d.slm.Ny, ∀ l < d.slm.Nx, T k l = 0) (kw : CalcKwargs) (draw : ℕ → ℕ → ℝ) :
    ∃ t : Tensor Bool, d.calculateDmdState h inp target "simple" window kw draw =
        ⟨.rebind (.bool t), .error .zeroDivisionError⟩ ∧
      (∀ i < d.slm.Ny, ∀ j < d.slm.Nx, t.get i j = false) ∧
      ∀ before, (d.calculateDmdState h inp target "simple" window kw draw).state before = .bool t := by
  obtain ⟨tin, amp, pin, pout, h1, h2, h3, h4, h5, h6⟩ := calcGrating_eq m "simple" kw draw
  have hF : ∀ i j, wspec d.slm T w i j = 0 := fun i j => by unfold wspec; rw [spectrum_zero d.slm hT, zero_mul]
  have hr : ∀ i j, ratio u (wspec d.slm T w) i j = .fin 0 := fun i j => by
    rw [ratio_fin (fun h0 => absurd (hF i j) h0), hF, norm_zero, zero_div]
  have hm := reduceMax_zero m.hNx m.hNy (fun i _ j _ => hr i j)
  rw [hm] at h3 h6
  obtain ⟨-, ⟨t, g1, g2, g3⟩, -⟩ := grating_elementwise h3 h4 h5 { r := kw.r, N := kw.N, s := kw.s } draw
  have h7 : d.forwardKwargs h tin "simple" kw = .ok { r := kw.r, N := kw.N, s := kw.s } := rfl
  rw [h7] at h6
  simp only at h6
  rw [g1] at h6
  have h8 : etaOf d.slm (.fin 0) = .error .zeroDivisionError := by
    unfold etaOf
    simp only [if_true, ite_self]
  have h9 := calculate_of_grating h6
  rw [h8] at h9
  refine ⟨t, h9, fun i hi j hj => ?_, fun before => by rw [h9]; rfl⟩
  rw [← Bool.not_eq_true]
  intro hc
  have := (g3 i hi j hj).mp hc
  rw [idealPixel_amp_nan (by simp only [pixelX, hr]; simp [XR.div, XR.divFin])] at this
  exact this

/-- **C27** (proved part): a target that is zero everywhere is always rejected with an exception.  Missing:
that `dmd_state` is left as it was, which is false (`C27_refuted`). -/
theorem C27_partial {d : DMD} {h : Profile.Heap} {inp target : ProfArg} {window : Option ProfArg}
    {u T w : ℕ → ℕ → ℂ} (m : Matching d h inp target window u T w)
    (hT : ∀ k < d.slm.Ny, ∀ l < d.slm.Nx, T k l = 0) (method : String) (kw : CalcKwargs) (draw : ℕ → ℕ → ℝ) :
    ∃ e, (d.calculateDmdState h inp target method window kw draw).result = .error e := by
  obtain ⟨tin, amp, pin, pout, h1, h2, h3, h4, h5, h6⟩ := calcGrating_eq m method kw draw
  have hF : ∀ i j, wspec d.slm T w i j = 0 := fun i j => by unfold wspec; rw [spectrum_zero d.slm hT, zero_mul]
  have hr : ∀ i j, ratio u (wspec d.slm T w) i j = .fin 0 := fun i j => by
    rw [ratio_fin (fun h0 => absurd (hF i j) h0), hF, norm_zero, zero_div]
  have hm := reduceMax_zero m.hNx m.hNy (fun i _ j _ => hr i j)
  rw [hm] at h6
  have h8 : etaOf d.slm (.fin 0) = .error .zeroDivisionError := by
    unfold etaOf
    simp only [if_true, ite_self]
  cases hk : d.forwardKwargs h tin method kw with
  | error e => rw [hk] at h6; rw [calculate_of_error h6]; exact ⟨e, rfl⟩
  | ok kf =>
    rw [hk] at h6
    simp only at h6
    cases hg : d.grating amp pin pout method kf draw with
    | error e => rw [hg] at h6; rw [calculate_of_error h6]; exact ⟨e, rfl⟩
    | ok g => rw [hg] at h6; rw [calculate_of_grating h6, h8]; exact ⟨_, rfl⟩

/-- **C28**, negation: if the input field is exactly zero at a pixel where the target's transform is not,
`calculate_dmd_state` returns normally (with `eta = 0`) and has switched all mirrors off, for the methods
`simple` and `random`. -/
theorem C28_refuted {d : DMD} {h : Profile.Heap} {inp target : ProfArg} {window : Option ProfArg}
    {u T w : ℕ → ℕ → ℂ} (m : Matching d h inp target window u T w) (hsc : d.slm.wavelength * d.slm.focal ≠ 0)
    (hdark : ∃ i < d.slm.Ny, ∃ j < d.slm.Nx, u i j = 0 ∧ spectrum d.slm T i j * w i j ≠ 0)
    (kw : CalcKwargs) (draw : ℕ → ℕ → ℝ) (hdraw : ∀ i j, 0 ≤ draw i j) :
    (∃ t : Tensor Bool, d.calculateDmdState h inp target "simple" window kw draw =
        ⟨.rebind (.bool t), .ok (.fin 0)⟩ ∧ ∀ i < d.slm.Ny, ∀ j < d.slm.Nx, t.get i j = false) ∧
    (∃ t : Tensor Bool, d.calculateDmdState h inp target "random" window kw draw =
        ⟨.rebind (.bool t), .ok (.fin 0)⟩ ∧ ∀ i < d.slm.Ny, ∀ j < d.slm.Nx, t.get i j = false) := by
  obtain ⟨i0, hi0, j0, hj0, hu, hF⟩ := hdark
  have hm := reduceMax_dark (T := T) (w := w) hi0 hj0 hu hF
  have h8 : etaOf d.slm .pinf = .ok (.fin 0) := by
    unfold etaOf
    rw [if_neg (show d.slm.scaling ≠ 0 from hsc)]
  have hA : ∀ i j, (ratio u (wspec d.slm T w) i j).div .pinf = .fin 0 ∨
      (ratio u (wspec d.slm T w) i j).div .pinf = .nan := by
    intro i j
    rcases ratio_cases u (wspec d.slm T w) i j with ⟨-, -, h0⟩ | ⟨-, h0⟩ <;> rw [h0]
    · exact Or.inr rfl
    · exact Or.inl rfl
  constructor
  · obtain ⟨tin, amp, pin, pout, h1, h2, h3, h4, h5, h6⟩ := calcGrating_eq m "simple" kw draw
    rw [hm] at h3 h6
    obtain ⟨-, ⟨t, g1, g2, g3⟩, -⟩ := grating_elementwise h3 h4 h5 { r := kw.r, N := kw.N, s := kw.s } draw
    have h7 : d.forwardKwargs h tin "simple" kw = .ok { r := kw.r, N := kw.N, s := kw.s } := rfl
    rw [h7] at h6
    simp only at h6
    rw [g1] at h6
    have h9 := calculate_of_grating h6
    rw [h8] at h9
    refine ⟨t, h9, fun i hi j hj => ?_⟩
    rw [← Bool.not_eq_true]
    intro hc
    have h10 := (g3 i hi j hj).mp hc
    rcases hA i j with h0 | h0
    · exact idealPixel_amp_zero_not (by simp only [pixelX]; exact h0) h10
    · rw [idealPixel_amp_nan (by simp only [pixelX]; exact h0)] at h10
      exact h10
  · obtain ⟨tin, amp, pin, pout, h1, h2, h3, h4, h5, h6⟩ := calcGrating_eq m "random" kw draw
    rw [hm] at h3 h6
    obtain ⟨-, -, ⟨t, g1, g2, g3⟩⟩ := grating_elementwise h3 h4 h5 { r := kw.r, N := kw.N, s := kw.s } draw
    have h7 : d.forwardKwargs h tin "random" kw = .ok { r := kw.r, N := kw.N, s := kw.s } := rfl
    rw [h7] at h6
    simp only at h6
    rw [g1] at h6
    have h9 := calculate_of_grating h6
    rw [h8] at h9
    refine ⟨t, h9, fun i hi j hj => ?_⟩
    rw [← Bool.not_eq_true]
    intro hc
    exact randomDuty_dark_not (by simp only [pixelX]; exact hA i j) (hdraw i j) ((g3 i hi j hj).mp hc)

/-- **C28** (proved part): the value returned tells.  For the methods `ideal`, `simple` and `random`, and a
target whose transform is not zero everywhere, `eta` is returned, it is finite and non-negative, and it is
zero exactly if the input field vanishes at some pixel where the transform does not.  Missing: that such an
input is reported (an exception or a warning), which is false (`C28_refuted`). -/
theorem C28_partial {d : DMD} {h : Profile.Heap} {inp target : ProfArg} {window : Option ProfArg}
    {u T w : ℕ → ℕ → ℂ} (m : Matching d h inp target window u T w)
    (hsc : 0 < d.slm.wavelength * d.slm.focal) (hps : d.slm.ps ≠ 0)
    (hne : ∃ i < d.slm.Ny, ∃ j < d.slm.Nx, spectrum d.slm T i j * w i j ≠ 0)
    {method : String} (hmethod : method = "ideal" ∨ method = "simple" ∨ method = "random")
    (kw : CalcKwargs) (draw : ℕ → ℕ → ℝ) :
    ∃ eta : ℝ, (d.calculateDmdState h inp target method window kw draw).result = .ok (.fin eta) ∧ 0 ≤ eta ∧
      (eta = 0 ↔ ∃ i < d.slm.Ny, ∃ j < d.slm.Nx, u i j = 0 ∧ spectrum d.slm T i j * w i j ≠ 0) := by
  obtain ⟨tin, amp, pin, pout, h1, h2, h3, h4, h5, h6⟩ := calcGrating_eq m method kw draw
  have h7 : d.forwardKwargs h tin method kw = .ok { r := kw.r, N := kw.N, s := kw.s } := by
    rcases hmethod with rfl | rfl | rfl <;> rfl
  have hg : ∃ g, d.grating amp pin pout method { r := kw.r, N := kw.N, s := kw.s } draw = .ok g := by
    obtain ⟨⟨t1, g1, -⟩, ⟨t2, g2, -⟩, ⟨t3, g3, -⟩⟩ :=
      grating_elementwise h3 h4 h5 { r := kw.r, N := kw.N, s := kw.s } draw
    rcases hmethod with rfl | rfl | rfl
    · exact ⟨_, g1⟩
    · exact ⟨_, g2⟩
    · exact ⟨_, g3⟩
  obtain ⟨g, hg⟩ := hg
  rw [h7] at h6
  simp only at h6
  rw [hg] at h6
  rw [calculate_of_grating h6]
  by_cases hdark : ∃ i < d.slm.Ny, ∃ j < d.slm.Nx, u i j = 0 ∧ spectrum d.slm T i j * w i j ≠ 0
  · obtain ⟨i0, hi0, j0, hj0, hu, hF⟩ := hdark
    rw [reduceMax_dark (T := T) (w := w) hi0 hj0 hu hF]
    refine ⟨0, ?_, le_refl _, by simp only [true_iff]; exact ⟨i0, hi0, j0, hj0, hu, hF⟩⟩
    unfold etaOf
    rw [if_neg (show d.slm.scaling ≠ 0 from hsc.ne')]
  · have hl : Lit d.slm u (wspec d.slm T w) :=
      ⟨fun i hi j hj hF hu => hdark ⟨i, hi, j, hj, hu, hF⟩, hne⟩
    obtain ⟨mx, hpos, hmx, -, -⟩ := amp_lit m.hNx m.hNy hl
    rw [hmx]
    have h0 : 0 < d.slm.scaling := hsc
    have hNx : (0 : ℝ) < d.slm.Nx := by exact_mod_cast m.hNx
    have hNy : (0 : ℝ) < d.slm.Ny := by exact_mod_cast m.hNy
    have hps2 : 0 < d.slm.ps ^ 2 := by positivity
    have h9 : 0 < d.slm.ps ^ 2 / d.slm.scaling * d.slm.Nx * d.slm.Ny / mx := by positivity
    refine ⟨_, etaOf_fin h0.ne' hpos.ne', h9.le, ?_⟩
    simp only [h9.ne', false_iff]
    exact hdark

/-! ## The hypotheses can be met -/

/-- A target that is 1 at one pixel. -/
def exSpot (k l : ℕ) : ℂ := if k = 0 ∧ l = 1 then 1 else 0

/-- The transform of a spot is nowhere zero. -/
theorem exSpot_spectrum (i j : ℕ) : spectrum Sim.exDmd.slm exSpot i j ≠ 0 := by
  have h : spectrum Sim.exDmd.slm exSpot i j = cexp (-(2 * Real.pi * I) *
      ((((i : ℂ) - (2 / 2 : ℕ)) * (((0 : ℕ) : ℂ) - (2 / 2 : ℕ)) / (2 : ℕ)) +
      ((j : ℂ) - (4 / 2 : ℕ)) * (((1 : ℕ) : ℂ) - (4 / 2 : ℕ)) / (4 : ℕ))) := by
    show (∑ k ∈ range 2, ∑ l ∈ range 4, exSpot k l * _) = _
    simp [Finset.sum_range_succ, exSpot, Sim.exDmd]
  rw [h]
  exact Complex.exp_ne_zero _

/-- An input array and a target array, in arrays. -/
def exArray (f : ℕ → ℕ → ℂ) : ProfArg := .ndarray .cplx ⟨.mat 2 4, f⟩

theorem exMatching (h : Profile.Heap) (u T : ℕ → ℕ → ℂ) :
    Matching Sim.exDmd h (exArray u) (exArray T) none u T (fun _ _ => 1) :=
  ⟨by decide, by decide, ⟨_, rfl, Tensor.denotes_of_mat rfl fun _ _ _ _ => rfl⟩, ⟨_, rfl, rfl, fun _ _ _ _ => rfl⟩,
    fun _ _ => rfl⟩

/-- C25, C28_partial: an input field without zeros and a spot, with a window given as an array. -/
example (h : Profile.Heap) : Matching Sim.exDmd h (exArray fun i j => i + j * I + 1) (exArray exSpot)
      (some (exArray fun i _ => i + 1)) (fun i j => i + j * I + 1) exSpot (fun i _ => i + 1) ∧
    0 < Sim.exDmd.slm.wavelength * Sim.exDmd.slm.focal ∧ Sim.exDmd.slm.ps ≠ 0 ∧
    (∀ i < Sim.exDmd.slm.Ny, ∀ j < Sim.exDmd.slm.Nx, spectrum Sim.exDmd.slm exSpot i j * ((i : ℂ) + 1) ≠ 0 →
      (i + j * I + 1 : ℂ) ≠ 0) ∧
    ∃ i < Sim.exDmd.slm.Ny, ∃ j < Sim.exDmd.slm.Nx, spectrum Sim.exDmd.slm exSpot i j * ((i : ℂ) + 1) ≠ 0 := by
  refine ⟨⟨by decide, by decide, ⟨_, rfl, Tensor.denotes_of_mat rfl fun _ _ _ _ => rfl⟩,
    ⟨_, rfl, rfl, fun _ _ _ _ => rfl⟩, ⟨_, rfl, Tensor.denotes_of_mat rfl fun _ _ _ _ => rfl⟩⟩,
    by norm_num [Sim.exDmd], by norm_num [Sim.exDmd], fun i _ j _ _ hc => ?_, 0, by decide, 0, by decide, ?_⟩
  · have := congrArg Complex.re hc
    simp at this
    have h0 : (0 : ℝ) ≤ i := Nat.cast_nonneg i
    linarith
  · simp only [Nat.cast_zero, zero_add, mul_one]
    exact exSpot_spectrum 0 0

/-- C25: keyword arguments for IFTA. -/
example (h : Profile.Heap) : Forwarded Sim.exDmd h (exArray fun i j => i + j * I + 1) "ifta"
    { N := some 3, signalWindow := some (exArray fun i _ => i) }
    { N := some 3, signalWindow := some ⟨.mat 2 4, fun i _ => i⟩,
      inputProfile := some ⟨.mat 2 4, fun i j => i + j * I + 1⟩ } :=
  ⟨rfl, rfl, rfl, fun _ => ⟨_, _, _, rfl, rfl, rfl, rfl, rfl⟩⟩

/-- C26: an input and a target with factors `2 i` and `3 i`. -/
example (h : Profile.Heap) : (0 : ℝ) < 2 ∧ (0 : ℝ) < 3 ∧ ‖I‖ = 1 ∧
    Matching Sim.exDmd h (exArray fun i j => i + j * I + 1) (exArray exSpot) none
      (fun i j => i + j * I + 1) exSpot (fun _ _ => 1) ∧
    Matching Sim.exDmd h (exArray fun i j => ((2 : ℝ) * I) * (i + j * I + 1))
      (exArray fun i j => ((3 : ℝ) * I) * exSpot i j) none
      (fun i j => ((2 : ℝ) * I) * (i + j * I + 1)) (fun i j => ((3 : ℝ) * I) * exSpot i j) (fun _ _ => 1) :=
  ⟨by norm_num, by norm_num, Complex.norm_I, exMatching h _ _, exMatching h _ _⟩

/-- C27: an all-on DMD loses its state although the call raises. -/
example (h : Profile.Heap) (kw : CalcKwargs) (draw : ℕ → ℕ → ℝ) :
    (Sim.exDmd.calculateDmdState h (exArray fun _ _ => 1) (exArray fun _ _ => 0) "simple" none kw draw).state
      Sim.exDmd.allOn ≠ Sim.exDmd.allOn := by
  obtain ⟨t, -, h2, h3⟩ := C27_refuted (exMatching h (fun _ _ => 1) (fun _ _ => 0)) (fun _ _ _ _ => rfl) kw draw
  rw [h3]
  intro hc
  have h4 := congrArg (fun a => match a with | StateArr.bool t => t.get 0 0 | _ => false) hc
  simp only [allOn] at h4
  rw [h2 0 (by decide) 0 (by decide)] at h4
  exact absurd h4 (by decide)

/-- C28: an input field that vanishes at one pixel only. -/
example (h : Profile.Heap) : Matching Sim.exDmd h (exArray fun i j => i + j * I) (exArray exSpot) none
      (fun i j => i + j * I) exSpot (fun _ _ => 1) ∧ Sim.exDmd.slm.wavelength * Sim.exDmd.slm.focal ≠ 0 ∧
    ∃ i < Sim.exDmd.slm.Ny, ∃ j < Sim.exDmd.slm.Nx,
      ((i : ℂ) + j * I) = 0 ∧ spectrum Sim.exDmd.slm exSpot i j * 1 ≠ 0 :=
  ⟨exMatching h _ _, by norm_num [Sim.exDmd], 0, by decide, 0, by decide, by simp,
    by rw [mul_one]; exact exSpot_spectrum 0 0⟩

end PySLM2.DMD
