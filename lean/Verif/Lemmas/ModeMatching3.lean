import Verif.Lemmas.ModeMatching2

/-! Helper lemmas about `calculate_dmd_state` as a whole. -/

noncomputable section

open Complex Finset

namespace PySLM2.DMD

open Lib

theorem phaseOutPixel_eq (z : ℂ) : phaseOutPixel z = arg z := by
  unfold phaseOutPixel
  by_cases h : z = 0
  · rw [if_pos h, h, arg_zero]
  · rw [if_neg h]

/-- Same state and success, or same error without effect. -/
theorem calculate_of_grating {d : DMD} {h : Profile.Heap} {inp target : ProfArg} {window : Option ProfArg}
    {method : String} {kw : CalcKwargs} {draw : ℕ → ℕ → ℝ} {g : StateArr} {m : XR}
    (hg : d.calcGrating h inp target method window kw draw = .ok (g, m)) :
    d.calculateDmdState h inp target method window kw draw = ⟨.rebind g, etaOf d.slm m⟩ := by
  unfold calculateDmdState
  rw [hg]

theorem calculate_of_error {d : DMD} {h : Profile.Heap} {inp target : ProfArg} {window : Option ProfArg}
    {method : String} {kw : CalcKwargs} {draw : ℕ → ℕ → ℝ} {e : PyErr}
    (hg : d.calcGrating h inp target method window kw draw = .error e) :
    d.calculateDmdState h inp target method window kw draw = ⟨.none, .error e⟩ := by
  unfold calculateDmdState
  rw [hg]
  rfl

theorem setGrating_of_grating {d : DMD} {h : Profile.Heap} {amp phaseIn phaseOut : ProfArg}
    {A φin φout : ℕ → ℕ → ℝ} (ga : GratingArgs d h amp phaseIn phaseOut A φin φout) :
    ∃ (ta : Tensor XR) (ti tj : Tensor ℝ), ta.Denotes d.slm.Ny d.slm.Nx (fun i j => .fin (A i j)) ∧
      ti.Denotes d.slm.Ny d.slm.Nx φin ∧ tj.Denotes d.slm.Ny d.slm.Nx φout ∧
      ∀ method kw draw, d.setDmdGratingState h amp phaseIn phaseOut method kw draw =
        match d.grating ta ti tj method kw draw with
        | .error e => ⟨.none, .error e⟩
        | .ok g => ⟨.rebind g, .ok ()⟩ := by
  obtain ⟨⟨ta, h1, d1⟩, ⟨ti, h2, d2⟩, ⟨tj, h3, d3⟩⟩ := ga
  refine ⟨ta.map XR.fin, ti, tj, d1.map XR.fin, d2, d3, fun method kw draw => ?_⟩
  unfold setDmdGratingState gratingOfArgs
  rw [h1]; simp only
  rw [h2]; simp only
  rw [h3]; rfl

theorem denotes_congr {α : Type} {t : Tensor α} {M N : ℕ} {f g : ℕ → ℕ → α} (h : t.Denotes M N f)
    (hfg : ∀ i < M, ∀ j < N, f i j = g i j) : t.Denotes M N g :=
  ⟨h.1, fun i hi j hj => (h.2 i hi j hj).trans (hfg i hi j hj)⟩

theorem forwarded_kwargs {d : DMD} {h : Profile.Heap} {inp : ProfArg} {method : String} {kw : CalcKwargs}
    {kw' : Kwargs} (hf : Forwarded d h inp method kw kw') {tin : Tensor ℂ} {u : ℕ → ℕ → ℂ}
    (hti : d.slm.profileToTensor h inp true true = .ok tin) (hd : tin.Denotes d.slm.Ny d.slm.Nx u) :
    ∃ kf, d.forwardKwargs h tin method kw = .ok kf ∧ kf.r = kw'.r ∧
      (method = "ifta" → kf.N = kw'.N ∧ kf.s = kw'.s ∧ kf.signalWindow = kw'.signalWindow ∧
      ∃ ti ti' u α, kf.inputProfile = some ti ∧ kw'.inputProfile = some ti' ∧ α ≠ 0 ∧
        ti.Denotes d.slm.Ny d.slm.Nx u ∧ ti'.Denotes d.slm.Ny d.slm.Nx (fun i j => α * u i j)) := by
  obtain ⟨h1, h2, h3, h4⟩ := hf
  unfold forwardKwargs
  by_cases hm : method = "ifta"
  · obtain ⟨w, tw, ti, h5, h6, h7, h8, h9⟩ := h4 hm
    rw [if_pos hm, h5]
    simp only
    rw [h6]
    rw [hti] at h8
    obtain rfl := Except.ok.inj h8
    refine ⟨_, rfl, h1.symm, fun _ => ⟨h2.symm, h3.symm, h7.symm, tin, tin, u, 1, rfl, h9, one_ne_zero, hd, ?_⟩⟩
    exact denotes_congr hd fun i _ j _ => (one_mul _).symm
  · rw [if_neg hm]
    exact ⟨_, rfl, h1.symm, fun h => absurd h hm⟩

/-- `calculate_dmd_state` for arguments where the amplitudes are finite. -/
theorem calculate_lit {d : DMD} {h : Profile.Heap} {inp target : ProfArg} {window : Option ProfArg}
    {u T w : ℕ → ℕ → ℂ} (m : Matching d h inp target window u T w) (hl : Lit d.slm u (wspec d.slm T w)) :
    ∃ mx, 0 < mx ∧
      (∀ i < d.slm.Ny, ∀ j < d.slm.Nx, ‖wspec d.slm T w i j‖ / ‖u i j‖ ≤ mx) ∧
      (∃ i < d.slm.Ny, ∃ j < d.slm.Nx, ‖wspec d.slm T w i j‖ / ‖u i j‖ = mx) ∧
      ∀ method kw draw, ∃ (tin : Tensor ℂ) (amp : Tensor XR) (pin pout : Tensor ℝ),
        d.slm.profileToTensor h inp true true = .ok tin ∧ tin.Denotes d.slm.Ny d.slm.Nx u ∧
        amp.Denotes d.slm.Ny d.slm.Nx (fun i j => .fin (‖wspec d.slm T w i j‖ / ‖u i j‖ / mx)) ∧
        pin.Denotes d.slm.Ny d.slm.Nx (fun i j => arg (u i j)) ∧
        pout.Denotes d.slm.Ny d.slm.Nx (fun i j => arg (wspec d.slm T w i j)) ∧
        d.calcGrating h inp target method window kw draw =
          match d.forwardKwargs h tin method kw with
          | .error e => .error e
          | .ok kw => match d.grating amp pin pout method kw draw with
            | .error e => .error e
            | .ok g => .ok (g, .fin mx) := by
  obtain ⟨mx, hpos, hmx, hle, hex⟩ := amp_lit m.hNx m.hNy hl
  refine ⟨mx, hpos, hle, hex, fun method kw draw => ?_⟩
  obtain ⟨tin, amp, pin, pout, h1, h2, h3, h4, h5, h6⟩ := calcGrating_eq m method kw draw
  refine ⟨tin, amp, pin, pout, h1, h2, ?_, h4, ?_, ?_⟩
  · refine denotes_congr h3 fun i hi j hj => ?_
    rw [hmx, ratio_fin (hl.1 i hi j hj), div_fin hpos.ne']
  · exact denotes_congr h5 fun i _ j _ => phaseOutPixel_eq _
  · rw [h6, hmx]
    rfl

theorem etaOf_fin {s : SLM} (hsc : s.scaling ≠ 0) {m : ℝ} (hm : m ≠ 0) :
    etaOf s (.fin m) = .ok (.fin (s.ps ^ 2 / s.scaling * s.Nx * s.Ny / m)) := by
  unfold etaOf
  rw [if_neg hsc]
  simp only
  rw [if_neg hm]

/-- The pixel values of the elementwise methods, amplitudes possibly not finite. -/
theorem grating_elementwise {d : DMD} {amp : Tensor XR} {pin pout : Tensor ℝ} {A : ℕ → ℕ → XR}
    {φin φout : ℕ → ℕ → ℝ} (ha : amp.Denotes d.slm.Ny d.slm.Nx A) (hi : pin.Denotes d.slm.Ny d.slm.Nx φin)
    (ho : pout.Denotes d.slm.Ny d.slm.Nx φout) (kw : Kwargs) (draw : ℕ → ℕ → ℝ) :
    (∃ t, d.grating amp pin pout "ideal" kw draw = .ok (.float t) ∧ t.shape = .mat d.slm.Ny d.slm.Nx ∧
      ∀ i < d.slm.Ny, ∀ j < d.slm.Nx, t.get i j = idealPixel d.p d.theta d.neg (d.pixelX A φin φout i j)) ∧
    (∃ t, d.grating amp pin pout "simple" kw draw = .ok (.bool t) ∧ t.shape = .mat d.slm.Ny d.slm.Nx ∧
      ∀ i < d.slm.Ny, ∀ j < d.slm.Nx, (t.get i j = true ↔
        (idealPixel d.p d.theta d.neg (d.pixelX A φin φout i j)).gtFin 0.5)) ∧
    (∃ t, d.grating amp pin pout "random" kw draw = .ok (.bool t) ∧ t.shape = .mat d.slm.Ny d.slm.Nx ∧
      ∀ i < d.slm.Ny, ∀ j < d.slm.Nx, (t.get i j = true ↔
        (randomDuty d.p d.theta (kw.r.getD 10) d.neg (d.pixelX A φin φout i j)).gtFin (draw i j))) := by
  classical
  have hs : gratingShape amp pin pout d.slm.fourierGrid.1 d.slm.fourierGrid.2 =
      some (.mat d.slm.Ny d.slm.Nx) := gratingShape_of ha.1 hi.1 ho.1 rfl rfl
  unfold grating calculateDmdGrating
  rw [hs]
  refine ⟨⟨_, rfl, rfl, fun i h1 j h2 => ?_⟩, ⟨_, rfl, rfl, fun i h1 j h2 => ?_⟩, ⟨_, rfl, rfl, fun i h1 j h2 => ?_⟩⟩
  · simp only
    rw [pixAt_eqX ha hi ho h1 h2]
  · simp only [simplePixel]
    rw [decide_eq_true_iff, pixAt_eqX ha hi ho h1 h2]
  · simp only [randomPixel]
    rw [decide_eq_true_iff, pixAt_eqX ha hi ho h1 h2]

theorem reduceMax_dark {s : SLM} {u T w : ℕ → ℕ → ℂ} {i j : ℕ} (hi : i < s.Ny) (hj : j < s.Nx)
    (hu : u i j = 0) (hF : spectrum s T i j * w i j ≠ 0) :
    reduceMax s.Ny s.Nx (ratio u (wspec s T w)) = .pinf := by
  refine reduceMax_pinf (fun a _ b _ => ?_) ⟨i, hi, j, hj, ratio_dark hF hu⟩
  rcases ratio_cases u (wspec s T w) a b with ⟨-, -, h0⟩ | ⟨-, h0⟩
  · exact Or.inl h0
  · exact Or.inr ⟨_, h0⟩

theorem reduceMax_zero {s : SLM} (hNx : 0 < s.Nx) (hNy : 0 < s.Ny) {f : ℕ → ℕ → XR}
    (hf : ∀ i < s.Ny, ∀ j < s.Nx, f i j = .fin 0) : reduceMax s.Ny s.Nx f = .fin 0 := by
  obtain ⟨m, hm, -, _, _, _, _, h0⟩ := reduceMax_fin (g := fun _ _ => 0) hNy hNx hf
  rw [hm, ← h0]

theorem ampX_dark {s : SLM} {u T w : ℕ → ℕ → ℂ} {mx : XR}
    (hmx : mx = reduceMax s.Ny s.Nx (ratio u (wspec s T w))) {i j : ℕ} (hi : i < s.Ny) (hj : j < s.Nx)
    (h0 : ¬(u i j ≠ 0 ∧ wspec s T w i j ≠ 0)) :
    (ratio u (wspec s T w) i j).div mx = .fin 0 ∨ (ratio u (wspec s T w) i j).div mx = .nan := by
  by_cases hF : wspec s T w i j = 0
  · rw [ratio_fin (fun h => absurd hF h), hF, norm_zero, zero_div]
    cases mx with
    | fin m =>
      by_cases hm : m = 0
      · right; rw [hm]; simp [XR.div, XR.divFin]
      · left; rw [div_fin hm, zero_div]
    | pinf => exact Or.inl rfl
    | ninf => exact Or.inl rfl
    | nan => exact Or.inr rfl
  · have hu : u i j = 0 := by
      by_contra hu
      exact h0 ⟨hu, hF⟩
    right
    rw [hmx, reduceMax_dark hi hj hu hF, ratio_dark hF hu]
    rfl

theorem etaOf_smul {s : SLM} {a b : ℝ} (ha : 0 < a) (hb : 0 < b) (m : XR) :
    etaOf s (m.smul (b / a)) = (etaOf s m).map fun eta => eta.mul (.fin (a / b)) := by
  unfold etaOf
  by_cases hs : s.scaling = 0
  · rw [if_pos hs, if_pos hs]; rfl
  rw [if_neg hs, if_neg hs]
  cases m with
  | fin m =>
    simp only [XR.smul]
    by_cases hm : m = 0
    · rw [if_pos (by rw [hm, mul_zero]), if_pos hm]; rfl
    · rw [if_neg (mul_ne_zero (div_pos hb ha).ne' hm), if_neg hm]
      show _ = Except.ok (XR.fin _)
      congr 2
      field_simp
  | pinf => simp [XR.smul, Except.map, XR.mul]
  | ninf => simp [XR.smul, Except.map, XR.mul]
  | nan => rfl

theorem idealPixel_amp_nan {p theta : ℝ} {neg : Bool} {q : Pix} (h : q.amp = .nan) :
    idealPixel p theta neg q = .nan := by
  unfold idealPixel
  rw [h]
  split_ifs <;> rfl

theorem idealPixel_amp_zero_not {p theta : ℝ} {neg : Bool} {q : Pix} (h : q.amp = .fin 0) :
    ¬(idealPixel p theta neg q).gtFin 0.5 := by
  unfold idealPixel
  rw [h]
  split_ifs
  · exact fun h => h
  · simp only [XR.mul, XR.gtFin]
    norm_num

theorem randomDuty_dark_not {p theta r : ℝ} {neg : Bool} {q : Pix} {x : ℝ} (h : q.amp = .fin 0 ∨ q.amp = .nan)
    (hx : 0 ≤ x) : ¬(randomDuty p theta r neg q).gtFin x := by
  unfold randomDuty
  split_ifs
  · exact fun h => h
  rcases h with h | h <;> rw [h]
  · have h1 : asinX (.fin 0) = .fin 0 := by
      show (if -1 ≤ (0 : ℝ) ∧ (0 : ℝ) ≤ 1 then XR.fin (Real.arcsin 0) else .nan) = _
      rw [if_pos (by norm_num), Real.arcsin_zero]
    rw [h1]
    simp only [XR.gtFin, add_zero, sub_zero, sub_self, mul_zero]
    exact not_lt.mpr hx
  · exact fun h => h

end PySLM2.DMD
