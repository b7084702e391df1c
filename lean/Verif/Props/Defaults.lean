import Verif.Model.Defaults
import Verif.Props.RandomSteepness

/-!
# C108: omitted arguments
-/

noncomputable section

namespace PySLM2.DMD

open Lib

/-- **C108.** Omitting `r`, `N` or `s` in `set_dmd_grating_state` or `circular_patch` is passing `r=10`, `N=200`, `s=1`;
`r` matters to method `random` only, the other keywords matter to method `ifta` only.  Whatever the other arguments are,
also when the call fails. -/
theorem C108_grating (d : DMD) (h : Profile.Heap) (amp pin pout : ProfArg) (method : String) (kw kw' : Kwargs)
    (draw : ℕ → ℕ → ℝ) (hr : method = "random" → kw'.r = some (kw.r.getD 10))
    (hi : method = "ifta" → kw'.N = some (kw.N.getD 200) ∧ kw'.s = some (kw.s.getD 1) ∧
      kw'.inputProfile = kw.inputProfile ∧ kw'.signalWindow = kw.signalWindow) :
    d.setDmdGratingState h amp pin pout method kw' draw = d.setDmdGratingState h amp pin pout method kw draw ∧
    ∀ cur i j dia, d.circularPatch h cur i j amp pin pout dia method kw' draw =
      d.circularPatch h cur i j amp pin pout dia method kw draw := by
  have key : ∀ (a : Tensor XR) (b c : Tensor ℝ), d.grating a b c method kw' draw = d.grating a b c method kw draw := by
    intro a b c
    unfold grating calculateDmdGrating
    by_cases h1 : method = "random"
    · simp only [h1, hr h1, Option.getD_some]
      simp
    · by_cases h2 : method = "ifta"
      · obtain ⟨h3, h4, h5, h6⟩ := hi h2
        simp only [h3, h4, h5, h6, Option.getD_some]
        subst h2
        simp
      · simp only [if_neg h1, if_neg h2]
  have key2 : d.gratingOfArgs h amp pin pout method kw' draw = d.gratingOfArgs h amp pin pout method kw draw := by
    unfold gratingOfArgs
    simp only [key]
  unfold setDmdGratingState circularPatch
  rw [key2]
  exact ⟨rfl, fun _ _ _ _ => rfl⟩

/-- **C108** for `calculate_dmd_state`: likewise, and `signal_window` matters to method `ifta` only. -/
theorem C108_state (d : DMD) (h : Profile.Heap) (inp target : ProfArg) (method : String) (window : Option ProfArg)
    (kw kw' : CalcKwargs) (draw : ℕ → ℕ → ℝ) (hr : method = "random" → kw'.r = some (kw.r.getD 10))
    (hi : method = "ifta" → kw'.N = some (kw.N.getD 200) ∧ kw'.s = some (kw.s.getD 1) ∧
      kw'.signalWindow = kw.signalWindow) :
    d.calculateDmdState h inp target method window kw' draw = d.calculateDmdState h inp target method window kw draw := by
  have key : ∀ (t : Tensor ℂ) (a : Tensor XR) (b c : Tensor ℝ),
      (match d.forwardKwargs h t method kw' with
        | .error e => .error e
        | .ok k => d.grating a b c method k draw : Except PyErr StateArr) =
      (match d.forwardKwargs h t method kw with
        | .error e => .error e
        | .ok k => d.grating a b c method k draw) := by
    intro t a b c
    unfold forwardKwargs grating calculateDmdGrating
    by_cases h1 : method = "random"
    · subst h1
      simp [hr rfl]
    · by_cases h2 : method = "ifta"
      · obtain ⟨h3, h4, h5⟩ := hi h2
        subst h2
        rw [h3, h4, h5]
        cases kw.signalWindow with
        | none => rfl
        | some w =>
          simp only [if_true]
          cases d.slm.profileToTensor h w false true with
          | error e => rfl
          | ok w => simp
      · simp only [if_neg h1, if_neg h2]
  have key2 : d.calcGrating h inp target method window kw' draw = d.calcGrating h inp target method window kw draw := by
    unfold calcGrating
    cases d.slm.profileToTensor h inp true true with
    | error e => rfl
    | ok ti =>
      simp only
      cases d.slm.profileToTensor h target false true with
      | error e => rfl
      | ok tt =>
        simp only
        cases d.windowTensor h window with
        | error e => rfl
        | ok w =>
          simp only
          cases calcAmpPhase ti tt w with
          | error e => rfl
          | ok ap =>
            simp only
            have h1 := key ti ap.ampScaled ap.phaseIn ap.phaseOut
            cases hk' : d.forwardKwargs h ti method kw' with
            | error e =>
              cases hk : d.forwardKwargs h ti method kw with
              | error e' => rw [hk, hk'] at h1; simp only at h1 ⊢; rw [Except.error.inj h1]
              | ok k => rw [hk, hk'] at h1; simp only at h1 ⊢; rw [← h1]
            | ok k' =>
              cases hk : d.forwardKwargs h ti method kw with
              | error e' => rw [hk, hk'] at h1; simp only at h1 ⊢; rw [h1]
              | ok k => rw [hk, hk'] at h1; simp only at h1 ⊢; rw [h1]
  unfold calculateDmdState
  rw [key2]

/-- **C108**, no arguments at all: `dmd.set_dmd_grating_state()` shows the plain grating of the device with the random
method of steepness 10: lines of half the period wide, centred where the carrier phase is a multiple of `2 pi`, with
edges blurred as in C107. -/
theorem C108_plain (s : SLM) (periodicity theta : ℝ) (hp : periodicity * s.ps ≠ 0) (h : Profile.Heap)
    (draw : ℕ → ℕ → ℝ) :
    let d := DMD.newCall s periodicity theta none
    ∃ t : Tensor Bool, d.setDmdGratingStateCall h none none none none {} draw = ⟨.rebind (.bool t), .ok ()⟩ ∧
      t.shape = .mat s.Ny s.Nx ∧ ∀ i < s.Ny, ∀ j < s.Nx, ∀ ε : ℝ,
        let x := 2 * Real.pi * ((s.fourierGrid.1.get i j * Real.cos theta + s.fourierGrid.2.get i j * Real.sin theta) /
          (periodicity * s.ps))
        ((∃ n : ℤ, |x - 2 * Real.pi * n| ≤ Real.pi / 2 - ε) → draw i j < 1 - 2 * Real.exp (-20 * ε) →
          t.get i j = true) ∧
        ((∀ n : ℤ, Real.pi / 2 + ε ≤ |x - 2 * Real.pi * n|) → Real.exp (-20 * ε) ≤ draw i j → t.get i j = false) := by
  intro d
  have g : GratingArgs d h (.num (.real 1)) (.num (.real 0)) (.num (.real 0)) (fun _ _ => 1) (fun _ _ => 0)
      (fun _ _ => 0) := by
    refine ⟨⟨_, rfl, rfl, fun i _ j _ => ?_⟩, ⟨_, rfl, rfl, fun i _ j _ => ?_⟩,
      ⟨_, rfl, rfl, fun i _ j _ => ?_⟩⟩ <;> simp [Tensor.at_, Tensor.map, Tensor.scalar]
  obtain ⟨t, h1, h2, h3⟩ := C107_sharp (d := d) g hp { r := some 10 } draw (r := 10) (by norm_num) rfl
  refine ⟨t, ?_, h2, ?_⟩
  · rw [← h1]
    exact ((C108_grating d h _ _ _ "random" {} { r := some 10 } draw (fun _ => rfl) (fun h => by simp at h)).1).symm
  · intro i hi j hj ε x
    have h4 := h3 i hi j hj (by norm_num) le_rfl ε
    have hx : d.detuning (fun _ _ => 0) (fun _ _ => 0) i j = x := by
      simp only [DMD.detuning, DMD.carrier, d, DMD.newCall, DMD.new, x]
      simp
    rw [hx, Real.arcsin_one] at h4
    norm_num at h4 ⊢
    exact h4

/-- **C108**, other omitted arguments: the method of `circular_patch` and `calculate_dmd_state` is `random`, the method of
`calculate_hologram` is `gs`, a simulation has no padding. -/
theorem C108_methods (d : DMD) (h : Profile.Heap) (cur : StateArr) (i j dia : ℝ) (amp pin pout inp target : ProfArg)
    (window : Option ProfArg) (kw : Kwargs) (ckw : CalcKwargs) (l : LCOS) (lkw : LCOS.Kwargs) (draw : ℕ → ℕ → ℝ)
    (dev : Device) :
    d.circularPatchCall h cur i j amp pin pout dia none kw draw =
      d.circularPatch h cur i j amp pin pout dia "random" kw draw ∧
    d.calculateDmdStateCall h inp target none window ckw draw =
      d.calculateDmdState h inp target "random" window ckw draw ∧
    l.calculateHologramCall h inp target none lkw draw = l.calculateHologram h inp target "gs" lkw draw ∧
    (∃ s, Sim.newSLMCall (.dev dev) none none = .ok s ∧ s.Nx = dev.slm.Nx ∧ s.Ny = dev.slm.Ny ∧
      s.fourierPaddedGrid = .ok dev.slm.fourierGrid) ∧
    ∃ s, Sim.newDMDCall (.dev (.dmd d cur)) none none = .ok s ∧ s.Nx = d.slm.Nx ∧ s.Ny = d.slm.Ny ∧
      s.fourierPaddedGrid = .ok d.slm.fourierGrid := by
  have key : ∀ dev : Device, (⟨dev, 0, 0, none, none, none⟩ : Sim).fourierPaddedGrid = .ok dev.slm.fourierGrid := by
    intro dev
    have h1 : (⟨dev, 0, 0, none, none, none⟩ : Sim).fourierPaddedX = dev.slm.fourierX := by
      funext i j; simp [Sim.fourierPaddedX, SLM.fourierX]
    have h2 : (⟨dev, 0, 0, none, none, none⟩ : Sim).fourierPaddedY = dev.slm.fourierY := by
      funext i j; simp [Sim.fourierPaddedY, SLM.fourierY]
    rw [fourierPaddedGrid_ok (by simp [Sim.NxInt]) (by simp [Sim.NyInt])]
    unfold SLM.fourierGrid
    rw [h1, h2]
    rfl
  exact ⟨rfl, rfl, rfl, ⟨_, rfl, rfl, rfl, key _⟩, ⟨_, rfl, rfl, rfl, key _⟩⟩

/-- **C108** for holograms: omitting `N` is passing `N=200`, omitting `mixing_factor` is passing 0.4; `mixing_factor` and
`signal_window` matter to method `mraf` only. -/
theorem C108_hologram (l : LCOS) (h : Profile.Heap) (inp target : ProfArg) (method : String) (kw kw' : LCOS.Kwargs)
    (draw : ℕ → ℕ → ℝ) (hN : kw'.N = some (kw.N.getD 200))
    (hm : method = "mraf" → kw'.mixingFactor = some (kw.mixingFactor.getD 0.4) ∧ kw'.signalWindow = kw.signalWindow) :
    l.calculateHologram h inp target method kw' draw = l.calculateHologram h inp target method kw draw := by
  have key : ∀ (t : Tensor ℂ) (a : Tensor ℝ),
      (match LCOS.forwardKwargs l.slm h method kw' with
        | .error e => .error e
        | .ok k => calculateLcosSlmHologram t a method k draw : Except PyErr (Tensor ℝ)) =
      (match LCOS.forwardKwargs l.slm h method kw with
        | .error e => .error e
        | .ok k => calculateLcosSlmHologram t a method k draw) := by
    intro t a
    unfold LCOS.forwardKwargs calculateLcosSlmHologram
    by_cases h1 : method = "mraf"
    · obtain ⟨h3, h4⟩ := hm h1
      subst h1
      rw [hN, h3, h4]
      cases kw.signalWindow with
      | none => rfl
      | some w =>
        simp only [if_true]
        cases l.slm.profileToTensor h w false true with
        | error e => rfl
        | ok w => simp
    · simp only [if_neg h1, hN, Option.getD_some]
  have key2 : LCOS.hologram l.slm h inp target method kw' draw = LCOS.hologram l.slm h inp target method kw draw := by
    unfold LCOS.hologram
    cases l.slm.profileToTensor h inp true true with
    | error e => rfl
    | ok ti =>
      simp only
      cases l.slm.profileToReal h target false with
      | error e => rfl
      | ok tt => exact key ti tt
  unfold LCOS.calculateHologram
  rw [key2]

/-- The hypotheses are satisfiable with omitted keywords, also for `ifta` and `mraf`. -/
example (w : ProfArg) : let kw : CalcKwargs := { signalWindow := some w }
    let kw' : CalcKwargs := { N := some 200, s := some 1, r := some 3, signalWindow := some w }
    ("ifta" = "random" → kw'.r = some (kw.r.getD 10)) ∧
    ("ifta" = "ifta" → kw'.N = some (kw.N.getD 200) ∧ kw'.s = some (kw.s.getD 1) ∧ kw'.signalWindow = kw.signalWindow) := by
  simp

end PySLM2.DMD
