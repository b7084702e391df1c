import Verif.Props.ModeMatching

/-!
# C27, the other methods
-/

noncomputable section

namespace PySLM2

open Lib

namespace DMD

/-- **C27**, negation, for the other two elementwise methods: with a target that is zero everywhere, `calculate_dmd_state` raises `ZeroDivisionError`
after it has switched all mirrors off (`random`) or filled `dmd_state` with NaN (`ideal`). -/
theorem C27_refuted_methods {d : DMD} {h : Profile.Heap} {inp target : ProfArg} {window : Option ProfArg}
    {u T w : ℕ → ℕ → ℂ} (m : Matching d h inp target window u T w)
    (hT : ∀ k < d.slm.Ny, ∀ l < d.slm.Nx, T k l = 0) (kw : CalcKwargs) (draw : ℕ → ℕ → ℝ) :
    (∃ t : Tensor Bool, d.calculateDmdState h inp target "random" window kw draw = ⟨.rebind (.bool t), .error .zeroDivisionError⟩ ∧
      ∀ i < d.slm.Ny, ∀ j < d.slm.Nx, t.get i j = false) ∧
    ∃ t : Tensor XR, d.calculateDmdState h inp target "ideal" window kw draw = ⟨.rebind (.float t), .error .zeroDivisionError⟩ ∧
      ∀ i < d.slm.Ny, ∀ j < d.slm.Nx, t.get i j = .nan := by
  have hF : ∀ i j, wspec d.slm T w i j = 0 := fun i j => by unfold wspec; rw [spectrum_zero d.slm hT, zero_mul]
  have hr : ∀ i j, ratio u (wspec d.slm T w) i j = .fin 0 := fun i j => by
    rw [ratio_fin (fun h0 => absurd (hF i j) h0), hF, norm_zero, zero_div]
  have hm := reduceMax_zero m.hNx m.hNy (fun i _ j _ => hr i j)
  have h8 : etaOf d.slm (.fin 0) = .error .zeroDivisionError := by
    unfold etaOf
    simp only [if_true, ite_self]
  have hnan : ∀ (φ ψ : ℕ → ℕ → ℝ) i j,
      (d.pixelX (fun i j => (ratio u (wspec d.slm T w) i j).div (.fin 0)) φ ψ i j).amp = .nan := by
    intro φ ψ i j
    simp only [pixelX, hr]
    simp [XR.div, XR.divFin]
  constructor
  · obtain ⟨tin, amp, pin, pout, h1, h2, h3, h4, h5, h6⟩ := calcGrating_eq m "random" kw draw
    rw [hm] at h3 h6
    obtain ⟨-, -, ⟨t, g1, g2, g3⟩⟩ := grating_elementwise h3 h4 h5 { r := kw.r, N := kw.N, s := kw.s } draw
    have h7 : d.forwardKwargs h tin "random" kw = .ok { r := kw.r, N := kw.N, s := kw.s } := rfl
    rw [h7] at h6
    simp only at h6
    rw [g1] at h6
    have h9 := calculate_of_grating h6
    rw [h8] at h9
    refine ⟨t, h9, fun i hi j hj => ?_⟩
    rw [← Bool.not_eq_true]
    intro hc
    have := (g3 i hi j hj).mp hc
    unfold randomDuty at this
    rw [hnan] at this
    split_ifs at this
    · exact this
    · exact this
  · obtain ⟨tin, amp, pin, pout, h1, h2, h3, h4, h5, h6⟩ := calcGrating_eq m "ideal" kw draw
    rw [hm] at h3 h6
    obtain ⟨⟨t, g1, g2, g3⟩, -, -⟩ := grating_elementwise h3 h4 h5 { r := kw.r, N := kw.N, s := kw.s } draw
    have h7 : d.forwardKwargs h tin "ideal" kw = .ok { r := kw.r, N := kw.N, s := kw.s } := rfl
    rw [h7] at h6
    simp only at h6
    rw [g1] at h6
    have h9 := calculate_of_grating h6
    rw [h8] at h9
    refine ⟨t, h9, fun i hi j hj => ?_⟩
    rw [g3 i hi j hj]
    exact idealPixel_amp_nan (hnan _ _ i j)

/-- The hypotheses on a device of `Sim.exDmd` and a target of zeros. -/
example (h : Profile.Heap) (kw : CalcKwargs) (draw : ℕ → ℕ → ℝ) :
    (Sim.exDmd.calculateDmdState h (exArray fun _ _ => 1) (exArray fun _ _ => 0) "random" none kw draw).result = .error .zeroDivisionError := by
  obtain ⟨⟨t, h1, -⟩, -⟩ := C27_refuted_methods (exMatching h (fun _ _ => 1) (fun _ _ => 0)) (fun _ _ _ _ => rfl) kw draw
  rw [h1]

end DMD

end PySLM2
