import Verif.Props.ModeMatching
import Verif.Props.Stability

/-!
# C136: a simulated image as target
-/

noncomputable section

open Finset Complex

namespace PySLM2.DMD

open Lib Sim

/-- The transform of an image is the field on the SLM. -/
theorem targetFp_centredIdft {M N : ℕ} (f : ℕ → ℕ → ℂ) {k l : ℕ} (hk : k < M) (hl : l < N) :
    targetFp M N (centredIdft M N f) k l = f k l := by
  unfold centredIdft targetFp
  unfold fftshift2
  have h : ∀ a < M, ∀ b < N, ifftshift2 M N (fun i j => idft2 M N (ifftshift2 M N f)
      (fftshiftIdx M i) (fftshiftIdx N j)) a b = idft2 M N (ifftshift2 M N f) a b := by
    intro a ha b hb
    simp only [ifftshift2]
    rw [fftshift_ifftshift ha, fftshift_ifftshift hb]
  rw [dft2_congr h, dft2_idft2 _ (fftshiftIdx_lt hk) (fftshiftIdx_lt hl)]
  simp only [ifftshift2]
  rw [ifftshift_fftshift hk, ifftshift_fftshift hl]

/-- **C136.** The target is `c ≠ 0` times the image of the same input beam on an SLM of the same geometry whose pixels
pass the light, with any phase, or block it (simulated without padding).  Then `calculate_dmd_state` returns
`eta = 1 / |c|`, asks for the full amplitude at every illuminated pixel that passed the light and none at the others, with the
phase of the light that was passed, whatever the method. -/
theorem C136_round_trip {d : DMD} {h : Profile.Heap} {inp : ProfArg} {s : Sim} {u m : ℕ → ℕ → ℂ}
    (r : Ready s 0 0 h inp u m) (hdev : s.dev.slm = d.slm) (hsc : 0 < d.slm.wavelength * d.slm.focal)
    (hm : ∀ i < d.slm.Ny, ∀ j < d.slm.Nx, m i j = 0 ∨ ‖m i j‖ = 1)
    (hlight : ∃ i < d.slm.Ny, ∃ j < d.slm.Nx, u i j * m i j ≠ 0) {c : ℂ} (hc : c ≠ 0) :
    ∃ (img : Tensor ℂ) (A φ : ℕ → ℕ → ℝ), (s.propagate h inp).1.imageField = some img ∧
      (∀ i < d.slm.Ny, ∀ j < d.slm.Nx, A i j = (if u i j * m i j = 0 then 0 else 1) ∧ φ i j = arg (c * (u i j * m i j))) ∧
      ∀ (method : String) (kw : CalcKwargs) (kw' : Kwargs) (draw : ℕ → ℕ → ℝ), Forwarded d h inp method kw kw' →
        (∃ st st', d.calculateDmdState h inp (.ndarray .cplx (img.map (c * ·))) method none kw draw =
            ⟨.rebind st, .ok (.fin (1 / ‖c‖))⟩ ∧
          d.setDmdGratingState h (realArray d.slm A) (realArray d.slm fun i j => arg (u i j)) (realArray d.slm φ) method kw' draw =
              ⟨.rebind st', .ok ()⟩ ∧ st.Same st') ∨
        (∃ e, d.calculateDmdState h inp (.ndarray .cplx (img.map (c * ·))) method none kw draw = ⟨.none, .error e⟩ ∧
          d.setDmdGratingState h (realArray d.slm A) (realArray d.slm fun i j => arg (u i j)) (realArray d.slm φ) method kw' draw =
              ⟨.none, .error e⟩) := by
  classical
  have hNx : 0 < d.slm.Nx := hdev ▸ r.hNx
  have hNy : 0 < d.slm.Ny := hdev ▸ r.hNy
  have hps : d.slm.ps ≠ 0 := hdev ▸ r.hps
  set out : ℕ → ℕ → ℂ := fun i j => u i j * m i j with hout
  set g : ℝ := d.slm.ps ^ 2 * d.slm.Nx * d.slm.Ny / (d.slm.wavelength * d.slm.focal) with hg
  have hg0 : 0 < g := by positivity
  have hgain : s.gain = g := by
    unfold Sim.gain Sim.fourierPixelArea SLM.scaling
    rw [Sim.Nx_eq r.hpx, Sim.Ny_eq r.hpy, hdev, hg]
    push_cast
    simp
    ring
  set T : ℕ → ℕ → ℂ := fun k l => (c * g) * centredIdft d.slm.Ny d.slm.Nx out k l with hT
  have hspec : ∀ i < d.slm.Ny, ∀ j < d.slm.Nx, spectrum d.slm T i j = c * g * (u i j * m i j) := by
    intro i hi j hj
    rw [hT, spectrum_smul, ← spectrum_eq _ _ hi hj, targetFp_centredIdft _ hi hj]
  set img : Tensor ℂ := ⟨.mat (s.dev.slm.Ny + 2 * 0) (s.dev.slm.Nx + 2 * 0), fun i j =>
    centredIdft (s.dev.slm.Ny + 2 * 0) (s.dev.slm.Nx + 2 * 0) (pad2 s.dev.slm.Ny s.dev.slm.Nx 0 0 out) i j * (s.gain : ℂ)⟩ with himg
  have hval : ∀ k < d.slm.Ny, ∀ l < d.slm.Nx, c * img.get k l = T k l := by
    intro k hk l hl
    rw [himg, hT]
    simp only [Nat.mul_zero, Nat.add_zero, hdev, hgain]
    rw [centredIdft_eq _ hk hl, centredIdft_eq _ hk hl]
    have : ∀ i ∈ range d.slm.Ny, ∀ j ∈ range d.slm.Nx, pad2 d.slm.Ny d.slm.Nx 0 0 out i j = out i j := fun i hi j hj => by
      unfold pad2
      simp [mem_range.mp hi, mem_range.mp hj]
    rw [sum_congr rfl fun i hi => sum_congr rfl fun j hj => by rw [this i hi j hj]]
    ring
  have hmatch : Matching d h inp (.ndarray .cplx (img.map (c * ·))) none u T fun _ _ => 1 := by
    refine ⟨hNx, hNy, ?_, ⟨_, rfl, ?_, fun k hk l hl => hval k hk l hl⟩, fun _ _ => rfl⟩
    · obtain ⟨t, h1, h2, h3⟩ := r.input
      rw [hdev] at h1 h2 h3
      exact ⟨t, h1, by rw [h2]; exact bcast_self _ _, fun i hi j hj => (Tensor.at_eq_get h2 hi hj).trans (h3 i hi j hj)⟩
    · show Shape.mat (s.dev.slm.Ny + 2 * 0) (s.dev.slm.Nx + 2 * 0) = _
      rw [hdev]; rfl
  have hcg : c * (g : ℂ) ≠ 0 := mul_ne_zero hc (by exact_mod_cast hg0.ne')
  have hz : ∀ i < d.slm.Ny, ∀ j < d.slm.Nx, (spectrum d.slm T i j * 1 = 0 ↔ u i j * m i j = 0) := by
    intro i hi j hj
    rw [mul_one, hspec i hi j hj, mul_eq_zero, or_iff_right hcg]
  obtain ⟨A, eta, heta, hA, ⟨i0, hi0, j0, hj0, hA1⟩, hall⟩ := C25_normalised hmatch hsc hps
    (fun i hi j hj hne hu => hne ((hz i hi j hj).mpr (by rw [hu, zero_mul])))
    (by
      obtain ⟨i, hi, j, hj, hne⟩ := hlight
      exact ⟨i, hi, j, hj, fun h0 => hne ((hz i hi j hj).mp h0)⟩)
  have key : ∀ i < d.slm.Ny, ∀ j < d.slm.Nx, u i j * m i j ≠ 0 → A i j = eta * ‖c‖ := by
    intro i hi j hj hne
    obtain ⟨-, -, -, h4⟩ := hA i hi j hj
    have hm1 : ‖m i j‖ = 1 := (hm i hi j hj).resolve_left (right_ne_zero_of_mul hne)
    have hu : ‖u i j‖ ≠ 0 := norm_ne_zero_iff.mpr (left_ne_zero_of_mul hne)
    rw [mul_one, hspec i hi j hj, norm_mul, norm_mul, norm_mul, hm1, norm_real, Real.norm_of_nonneg hg0.le, hg] at h4
    have hden : d.slm.ps ^ 2 * (d.slm.Nx : ℝ) * d.slm.Ny ≠ 0 := by positivity
    have hsc' := hsc.ne'
    refine mul_right_cancel₀ hu (h4.trans ?_)
    generalize d.slm.wavelength * d.slm.focal = w at hsc' ⊢
    field_simp
  have hec : eta * ‖c‖ = 1 := by
    rw [← key i0 hi0 j0 hj0 ?_, hA1]
    intro h0
    have := (hA i0 hi0 j0 hj0).2.2.1.mpr ((hz i0 hi0 j0 hj0).mpr h0)
    rw [hA1] at this
    exact one_ne_zero this
  have heta' : eta = 1 / ‖c‖ := by
    rw [eq_div_iff (norm_ne_zero_iff.mpr hc), hec]
  refine ⟨img, A, _, by rw [propagate_ready r]; rfl, fun i hi j hj => ⟨?_, ?_⟩, heta' ▸ hall⟩
  · split_ifs with h0
    · exact (hA i hi j hj).2.2.1.mpr ((hz i hi j hj).mpr h0)
    · rw [key i hi j hj h0, hec]
  · rw [mul_one, hspec i hi j hj, mul_right_comm, mul_comm _ (g : ℂ), arg_real_mul _ hg0]

theorem tensor_same_trans {α : Type} {a b c : Tensor α} (h1 : a.Same b) (h2 : b.Same c) : a.Same c := by
  obtain ⟨sa, ga⟩ := a
  obtain ⟨sb, gb⟩ := b
  obtain ⟨sc, gc⟩ := c
  obtain ⟨e1, v1⟩ := h1
  obtain ⟨e2, v2⟩ := h2
  simp only at e1 e2
  subst e1 e2
  refine ⟨rfl, ?_⟩
  cases sa with
  | scalar => exact v1.trans v2
  | mat r c => exact fun i hi j hj => (v1 i hi j hj).trans (v2 i hi j hj)

theorem same_trans {a b c : StateArr} (h1 : a.Same b) (h2 : b.Same c) : a.Same c := by
  cases a <;> cases b <;> cases c <;> simp only [StateArr.Same] at h1 h2 ⊢
  all_goals exact tensor_same_trans h1 h2

/-- **C136**, perfect mode matching: the target is the image of the bare beam, times `c > 0`, and every pixel is illuminated.  Then
`eta = 1 / c`, and the hologram is the plain grating `set_dmd_grating_state(1, 0, 0)`. -/
theorem C136_perfect {d : DMD} {h : Profile.Heap} {inp : ProfArg} {s : Sim} {u : ℕ → ℕ → ℂ}
    (r : Ready s 0 0 h inp u fun _ _ => 1) (hdev : s.dev.slm = d.slm) (hsc : 0 < d.slm.wavelength * d.slm.focal)
    (hu : ∀ i < d.slm.Ny, ∀ j < d.slm.Nx, u i j ≠ 0) {c : ℝ} (hc : 0 < c) {method : String}
    (hmeth : method = "ideal" ∨ method = "simple" ∨ method = "random") {kw : CalcKwargs} {kw' : Kwargs}
    (hf : Forwarded d h inp method kw kw') (draw : ℕ → ℕ → ℝ) :
    ∃ img st st', (s.propagate h inp).1.imageField = some img ∧
      d.calculateDmdState h inp (.ndarray .cplx (img.map ((c : ℂ) * ·))) method none kw draw = ⟨.rebind st, .ok (.fin (1 / c))⟩ ∧
      d.setDmdGratingState h (.num (.real 1)) (.num (.real 0)) (.num (.real 0)) method kw' draw = ⟨.rebind st', .ok ()⟩ ∧
      st.Same st' := by
  have hNx : 0 < d.slm.Nx := hdev ▸ r.hNx
  have hNy : 0 < d.slm.Ny := hdev ▸ r.hNy
  obtain ⟨img, A, φ, h1, h2, h3⟩ := C136_round_trip r hdev hsc (fun _ _ _ _ => Or.inr norm_one)
    ⟨0, hNy, 0, hNx, by simpa using hu 0 hNy 0 hNx⟩ (ofReal_ne_zero.mpr hc.ne')
  have hA : ∀ i < d.slm.Ny, ∀ j < d.slm.Nx, A i j = 1 := fun i hi j hj => by
    rw [(h2 i hi j hj).1, if_neg (by simpa using hu i hi j hj)]
  have hφ : ∀ i < d.slm.Ny, ∀ j < d.slm.Nx, φ i j = arg (u i j) := fun i hi j hj => by
    rw [(h2 i hi j hj).2, mul_one, arg_real_mul _ hc]
  have hden : ∀ B B' : ℕ → ℕ → ℝ, (∀ i < d.slm.Ny, ∀ j < d.slm.Nx, B i j = B' i j) → RealArg d h (realArray d.slm B) B' :=
    fun B B' hB => ⟨_, rfl, bcast_self _ _, fun i hi j hj => by
      rw [Tensor.at_eq_get rfl hi hj, ← hB i hi j hj]
      simp [Tensor.map, castTo]⟩
  have hnum : ∀ (x : ℝ) (B' : ℕ → ℕ → ℝ), (∀ i < d.slm.Ny, ∀ j < d.slm.Nx, B' i j = x) → RealArg d h (.num (.real x)) B' :=
    fun x B' hB => ⟨_, rfl, rfl, fun i hi j hj => by
      rw [hB i hi j hj]
      simp [Tensor.at_, Tensor.map, Tensor.scalar]⟩
  obtain ⟨st1, st2, e1, e2, e3⟩ := C32_phase_difference (amp := realArray d.slm A) (amp' := .num (.real 1))
    (pin := realArray d.slm fun i j => arg (u i j)) (pin' := .num (.real 0)) (pout := realArray d.slm φ) (pout' := .num (.real 0))
    (A := A) (φin := fun i j => arg (u i j)) (φin' := fun _ _ => 0) (φout := φ) (φout' := fun _ _ => 0)
    ⟨hden _ _ fun _ _ _ _ => rfl, hden _ _ fun _ _ _ _ => rfl, hden _ _ fun _ _ _ _ => rfl⟩
    ⟨hnum _ _ hA, hnum _ _ fun _ _ _ _ => rfl, hnum _ _ fun _ _ _ _ => rfl⟩
    (fun i j => -arg (u i j)) (fun _ _ => 0) (fun _ _ => 0) (fun i _ j _ => by simp)
    (fun i hi j hj => by rw [hφ i hi j hj]; simp) kw' draw method hmeth
  rw [show (1 : ℝ) / ‖((c : ℝ) : ℂ)‖ = 1 / c by rw [norm_real, Real.norm_of_nonneg hc.le]] at h3
  rcases h3 method kw kw' draw hf with ⟨st, st', f1, f2, f3⟩ | ⟨e, -, f2⟩
  · rw [e1] at f2
    have : st1 = st' := by injection f2 with f2; injection f2
    subst this
    exact ⟨img, st, st2, h1, f1, e2, same_trans f3 e3⟩
  · rw [e1] at f2
    injection f2 with f2
    cases f2

/-! ## The hypotheses can be met -/

/-- C136_round_trip: the chequerboard on the 4 x 2 DMD. -/
example (h : Profile.Heap) : ∃ (u m : ℕ → ℕ → ℂ),
    Ready { exSim with px := 0, py := 0 } 0 0 h exInput u m ∧ 0 < exDmd.slm.wavelength * exDmd.slm.focal ∧
    (∀ i < exDmd.slm.Ny, ∀ j < exDmd.slm.Nx, m i j = 0 ∨ ‖m i j‖ = 1) ∧
    (∃ i < exDmd.slm.Ny, ∃ j < exDmd.slm.Nx, u i j * m i j ≠ 0) ∧ ∃ kw kw', Forwarded exDmd h exInput "ideal" kw kw' := by
  refine ⟨_, _, ⟨rfl, rfl, (exReady h).hNx, (exReady h).hNy, (exReady h).hsc, (exReady h).hps, (exReady h).input,
    (exReady h).modulation⟩, by norm_num [exDmd], fun i _ j _ => ?_, ⟨0, by decide, 0, by decide, by simp⟩, {}, {}, rfl, rfl, rfl, ?_⟩
  · split_ifs <;> simp
  · intro hc; simp at hc

/-- C136_perfect: all mirrors on, every pixel illuminated. -/
example (h : Profile.Heap) : ∃ u : ℕ → ℕ → ℂ,
    Ready ⟨.dmd exDmd exDmd.allOn, 0, 0, none, none, none⟩ 0 0 h exInput u (fun _ _ => 1) ∧
    ∀ i < exDmd.slm.Ny, ∀ j < exDmd.slm.Nx, u i j ≠ 0 := by
  refine ⟨_, ⟨rfl, rfl, (exReady h).hNx, (exReady h).hNy, (exReady h).hsc, (exReady h).hps, (exReady h).input,
    ⟨_, rfl, rfl, fun i _ j _ => ?_⟩⟩, fun i _ j _ hc => ?_⟩
  · simp [Tensor.map]
  · have := congrArg Complex.re hc
    simp at this
    have hi : (0 : ℝ) ≤ i := Nat.cast_nonneg i
    linarith

end PySLM2.DMD
