import Verif.Spec.Benchmarks
import Verif.Props.EmptyWindow
import Verif.Props.Unreachable
import Verif.Props.Defaults
import Verif.Props.Ifta
import Verif.Lemmas.ProfileHistory

/-!
# C149: the benchmark scripts
-/

noncomputable section

open Complex

namespace PySLM2.Benchmarks

open Profile LCOS Lib
open DMD (gaussian_array gaussianBeam gaussianBeam_ne_zero profile_target newHg_cells imageGrid_centre TargetArg
  eval_gaussian Matching Lit wspec calculate_lit calculate_of_grating grating_ifta grating_elementwise etaOf_fin calcGrating)

theorem newRect_cx (h : Heap) (x0 y0 wx wy : ℝ) : (newRect h x0 y0 wx wy).1.cx = h.cx := rfl

theorem sample_congr {h h' : Heap} {f : Prof} (hf : ∀ x y, eval h f x y = eval h' f x y) (x y : Tensor ℝ) :
    sample h f x y = sample h' f x y := by
  unfold sample
  simp only [hf]

theorem profileToTensor_congr {h h' : Heap} {f : Prof} (hf : ∀ x y, eval h f x y = eval h' f x y) (s : SLM) (a c : Bool) :
    s.profileToTensor h (.prof f) a c = s.profileToTensor h' (.prof f) a c := by
  unfold SLM.profileToTensor
  simp only [sample_congr hf]

/-- Method `gs` on profiles depends on the heap through the values of the profiles only. -/
theorem hologram_gs_congr {h h' : Heap} {f g : Prof} (hf : ∀ x y, eval h f x y = eval h' f x y)
    (hg : ∀ x y, eval h g x y = eval h' g x y) (l : LCOS) {kw kw' : LCOS.Kwargs} {N : ℕ} (hN : kw.N = some N) (hN' : kw'.N = some N) (u : ℕ → ℕ → ℝ) :
    l.calculateHologram h (.prof f) (.prof g) "gs" kw u = l.calculateHologram h' (.prof f) (.prof g) "gs" kw' u := by
  have h1 : l.calculateHologram h (.prof f) (.prof g) "gs" kw u = l.calculateHologram h' (.prof f) (.prof g) "gs" kw u := by
    unfold calculateHologram hologram SLM.profileToReal
    simp only [profileToTensor_congr hf, profileToTensor_congr hg, LCOS.forwardKwargs]
    rfl
  rw [h1]
  have e1 := DMD.C108_hologram l h' (.prof f) (.prof g) "gs" kw { N := some N } u (by rw [hN]; rfl) (fun hc => absurd hc (by decide))
  have e2 := DMD.C108_hologram l h' (.prof f) (.prof g) "gs" kw' { N := some N } u (by rw [hN']; rfl) (fun hc => absurd hc (by decide))
  rw [← e1, ← e2]

/-- The arguments of the two tasks on an SLM. -/
theorem slm_args (h : Heap) {wavelength focal win wout : ℝ} (side : ℝ) (hwf : wavelength * focal ≠ 0) (hin : win ≠ 0)
    (hout : wout ≠ 0) :
    let l := LCOS.new (Model.PLUTO_2.slm wavelength focal)
    let input := newHermiteGaussian h 0 0 1 win 0 0
    let output := newHermiteGaussian input.1 0 0 1 wout 1 1
    let window := newRect output.1 (l.slm.Nx / 2 : ℕ) (l.slm.Ny / 2 : ℕ) side side
    ∃ T : ℕ → ℕ → ℝ, T (l.slm.Ny / 2) (l.slm.Nx / 2) = 0 ∧
      HologramArgs l.slm output.1 (.prof input.2) (.prof output.2) (gaussianBeam l.slm 0 0 1 win) T ∧
      HologramArgs l.slm window.1 (.prof input.2) (.prof output.2) (gaussianBeam l.slm 0 0 1 win) T ∧
      (|wavelength * focal| / (2 * (8 * 1e-6)) + side / 2 ≤ 960 → TargetArg l.slm window.1 (.prof window.2) fun _ _ => 0) ∧
      (∀ x y, eval window.1 input.2 x y = eval output.1 input.2 x y) ∧
      (∀ x y, eval window.1 output.2 x y = eval output.1 output.2 x y) := by
  intro l input output window
  obtain ⟨c1, c2, c3, c4, c5, c6, -⟩ := newHg_cells h 0 0 1 win 0 0
  obtain ⟨d1, d2, d3, d4, d5, d6, d7⟩ := newHg_cells input.1 0 0 1 wout 1 1
  have e7 := newRect_frame output.1 (l.slm.Nx / 2 : ℕ) (l.slm.Ny / 2 : ℕ) side side
  change input.2 = _ at c1
  change input.1.next = _ at c2
  change input.1.re _ = _ at c3 c4 c5 c6
  rw [c2] at d1 d2 d3 d4 d5 d6 d7
  change output.2 = _ at d1
  change output.1.next = _ at d2
  change output.1.re _ = _ at d3 d4 d5 d6
  change ∀ i < _, output.1.re i = input.1.re i at d7
  rw [d2] at e7
  change ∀ i < _, window.1.re i = output.1.re i at e7
  have hps : l.slm.ps ≠ 0 := by show (8 * 1e-6 : ℝ) ≠ 0; norm_num
  have hg : l.slm.imageGrid = .ok (⟨.mat l.slm.Ny l.slm.Nx, imageX l.slm.Nx l.slm.ps l.slm.scaling⟩,
      ⟨.mat l.slm.Ny l.slm.Nx, imageY l.slm.Ny l.slm.ps l.slm.scaling⟩) := by
    unfold SLM.imageGrid imageGridOf
    rw [if_neg]
    push Not
    exact ⟨mul_ne_zero (by show ((1920 : ℕ) : ℝ) ≠ 0; norm_num) hps, mul_ne_zero (by show ((1080 : ℕ) : ℝ) ≠ 0; norm_num) hps⟩
  have hNx : 0 < l.slm.Nx := show 0 < 1920 by norm_num
  have hNy : 0 < l.slm.Ny := show 0 < 1080 by norm_num
  have v1 : ∀ x y, eval window.1 input.2 x y = eval output.1 input.2 x y := fun x y => by
    refine eval_congr _ ?_ x y
    rw [c1]
    intro c hc
    simp only [cells, List.mem_cons, List.not_mem_nil, or_false] at hc
    exact ⟨e7 c (by omega), congrFun (newRect_cx _ _ _ _ _) c⟩
  have v2 : ∀ x y, eval window.1 output.2 x y = eval output.1 output.2 x y := fun x y => by
    refine eval_congr _ ?_ x y
    rw [d1]
    intro c hc
    simp only [cells, List.mem_cons, List.not_mem_nil, or_false] at hc
    exact ⟨e7 c (by omega), congrFun (newRect_cx _ _ _ _ _) c⟩
  refine ⟨fun k j => Spec.hermiteGauss 0 0 1 wout 1 1 (imageX l.slm.Nx l.slm.ps l.slm.scaling k j)
    (imageY l.slm.Ny l.slm.ps l.slm.scaling k j), ?_, ?_, ?_, ?_, v1, v2⟩
  · obtain ⟨h1, h2, -⟩ := imageGrid_centre hg (show 1 < 1920 by norm_num) hNy hwf
    simp only at h1 h2 ⊢
    rw [h1, h2]
    have := (C56_parity 0 0 1 wout 1 1 0 0).1
    simp only [sub_zero, add_zero, pow_one] at this
    linarith
  · refine ⟨hNx, hNy, ?_, ?_⟩
    · have := gaussian_array l.slm output.1 h.next (h.next + 1) (h.next + 2) (h.next + 3) (by rw [d7 _ (by omega), c6]; exact hin)
      rw [d7 _ (by omega), d7 _ (by omega), d7 _ (by omega), d7 _ (by omega), c3, c4, c5, c6, ← c1] at this
      exact this
    · refine profile_real (by rw [d1]; rfl) hg fun k _ j _ => ?_
      rw [d1, C56_current _ _ _ _ _ _ _ (by rw [d6]; exact hout), d3, d4, d5, d6]
  · refine ⟨hNx, hNy, ?_, ?_⟩
    · have := gaussian_array l.slm window.1 h.next (h.next + 1) (h.next + 2) (h.next + 3)
        (by rw [e7 _ (by omega), d7 _ (by omega), c6]; exact hin)
      rw [e7 _ (by omega), e7 _ (by omega), e7 _ (by omega), e7 _ (by omega), d7 _ (by omega), d7 _ (by omega), d7 _ (by omega),
        d7 _ (by omega), c3, c4, c5, c6, ← c1] at this
      exact this
    · refine profile_real (by rw [d1]; rfl) hg fun k _ j _ => ?_
      rw [v2, d1, C56_current _ _ _ _ _ _ _ (by rw [d6]; exact hout), d3, d4, d5, d6]
  · intro hs
    refine profile_target rfl hg fun k hk j hj => ?_
    show eval (newRect output.1 _ _ side side).1 (newRect output.1 _ _ side side).2 _ _ = _
    rw [eval_newRect, rectFunc, if_neg, zero_mul, ofReal_zero]
    show ¬ |imageX l.slm.Nx l.slm.ps l.slm.scaling k j - _| < _
    rw [imageX_eq hj, not_lt]
    have h1 : ((l.slm.Nx / 2 : ℕ) : ℝ) = 960 := by show ((1920 / 2 : ℕ) : ℝ) = 960; norm_num
    have h2 : ((l.slm.Nx : ℕ) : ℝ) = 1920 := by show ((1920 : ℕ) : ℝ) = 1920; norm_num
    have h3 : l.slm.ps = 8 * 1e-6 := rfl
    have h4 : l.slm.scaling = wavelength * focal := rfl
    rw [h1, h2, h3, h4]
    have hj' : (j : ℝ) ≤ 1920 := by exact_mod_cast (le_of_lt hj : j ≤ 1920)
    have hj0 : (0 : ℝ) ≤ j := Nat.cast_nonneg j
    have h5 : |((j : ℝ) - 960) * (wavelength * focal / (1920 * (8 * 1e-6)))| ≤ |wavelength * focal| / (2 * (8 * 1e-6)) := by
      rw [abs_mul, abs_div, abs_of_pos (show (0 : ℝ) < 1920 * (8 * 1e-6) by norm_num)]
      have h6 : |(j : ℝ) - 960| ≤ 960 := abs_le.mpr ⟨by linarith, by linarith⟩
      calc |(j : ℝ) - 960| * (|wavelength * focal| / (1920 * (8 * 1e-6)))
          ≤ 960 * (|wavelength * focal| / (1920 * (8 * 1e-6))) := by gcongr
        _ = _ := by ring
    rw [abs_sub_comm]
    have h7 := le_abs_self (((j : ℝ) - 960) * (wavelength * focal / (1920 * (8 * 1e-6))))
    have h8 := le_abs_self (960 - ((j : ℝ) - 960) * (wavelength * focal / (1920 * (8 * 1e-6))))
    linarith

/-- **C149**, the part that holds of the code: the `gs` benchmarks calculate a hologram, for any wavelength, focal length, waists
and number of iterations. -/
theorem C149_gs_partial (h : Heap) {wavelength focal win wout : ℝ} (hwf : wavelength * focal ≠ 0) (hin : win ≠ 0) (hout : wout ≠ 0)
    (N : ℕ) (u : ℕ → ℕ → ℝ) :
    (slmGs h wavelength focal win wout N u).2 = .ok () ∧
    ∃ φ, Shows (slmGs h wavelength focal win wout N u).1 φ := by
  obtain ⟨T, -, ha, -⟩ := slm_args h 0 hwf hin hout
  obtain ⟨A', B', -, -, e⟩ := calculate_gs ha
  unfold slmGs slmTask
  simp only
  rw [e]
  exact ⟨rfl, _, shows_phaseState _ _⟩

/-- **C149** is false of the code for `mraf`.  The CPU script calculates the hologram of the `gs` benchmark. -/
theorem C149_mraf_cpu (h : Heap) {wavelength focal win wout : ℝ} (side : ℝ) (hwf : wavelength * focal ≠ 0) (hin : win ≠ 0)
    (hout : wout ≠ 0) (N : ℕ) (u : ℕ → ℕ → ℝ) :
    slmMrafCpu h wavelength focal win wout side N u = slmGs h wavelength focal win wout N u := by
  obtain ⟨-, -, -, -, -, h1, h2⟩ := slm_args h side hwf hin hout
  unfold slmMrafCpu slmWindowTask slmGs slmTask
  simp only
  exact hologram_gs_congr h1 h2 _ (N := N) rfl rfl u

/-- **C149.** The GPU script of `mraf` shows the random initial phases: its signal window (of any size that keeps it off the image
plane) is centred 960 m beside the axis. -/
theorem C149_mraf_gpu (h : Heap) {wavelength focal win wout side : ℝ} (hwf : wavelength * focal ≠ 0) (hin : win ≠ 0) (hout : wout ≠ 0)
    (hs : |wavelength * focal| / (2 * (8 * 1e-6)) + side / 2 ≤ 960) (N : ℕ) (u : ℕ → ℕ → ℝ) :
    (slmMrafGpu h wavelength focal win wout side N u).2 = .ok () ∧
    ∃ φ, Shows (slmMrafGpu h wavelength focal win wout side N u).1 φ ∧
      ∀ i < 1080, ∀ j < 1920, cexp (I * φ i j) = cexp (I * (2 * Real.pi * u i j : ℝ)) := by
  obtain ⟨T, -, -, ha, hw, -⟩ := slm_args h side hwf hin hout
  have hA : ∀ (i j : ℕ), (0 : ℝ) < 1 * Real.exp (-((((LCOS.new (Model.PLUTO_2.slm wavelength focal)).slm.fourierGrid.1.get i j - 0) ^ 2 +
      ((LCOS.new (Model.PLUTO_2.slm wavelength focal)).slm.fourierGrid.2.get i j - 0) ^ 2) / win ^ 2)) := fun i j => by positivity
  have key := C148_random (kw := { N := some N, signalWindow := some (.prof (newRect _ _ _ side side).2) }) ha (fun i _ j _ => hA i j) (hw hs) rfl
    (show (0.4 : ℝ) < 1 by norm_num) u
  unfold slmMrafGpu slmWindowTask
  simp only
  obtain ⟨k1, φ, k2, k3⟩ := key
  exact ⟨k1, φ, k2, k3⟩

/-- **C149**, the full claim, refuted: the two scripts of the `mraf` benchmark do not calculate the same hologram, and the hologram of
the GPU script does not depend on the target. -/
theorem C149_refuted (h : Heap) {wavelength focal win wout side : ℝ} (hwf : wavelength * focal ≠ 0) (hin : win ≠ 0) (hout : wout ≠ 0)
    (hs : |wavelength * focal| / (2 * (8 * 1e-6)) + side / 2 ≤ 960) {N : ℕ} (hN : N ≠ 0) :
    ¬ Comparable (slmMrafCpu h wavelength focal win wout side N) (slmMrafGpu h wavelength focal win wout side N) ∧
    ¬ UsesTarget fun w => slmMrafGpu h wavelength focal win w side N := by
  have hslm : ∀ (w : ℝ) (u : ℕ → ℕ → ℝ), w ≠ 0 → (slmMrafGpu h wavelength focal win w side N u).1.slm = Model.PLUTO_2.slm wavelength focal := by
    intro w u hw
    obtain ⟨T, -, -, ha, hwin, -⟩ := slm_args h side hwf hin hw
    obtain ⟨A', B', W', -, -, -, e⟩ := calculate_mraf ha (hwin hs)
    unfold slmMrafGpu slmWindowTask
    simp only
    rw [e _ _ rfl]
    rfl
  constructor
  · intro hc
    obtain ⟨T, h0, ha, -⟩ := slm_args h side hwf hin hout
    obtain ⟨ψ, h1, h2⟩ := C150_unreachable (s := Model.PLUTO_2.slm wavelength focal) (T := T)
      ⟨1080 / 2, show 1080 / 2 < 1080 by norm_num, 1920 / 2, show 1920 / 2 < 1920 by norm_num, h0⟩ (fun _ _ => 0) one_pos
    let u : ℕ → ℕ → ℝ := fun i j => if i < 1080 ∧ j < 1920 then ψ i j / (2 * Real.pi) else 0
    have hu : ∀ i j, 0 ≤ u i j ∧ u i j < 1 := by
      intro i j
      simp only [u]
      split_ifs with hij
      · obtain ⟨h3, h4, -⟩ := h1 i hij.1 j hij.2
        exact ⟨div_nonneg h3 Real.two_pi_pos.le, (div_lt_one Real.two_pi_pos).mpr h4⟩
      · norm_num
    obtain ⟨-, -, h3, φ, φ', h4, h5, h6⟩ := hc u hu
    obtain ⟨-, χ, g1, g2⟩ := C149_mraf_gpu h hwf hin hout hs N u
    rw [C149_mraf_cpu h side hwf hin hout] at h3 h4 h6
    obtain ⟨i, hi, j, hj, hne⟩ := h2 (LCOS.new (Model.PLUTO_2.slm wavelength focal)) _ _ _ _ { N := some N } u φ rfl ha hN h4
    apply hne
    have hs1 := hslm wout u hout
    rw [h3, hs1] at h6
    have e1 : φ' i j = χ i j := by
      have a1 := h5.2.2 i (by rw [hs1]; exact hi) j (by rw [hs1]; exact hj)
      have a2 := g1.2.2 i (by rw [hs1]; exact hi) j (by rw [hs1]; exact hj)
      exact ofReal_injective (a1.symm.trans a2)
    rw [h6 i hi j hj, e1, g2 i hi j hj]
    simp only [u]
    rw [if_pos ⟨hi, hj⟩, mul_div_cancel₀ _ Real.two_pi_pos.ne']
  · rintro ⟨w, w', u, hw, hw', hne⟩
    apply hne
    obtain ⟨g1, χ, g2, g3⟩ := C149_mraf_gpu h hwf hin hw hs N u
    obtain ⟨g4, χ', g5, g6⟩ := C149_mraf_gpu h hwf hin hw' hs N u
    refine ⟨g1, g4, by rw [hslm w u hw, hslm w' u hw'], χ, χ', g2, g5, fun i hi j hj => ?_⟩
    beta_reduce at hi hj
    rw [hslm w u hw] at hi hj
    have hi' : i < 1080 := hi
    have hj' : j < 1920 := hj
    rw [g3 i hi' j hj', g6 i hi' j hj']

/-- A calculation for a target that is not zero under a beam that is nowhere zero succeeds for the methods `random` and `ifta`. -/
theorem calculate_binary {d : DMD} {h : Heap} {inp target sw : ProfArg} {u T W : ℕ → ℕ → ℂ}
    (m : Matching d h inp target none u T fun _ _ => 1) (hl : ∀ i j, u i j ≠ 0) (hne : ∃ k < d.slm.Ny, ∃ l < d.slm.Nx, T k l ≠ 0)
    (hsc : d.slm.wavelength * d.slm.focal ≠ 0) (hps : d.slm.ps ≠ 0) (hw : TargetArg d.slm h sw W) {method : String}
    (hm : method = "random" ∨ method = "ifta") {kw : DMD.CalcKwargs} (hk : kw.signalWindow = some sw) (draw : ℕ → ℕ → ℝ) :
    ∃ (t : Tensor Bool) (eta : ℝ), d.calculateDmdState h inp target method none kw draw = ⟨.rebind (.bool t), .ok (.fin eta)⟩ ∧
      eta ≠ 0 ∧ t.shape = .mat d.slm.Ny d.slm.Nx := by
  have hws : wspec d.slm T (fun _ _ => 1) = DMD.spectrum d.slm T := by
    funext i j; unfold wspec; rw [mul_one]
  have hlit : Lit d.slm u (wspec d.slm T fun _ _ => 1) := by
    rw [hws]; exact ⟨fun i _ j _ _ => hl i j, DMD.spectrum_ne_zero d.slm hne⟩
  obtain ⟨mx, hpos, -, -, hc⟩ := calculate_lit m hlit
  obtain ⟨tin, amp, pin, pout, h1, h2, h3, h4, h5, h6⟩ := hc method kw draw
  have hsc' : d.slm.scaling ≠ 0 := hsc
  have heta : d.slm.ps ^ 2 / d.slm.scaling * d.slm.Nx * d.slm.Ny / mx ≠ 0 := by
    have a1 : (d.slm.Nx : ℝ) ≠ 0 := by exact_mod_cast m.hNx.ne'
    have a2 : (d.slm.Ny : ℝ) ≠ 0 := by exact_mod_cast m.hNy.ne'
    exact div_ne_zero (mul_ne_zero (mul_ne_zero (div_ne_zero (pow_ne_zero 2 hps) hsc') a1) a2) hpos.ne'
  have key : ∃ t, d.calcGrating h inp target method none kw draw = .ok (.bool t, .fin mx) ∧ t.shape = .mat d.slm.Ny d.slm.Nx := by
    rcases hm with rfl | rfl
    · obtain ⟨-, -, ⟨t, g1, g2, -⟩⟩ := grating_elementwise h3 h4 h5 { r := kw.r, N := kw.N, s := kw.s } draw
      have h7 : d.forwardKwargs h tin "random" kw = .ok { r := kw.r, N := kw.N, s := kw.s } := rfl
      rw [h7] at h6
      simp only at h6
      rw [g1] at h6
      exact ⟨t, h6, g2⟩
    · obtain ⟨tw, hw1, hw2, hw3⟩ := hw
      have h7 : d.forwardKwargs h tin "ifta" kw =
          .ok { r := kw.r, N := kw.N, s := kw.s, inputProfile := some tin, signalWindow := some tw } := by
        unfold DMD.forwardKwargs
        rw [if_pos rfl, hk]
        simp only
        rw [hw1]
      obtain ⟨t, h8, h9, -⟩ := grating_ifta m.hNx m.hNy h3 h4 h5
        (kw := { r := kw.r, N := kw.N, s := kw.s, inputProfile := some tin, signalWindow := some tw }) draw rfl h2 rfl hw2 hw3
      rw [h7] at h6
      simp only at h6
      rw [h8] at h6
      exact ⟨t, h6, h9⟩
  obtain ⟨t, k1, k2⟩ := key
  refine ⟨t, _, ?_, heta, k2⟩
  rw [calculate_of_grating k1, etaOf_fin hsc' hpos.ne']

/-- **C149**, the part that holds of the code: the `ifta` and `random` benchmarks calculate a binary pattern of the shape of the
device and a non-zero `eta`, for any wavelength, focal length, waists, distance of the spots, window size and number of iterations. -/
theorem C149_dmd_partial (h : Heap) {wavelength focal win wout dist : ℝ} (side : ℝ) (hwf : wavelength * focal ≠ 0) (hin : win ≠ 0)
    (hout : wout ≠ 0) (hd : dist ≠ 0) {method : String} (hm : method = "random" ∨ method = "ifta") (N : ℕ) (draw : ℕ → ℕ → ℝ) :
    ∃ (t : Tensor Bool) (eta : ℝ), dmdTask h wavelength focal win wout dist side method N draw = .ok ⟨.rebind (.bool t), .ok (.fin eta)⟩ ∧
      eta ≠ 0 ∧ t.shape = .mat 1080 1920 := by
  set d := DMD.newCall (Model.DLP9500.slm wavelength focal) 4 (Real.pi / 4) none with hdd
  have hp : d.p ≠ 0 := show (4 * (10.8 * 1e-6) : ℝ) ≠ 0 by norm_num
  set o : ℝ × ℝ := (Real.cos d.theta * d.slm.scaling / d.p, Real.sin d.theta * d.slm.scaling / d.p) with ho
  have ho' : d.firstOrderOrigin = .ok o := by unfold DMD.firstOrderOrigin; rw [if_neg hp]
  unfold dmdTask
  simp only
  rw [← hdd, ho']
  simp only
  set input := newHermiteGaussian h 0 0 1 win 0 0 with hinput
  set left := newHermiteGaussian input.1 0 0 1 wout 0 0 with hleft
  set right := newHermiteGaussian left.1 dist 0 1 wout 0 0 with hright
  obtain ⟨c1, c2, c3, c4, c5, c6, -⟩ := newHg_cells h 0 0 1 win 0 0
  obtain ⟨d1, d2, d3, d4, d5, d6, d7⟩ := newHg_cells input.1 0 0 1 wout 0 0
  obtain ⟨e1, e2, e3, e4, e5, e6, e7⟩ := newHg_cells left.1 dist 0 1 wout 0 0
  have f7 := newRect_frame right.1 o.1 o.2 side side
  rw [← hinput] at c1 c2 c3 c4 c5 c6
  rw [← hleft, c2] at d1 d2 d3 d4 d5 d6 d7
  rw [← hright, d2] at e1 e2 e3 e4 e5 e6 e7
  rw [e2] at f7
  set window := newRect right.1 o.1 o.2 side side with hwindow
  have hf : pyBinary .sub (.prof left.2) (.prof right.2) = .ok (.bin .sub left.2 right.2) := by rw [d1, e1]; rfl
  rw [hf]
  simp only
  have hps : d.slm.ps ≠ 0 := by show (10.8 * 1e-6 : ℝ) ≠ 0; norm_num
  have hg : ∃ gi, d.slm.imageGrid = .ok gi := by
    unfold SLM.imageGrid imageGridOf
    rw [if_neg]
    · exact ⟨_, rfl⟩
    · push Not
      exact ⟨mul_ne_zero (by show ((1920 : ℕ) : ℝ) ≠ 0; norm_num) hps, mul_ne_zero (by show ((1080 : ℕ) : ℝ) ≠ 0; norm_num) hps⟩
  obtain ⟨gi, hg⟩ := hg
  obtain ⟨hx0, hy0, -⟩ := imageGrid_centre hg (show 1 < 1920 by norm_num) (show 0 < 1080 by norm_num) hwf
  have hgauss : DMD.ArrayArg d.slm window.1 (.prof input.2) (gaussianBeam d.slm 0 0 1 win) := by
    have := gaussian_array d.slm window.1 h.next (h.next + 1) (h.next + 2) (h.next + 3)
      (by rw [f7 _ (by omega), e7 _ (by omega), d7 _ (by omega), c6]; exact hin)
    rw [f7 _ (by omega), f7 _ (by omega), f7 _ (by omega), f7 _ (by omega), e7 _ (by omega), e7 _ (by omega), e7 _ (by omega),
      e7 _ (by omega), d7 _ (by omega), d7 _ (by omega), d7 _ (by omega), d7 _ (by omega), c3, c4, c5, c6, ← c1] at this
    exact this
  let T : ℕ → ℕ → ℂ := fun k l => ((Real.exp (-((gi.1.get k l ^ 2 + gi.2.get k l ^ 2) / wout ^ 2)) -
    Real.exp (-(((gi.1.get k l - dist) ^ 2 + gi.2.get k l ^ 2) / wout ^ 2)) : ℝ) : ℂ)
  have htarget : TargetArg d.slm window.1 (.prof (.bin .sub left.2 right.2)) T := by
    refine profile_target (by rw [d1, e1]; rfl) hg fun k _ l _ => ?_
    rw [d1, e1, eval, eval_gaussian _ _ _ _ _ (by rw [f7 _ (by omega), e7 _ (by omega), d6]; exact hout),
      eval_gaussian _ _ _ _ _ (by rw [f7 _ (by omega), e6]; exact hout)]
    rw [f7 _ (by omega), f7 _ (by omega), f7 _ (by omega), f7 _ (by omega), f7 _ (by omega), f7 _ (by omega), f7 _ (by omega),
      f7 _ (by omega), e7 _ (by omega), e7 _ (by omega), e7 _ (by omega), e7 _ (by omega), d3, d4, d5, d6, e3, e4, e5, e6]
    simp [applyAttr, T]
  have hw : ∃ W, TargetArg d.slm window.1 (.prof window.2) W :=
    ⟨fun k j => (eval window.1 window.2 (gi.1.get k j) (gi.2.get k j)).getD 0, profile_target rfl hg fun k _ j _ => by
      rw [hwindow, eval_newRect]; rfl⟩
  obtain ⟨W, hw⟩ := hw
  have hne : ∃ k < d.slm.Ny, ∃ l < d.slm.Nx, T k l ≠ 0 := by
    refine ⟨1080 / 2, show 1080 / 2 < 1080 by norm_num, 1920 / 2, show 1920 / 2 < 1920 by norm_num, ?_⟩
    have hx : gi.1.get (1080 / 2) (1920 / 2) = 0 := hx0
    have hy : gi.2.get (1080 / 2) (1920 / 2) = 0 := hy0
    simp only [T]
    rw [hx, hy, ofReal_ne_zero, sub_ne_zero]
    intro hc
    have := Real.exp_injective hc
    have h9 : dist ^ 2 / wout ^ 2 ≠ 0 := div_ne_zero (pow_ne_zero 2 hd) (pow_ne_zero 2 hout)
    apply h9
    simp at this ⊢
    tauto
  obtain ⟨tin, hti, hts, htg⟩ := hgauss
  obtain ⟨t, eta, k1, k2, k3⟩ := calculate_binary (d := d) (kw := { N := some N, signalWindow := some (.prof window.2) })
    ⟨show 0 < 1920 by norm_num, show 0 < 1080 by norm_num, ⟨tin, hti, Tensor.denotes_of_mat hts htg⟩, htarget, fun _ _ => rfl⟩
    (fun i j => gaussianBeam_ne_zero d.slm 0 0 win one_ne_zero i j) hne hwf hps hw hm rfl draw
  exact ⟨t, eta, by rw [k1], k2, k3⟩

/-- C149: the numbers of the scripts. -/
example : (369e-9 : ℝ) * 200e-3 ≠ 0 ∧ (5e-3 : ℝ) ≠ 0 ∧ (30e-6 : ℝ) ≠ 0 ∧ (10e-6 : ℝ) ≠ 0 ∧
    |(369e-9 : ℝ) * 200e-3| / (2 * (8 * 1e-6)) + 100e-6 / 2 ≤ 960 := by
  refine ⟨by norm_num, by norm_num, by norm_num, by norm_num, ?_⟩
  rw [abs_of_pos (by norm_num)]
  norm_num

end PySLM2.Benchmarks
