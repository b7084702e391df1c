import Verif.Spec.Ifta
import Verif.Lemmas.Lcos
import Verif.Props.Ifta

/-!
# C87: what method `ifta` computes
-/

noncomputable section

open Complex Finset

namespace PySLM2.DMD

open Lib
open LCOS (predicted predicted_eq backPropagated backPropagated_eq)

theorem clip_eq (t x : ℝ) : iftaBinarize x t = clip t x := by
  unfold iftaBinarize clip
  simp only [gt_iff_lt]

/-- An iteration of the code is an iteration of the specification. -/
theorem iftaStep_spec {s : SLM} {u u' W W' : ℕ → ℕ → ℂ} {g₀ g : ℕ → ℕ → ℝ} {t : ℝ}
    (hu : ∀ i < s.Ny, ∀ j < s.Nx, u' i j = u i j) (hW : ∀ i < s.Ny, ∀ j < s.Nx, W' i j = W i j) :
    IftaStep s u W g₀ t g (iftaStep s.Ny s.Nx u' (idft2 s.Ny s.Nx fun a b => u' a b * (g₀ a b : ℂ))
      (ifftshift2 s.Ny s.Nx W') t g) := by
  intro i hi j hj
  refine ⟨fun h => ?_, fun h => ?_⟩
  · unfold iftaStep
    exact if_pos (by rw [hu i hi j hj, h])
  · unfold iftaStep
    rw [if_neg (by rw [hu i hi j hj]; exact h), hu i hi j hj, backPropagated_eq]
    refine congrArg (fun z : ℂ => (z / u i j).re) (congrFun (congrFun (dft2_congr fun a ha b hb => ?_) i) j)
    unfold ifftshift2 iftaCorrect
    have h1 := DMD.ifftshiftIdx_lt ha
    have h2 := DMD.ifftshiftIdx_lt hb
    simp only
    rw [hW _ h1 _ h2, predicted_eq _ h1 h2, predicted_eq _ h1 h2, fftshift_ifftshift ha, fftshift_ifftshift hb]
    rw [idft2_congr (u := fun a b => u' a b * (iftaBinarize (g a b) t : ℂ)) (v := fun i j => u i j * (clip t (g i j) : ℂ)) fun a ha b hb => by rw [hu a ha b hb, clip_eq],
      idft2_congr (u := fun a b => u' a b * (g₀ a b : ℂ)) (v := fun i j => u i j * (g₀ i j : ℂ)) fun a ha b hb => by rw [hu a ha b hb]]
    ring

/-- **C87.** `set_dmd_grating_state(..., method='ifta', N, s)`: there are holograms `g 0`, ..., `g N` such that `g 0` is
`s` times the state of method `ideal`, each follows from the one before by `IftaStep` with the threshold rising in `N`
equal steps to 1/2, and a mirror is on exactly if its value of `g N` exceeds 1/2.  (Defaults: `N` 200, `s` 1.) -/
theorem C87_ifta {d : DMD} {h : Profile.Heap} {amp phaseIn phaseOut : ProfArg} {A φin φout : ℕ → ℕ → ℝ}
    {kw : Kwargs} {u W : ℕ → ℕ → ℂ} (ga : GratingArgs d h amp phaseIn phaseOut A φin φout)
    (hk : IftaKwargs d.slm kw u W) (hNx : 0 < d.slm.Nx) (hNy : 0 < d.slm.Ny) (hp : d.p ≠ 0) (draw : ℕ → ℕ → ℝ) :
    ∃ (t : Tensor Bool) (tid : Tensor XR) (g : ℕ → ℕ → ℕ → ℝ),
      d.setDmdGratingState h amp phaseIn phaseOut "ifta" kw draw = ⟨.rebind (.bool t), .ok ()⟩ ∧
      d.setDmdGratingState h amp phaseIn phaseOut "ideal" kw draw = ⟨.rebind (.float tid), .ok ()⟩ ∧
      t.shape = .mat d.slm.Ny d.slm.Nx ∧
      (∀ i < d.slm.Ny, ∀ j < d.slm.Nx, ∃ v, tid.get i j = .fin v ∧ g 0 i j = kw.s.getD 1 * v) ∧
      (∀ n : ℕ, n < kw.N.getD 200 → IftaStep d.slm u W (g 0) (((n : ℕ) + 1) / (2 * (kw.N.getD 200 : ℕ))) (g n) (g (n + 1))) ∧
      ∀ i < d.slm.Ny, ∀ j < d.slm.Nx, (t.get i j = true ↔ 1 / 2 < g (kw.N.getD 200) i j) := by
  classical
  obtain ⟨ta, ti, tj, g1, g2, g3, g4⟩ := setGrating_of_grating ga
  obtain ⟨⟨t1, h1, h2⟩, ⟨t2, h3, h4, h5⟩⟩ := hk
  obtain ⟨⟨tid, i1, i2, i3⟩, -, -⟩ := grating_elementwise g1 g2 g3 kw draw
  have hs : gratingShape ta ti tj d.slm.fourierGrid.1 d.slm.fourierGrid.2 =
      some (.mat d.slm.Ny d.slm.Nx) := gratingShape_of g1.1 g2.1 g3.1 rfl rfl
  have hpix : ∀ i < d.slm.Ny, ∀ j < d.slm.Nx, pixAt ta ti tj d.slm.fourierGrid.1 d.slm.fourierGrid.2 i j =
      d.pixelX (fun i j => .fin (A i j)) φin φout i j := fun i h1 j h2 => pixAt_eqX g1 g2 g3 h1 h2
  have hfin : ∀ i < d.slm.Ny, ∀ j < d.slm.Nx, ∃ x, idealPixel d.p d.theta d.neg
      (d.pixelX (fun i j => .fin (A i j)) φin φout i j) = .fin x :=
    fun i _ j _ => ⟨_, idealPixel_eq d hp A φin φout i j⟩
  set g0 : ℕ → ℕ → ℝ := fun i j => XR.val ((XR.fin (kw.s.getD 1)).mul
      (idealPixel d.p d.theta d.neg (pixAt ta ti tj d.slm.fourierGrid.1 d.slm.fourierGrid.2 i j))) with hg0
  have hall : allFinite d.slm.Ny d.slm.Nx fun i j => (XR.fin (kw.s.getD 1)).mul
      (idealPixel d.p d.theta d.neg (pixAt ta ti tj d.slm.fourierGrid.1 d.slm.fourierGrid.2 i j)) := by
    intro i hi j hj
    obtain ⟨x, hx⟩ := hfin i hi j hj
    simp only
    rw [hpix i hi j hj, hx]
    exact ⟨_, rfl⟩
  have hrun : d.grating ta ti tj "ifta" kw draw = .ok (.bool ⟨.mat d.slm.Ny d.slm.Nx,
      iftaField d.slm.Ny d.slm.Nx t1.at_ t2.at_ (kw.N.getD 200) g0⟩) := by
    unfold grating calculateDmdGrating
    simp only [reduceCtorEq, if_false, if_true, String.reduceEq]
    rw [h1, h3]
    unfold gratingIfta
    simp only
    rw [hs]
    simp only
    rw [if_neg (by rw [h4]; push Not; exact ⟨hNy.ne', hNx.ne', by simp, h2.1, bcast_self _ _⟩), if_pos hall]
  refine ⟨_, tid, iftaLoop d.slm.Ny d.slm.Nx t1.at_ (idft2 d.slm.Ny d.slm.Nx fun a b => t1.at_ a b * (g0 a b : ℂ))
      (ifftshift2 d.slm.Ny d.slm.Nx t2.at_) (kw.N.getD 200) g0, by rw [g4, hrun], by rw [g4, i1], rfl,
      fun i hi j hj => ?_, fun n hn => ?_, fun i hi j hj => ?_⟩
  · obtain ⟨x, hx⟩ := hfin i hi j hj
    refine ⟨x, by rw [i3 i hi j hj, hx], ?_⟩
    show g0 i j = _
    rw [hg0]
    simp only
    rw [hpix i hi j hj, hx]
    rfl
  · have ht : iftaThreshold (kw.N.getD 200) n = ((n : ℝ) + 1) / (2 * (kw.N.getD 200 : ℕ)) := by
      unfold iftaThreshold
      have : ((kw.N.getD 200 : ℕ) : ℝ) ≠ 0 := by exact_mod_cast (by omega)
      field_simp
      norm_num
    rw [← ht]
    exact iftaStep_spec h2.2 fun a ha b hb => by rw [Tensor.at_eq_get h4 ha hb, h5 a ha b hb]
  · show decide _ = true ↔ _
    rw [decide_eq_true_iff, gt_iff_lt, show (0.5 : ℝ) = 1 / 2 by norm_num]

/-- C87: the arguments of the example beside C35, with three iterations. -/
example (h : Profile.Heap) : GratingArgs exGrating h
      (.ndarray .real ⟨.mat 2 4, fun i j => (((i + j) / 8 : ℝ) : ℂ)⟩) (.num (.real 0)) (.num (.real 1))
      (fun i j => ((i : ℝ) + j) / 8) (fun _ _ => 0) (fun _ _ => 1) ∧
    IftaKwargs exGrating.slm
      { N := some 3, inputProfile := some ⟨.mat 2 4, fun i j => (i : ℂ) + j⟩, signalWindow := some ⟨.mat 2 4, fun i _ => (i : ℂ)⟩ } (fun i j => (i : ℂ) + j) (fun i _ => i) ∧
    0 < exGrating.slm.Nx ∧ 0 < exGrating.slm.Ny ∧ exGrating.p ≠ 0 :=
  ⟨exGratingArgs h, ⟨⟨_, rfl, Tensor.denotes_of_mat rfl fun _ _ _ _ => rfl⟩, _, rfl, rfl, fun _ _ _ _ => rfl⟩,
    (by decide : 0 < 4), (by decide : 0 < 2), by norm_num [exGrating, DMD.new]⟩

end PySLM2.DMD
