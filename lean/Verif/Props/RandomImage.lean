import Verif.Lemmas.Dither
import Verif.Lemmas.SimulationMore
import Verif.Props.Grating
import Verif.Props.Propagation

/-!
# C97: the image of a randomly dithered grating
-/

noncomputable section

open MeasureTheory ProbabilityTheory Finset Complex

namespace PySLM2.DMD

open Lib Sim

/-- The simulation with its DMD showing the array `st`. -/
def showing (s : Sim) (d : DMD) (st : StateArr) : Sim := { s with dev := .dmd d st }

/-- The grey state with the values `q`. -/
def grey (d : DMD) (q : ℕ → ℕ → ℝ) : StateArr := .float ⟨.mat d.slm.Ny d.slm.Nx, fun i j => .fin (q i j)⟩

theorem showing_ready {s : Sim} {d : DMD} {st : StateArr} (hdev : s.dev = .dmd d st) {px py : ℕ} {h : Profile.Heap}
    {a : ProfArg} {u m m' : ℕ → ℕ → ℂ} (r : Ready s px py h a u m) {st' : StateArr} (hm : Modulation (.dmd d st') m') :
    Ready (showing s d st') px py h a u m' := by
  have hslm : s.dev.slm = d.slm := by rw [hdev]; rfl
  refine ⟨r.hpx, r.hpy, ?_, ?_, ?_, ?_, ?_, hm⟩
  · have := r.hNx; rwa [hslm] at this
  · have := r.hNy; rwa [hslm] at this
  · have := r.hsc; rwa [hslm] at this
  · have := r.hps; rwa [hslm] at this
  · have := r.input
    unfold InputField at this ⊢
    rwa [hslm] at this

theorem grey_modulation (d : DMD) (q : ℕ → ℕ → ℝ) : Modulation (.dmd d (grey d q)) fun i j => (q i j : ℂ) := by
  refine ⟨⟨.mat d.slm.Ny d.slm.Nx, fun i j => ((q i j : ℝ) : ℂ)⟩, ?_, rfl, fun _ _ _ _ => rfl⟩
  show stateTensor (grey d q) = _
  unfold stateTensor grey
  simp only
  rw [if_pos (by intro i _ j _; exact ⟨_, rfl⟩)]
  rfl

theorem bool_modulation (d : DMD) {t : Tensor Bool} (ht : t.shape = .mat d.slm.Ny d.slm.Nx) :
    Modulation (.dmd d (.bool t)) fun i j => if t.get i j then 1 else 0 :=
  ⟨_, rfl, ht, fun _ _ _ _ => rfl⟩

/-- The field at a point of the image plane as a combination of the pixels. -/
theorem fieldAt_lin (s : SLM) (u : ℕ → ℕ → ℂ) (x y : ℝ) : ∃ c : ℕ × ℕ → ℂ,
    (∀ ij, ‖c ij‖ ^ 2 = (s.ps ^ 2 / s.scaling) ^ 2 * ‖u ij.1 ij.2‖ ^ 2) ∧
    ∀ m : ℕ → ℕ → ℂ, fieldAt s (fun i j => u i j * m i j) x y = ∑ ij ∈ range s.Ny ×ˢ range s.Nx, c ij * m ij.1 ij.2 := by
  refine ⟨fun ij => ((s.ps ^ 2 / s.scaling : ℝ) : ℂ) * (u ij.1 ij.2 *
    cexp ((2 * Real.pi * I) * ((x * ((ij.2 : ℝ) - (s.Nx / 2 : ℕ)) * s.ps / s.scaling +
      y * ((s.Ny / 2 : ℕ) - (ij.1 : ℝ)) * s.ps / s.scaling : ℝ) : ℂ))), fun ij => ?_, fun m => ?_⟩
  · rw [norm_mul, norm_mul, norm_real, Real.norm_eq_abs, mul_pow, sq_abs, mul_pow]
    rw [show ∀ z : ℝ, (2 * Real.pi * I) * (z : ℂ) = ((2 * Real.pi * z : ℝ) : ℂ) * I by intro z; push_cast; ring,
      norm_exp_ofReal_mul_I, one_pow, mul_one]
  · unfold fieldAt
    rw [sum_product, mul_sum]
    refine sum_congr rfl fun i _ => ?_
    rw [mul_sum]
    refine sum_congr rfl fun j _ => ?_
    ring

/-- The image field as a sum over the pixels. -/
theorem image_fieldAt {s : Sim} {px py : ℕ} {h : Profile.Heap} {a : ProfArg} {u m : ℕ → ℕ → ℂ} (r : Ready s px py h a u m)
    {g : Tensor ℝ × Tensor ℝ} (hg : s.imagePaddedGrid = .ok g) :
    ∃ img, (s.propagate h a).1.imageField = some img ∧ ∀ k < s.dev.slm.Ny + 2 * py, ∀ l < s.dev.slm.Nx + 2 * px,
      img.get k l = fieldAt s.dev.slm (fun i j => u i j * m i j) (g.1.get k l) (g.2.get k l) := by
  refine ⟨_, by rw [propagate_ready r]; rfl, fun k hk l hl => ?_⟩
  exact propagated_image_fieldAt r hg hk hl

/-- Mean and mean squared deviation of the image of mirrors that are on when a uniform draw is below `q`. -/
theorem dither_image {d : DMD} {h' : Profile.Heap} {a : ProfArg} {s : Sim} {st : StateArr} (hdev : s.dev = .dmd d st)
    {px py : ℕ} {u m : ℕ → ℕ → ℂ} (rdy : Ready s px py h' a u m)
    {Ω : Type} [MeasurableSpace Ω] (μ : Measure Ω) [IsProbabilityMeasure μ] (draw : Ω → ℕ → ℕ → ℝ)
    (hm : ∀ i < d.slm.Ny, ∀ j < d.slm.Nx, Measurable fun ω => draw ω i j)
    (hu : ∀ i < d.slm.Ny, ∀ j < d.slm.Nx, μ.map (fun ω => draw ω i j) = volume.restrict (Set.Ico 0 1))
    (t : Ω → Tensor Bool) (hsh : ∀ ω, (t ω).shape = .mat d.slm.Ny d.slm.Nx) (q : ℕ → ℕ → ℝ)
    (hq0 : ∀ i < d.slm.Ny, ∀ j < d.slm.Nx, 0 ≤ q i j ∧ q i j ≤ 1)
    (hbits : ∀ ω, ∀ i < d.slm.Ny, ∀ j < d.slm.Nx, ((t ω).get i j = true ↔ draw ω i j < q i j)) :
    ∃ (img : Ω → Tensor ℂ) (avg : Tensor ℂ),
      (∀ ω, ((showing s d (.bool (t ω))).propagate h' a).1.imageField = some (img ω)) ∧
      ((showing s d (grey d q)).propagate h' a).1.imageField = some avg ∧
      ∀ k < d.slm.Ny + 2 * py, ∀ l < d.slm.Nx + 2 * px,
        ∫ ω, (img ω).get k l ∂μ = avg.get k l ∧
        ((∀ i < d.slm.Ny, ∀ j < d.slm.Nx, ∀ i' < d.slm.Ny, ∀ j' < d.slm.Nx, (i, j) ≠ (i', j') →
            IndepFun (fun ω => draw ω i j) (fun ω => draw ω i' j') μ) →
          ∫ ω, ‖(img ω).get k l - avg.get k l‖ ^ 2 ∂μ = (d.slm.ps ^ 2 / (d.slm.wavelength * d.slm.focal)) ^ 2 *
            ∑ i ∈ range d.slm.Ny, ∑ j ∈ range d.slm.Nx, ‖u i j‖ ^ 2 * (q i j * (1 - q i j))) := by
  classical
  have hbit : ∀ ω, ∀ i < d.slm.Ny, ∀ j < d.slm.Nx, (if (t ω).get i j then (1 : ℂ) else 0) =
      (Dither.bit (fun ω => draw ω i j) (q i j) ω : ℂ) := by
    intro ω i hi j hj
    have := hbits ω i hi j hj
    unfold Dither.bit
    by_cases hlt : draw ω i j < q i j
    · rw [if_pos (this.mpr hlt), if_pos hlt, ofReal_one]
    · rw [if_neg (fun hc => hlt (this.mp hc)), if_neg hlt, ofReal_zero]
  have rω : ∀ ω, Ready (showing s d (.bool (t ω))) px py h' a u fun i j => if (t ω).get i j then 1 else 0 :=
    fun ω => showing_ready hdev rdy (bool_modulation d (hsh ω))
  have r0 : Ready (showing s d (grey d q)) px py h' a u fun i j => (q i j : ℂ) :=
    showing_ready hdev rdy (grey_modulation d _)
  obtain ⟨gr, hgr⟩ := imagePaddedGrid_ok r0
  have hgω : ∀ ω, (showing s d (.bool (t ω))).imagePaddedGrid = .ok gr := fun ω => hgr
  choose img himg hval using fun ω => image_fieldAt (rω ω) (hgω ω)
  obtain ⟨avg, havg, hval0⟩ := image_fieldAt r0 hgr
  refine ⟨img, avg, himg, havg, fun k hk l hl => ?_⟩
  obtain ⟨c, hc, hlin⟩ := fieldAt_lin d.slm u (gr.1.get k l) (gr.2.get k l)
  have hmem : ∀ ij ∈ range d.slm.Ny ×ˢ range d.slm.Nx, ij.1 < d.slm.Ny ∧ ij.2 < d.slm.Nx := fun ij hij => by
    rw [mem_product, mem_range, mem_range] at hij
    exact hij
  have hq : ∀ ij ∈ range d.slm.Ny ×ˢ range d.slm.Nx, 0 ≤ q ij.1 ij.2 ∧ q ij.1 ij.2 ≤ 1 :=
    fun ij hij => hq0 _ (hmem ij hij).1 _ (hmem ij hij).2
  have e1 : ∀ ω, (img ω).get k l = ∑ ij ∈ range d.slm.Ny ×ˢ range d.slm.Nx,
      c ij * (Dither.bit (fun ω => draw ω ij.1 ij.2) (q ij.1 ij.2) ω : ℂ) := by
    intro ω
    rw [hval ω k hk l hl]
    refine (hlin _).trans (sum_congr rfl fun ij hij => ?_)
    rw [hbit ω _ (hmem ij hij).1 _ (hmem ij hij).2]
  have e2 : avg.get k l = ∑ ij ∈ range d.slm.Ny ×ˢ range d.slm.Nx, c ij * (q ij.1 ij.2 : ℂ) := by
    rw [hval0 k hk l hl]
    exact hlin _
  have hm' : ∀ ij ∈ range d.slm.Ny ×ˢ range d.slm.Nx, Measurable fun ω => draw ω ij.1 ij.2 := fun ij hij =>
    hm _ (hmem ij hij).1 _ (hmem ij hij).2
  have hu' : ∀ ij ∈ range d.slm.Ny ×ˢ range d.slm.Nx, μ.map (fun ω => draw ω ij.1 ij.2) = volume.restrict (Set.Ico 0 1) :=
    fun ij hij => hu _ (hmem ij hij).1 _ (hmem ij hij).2
  simp only [e1, e2]
  refine ⟨Dither.mean _ c _ (fun ij ω => draw ω ij.1 ij.2) hm' hq hu', fun hind => ?_⟩
  refine (Dither.complex_variance _ c _ (fun ij ω => draw ω ij.1 ij.2) hm' hq hu' (fun ij hij kl hkl hne =>
    hind _ (hmem ij hij).1 _ (hmem ij hij).2 _ (hmem kl hkl).1 _ (hmem kl hkl).2 hne)).trans ?_
  rw [sum_product, mul_sum]
  refine sum_congr rfl fun i _ => ?_
  rw [mul_sum]
  refine sum_congr rfl fun j _ => ?_
  rw [hc (i, j)]
  unfold SLM.scaling
  ring

/-- **C97.** Method `random` with independent uniform draws: the expected image field is the image of the grey state
whose values are the duty values, and the mean squared deviation from it is the same at every image pixel,
`(ps²/(λf))² Σ q(1-q)|u|²` (white noise). -/
theorem C97_random_image {d : DMD} {h h' : Profile.Heap} {amp pin pout a : ProfArg} {A φin φout : ℕ → ℕ → ℝ}
    (g : GratingArgs d h amp pin pout A φin φout) (hp : d.p ≠ 0) (kw : Kwargs) {r : ℝ} (hr : 0 < r) (hkw : kw.r.getD 10 = r)
    (hA : ∀ i < d.slm.Ny, ∀ j < d.slm.Nx, 0 ≤ A i j ∧ A i j ≤ 1)
    {s : Sim} {st : StateArr} (hdev : s.dev = .dmd d st) {px py : ℕ} {u m : ℕ → ℕ → ℂ} (rdy : Ready s px py h' a u m)
    {Ω : Type} [MeasurableSpace Ω] (μ : Measure Ω) [IsProbabilityMeasure μ] (draw : Ω → ℕ → ℕ → ℝ)
    (hm : ∀ i < d.slm.Ny, ∀ j < d.slm.Nx, Measurable fun ω => draw ω i j)
    (hu : ∀ i < d.slm.Ny, ∀ j < d.slm.Nx, μ.map (fun ω => draw ω i j) = volume.restrict (Set.Ico 0 1))
    (hind : ∀ i < d.slm.Ny, ∀ j < d.slm.Nx, ∀ i' < d.slm.Ny, ∀ j' < d.slm.Nx, (i, j) ≠ (i', j') →
      IndepFun (fun ω => draw ω i j) (fun ω => draw ω i' j') μ) :
    ∃ (t : Ω → Tensor Bool) (img : Ω → Tensor ℂ) (avg : Tensor ℂ),
      (∀ ω, d.setDmdGratingState h amp pin pout "random" kw (draw ω) = ⟨.rebind (.bool (t ω)), .ok ()⟩ ∧
        ((showing s d (.bool (t ω))).propagate h' a).1.imageField = some (img ω)) ∧
      ((showing s d (grey d (d.duty r A φin φout))).propagate h' a).1.imageField = some avg ∧
      ∀ k < d.slm.Ny + 2 * py, ∀ l < d.slm.Nx + 2 * px,
        ∫ ω, (img ω).get k l ∂μ = avg.get k l ∧
        ∫ ω, ‖(img ω).get k l - avg.get k l‖ ^ 2 ∂μ = (d.slm.ps ^ 2 / (d.slm.wavelength * d.slm.focal)) ^ 2 *
          ∑ i ∈ range d.slm.Ny, ∑ j ∈ range d.slm.Nx,
            ‖u i j‖ ^ 2 * (d.duty r A φin φout i j * (1 - d.duty r A φin φout i j)) := by
  choose t ht hsh hget using fun ω => (setGrating_eq g kw (draw ω)).2.2
  have hbits : ∀ ω, ∀ i < d.slm.Ny, ∀ j < d.slm.Nx, ((t ω).get i j = true ↔ draw ω i j < d.duty r A φin φout i j) := by
    intro ω i hi j hj
    rw [hget ω i hi j hj, hkw, randomPixel_iff d hp]
    have := hA i hi j hj
    exact ⟨fun h4 => h4.2.2, fun h4 => ⟨by linarith, this.2, h4⟩⟩
  obtain ⟨img, avg, h1, h2, h3⟩ := dither_image hdev rdy μ draw hm hu t hsh (d.duty r A φin φout)
    (fun i hi j hj => ⟨duty_nonneg d hr.le A φin φout _ _ (hA i hi j hj).1, (duty_lt_one d r A φin φout _ _).le⟩) hbits
  exact ⟨t, img, avg, fun ω => ⟨ht ω, h1 ω⟩, h2, fun k hk l hl => ⟨(h3 k hk l hl).1, (h3 k hk l hl).2 hind⟩⟩

/-! ## The hypotheses can be met -/

/-- Independent uniform draws: the coordinates of the product of unit intervals, one for each mirror. -/
example : ∃ (Ω : Type) (_ : MeasurableSpace Ω) (μ : Measure Ω) (_ : IsProbabilityMeasure μ) (draw : Ω → ℕ → ℕ → ℝ),
    (∀ i < 2, ∀ j < 4, Measurable fun ω => draw ω i j) ∧
    (∀ i < 2, ∀ j < 4, μ.map (fun ω => draw ω i j) = volume.restrict (Set.Ico 0 1)) ∧
    (∀ i < 2, ∀ j < 4, ∀ i' < 2, ∀ j' < 4, (i, j) ≠ (i', j') →
      IndepFun (fun ω => draw ω i j) (fun ω => draw ω i' j') μ) := by
  haveI : IsProbabilityMeasure (volume.restrict (Set.Ico (0 : ℝ) 1)) := ⟨by simp⟩
  refine ⟨Fin 2 × Fin 4 → ℝ, inferInstance, Measure.pi fun _ => volume.restrict (Set.Ico 0 1), inferInstance,
    fun ω i j => ω (Fin.ofNat 2 i, Fin.ofNat 4 j), fun i _ j _ => measurable_pi_apply _, fun i _ j _ => ?_,
    fun i hi j hj i' hi' j' hj' hne => ?_⟩
  · exact (measurePreserving_eval (fun _ : Fin 2 × Fin 4 => volume.restrict (Set.Ico (0 : ℝ) 1)) _).map_eq
  · have := iIndepFun_pi (μ := fun _ : Fin 2 × Fin 4 => volume.restrict (Set.Ico (0 : ℝ) 1)) (X := fun _ x => x)
      (fun _ => aemeasurable_id)
    refine this.indepFun fun hc => hne ?_
    rw [Prod.mk.injEq, Fin.ext_iff, Fin.ext_iff] at hc
    simp only [Fin.ofNat, Nat.mod_eq_of_lt hi, Nat.mod_eq_of_lt hj, Nat.mod_eq_of_lt hi', Nat.mod_eq_of_lt hj'] at hc
    rw [hc.1, hc.2]

/-- A grating with amplitude 1/2 on a 4 x 2 DMD and a simulation of it. -/
example (h : Profile.Heap) :
    GratingArgs exDmd h (.num (.real (1 / 2))) (.num (.real 0)) (.num (.real 1)) (fun _ _ => 1 / 2) (fun _ _ => 0) (fun _ _ => 1) ∧
    exDmd.p ≠ 0 ∧ exSim.dev = .dmd exDmd (.bool exState) ∧ ∃ u m, Ready exSim 3 1 h exInput u m := by
  refine ⟨⟨⟨_, rfl, rfl, fun i _ j _ => ?_⟩, ⟨_, rfl, rfl, fun i _ j _ => ?_⟩, ⟨_, rfl, rfl, fun i _ j _ => ?_⟩⟩,
    by norm_num [exDmd], rfl, _, _, exReady h⟩ <;> simp [Tensor.at_, Tensor.map, Tensor.scalar]

end PySLM2.DMD
