import Verif.Lemmas.DitherFrames
import Verif.Props.RandomImage

/-!
# C122: many random holograms of the same grating, shown one after the other
-/

noncomputable section

open MeasureTheory ProbabilityTheory Finset Complex Filter Topology

namespace PySLM2.DMD

open Lib Sim

/-- The image of every binary or grey state as a linear combination of the mirrors, with the same coefficients. -/
theorem mirrors_linear {d : DMD} {h' : Profile.Heap} {a : ProfArg} {s : Sim} {st : StateArr} (hdev : s.dev = .dmd d st)
    {px py : ℕ} {u m : ℕ → ℕ → ℂ} (rdy : Ready s px py h' a u m) :
    ∃ c : ℕ → ℕ → ℕ × ℕ → ℂ,
      (∀ k l ij, ‖c k l ij‖ ^ 2 = (d.slm.ps ^ 2 / d.slm.scaling) ^ 2 * ‖u ij.1 ij.2‖ ^ 2) ∧
      (∀ t : Tensor Bool, t.shape = .mat d.slm.Ny d.slm.Nx → ∃ img,
        ((showing s d (.bool t)).propagate h' a).1.imageField = some img ∧
        ∀ k < d.slm.Ny + 2 * py, ∀ l < d.slm.Nx + 2 * px, img.get k l =
          ∑ ij ∈ range d.slm.Ny ×ˢ range d.slm.Nx, c k l ij * if t.get ij.1 ij.2 then 1 else 0) ∧
      ∀ q : ℕ → ℕ → ℝ, ∃ img, ((showing s d (grey d q)).propagate h' a).1.imageField = some img ∧
        ∀ k < d.slm.Ny + 2 * py, ∀ l < d.slm.Nx + 2 * px, img.get k l =
          ∑ ij ∈ range d.slm.Ny ×ˢ range d.slm.Nx, c k l ij * (q ij.1 ij.2 : ℂ) := by
  have r0 : ∀ q, Ready (showing s d (grey d q)) px py h' a u fun i j => (q i j : ℂ) :=
    fun q => showing_ready hdev rdy (grey_modulation d _)
  obtain ⟨gr, hgr⟩ := imagePaddedGrid_ok (r0 fun _ _ => 0)
  have hgq : ∀ q, (showing s d (grey d q)).imagePaddedGrid = .ok gr := fun q => hgr
  have hgt : ∀ t, (showing s d (.bool t)).imagePaddedGrid = .ok gr := fun t => hgr
  choose c hc hlin using fun k l => fieldAt_lin d.slm u (gr.1.get k l) (gr.2.get k l)
  refine ⟨c, hc, fun t ht => ?_, fun q => ?_⟩
  · obtain ⟨img, h1, h2⟩ := image_fieldAt (showing_ready hdev rdy (bool_modulation d ht)) (hgt t)
    exact ⟨img, h1, fun k hk l hl => (h2 k hk l hl).trans (hlin k l _)⟩
  · obtain ⟨img, h1, h2⟩ := image_fieldAt (r0 q) (hgq q)
    exact ⟨img, h1, fun k hk l hl => (h2 k hk l hl).trans (hlin k l _)⟩

/-- **C122.** The same grating is computed with method `random` again and again, with independent uniform draws, and the
holograms are shown one after the other. With certainty (almost surely) the average of the image fields tends to the image of the
grey state with the duty values, and the average of the intensities (a long exposure) tends to the intensity of that
image plus the same constant background at every pixel; and the mean squared deviation of the average of `n` fields is that of
one (C97) divided by `n`. -/
theorem C122_exposure {d : DMD} {h h' : Profile.Heap} {amp pin pout a : ProfArg} {A φin φout : ℕ → ℕ → ℝ}
    (g : GratingArgs d h amp pin pout A φin φout) (hp : d.p ≠ 0) (kw : Kwargs) {r : ℝ} (hr : 0 < r) (hkw : kw.r.getD 10 = r)
    (hA : ∀ i < d.slm.Ny, ∀ j < d.slm.Nx, 0 ≤ A i j ∧ A i j ≤ 1)
    {s : Sim} {st : StateArr} (hdev : s.dev = .dmd d st) {px py : ℕ} {u m : ℕ → ℕ → ℂ} (rdy : Ready s px py h' a u m)
    {Ω : Type} [MeasurableSpace Ω] (μ : Measure Ω) [IsProbabilityMeasure μ] (draw : ℕ → Ω → ℕ → ℕ → ℝ)
    (hm : ∀ f, ∀ i < d.slm.Ny, ∀ j < d.slm.Nx, Measurable fun ω => draw f ω i j)
    (hu : ∀ f, ∀ i < d.slm.Ny, ∀ j < d.slm.Nx, μ.map (fun ω => draw f ω i j) = volume.restrict (Set.Ico 0 1))
    (hind : iIndepFun (fun (p : ℕ × Fin d.slm.Ny × Fin d.slm.Nx) ω => draw p.1 ω p.2.1 p.2.2) μ) :
    ∃ (t : ℕ → Ω → Tensor Bool) (img : ℕ → Ω → Tensor ℂ) (avg : Tensor ℂ) (noise : ℝ),
      (∀ f ω, d.setDmdGratingState h amp pin pout "random" kw (draw f ω) = ⟨.rebind (.bool (t f ω)), .ok ()⟩ ∧
        ((showing s d (.bool (t f ω))).propagate h' a).1.imageField = some (img f ω)) ∧
      ((showing s d (grey d (d.duty r A φin φout))).propagate h' a).1.imageField = some avg ∧
      noise = (d.slm.ps ^ 2 / (d.slm.wavelength * d.slm.focal)) ^ 2 * ∑ i ∈ range d.slm.Ny, ∑ j ∈ range d.slm.Nx,
        ‖u i j‖ ^ 2 * (d.duty r A φin φout i j * (1 - d.duty r A φin φout i j)) ∧
      (∀ᵐ ω ∂μ, ∀ k < d.slm.Ny + 2 * py, ∀ l < d.slm.Nx + 2 * px,
        Tendsto (fun n : ℕ => (∑ f ∈ range n, (img f ω).get k l) / n) atTop (𝓝 (avg.get k l)) ∧
        Tendsto (fun n : ℕ => (∑ f ∈ range n, ‖(img f ω).get k l‖ ^ 2) / n) atTop (𝓝 (‖avg.get k l‖ ^ 2 + noise))) ∧
      ∀ k < d.slm.Ny + 2 * py, ∀ l < d.slm.Nx + 2 * px, ∀ n : ℕ, 0 < n →
        ∫ ω, ‖(∑ f ∈ range n, (img f ω).get k l) / n - avg.get k l‖ ^ 2 ∂μ = noise / n := by
  classical
  set q := d.duty r A φin φout with hqdef
  have hq0 : ∀ i < d.slm.Ny, ∀ j < d.slm.Nx, 0 ≤ q i j ∧ q i j ≤ 1 := fun i hi j hj =>
    ⟨duty_nonneg d hr.le A φin φout _ _ (hA i hi j hj).1, (duty_lt_one d r A φin φout _ _).le⟩
  choose t ht hsh hget using fun f ω => (setGrating_eq g kw (draw f ω)).2.2
  have hbits : ∀ f ω, ∀ i < d.slm.Ny, ∀ j < d.slm.Nx, ((t f ω).get i j = true ↔ draw f ω i j < q i j) := by
    intro f ω i hi j hj
    rw [hget f ω i hi j hj, hkw, randomPixel_iff d hp]
    have := hA i hi j hj
    exact ⟨fun h4 => h4.2.2, fun h4 => ⟨by linarith, this.2, h4⟩⟩
  obtain ⟨c, hc, hbool, hgrey⟩ := mirrors_linear hdev rdy
  choose img himg hval using fun f ω => hbool (t f ω) (hsh f ω)
  obtain ⟨avg, havg, hval0⟩ := hgrey q
  have hmem : ∀ ij ∈ range d.slm.Ny ×ˢ range d.slm.Nx, ij.1 < d.slm.Ny ∧ ij.2 < d.slm.Nx := fun ij hij => by
    rwa [mem_product, mem_range, mem_range] at hij
  have hsum : ∀ F : ℕ × ℕ → ℂ, ∑ ij ∈ range d.slm.Ny ×ˢ range d.slm.Nx, F ij =
      ∑ p : Fin d.slm.Ny × Fin d.slm.Nx, F (p.1, p.2) := by
    intro F
    rw [sum_product, Fintype.sum_prod_type, Finset.sum_range]
    refine sum_congr rfl fun i _ => ?_
    rw [Finset.sum_range]
  have e1 : ∀ f ω, ∀ k < d.slm.Ny + 2 * py, ∀ l < d.slm.Nx + 2 * px, (img f ω).get k l =
      ∑ p : Fin d.slm.Ny × Fin d.slm.Nx, c k l (p.1, p.2) * (Dither.bit (fun ω => draw f ω p.1 p.2) (q p.1 p.2) ω : ℂ) := by
    intro f ω k hk l hl
    rw [hval f ω k hk l hl, hsum]
    refine sum_congr rfl fun p _ => ?_
    have := hbits f ω _ p.1.2 _ p.2.2
    unfold Dither.bit
    by_cases hlt : draw f ω p.1 p.2 < q p.1 p.2
    · rw [if_pos (this.mpr hlt), if_pos hlt, ofReal_one]
    · rw [if_neg (fun hc => hlt (this.mp hc)), if_neg hlt, ofReal_zero]
  have e0 : ∀ k < d.slm.Ny + 2 * py, ∀ l < d.slm.Nx + 2 * px, avg.get k l =
      ∑ p : Fin d.slm.Ny × Fin d.slm.Nx, c k l (p.1, p.2) * (q p.1 p.2 : ℂ) := by
    intro k hk l hl
    rw [hval0 k hk l hl, hsum]
  have hnoise : ∀ k l, ∑ p : Fin d.slm.Ny × Fin d.slm.Nx, ‖c k l (p.1, p.2)‖ ^ 2 * (q p.1 p.2 * (1 - q p.1 p.2)) =
      (d.slm.ps ^ 2 / (d.slm.wavelength * d.slm.focal)) ^ 2 * ∑ i ∈ range d.slm.Ny, ∑ j ∈ range d.slm.Nx,
        ‖u i j‖ ^ 2 * (q i j * (1 - q i j)) := by
    intro k l
    rw [Fintype.sum_prod_type, Finset.sum_range, mul_sum]
    refine sum_congr rfl fun i _ => ?_
    rw [Finset.sum_range, mul_sum]
    refine sum_congr rfl fun j _ => ?_
    rw [hc k l (i, j)]
    unfold SLM.scaling
    ring
  have key := fun k l => Dither.frames_combination (μ := μ) (ι := Fin d.slm.Ny × Fin d.slm.Nx)
    (fun f p ω => draw f ω p.1 p.2) (fun f p => hm f _ p.1.2 _ p.2.2) (fun f p => hu f _ p.1.2 _ p.2.2) hind
    (fun p => c k l (p.1, p.2)) (fun p => q p.1 p.2) (fun p => hq0 _ p.1.2 _ p.2.2)
  refine ⟨t, img, avg, _, fun f ω => ⟨ht f ω, himg f ω⟩, havg, rfl, ?_, fun k hk l hl n hn => ?_⟩
  · have hall := ae_all_iff.mpr fun kl : ℕ × ℕ => (key kl.1 kl.2).1
    filter_upwards [hall] with ω h1 k hk l hl
    have h2 := h1 (k, l)
    rw [hnoise, ← e0 k hk l hl] at h2
    refine ⟨h2.1.congr fun n => ?_, h2.2.congr fun n => ?_⟩
    · rw [sum_congr rfl fun f _ => e1 f ω k hk l hl]
    · congr 1
      exact sum_congr rfl fun f _ => by rw [e1 f ω k hk l hl]
  · have h2 := (key k l).2 n hn
    rw [hnoise] at h2
    simp only [e1 _ _ k hk l hl, e0 k hk l hl]
    exact h2

/-- Independent uniform draws for all frames and mirrors: the coordinates of an infinite product of unit intervals. -/
example : ∃ (Ω : Type) (_ : MeasurableSpace Ω) (μ : Measure Ω) (_ : IsProbabilityMeasure μ) (draw : ℕ → Ω → ℕ → ℕ → ℝ),
    (∀ f, ∀ i < 2, ∀ j < 4, Measurable fun ω => draw f ω i j) ∧
    (∀ f, ∀ i < 2, ∀ j < 4, μ.map (fun ω => draw f ω i j) = volume.restrict (Set.Ico 0 1)) ∧
    iIndepFun (fun (p : ℕ × Fin 2 × Fin 4) ω => draw p.1 ω p.2.1 p.2.2) μ := by
  haveI : IsProbabilityMeasure (volume.restrict (Set.Ico (0 : ℝ) 1)) := ⟨by simp⟩
  refine ⟨ℕ × ℕ × ℕ → ℝ, inferInstance, Measure.infinitePi fun _ => volume.restrict (Set.Ico 0 1), inferInstance,
    fun f ω i j => ω (f, i, j), fun f i _ j _ => measurable_pi_apply _, fun f i _ j _ => ?_, ?_⟩
  · exact (measurePreserving_eval_infinitePi (fun _ : ℕ × ℕ × ℕ => volume.restrict (Set.Ico (0 : ℝ) 1)) _).map_eq
  · have := iIndepFun_infinitePi (P := fun _ : ℕ × ℕ × ℕ => volume.restrict (Set.Ico (0 : ℝ) 1)) (X := fun _ x => x)
      (fun _ => measurable_id)
    exact this.precomp (g := fun p : ℕ × Fin 2 × Fin 4 => (p.1, p.2.1.1, p.2.2.1)) fun p q hpq => by
      simp only [Prod.mk.injEq] at hpq
      exact Prod.ext hpq.1 (Prod.ext (Fin.ext hpq.2.1) (Fin.ext hpq.2.2))

end PySLM2.DMD
