import Mathlib.Analysis.SpecialFunctions.Integrals.Basic
import Mathlib.Probability.Independence.Integration
import Verif.Props.RandomImage
import Verif.Props.Lcos
import Verif.Props.Stability

/-!
# C135: the speckle of the random start
-/

noncomputable section

open MeasureTheory ProbabilityTheory Finset Complex

namespace PySLM2.LCOS

open Lib Sim DMD

/-- A uniform draw gives a phase factor of mean zero. -/
theorem mean_phase {Ω : Type} [MeasurableSpace Ω] (μ : Measure Ω) {U : Ω → ℝ} (hm : Measurable U)
    (hu : μ.map U = volume.restrict (Set.Ico 0 1)) : ∫ ω, cexp (-I * ((2 * Real.pi * U ω : ℝ) : ℂ)) ∂μ = 0 := by
  have h1 : ∫ x, cexp (-I * ((2 * Real.pi * x : ℝ) : ℂ)) ∂(μ.map U) = ∫ ω, cexp (-I * ((2 * Real.pi * U ω : ℝ) : ℂ)) ∂μ :=
    integral_map hm.aemeasurable (by fun_prop)
  rw [← h1, hu, integral_Ico_eq_integral_Ioo, ← integral_Ioc_eq_integral_Ioo,
    ← intervalIntegral.integral_of_le zero_le_one]
  have h2 : ∀ x : ℝ, cexp (-I * ((2 * Real.pi * x : ℝ) : ℂ)) = cexp ((-2 * Real.pi * I) * (x : ℂ)) := fun x => by
    congr 1; push_cast; ring
  simp only [h2]
  have hne : (-2 * Real.pi * I : ℂ) ≠ 0 := by
    simp [Real.pi_ne_zero]
  rw [integral_exp_mul_complex hne]
  rw [show (-2 * Real.pi * I : ℂ) * ((1 : ℝ) : ℂ) = -(2 * Real.pi * I) by push_cast; ring, exp_neg, exp_two_pi_mul_I]
  simp

/-- Mean and mean square of a combination of pairwise independent random phase factors. -/
theorem phases_moments {Ω ι : Type} [MeasurableSpace Ω] (μ : Measure Ω) [IsProbabilityMeasure μ] (S : Finset ι) (c : ι → ℂ)
    (U : ι → Ω → ℝ) (hm : ∀ a ∈ S, Measurable (U a)) (hu : ∀ a ∈ S, μ.map (U a) = volume.restrict (Set.Ico 0 1)) :
    ∫ ω, ∑ a ∈ S, c a * cexp (-I * ((2 * Real.pi * U a ω : ℝ) : ℂ)) ∂μ = 0 ∧
    ((∀ a ∈ S, ∀ b ∈ S, a ≠ b → IndepFun (U a) (U b) μ) →
      ∫ ω, ‖∑ a ∈ S, c a * cexp (-I * ((2 * Real.pi * U a ω : ℝ) : ℂ))‖ ^ 2 ∂μ = ∑ a ∈ S, ‖c a‖ ^ 2) := by
  classical
  set X : ι → Ω → ℂ := fun a ω => cexp (-I * ((2 * Real.pi * U a ω : ℝ) : ℂ)) with hX
  have hn : ∀ a ω, ‖X a ω‖ = 1 := fun a ω => by
    rw [hX]
    simp only
    rw [show -I * ((2 * Real.pi * U a ω : ℝ) : ℂ) = ((-(2 * Real.pi * U a ω) : ℝ) : ℂ) * I by push_cast; ring, norm_exp_ofReal_mul_I]
  have hg : Measurable fun x : ℝ => cexp (-I * ((2 * Real.pi * x : ℝ) : ℂ)) := by fun_prop
  have hXm : ∀ a ∈ S, Measurable (X a) := fun a ha => hg.comp (hm a ha)
  have hint : ∀ a ∈ S, Integrable (X a) μ := fun a ha =>
    Integrable.of_bound (hXm a ha).aestronglyMeasurable 1 (Filter.Eventually.of_forall fun ω => (hn a ω).le)
  have h0 : ∀ a ∈ S, ∫ ω, X a ω ∂μ = 0 := fun a ha => mean_phase μ (hm a ha) (hu a ha)
  constructor
  · rw [integral_finsetSum _ fun a ha => (hint a ha).const_mul (c a)]
    refine sum_eq_zero fun a ha => ?_
    rw [integral_const_mul, h0 a ha, mul_zero]
  · intro hind
    have hprod : ∀ a ∈ S, ∀ b ∈ S, Integrable (fun ω => X a ω * (starRingEnd ℂ) (X b ω)) μ := fun a ha b hb => by
      refine Integrable.of_bound ?_ 1 (Filter.Eventually.of_forall fun ω => ?_)
      · exact ((hXm a ha).mul (Complex.continuous_conj.measurable.comp (hXm b hb))).aestronglyMeasurable
      · rw [norm_mul, RCLike.norm_conj, hn, hn, mul_one]
    have hcov : ∀ a ∈ S, ∀ b ∈ S, ∫ ω, X a ω * (starRingEnd ℂ) (X b ω) ∂μ = if a = b then 1 else 0 := by
      intro a ha b hb
      split_ifs with hab
      · subst hab
        have : ∀ ω, X a ω * (starRingEnd ℂ) (X a ω) = 1 := fun ω => by
          rw [mul_conj, normSq_eq_norm_sq, hn]; norm_num
        simp only [this]
        simp
      · have hi : IndepFun (X a) (fun ω => (starRingEnd ℂ) (X b ω)) μ :=
          (hind a ha b hb hab).comp hg (Complex.continuous_conj.measurable.comp hg)
        rw [hi.integral_fun_mul_eq_mul_integral (hXm a ha).aestronglyMeasurable
          (Complex.continuous_conj.measurable.comp (hXm b hb)).aestronglyMeasurable, h0 a ha, zero_mul]
    have hexp : ∀ ω, ((‖∑ a ∈ S, c a * X a ω‖ ^ 2 : ℝ) : ℂ) =
        ∑ a ∈ S, ∑ b ∈ S, (c a * (starRingEnd ℂ) (c b)) * (X a ω * (starRingEnd ℂ) (X b ω)) := by
      intro ω
      rw [← normSq_eq_norm_sq, ← mul_conj, map_sum, sum_mul_sum]
      refine sum_congr rfl fun a _ => sum_congr rfl fun b _ => ?_
      rw [map_mul]; ring
    have : ((∫ ω, ‖∑ a ∈ S, c a * X a ω‖ ^ 2 ∂μ : ℝ) : ℂ) = ((∑ a ∈ S, ‖c a‖ ^ 2 : ℝ) : ℂ) := by
      rw [← integral_complex_ofReal]
      simp only [hexp]
      rw [integral_finsetSum _ fun a ha => integrable_finsetSum _ fun b hb => (hprod a ha b hb).const_mul _]
      push_cast
      refine sum_congr rfl fun a ha => ?_
      rw [integral_finsetSum _ fun b hb => (hprod a ha b hb).const_mul _]
      have : ∀ b ∈ S, ∫ ω, (c a * (starRingEnd ℂ) (c b)) * (X a ω * (starRingEnd ℂ) (X b ω)) ∂μ =
          if a = b then (c a * (starRingEnd ℂ) (c b)) else 0 := fun b hb => by
        rw [integral_const_mul, hcov a ha b hb]
        split_ifs <;> simp
      rw [sum_congr rfl this, sum_ite_eq, if_pos ha, mul_conj, normSq_eq_norm_sq]
      push_cast
      ring
    exact_mod_cast this

/-- The simulation with its LCOS SLM replaced. -/
def with_ (s : Sim) (l : LCOS) : Sim := { s with dev := .lcos l }

/-- **C135.** The random start of `calculate_hologram` (zero iterations, either method) with independent uniform draws:
at every pixel of the simulated image the expected field is zero, and the expected intensity is the same everywhere,
`(ps²/(λf))² Σ|u|²`. -/
theorem C135_speckle {l : LCOS} {h h' : Profile.Heap} {inp target a : ProfArg} {A : ℕ → ℕ → ℂ} {T : ℕ → ℕ → ℝ}
    (ha : HologramArgs l.slm h inp target A T) {method : String} {kw : Kwargs}
    (hmeth : method = "gs" ∨ method = "mraf" ∧ ∃ sw W, DMD.TargetArg l.slm h sw W ∧ kw.signalWindow = some sw)
    (hN : kw.N = some 0)
    {s : Sim} (hdev : s.dev = .lcos l) {px py : ℕ} {u m : ℕ → ℕ → ℂ} (rdy : Ready s px py h' a u m)
    {Ω : Type} [MeasurableSpace Ω] (μ : Measure Ω) [IsProbabilityMeasure μ] (draw : Ω → ℕ → ℕ → ℝ)
    (hm : ∀ i < l.slm.Ny, ∀ j < l.slm.Nx, Measurable fun ω => draw ω i j)
    (hu : ∀ i < l.slm.Ny, ∀ j < l.slm.Nx, μ.map (fun ω => draw ω i j) = volume.restrict (Set.Ico 0 1))
    (hind : ∀ i < l.slm.Ny, ∀ j < l.slm.Nx, ∀ i' < l.slm.Ny, ∀ j' < l.slm.Nx, (i, j) ≠ (i', j') →
      IndepFun (fun ω => draw ω i j) (fun ω => draw ω i' j') μ) :
    ∃ (l' : Ω → LCOS) (img : Ω → Tensor ℂ),
      (∀ ω, l.calculateHologram h inp target method kw (draw ω) = (l' ω, .ok ()) ∧
        ((with_ s (l' ω)).propagate h' a).1.imageField = some (img ω)) ∧
      ∀ k < l.slm.Ny + 2 * py, ∀ q < l.slm.Nx + 2 * px,
        ∫ ω, (img ω).get k q ∂μ = 0 ∧
        ∫ ω, ‖(img ω).get k q‖ ^ 2 ∂μ = (l.slm.ps ^ 2 / (l.slm.wavelength * l.slm.focal)) ^ 2 *
          ∑ i ∈ range l.slm.Ny, ∑ j ∈ range l.slm.Nx, ‖u i j‖ ^ 2 := by
  have hcalc : ∀ ω, l.calculateHologram h inp target method kw (draw ω) =
      ({ l with state := phaseState l.slm (initialPhase (draw ω)) }, .ok ()) := by
    intro ω
    rcases hmeth with rfl | ⟨rfl, sw, W, hw, hk⟩
    · obtain ⟨A', B', -, -, h3⟩ := calculate_gs ha
      rw [h3, hN]
      rfl
    · obtain ⟨A', B', W', -, -, -, h3⟩ := calculate_mraf ha hw
      rw [h3 kw _ hk, hN]
      rfl
  have hs : s.dev.slm = l.slm := by rw [hdev]; rfl
  have rω : ∀ ω, Ready (with_ s { l with state := phaseState l.slm (initialPhase (draw ω)) }) px py h' a u
      fun i j => cexp (-I * ((2 * Real.pi * draw ω i j : ℝ) : ℂ)) := by
    intro ω
    have e : (with_ s { l with state := phaseState l.slm (initialPhase (draw ω)) }).dev.slm = s.dev.slm := by rw [hs]; rfl
    refine ⟨rdy.hpx, rdy.hpy, ?_, ?_, ?_, ?_, ?_, shows_modulation (shows_phaseState l _)⟩
    · rw [e]; exact rdy.hNx
    · rw [e]; exact rdy.hNy
    · rw [e]; exact rdy.hsc
    · rw [e]; exact rdy.hps
    · have := rdy.input
      unfold InputField at this ⊢
      rwa [e]
  obtain ⟨gr, hgr⟩ := imagePaddedGrid_ok rdy
  have hgω : ∀ ω, (with_ s { l with state := phaseState l.slm (initialPhase (draw ω)) }).imagePaddedGrid = .ok gr := by
    intro ω
    rw [← hgr]
    rw [imagePaddedGrid_nat (rω ω).hpx (rω ω).hpy, imagePaddedGrid_nat rdy.hpx rdy.hpy, Nx_eq (rω ω).hpx, Ny_eq (rω ω).hpy,
      Nx_eq rdy.hpx, Ny_eq rdy.hpy, hs]
    rfl
  choose img himg hval using fun ω => image_fieldAt (rω ω) (hgω ω)
  refine ⟨_, img, fun ω => ⟨hcalc ω, himg ω⟩, fun k hk q hq => ?_⟩
  obtain ⟨c, hc, hlin⟩ := fieldAt_lin l.slm u (gr.1.get k q) (gr.2.get k q)
  have hmem : ∀ ij ∈ range l.slm.Ny ×ˢ range l.slm.Nx, ij.1 < l.slm.Ny ∧ ij.2 < l.slm.Nx := fun ij hij => by
    rw [mem_product, mem_range, mem_range] at hij
    exact hij
  have e1 : ∀ ω, (img ω).get k q = ∑ ij ∈ range l.slm.Ny ×ˢ range l.slm.Nx,
      c ij * cexp (-I * ((2 * Real.pi * draw ω ij.1 ij.2 : ℝ) : ℂ)) := fun ω => (hval ω k hk q hq).trans (hlin _)
  simp only [e1]
  obtain ⟨h1, h2⟩ := phases_moments μ (range l.slm.Ny ×ˢ range l.slm.Nx) c (fun ij ω => draw ω ij.1 ij.2)
    (fun ij hij => hm _ (hmem ij hij).1 _ (hmem ij hij).2) (fun ij hij => hu _ (hmem ij hij).1 _ (hmem ij hij).2)
  refine ⟨h1, (h2 fun ij hij kl hkl hne =>
    hind _ (hmem ij hij).1 _ (hmem ij hij).2 _ (hmem kl hkl).1 _ (hmem kl hkl).2 hne).trans ?_⟩
  rw [sum_product, mul_sum]
  refine sum_congr rfl fun i _ => ?_
  rw [mul_sum]
  refine sum_congr rfl fun j _ => ?_
  rw [hc (i, j)]
  rfl

/-! ## The hypotheses can be met -/

/-- Independent uniform draws: the coordinates of the product of unit intervals, one for each pixel of a 4 x 6 SLM. -/
example : ∃ (Ω : Type) (_ : MeasurableSpace Ω) (μ : Measure Ω) (_ : IsProbabilityMeasure μ) (draw : Ω → ℕ → ℕ → ℝ),
    (∀ i < exLcos.slm.Ny, ∀ j < exLcos.slm.Nx, Measurable fun ω => draw ω i j) ∧
    (∀ i < exLcos.slm.Ny, ∀ j < exLcos.slm.Nx, μ.map (fun ω => draw ω i j) = volume.restrict (Set.Ico 0 1)) ∧
    (∀ i < exLcos.slm.Ny, ∀ j < exLcos.slm.Nx, ∀ i' < exLcos.slm.Ny, ∀ j' < exLcos.slm.Nx, (i, j) ≠ (i', j') →
      IndepFun (fun ω => draw ω i j) (fun ω => draw ω i' j') μ) := by
  haveI : IsProbabilityMeasure (volume.restrict (Set.Ico (0 : ℝ) 1)) := ⟨by simp⟩
  refine ⟨Fin 4 × Fin 6 → ℝ, inferInstance, Measure.pi fun _ => volume.restrict (Set.Ico 0 1), inferInstance,
    fun ω i j => ω (Fin.ofNat 4 i, Fin.ofNat 6 j), fun i _ j _ => measurable_pi_apply _, fun i _ j _ => ?_,
    fun i hi j hj i' hi' j' hj' hne => ?_⟩
  · exact (measurePreserving_eval (fun _ : Fin 4 × Fin 6 => volume.restrict (Set.Ico (0 : ℝ) 1)) _).map_eq
  · have := iIndepFun_pi (μ := fun _ : Fin 4 × Fin 6 => volume.restrict (Set.Ico (0 : ℝ) 1)) (X := fun _ x => x)
      (fun _ => aemeasurable_id)
    refine this.indepFun fun hc => hne ?_
    replace hi : i < 4 := hi
    replace hi' : i' < 4 := hi'
    replace hj : j < 6 := hj
    replace hj' : j' < 6 := hj'
    rw [Prod.mk.injEq, Fin.ext_iff, Fin.ext_iff] at hc
    simp only [Fin.ofNat, Nat.mod_eq_of_lt hi, Nat.mod_eq_of_lt hj, Nat.mod_eq_of_lt hi', Nat.mod_eq_of_lt hj'] at hc
    rw [hc.1, hc.2]

/-- A beam, a target and a window on a 4 x 6 SLM, and a simulation of it. -/
example (h : Profile.Heap) : ∃ inp target sw,
    HologramArgs exLcos.slm h inp target (fun i j => I * ((i + j : ℝ) : ℂ)) (fun i j => 1 + i * j) ∧
    DMD.TargetArg exLcos.slm h sw (fun i _ => if i = 2 then 1 else 0) ∧
    ∃ m, Ready ⟨.lcos { exLcos with state := phaseState exLcos.slm fun _ _ => 1 }, 2, 0, none, none, none⟩ 2 0 h inp
      (fun i j => I * ((i + j : ℝ) : ℂ)) m := by
  refine ⟨_, _, .ndarray .cplx ⟨.mat 4 6, fun i _ => if i = 2 then 1 else 0⟩, exHologramArgs h _ _,
    ⟨_, rfl, rfl, fun _ _ _ _ => rfl⟩, _, rfl, rfl, Nat.succ_pos 5, Nat.succ_pos 3, ?_, ?_,
    ⟨_, rfl, rfl, fun _ _ _ _ => rfl⟩, shows_modulation (shows_phaseState _ _)⟩
  · show (3 : ℝ) * 5 ≠ 0; norm_num
  · show (2 : ℝ) ≠ 0; norm_num

end PySLM2.LCOS
