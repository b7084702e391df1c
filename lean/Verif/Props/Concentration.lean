import Verif.Lemmas.DitherTail
import Verif.Props.Exposure
import Mathlib.Analysis.Complex.ExponentialBounds

/-!
# C126: how far the average of random holograms can be from what was asked for
-/

noncomputable section

open MeasureTheory ProbabilityTheory Finset Complex

namespace PySLM2.DMD

open Lib Sim

/-- **C126.** The image field averaged over `n` random holograms of a grating (with `n = 1`, the image of one) differs from the
image of the duty values by `ε` or more at a given pixel with probability at most `4 exp(-n ε² / E)`, where `E` is
`(ps² / (λ f))²` times the power of the beam on the mirrors; and somewhere in the whole padded image with probability at most
the number of pixels times that. -/
theorem C126_concentration {d : DMD} {h h' : Profile.Heap} {amp pin pout a : ProfArg} {A φin φout : ℕ → ℕ → ℝ}
    (g : GratingArgs d h amp pin pout A φin φout) (hp : d.p ≠ 0) (kw : Kwargs) {r : ℝ} (hr : 0 < r) (hkw : kw.r.getD 10 = r)
    (hA : ∀ i < d.slm.Ny, ∀ j < d.slm.Nx, 0 ≤ A i j ∧ A i j ≤ 1)
    {s : Sim} {st : StateArr} (hdev : s.dev = .dmd d st) {px py : ℕ} {u m : ℕ → ℕ → ℂ} (rdy : Ready s px py h' a u m)
    {Ω : Type} [MeasurableSpace Ω] (μ : Measure Ω) [IsProbabilityMeasure μ] (draw : ℕ → Ω → ℕ → ℕ → ℝ)
    (hm : ∀ f, ∀ i < d.slm.Ny, ∀ j < d.slm.Nx, Measurable fun ω => draw f ω i j)
    (hu : ∀ f, ∀ i < d.slm.Ny, ∀ j < d.slm.Nx, μ.map (fun ω => draw f ω i j) = volume.restrict (Set.Ico 0 1))
    (hind : iIndepFun (fun (p : ℕ × Fin d.slm.Ny × Fin d.slm.Nx) ω => draw p.1 ω p.2.1 p.2.2) μ) :
    ∃ (t : ℕ → Ω → Tensor Bool) (img : ℕ → Ω → Tensor ℂ) (avg : Tensor ℂ) (E : ℝ),
      (∀ f ω, d.setDmdGratingState h amp pin pout "random" kw (draw f ω) = ⟨.rebind (.bool (t f ω)), .ok ()⟩ ∧
        ((showing s d (.bool (t f ω))).propagate h' a).1.imageField = some (img f ω)) ∧
      ((showing s d (grey d (d.duty r A φin φout))).propagate h' a).1.imageField = some avg ∧
      E = (d.slm.ps ^ 2 / (d.slm.wavelength * d.slm.focal)) ^ 2 * ∑ i ∈ range d.slm.Ny, ∑ j ∈ range d.slm.Nx, ‖u i j‖ ^ 2 ∧
      ∀ n : ℕ, 0 < n → ∀ ε : ℝ, 0 ≤ ε →
        (∀ k < d.slm.Ny + 2 * py, ∀ l < d.slm.Nx + 2 * px,
          μ.real {ω | ε ≤ ‖(∑ f ∈ range n, (img f ω).get k l) / n - avg.get k l‖} ≤ 4 * Real.exp (-(n * ε ^ 2) / E)) ∧
        μ.real {ω | ∃ k < d.slm.Ny + 2 * py, ∃ l < d.slm.Nx + 2 * px,
            ε ≤ ‖(∑ f ∈ range n, (img f ω).get k l) / n - avg.get k l‖} ≤
          (d.slm.Ny + 2 * py : ℕ) * (d.slm.Nx + 2 * px : ℕ) * (4 * Real.exp (-(n * ε ^ 2) / E)) := by
  classical
  set q := d.duty r A φin φout with hqdef
  have hq0 : ∀ i < d.slm.Ny, ∀ j < d.slm.Nx, 0 ≤ q i j ∧ q i j ≤ 1 := fun i hi j hj =>
    ⟨duty_nonneg d hr.le A φin φout _ _ (hA i hi j hj).1, (duty_lt_one d r A φin φout _ _).le⟩
  choose t ht hsh hget using fun f ω => (setGrating_eq g kw (draw f ω)).2.2
  have hbits : ∀ f ω, ∀ i < d.slm.Ny, ∀ j < d.slm.Nx, ((t f ω).get i j = true ↔ draw f ω i j < q i j) := by
    intro f ω i hi j hj
    rw [hget f ω i hi j hj, hkw, randomPixel_iff d hp]
    have := hA i hi j hj
    exact ⟨fun h4 => h4.2.2, fun h4 => ⟨by linarith, this.2, h4⟩⟩
  obtain ⟨c, hc, hbool, hgrey⟩ := mirrors_linear hdev rdy
  choose img himg hval using fun f ω => hbool (t f ω) (hsh f ω)
  obtain ⟨avg, havg, hval0⟩ := hgrey q
  have hsum : ∀ F : ℕ × ℕ → ℂ, ∑ ij ∈ range d.slm.Ny ×ˢ range d.slm.Nx, F ij =
      ∑ p : Fin d.slm.Ny × Fin d.slm.Nx, F (p.1, p.2) := by
    intro F
    rw [sum_product, Fintype.sum_prod_type, Finset.sum_range]
    refine sum_congr rfl fun i _ => ?_
    rw [Finset.sum_range]
  have e1 : ∀ f ω, ∀ k < d.slm.Ny + 2 * py, ∀ l < d.slm.Nx + 2 * px, (img f ω).get k l =
      ∑ p : Fin d.slm.Ny × Fin d.slm.Nx, c k l (p.1, p.2) * (Dither.bit (fun ω => draw f ω p.1 p.2) (q p.1 p.2) ω : ℂ) := by
    intro f ω k hk l hl
    rw [hval f ω k hk l hl, hsum]
    refine sum_congr rfl fun p _ => ?_
    have := hbits f ω _ p.1.2 _ p.2.2
    unfold Dither.bit
    by_cases hlt : draw f ω p.1 p.2 < q p.1 p.2
    · rw [if_pos (this.mpr hlt), if_pos hlt, ofReal_one]
    · rw [if_neg (fun hc => hlt (this.mp hc)), if_neg hlt, ofReal_zero]
  have e0 : ∀ k < d.slm.Ny + 2 * py, ∀ l < d.slm.Nx + 2 * px, avg.get k l =
      ∑ p : Fin d.slm.Ny × Fin d.slm.Nx, c k l (p.1, p.2) * (q p.1 p.2 : ℂ) := by
    intro k hk l hl
    rw [hval0 k hk l hl, hsum]
  have hpow : ∀ k l, ∑ p : Fin d.slm.Ny × Fin d.slm.Nx, ‖c k l (p.1, p.2)‖ ^ 2 =
      (d.slm.ps ^ 2 / (d.slm.wavelength * d.slm.focal)) ^ 2 * ∑ i ∈ range d.slm.Ny, ∑ j ∈ range d.slm.Nx, ‖u i j‖ ^ 2 := by
    intro k l
    rw [Fintype.sum_prod_type, Finset.sum_range, mul_sum]
    refine sum_congr rfl fun i _ => ?_
    rw [Finset.sum_range, mul_sum]
    refine sum_congr rfl fun j _ => ?_
    rw [hc k l (i, j)]
    rfl
  refine ⟨t, img, avg, _, fun f ω => ⟨ht f ω, himg f ω⟩, havg, rfl, fun n hn ε hε => ?_⟩
  have hn' : (n : ℝ) ≠ 0 := by exact_mod_cast hn.ne'
  have hnc : (n : ℂ) ≠ 0 := by exact_mod_cast hn.ne'
  have one : ∀ k < d.slm.Ny + 2 * py, ∀ l < d.slm.Nx + 2 * px,
      μ.real {ω | ε ≤ ‖(∑ f ∈ range n, (img f ω).get k l) / n - avg.get k l‖} ≤
        4 * Real.exp (-(n * ε ^ 2) / ((d.slm.ps ^ 2 / (d.slm.wavelength * d.slm.focal)) ^ 2 *
          ∑ i ∈ range d.slm.Ny, ∑ j ∈ range d.slm.Nx, ‖u i j‖ ^ 2)) := by
    intro k hk l hl
    have key := Dither.complex_tail (μ := μ) (range n ×ˢ (univ : Finset (Fin d.slm.Ny × Fin d.slm.Nx)))
      (fun P => c k l (P.2.1, P.2.2) / n) (fun P => q P.2.1 P.2.2) (fun P ω => draw P.1 ω P.2.1 P.2.2)
      (fun P => hm _ _ P.2.1.2 _ P.2.2.2) (fun P => hq0 _ P.2.1.2 _ P.2.2.2) (fun P => hu _ _ P.2.1.2 _ P.2.2.2) hind hε
    have hE : ∑ P ∈ range n ×ˢ (univ : Finset (Fin d.slm.Ny × Fin d.slm.Nx)), ‖c k l (P.2.1, P.2.2) / n‖ ^ 2 =
        ((d.slm.ps ^ 2 / (d.slm.wavelength * d.slm.focal)) ^ 2 *
          ∑ i ∈ range d.slm.Ny, ∑ j ∈ range d.slm.Nx, ‖u i j‖ ^ 2) / n := by
      rw [← hpow k l, sum_product]
      simp only [sum_const, card_range, nsmul_eq_mul, norm_div, div_pow, Complex.norm_natCast]
      rw [← sum_div]
      field_simp
    have hZ : ∀ ω, (∑ f ∈ range n, (img f ω).get k l) / n - avg.get k l =
        ∑ P ∈ range n ×ˢ (univ : Finset (Fin d.slm.Ny × Fin d.slm.Nx)), c k l (P.2.1, P.2.2) / n *
            (Dither.bit (fun ω => draw P.1 ω P.2.1 P.2.2) (q P.2.1 P.2.2) ω : ℂ) -
          ∑ P ∈ range n ×ˢ (univ : Finset (Fin d.slm.Ny × Fin d.slm.Nx)), c k l (P.2.1, P.2.2) / n * (q P.2.1 P.2.2 : ℂ) := by
      intro ω
      rw [sum_product, sum_product]
      simp only [sum_const, card_range, nsmul_eq_mul]
      rw [e0 k hk l hl, sum_div]
      congr 1
      · refine sum_congr rfl fun f _ => ?_
        rw [e1 f ω k hk l hl, sum_div]
        exact sum_congr rfl fun p _ => by ring
      · rw [mul_sum]
        exact sum_congr rfl fun p _ => by field_simp
    simp only [hZ]
    rw [hE] at key
    refine key.trans (le_of_eq ?_)
    congr 2
    rw [div_div_eq_mul_div]
    ring
  refine ⟨one, ?_⟩
  set B := 4 * Real.exp (-(n * ε ^ 2) / ((d.slm.ps ^ 2 / (d.slm.wavelength * d.slm.focal)) ^ 2 *
          ∑ i ∈ range d.slm.Ny, ∑ j ∈ range d.slm.Nx, ‖u i j‖ ^ 2)) with hB
  have hU : {ω | ∃ k < d.slm.Ny + 2 * py, ∃ l < d.slm.Nx + 2 * px,
      ε ≤ ‖(∑ f ∈ range n, (img f ω).get k l) / n - avg.get k l‖} =
      ⋃ kl ∈ range (d.slm.Ny + 2 * py) ×ˢ range (d.slm.Nx + 2 * px),
        {ω | ε ≤ ‖(∑ f ∈ range n, (img f ω).get kl.1 kl.2) / n - avg.get kl.1 kl.2‖} := by
    ext ω
    simp only [Set.mem_setOf_eq, Set.mem_iUnion, mem_product, mem_range, Prod.exists, exists_prop]
    constructor
    · rintro ⟨k, hk, l, hl, h4⟩
      exact ⟨k, l, ⟨hk, hl⟩, h4⟩
    · rintro ⟨k, l, ⟨hk, hl⟩, h4⟩
      exact ⟨k, hk, l, hl, h4⟩
  rw [hU]
  refine (measureReal_biUnion_finset_le _ _).trans ?_
  calc _ ≤ ∑ kl ∈ range (d.slm.Ny + 2 * py) ×ˢ range (d.slm.Nx + 2 * px), B :=
        sum_le_sum fun kl hkl => by
          rw [mem_product, mem_range, mem_range] at hkl
          exact one _ hkl.1 _ hkl.2
    _ = _ := by rw [sum_const, card_product, card_range, card_range, nsmul_eq_mul, Nat.cast_mul]

/-- The draws of `C122` and the set-up of `C97` meet the hypotheses; the bound says something: with `n ε² = 20 E` the
probability is below one in a million. -/
example (h : Profile.Heap) (E ε : ℝ) (n : ℕ) (hE : 0 < E) (hn : n * ε ^ 2 = 20 * E) :
    GratingArgs exDmd h (.num (.real (1 / 2))) (.num (.real 0)) (.num (.real 1)) (fun _ _ => 1 / 2) (fun _ _ => 0) (fun _ _ => 1) ∧
    exDmd.p ≠ 0 ∧ exSim.dev = .dmd exDmd (.bool exState) ∧ (∃ u m, Ready exSim 3 1 h exInput u m) ∧
    4 * Real.exp (-(n * ε ^ 2) / E) < 1 / 10 ^ 6 := by
  refine ⟨⟨⟨_, rfl, rfl, fun i _ j _ => ?_⟩, ⟨_, rfl, rfl, fun i _ j _ => ?_⟩, ⟨_, rfl, rfl, fun i _ j _ => ?_⟩⟩,
    by norm_num [exDmd], rfl, ⟨_, _, exReady h⟩, ?_⟩
  iterate 3 simp [Tensor.at_, Tensor.map, Tensor.scalar]
  rw [hn, neg_div, mul_div_assoc, div_self hE.ne', mul_one, Real.exp_neg]
  have h1 : (2.7 : ℝ) ^ 20 ≤ Real.exp 20 := by
    have := Real.exp_one_gt_d9
    calc (2.7 : ℝ) ^ 20 ≤ Real.exp 1 ^ 20 := pow_le_pow_left₀ (by norm_num) (by linarith) 20
      _ = Real.exp 20 := by rw [← Real.exp_nat_mul]; norm_num
  have h2 : (4 * 10 ^ 6 : ℝ) < 2.7 ^ 20 := by norm_num
  have h3 : (4 * 10 ^ 6 : ℝ) < Real.exp 20 := h2.trans_le h1
  rw [← div_eq_mul_inv, div_lt_div_iff₀ (Real.exp_pos _) (by norm_num)]
  linarith

end PySLM2.DMD
