import Verif.Props.Lcos
import Mathlib.Topology.Order.MonotoneConvergence
import Mathlib.Topology.Algebra.Order.LiminfLimsup

/-!
# C106: Gerchberg-Saxton settles
-/

noncomputable section

open Complex Finset Filter Topology

namespace PySLM2.LCOS

open Lib

theorem imageError_shows {l : LCOS} {A : ℕ → ℕ → ℂ} {T φ φ' : ℕ → ℕ → ℝ} (h : Shows l φ) (h' : Shows l φ') :
    imageError l.slm A T φ = imageError l.slm A T φ' := by
  unfold imageError predicted modulated
  refine sum_congr rfl fun k _ => sum_congr rfl fun m _ => ?_
  congr 4
  refine sum_congr rfl fun i hi => sum_congr rfl fun j hj => ?_
  rw [(Complex.ofReal_inj.mp ((h.2.2 i (mem_range.mp hi) j (mem_range.mp hj)).symm.trans (h'.2.2 i (mem_range.mp hi) j (mem_range.mp hj))))]

/-- **C106.** For a non-negative input amplitude and a non-negative target amplitude the image error of method `gs`
converges as the number of iterations grows, and among the first `K` iterations there is one that improves the error by
at most a `K`-th part of the error at the start. -/
theorem C106_converges {l : LCOS} {h : Profile.Heap} {inp target : ProfArg} {A T : ℕ → ℕ → ℝ}
    (ha : HologramArgs l.slm h inp target (fun i j => A i j) T)
    (hA : ∀ i < l.slm.Ny, ∀ j < l.slm.Nx, 0 ≤ A i j) (hT : ∀ i < l.slm.Ny, ∀ j < l.slm.Nx, 0 ≤ T i j)
    (u : ℕ → ℕ → ℝ) :
    ∃ φ : ℕ → ℕ → ℕ → ℝ, (∀ N, Shows (after l h inp target "gs" { N := some N } u) (φ N)) ∧
      (∃ L, 0 ≤ L ∧ Tendsto (fun N => imageError l.slm (fun i j => A i j) T (φ N)) atTop (𝓝 L)) ∧
      ∀ K, 0 < K → ∃ N < K, imageError l.slm (fun i j => A i j) T (φ N) - imageError l.slm (fun i j => A i j) T (φ (N + 1)) ≤
        imageError l.slm (fun i j => A i j) T (φ 0) / K := by
  have ex : ∀ N, ∃ φ, Shows (after l h inp target "gs" { N := some N } u) φ := by
    intro N
    obtain ⟨φ, _, h1, _⟩ := C44_monotone ha hA hT u (le_refl N)
    exact ⟨φ, h1⟩
  choose φ hφ using ex
  have hs : ∀ N, (after l h inp target "gs" { N := some N } u).slm = l.slm := by
    intro N
    unfold after calculateHologram
    split <;> rfl
  set E : ℕ → ℝ := fun N => imageError l.slm (fun i j => A i j) T (φ N) with hE
  have anti : Antitone E := by
    intro N N' hN
    obtain ⟨ψ, ψ', h1, h2, h3⟩ := C44_monotone ha hA hT u hN
    have e1 := imageError_shows (A := fun i j => (A i j : ℂ)) (T := T) h1 (hφ N)
    have e2 := imageError_shows (A := fun i j => (A i j : ℂ)) (T := T) h2 (hφ N')
    rw [hs] at e1 e2
    rw [e1, e2] at h3
    exact h3
  have nonneg : ∀ N, 0 ≤ E N := fun N => sum_nonneg fun k _ => sum_nonneg fun m _ => sq_nonneg _
  refine ⟨φ, hφ, ⟨⨅ N, E N, le_ciInf nonneg, tendsto_atTop_ciInf anti ⟨0, by rintro _ ⟨N, rfl⟩; exact nonneg N⟩⟩, fun K hK => ?_⟩
  by_contra hcon
  push Not at hcon
  have hsum : ∑ N ∈ range K, (E N - E (N + 1)) = E 0 - E K := by
    rw [sum_range_sub' E K]
  have hlt : ∑ N ∈ range K, E 0 / K < ∑ N ∈ range K, (E N - E (N + 1)) :=
    sum_lt_sum_of_nonempty ⟨0, mem_range.mpr hK⟩ fun N hN => hcon N (mem_range.mp hN)
  rw [hsum, sum_const, card_range, nsmul_eq_mul] at hlt
  have hK' : (K : ℝ) ≠ 0 := by positivity
  rw [mul_div_cancel₀ _ hK'] at hlt
  linarith [nonneg K]

/-- **C106.** Every iteration of method `gs` improves the image error at least by the mean over the pixels of the squared
change of the displayed phase factor, weighted by the input amplitude and the modulus of the field on the SLM that makes
the corrected image.  So these weighted changes die out at every pixel as the number of iterations grows. -/
theorem C106_settles {l : LCOS} {h : Profile.Heap} {inp target : ProfArg} {A T : ℕ → ℕ → ℝ}
    (ha : HologramArgs l.slm h inp target (fun i j => A i j) T)
    (hA : ∀ i < l.slm.Ny, ∀ j < l.slm.Nx, 0 ≤ A i j) (hT : ∀ i < l.slm.Ny, ∀ j < l.slm.Nx, 0 ≤ T i j)
    (u : ℕ → ℕ → ℝ) :
    ∃ φ : ℕ → ℕ → ℕ → ℝ, (∀ N, Shows (after l h inp target "gs" { N := some N } u) (φ N)) ∧
      let change : ℕ → ℕ → ℕ → ℝ := fun N i j =>
        A i j * ‖backPropagated l.slm (corrected l.slm (fun i j => A i j) T (φ N)) i j‖ *
          ‖cexp (I * φ N i j) - cexp (I * φ (N + 1) i j)‖ ^ 2
      (∀ N, imageError l.slm (fun i j => A i j) T (φ (N + 1)) +
          (∑ i ∈ range l.slm.Ny, ∑ j ∈ range l.slm.Nx, change N i j) / (l.slm.Ny * l.slm.Nx) ≤
        imageError l.slm (fun i j => A i j) T (φ N)) ∧
      ∀ i < l.slm.Ny, ∀ j < l.slm.Nx, Tendsto (fun N => change N i j) atTop (𝓝 0) := by
  obtain ⟨A', B', hA', hB', e⟩ := calculate_gs ha
  set φ : ℕ → ℕ → ℕ → ℝ := fun N => gsLoop l.slm.Ny l.slm.Nx A' B' (initialPhase u) N with hφ
  have hMN : (0 : ℝ) < l.slm.Ny * l.slm.Nx := by
    have h1 : (0 : ℝ) < l.slm.Ny := by exact_mod_cast ha.hNy
    have h2 : (0 : ℝ) < l.slm.Nx := by exact_mod_cast ha.hNx
    positivity
  have hback : ∀ N i j, backPropagated l.slm (corrected l.slm (fun i j => A i j) T (φ N)) i j =
      dft2 l.slm.Ny l.slm.Nx (fun a b => gsCorrect (B' a b) (idft2 l.slm.Ny l.slm.Nx (modulate A' (φ N)) a b)) i j := by
    intro N i j
    rw [backPropagated_eq]
    refine congrFun (congrFun (dft2_congr fun a ha b hb => ?_) i) j
    simp only [ifftshift2, corrected, gsCorrect]
    rw [hB' a ha b hb, predicted_eq _ (ifftshiftIdx_lt ha) (ifftshiftIdx_lt hb), fftshift_ifftshift ha,
      fftshift_ifftshift hb, ifftshift2]
    rw [idft2_congr (u := modulate A' (φ N)) (v := modulated (fun i j => A i j) (φ N)) fun a ha b hb => by
      rw [modulate, hA' a ha b hb, modulated]]
  have step : ∀ N, imageError l.slm (fun i j => A i j) T (φ (N + 1)) +
      (∑ i ∈ range l.slm.Ny, ∑ j ∈ range l.slm.Nx,
        A i j * ‖backPropagated l.slm (corrected l.slm (fun i j => A i j) T (φ N)) i j‖ *
          ‖cexp (I * φ N i j) - cexp (I * φ (N + 1) i j)‖ ^ 2) / (l.slm.Ny * l.slm.Nx) ≤
        imageError l.slm (fun i j => A i j) T (φ N) := by
    intro N
    have key := gsStep_drop (inp := A') (c := 1) (A := A) (by simp) (fun a ha b hb => by rw [hA' a ha b hb, one_mul]) hB'
      (fun a ha b hb => hT _ (ifftshiftIdx_lt ha) _ (ifftshiftIdx_lt hb)) (φ N)
    rw [imageError_eq, imageError_eq, ← rawError_congr hA' (fun _ _ _ _ => rfl) (fun _ _ _ _ => rfl),
      ← rawError_congr hA' (fun _ _ _ _ => rfl) (fun _ _ _ _ => rfl)]
    refine le_trans (le_of_eq ?_) key
    simp only [hback, one_mul]
    rfl
  have hnn : ∀ N, ∀ i < l.slm.Ny, ∀ j < l.slm.Nx,
      0 ≤ A i j * ‖backPropagated l.slm (corrected l.slm (fun i j => A i j) T (φ N)) i j‖ *
          ‖cexp (I * φ N i j) - cexp (I * φ (N + 1) i j)‖ ^ 2 := by
    intro N i hi j hj
    have := hA i hi j hj
    positivity
  refine ⟨φ, fun N => ?_, step, fun i hi j hj => ?_⟩
  · rw [after, e]; exact shows_phaseState _ _
  · set E : ℕ → ℝ := fun N => imageError l.slm (fun i j => A i j) T (φ N) with hE
    have nonneg : ∀ N, 0 ≤ E N := fun N => sum_nonneg fun k _ => sum_nonneg fun m _ => sq_nonneg _
    have one : ∀ N, A i j * ‖backPropagated l.slm (corrected l.slm (fun i j => A i j) T (φ N)) i j‖ *
          ‖cexp (I * φ N i j) - cexp (I * φ (N + 1) i j)‖ ^ 2 ≤ (l.slm.Ny * l.slm.Nx) * (E N - E (N + 1)) := by
      intro N
      have h1 := step N
      rw [← le_sub_iff_add_le', div_le_iff₀ hMN] at h1
      rw [mul_comm (_ * _ : ℝ) (E N - _)]
      refine le_trans ?_ h1
      refine le_trans ?_ (single_le_sum (fun i hi => sum_nonneg fun j hj => hnn N i (mem_range.mp hi) j (mem_range.mp hj))
        (mem_range.mpr hi))
      exact single_le_sum (f := fun j => A i j * ‖backPropagated l.slm (corrected l.slm (fun i j => A i j) T (φ N)) i j‖ *
          ‖cexp (I * φ N i j) - cexp (I * φ (N + 1) i j)‖ ^ 2) (fun j hj => hnn N i hi j (mem_range.mp hj)) (mem_range.mpr hj)
    have anti : Antitone E := antitone_nat_of_succ_le fun N => by
      refine le_trans (le_add_of_nonneg_right ?_) (step N)
      exact div_nonneg (sum_nonneg fun i hi => sum_nonneg fun j hj => hnn N i (mem_range.mp hi) j (mem_range.mp hj)) hMN.le
    have lim : Tendsto E atTop (𝓝 (⨅ N, E N)) :=
      tendsto_atTop_ciInf anti ⟨0, by rintro _ ⟨N, rfl⟩; exact nonneg N⟩
    have lim' : Tendsto (fun N => (l.slm.Ny * l.slm.Nx : ℝ) * (E N - E (N + 1))) atTop (𝓝 0) := by
      have := ((lim.sub (lim.comp (tendsto_add_atTop_nat 1))).const_mul (l.slm.Ny * l.slm.Nx : ℝ))
      rw [sub_self, mul_zero] at this
      exact this
    exact squeeze_zero (fun N => hnn N i hi j hj) one lim'

/-- C106: amplitudes that are not constant and not negative, on a 4 x 6 SLM. -/
example (h : Profile.Heap) : ∃ inp target, HologramArgs exLcos.slm h inp target
      (fun i j => (((i + 2 * j : ℕ) : ℝ) : ℂ)) (fun i j => ((i * j : ℕ) : ℝ)) ∧
    (∀ i < exLcos.slm.Ny, ∀ j < exLcos.slm.Nx, (0 : ℝ) ≤ ((i + 2 * j : ℕ) : ℝ)) ∧
    ∀ i < exLcos.slm.Ny, ∀ j < exLcos.slm.Nx, (0 : ℝ) ≤ ((i * j : ℕ) : ℝ) :=
  ⟨_, _, exHologramArgs h _ _, fun _ _ _ _ => Nat.cast_nonneg _, fun _ _ _ _ => Nat.cast_nonneg _⟩

end PySLM2.LCOS
