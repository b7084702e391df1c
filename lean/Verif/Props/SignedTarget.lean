import Verif.Props.Lcos
import Verif.Lemmas.SignedTarget

/-!
# Targets with negative values (C124)

The shipped scripts `create_gaussian_11_lcos_slm_gs.py` and `create_gaussian_11_lcos_slm_mraf.py` ask for a
Hermite-Gaussian mode, whose amplitude changes sign.
-/

noncomputable section

open Complex Finset

namespace PySLM2.LCOS

open Lib

/-- **C124** (proved part): for a target amplitude of one sign, and an input of uniform phase `c`, more iterations
of method `gs` (with the same random initial phases) never increase the squared error between the modulus of the
predicted image and the modulus of the target.  Missing: targets with values of both signs, for which it is false
(`C124_refuted`). -/
theorem C124_partial {l : LCOS} {h : Profile.Heap} {inp target : ProfArg} {A T : ℕ → ℕ → ℝ} {c : ℂ} (hc : ‖c‖ = 1)
    (ha : HologramArgs l.slm h inp target (fun i j => c * A i j) T)
    (hA : ∀ i < l.slm.Ny, ∀ j < l.slm.Nx, 0 ≤ A i j)
    (hT : (∀ i < l.slm.Ny, ∀ j < l.slm.Nx, 0 ≤ T i j) ∨ ∀ i < l.slm.Ny, ∀ j < l.slm.Nx, T i j ≤ 0)
    (u : ℕ → ℕ → ℝ) {N N' : ℕ} (hN : N ≤ N') :
    ∃ φ φ', Shows (after l h inp target "gs" { N := some N } u) φ ∧
      Shows (after l h inp target "gs" { N := some N' } u) φ' ∧
      imageError l.slm (fun i j => c * A i j) (fun i j => |T i j|) φ' ≤
        imageError l.slm (fun i j => c * A i j) (fun i j => |T i j|) φ := by
  obtain ⟨A', B', hA', hB', e⟩ := calculate_gs ha
  refine ⟨gsLoop l.slm.Ny l.slm.Nx A' B' (initialPhase u) N, gsLoop l.slm.Ny l.slm.Nx A' B' (initialPhase u) N',
    ?_, ?_, ?_⟩
  · rw [after, e]; exact shows_phaseState _ _
  · rw [after, e]; exact shows_phaseState _ _
  · obtain ⟨σ, hσ, hTσ⟩ : ∃ σ : ℂ, ‖σ‖ = 1 ∧ ∀ i < l.slm.Ny, ∀ j < l.slm.Nx, (T i j : ℂ) = σ * (|T i j| : ℝ) := by
      rcases hT with hT | hT
      · exact ⟨1, by simp, fun i hi j hj => by rw [abs_of_nonneg (hT i hi j hj), one_mul]⟩
      · exact ⟨-1, by simp, fun i hi j hj => by rw [abs_of_nonpos (hT i hi j hj)]; push_cast; ring⟩
    have key := gsLoop_le_phase (target := B') (B := ifftshift2 l.slm.Ny l.slm.Nx fun i j => |T i j|) hc hσ hA' hA
      (fun a ha b hb => by
        rw [hB' a ha b hb]
        exact hTσ _ (ifftshiftIdx_lt ha) _ (ifftshiftIdx_lt hb))
      (fun a ha b hb => abs_nonneg _) (initialPhase u) hN
    rw [imageError_eq, imageError_eq, ← rawError_congr hA' (fun _ _ _ _ => rfl) (fun _ _ _ _ => rfl),
      ← rawError_congr hA' (fun _ _ _ _ => rfl) (fun _ _ _ _ => rfl)]
    exact key

/-- A bright spot in the middle of the image plane of an `M × N` device on a dim background of the opposite sign. -/
def darkSpot (M N i j : ℕ) : ℝ := 2 / (M * N) - oneSpot (M / 2) (N / 2) i j

theorem fftshiftIdx_half {n : ℕ} (hn : 0 < n) : fftshiftIdx n (n / 2) = 0 := by
  unfold fftshiftIdx
  rw [show n / 2 + (n - n / 2) = n by omega, Nat.mod_self]

theorem ifftshift2_darkSpot {M N a b : ℕ} (ha : a < M) (hb : b < N) :
    ifftshift2 M N (darkSpot M N) a b = 2 / (M * N) - spot 0 0 a b := by
  have h := ifftshift2_oneSpot (M := M) (N := N) (k := M / 2) (l := N / 2) (a := a) (b := b) (by omega) (by omega) ha hb
  rw [fftshiftIdx_half (by omega), fftshiftIdx_half (by omega)] at h
  rw [← h]
  rfl

/-- **C124**, negation: for every device with more than 4 pixels, uniform illumination and a target that is a
bright spot on a dim background of the opposite sign, there is a random draw for which the hologram is perfect
after every even number of iterations and imperfect after every odd number: the error never settles. -/
theorem C124_refuted {l : LCOS} {h : Profile.Heap} {inp target : ProfArg} (hn : 4 < l.slm.Ny * l.slm.Nx)
    (ha : HologramArgs l.slm h inp target (fun _ _ => 1) (darkSpot l.slm.Ny l.slm.Nx)) :
    ∃ u : ℕ → ℕ → ℝ, (∀ i j, 0 ≤ u i j ∧ u i j < 1) ∧
      ∀ N, ∃ φ, Shows (after l h inp target "gs" { N := some N } u) φ ∧
        imageError l.slm (fun _ _ => 1) (fun i j => |darkSpot l.slm.Ny l.slm.Nx i j|) φ =
          if N % 2 = 0 then (0 : ℝ) else 4 / ((l.slm.Ny : ℝ) * l.slm.Nx) := by
  obtain ⟨A', B', hA', hB', e⟩ := calculate_gs ha
  have hM := ha.hNy
  have hN := ha.hNx
  have hB2 : ∀ a < l.slm.Ny, ∀ b < l.slm.Nx, B' a b = 2 / (l.slm.Ny * l.slm.Nx) - (spot 0 0 a b : ℂ) := by
    intro a ha b hb
    rw [hB' a ha b hb]
    have h1 := ifftshift2_darkSpot ha hb
    unfold ifftshift2 at h1 ⊢
    rw [h1]
    push_cast
    ring
  set u : ℕ → ℕ → ℝ := fun i j => if i = 0 ∧ j = 0 then 0 else 1 / 2 with hu
  refine ⟨u, fun i j => ?_, fun n => ?_⟩
  · rw [hu]; simp only; split_ifs <;> norm_num
  have hmod : ∀ (φ : ℕ → ℕ → ℝ) (a b : ℕ), a < l.slm.Ny → b < l.slm.Nx → modulate A' φ a b = cexp (I * φ a b) := by
    intro φ a b ha hb
    rw [modulate, hA' a ha b hb, one_mul]
  have h0 : ∀ a < l.slm.Ny, ∀ b < l.slm.Nx, modulate A' (initialPhase u) a b = -1 + 2 * (spot 0 0 a b : ℂ) := by
    intro a ha b hb
    rw [hmod _ a b ha hb]
    by_cases h : a = 0 ∧ b = 0
    · simp [initialPhase, hu, spot, h]; norm_num
    · have : initialPhase u a b = Real.pi := by simp [initialPhase, hu, h]; ring
      rw [this, mul_comm, Complex.exp_pi_mul_I]
      simp [spot, h]
  have hloop : ∀ n, ∀ a < l.slm.Ny, ∀ b < l.slm.Nx,
      modulate A' (gsLoop l.slm.Ny l.slm.Nx A' B' (initialPhase u) n) a b =
        if n % 2 = 0 then -1 + 2 * (spot 0 0 a b : ℂ) else 1 := by
    intro n
    induction n with
    | zero => intro a ha b hb; simpa [gsLoop] using h0 a ha b hb
    | succ n ih =>
      intro a ha b hb
      rw [hmod _ a b ha hb]
      show cexp (I * (gsStep l.slm.Ny l.slm.Nx A' B' (gsLoop l.slm.Ny l.slm.Nx A' B' (initialPhase u) n) a b : ℂ)) = _
      by_cases hn2 : n % 2 = 0
      · rw [if_neg (by omega), gsStep_lost hM hN hn hB2 (fun a ha b hb => by rw [ih a ha b hb, if_pos hn2]) ha hb]
      · rw [if_pos (by omega), gsStep_found hM hN hB2 (fun a ha b hb => by rw [ih a ha b hb, if_neg hn2]) ha hb]
  refine ⟨gsLoop l.slm.Ny l.slm.Nx A' B' (initialPhase u) n, ?_, ?_⟩
  · rw [after, e]; exact shows_phaseState _ _
  · rw [imageError_eq, ← rawError_congr (B := fun a b => |2 / (l.slm.Ny * l.slm.Nx) - spot 0 0 a b|) hA'
      (fun a ha b hb => by
        have h1 := ifftshift2_darkSpot ha hb
        unfold ifftshift2 at h1 ⊢
        simp only [h1]) (fun _ _ _ _ => rfl)]
    by_cases hn2 : n % 2 = 0
    · rw [if_pos hn2, rawError_found hM hN hn fun a ha b hb => by rw [hloop n a ha b hb, if_pos hn2]]
    · rw [if_neg hn2, rawError_lost hM hN hn fun a ha b hb => by rw [hloop n a ha b hb, if_neg hn2]]

/-! ## The hypotheses are met -/

/-- C124_partial: a target that is negative everywhere. -/
example (h : Profile.Heap) : ∃ inp target, HologramArgs exLcos.slm h inp target
    (fun i j => I * ((i + j : ℝ) : ℂ)) (fun i j => -(1 + i * j)) ∧
    (∀ i < exLcos.slm.Ny, ∀ j < exLcos.slm.Nx, -(1 + (i : ℝ) * j) ≤ 0) :=
  ⟨_, _, exHologramArgs h _ _, fun i _ j _ => by have : (0 : ℝ) ≤ i * j := by positivity
                                                 linarith⟩

/-- C124_refuted: a device with 24 pixels. -/
example (h : Profile.Heap) : (4 < exLcos.slm.Ny * exLcos.slm.Nx) ∧
    ∃ inp target, HologramArgs exLcos.slm h inp target (fun _ _ => 1) (darkSpot exLcos.slm.Ny exLcos.slm.Nx) :=
  ⟨by decide, _, _, exHologramArgs h _ _⟩

end PySLM2.LCOS
