import Mathlib.Tactic.IntervalCases
import Verif.Props.GsConvergence
import Verif.Lemmas.MrafSpot
import Verif.Props.SignedTarget

/-!
# C127, C128: what MRAF works towards
-/

noncomputable section

open Complex Finset Filter Topology

namespace PySLM2.LCOS

open Lib

/-- The keyword arguments of an MRAF calculation. -/
def mrafArgs (N : ℕ) (sw : ProfArg) (m : ℝ) : Kwargs := { N := some N, signalWindow := some sw, mixingFactor := some m }

theorem mraf_drop {l : LCOS} {h : Profile.Heap} {inp target : ProfArg} {A T : ℕ → ℕ → ℝ} {c : ℂ} (hc : ‖c‖ = 1)
    (ha : HologramArgs l.slm h inp target (fun i j => c * A i j) T) (hT : ∀ i < l.slm.Ny, ∀ j < l.slm.Nx, 0 ≤ T i j)
    {sw : ProfArg} {S : ℕ → ℕ → Bool} (hw : DMD.TargetArg l.slm h sw (indicator S)) {m : ℝ} (hm0 : 0 < m) (hm1 : m < 1)
    (u : ℕ → ℕ → ℝ) :
    ∃ φ : ℕ → ℕ → ℕ → ℝ, (∀ N, Shows (after l h inp target "mraf" (mrafArgs N sw m) u) (φ N)) ∧
      ∀ N, windowError l.slm (fun i j => c * A i j) (fun i j => m / (1 - m) * T i j) S (φ (N + 1)) +
        (∑ a ∈ range l.slm.Ny, ∑ b ∈ range l.slm.Nx, A a b *
          ‖dft2 l.slm.Ny l.slm.Nx (project (ifftshift2 l.slm.Ny l.slm.Nx fun i j => m / (1 - m) * T i j)
            (ifftshift2 l.slm.Ny l.slm.Nx S) (idft2 l.slm.Ny l.slm.Nx (modulate (fun i j => c * A i j) (φ N)))) a b‖ *
          ‖c * cexp (I * φ N a b) - cexp (I * φ (N + 1) a b)‖ ^ 2) / (l.slm.Ny * l.slm.Nx) ≤
        windowError l.slm (fun i j => c * A i j) (fun i j => m / (1 - m) * T i j) S (φ N) := by
  obtain ⟨A', B', W', hA', hB', hW', e⟩ := calculate_mraf ha hw
  refine ⟨fun N => mrafLoop l.slm.Ny l.slm.Nx A' B' W' m (initialPhase u) N, fun N => ?_, fun N => ?_⟩
  · rw [after, e _ _ rfl]; exact shows_phaseState _ _
  · have key := mrafStep_drop (inp := A') (target := B') (window := W') (A := A) (B := ifftshift2 l.slm.Ny l.slm.Nx T)
      (S := ifftshift2 l.slm.Ny l.slm.Nx S) hm0 hm1 hc hA' hB' (fun a ha b hb => by rw [hW' a ha b hb]; rfl)
      (fun a ha b hb => hT _ (ifftshiftIdx_lt ha) _ (ifftshiftIdx_lt hb))
      (mrafLoop l.slm.Ny l.slm.Nx A' B' W' m (initialPhase u) N)
    rw [windowError_eq, windowError_eq, ← rawWindowError_congr hA', ← rawWindowError_congr hA']
    rw [← idft2_congr (u := modulate A' _) (v := modulate (fun i j => c * A i j) _) fun a ha b hb => by
      rw [modulate, modulate, hA' a ha b hb]]
    exact key

/-- **C127.** For an input of uniform phase, a non-negative target `T`, a signal window `S` and a mixing factor `0 < m < 1`, more
iterations of method `mraf` (with the same random draw) never increase the squared error, over the signal window, between the
modulus of the predicted image and the target times `m / (1 - m)`; and this error converges as the number of iterations grows. -/
theorem C127_monotone {l : LCOS} {h : Profile.Heap} {inp target : ProfArg} {A T : ℕ → ℕ → ℝ} {c : ℂ} (hc : ‖c‖ = 1)
    (ha : HologramArgs l.slm h inp target (fun i j => c * A i j) T)
    (hA : ∀ i < l.slm.Ny, ∀ j < l.slm.Nx, 0 ≤ A i j) (hT : ∀ i < l.slm.Ny, ∀ j < l.slm.Nx, 0 ≤ T i j)
    {sw : ProfArg} {S : ℕ → ℕ → Bool} (hw : DMD.TargetArg l.slm h sw (indicator S)) {m : ℝ} (hm0 : 0 < m) (hm1 : m < 1)
    (u : ℕ → ℕ → ℝ) :
    ∃ φ : ℕ → ℕ → ℕ → ℝ, (∀ N, Shows (after l h inp target "mraf" (mrafArgs N sw m) u) (φ N)) ∧
      let E := fun N => windowError l.slm (fun i j => c * A i j) (fun i j => m / (1 - m) * T i j) S (φ N)
      (∀ N N', N ≤ N' → E N' ≤ E N) ∧ ∃ L, 0 ≤ L ∧ Tendsto E atTop (𝓝 L) := by
  obtain ⟨φ, hφ, hd⟩ := mraf_drop hc ha hT hw hm0 hm1 u
  set E := fun N => windowError l.slm (fun i j => c * A i j) (fun i j => m / (1 - m) * T i j) S (φ N) with hE
  have nonneg : ∀ N, 0 ≤ E N := fun N => sum_nonneg fun k _ => sum_nonneg fun m _ => by
    split_ifs
    · exact sq_nonneg _
    · exact le_refl _
  have anti : Antitone E := antitone_nat_of_succ_le fun N => by
    refine le_trans (le_add_of_nonneg_right (div_nonneg (sum_nonneg fun i hi => sum_nonneg fun j hj => ?_) (by positivity))) (hd N)
    have := hA i (mem_range.mp hi) j (mem_range.mp hj)
    positivity
  exact ⟨φ, hφ, fun N N' hN => anti hN, ⨅ N, E N, le_ciInf nonneg, tendsto_atTop_ciInf anti ⟨0, by rintro _ ⟨N, rfl⟩; exact nonneg N⟩⟩

/-- **C127.** A hologram whose predicted image shows `m / (1 - m)` times the target in the signal window, whatever it
shows elsewhere, is left as it is by all further iterations: the displayed phase factors stay the same. -/
theorem C127_fixed {l : LCOS} {h : Profile.Heap} {inp target : ProfArg} {A T : ℕ → ℕ → ℝ}
    (ha : HologramArgs l.slm h inp target (fun i j => A i j) T)
    (hA : ∀ i < l.slm.Ny, ∀ j < l.slm.Nx, 0 < A i j) (hT : ∀ i < l.slm.Ny, ∀ j < l.slm.Nx, 0 ≤ T i j)
    {sw : ProfArg} {S : ℕ → ℕ → Bool} (hw : DMD.TargetArg l.slm h sw (indicator S)) {m : ℝ} (hm0 : 0 < m) (hm1 : m < 1)
    (u : ℕ → ℕ → ℝ) :
    ∃ φ : ℕ → ℕ → ℕ → ℝ, (∀ N, Shows (after l h inp target "mraf" (mrafArgs N sw m) u) (φ N)) ∧
      ∀ N, (∀ i < l.slm.Ny, ∀ j < l.slm.Nx, S i j = true →
          ‖predicted l.slm (modulated (fun i j => A i j) (φ N)) i j‖ = m / (1 - m) * T i j) →
        ∀ N', N ≤ N' → ∀ i < l.slm.Ny, ∀ j < l.slm.Nx, cexp (I * φ N' i j) = cexp (I * φ N i j) := by
  have hAe : (fun i j => ((A i j : ℝ) : ℂ)) = fun i j => (1 : ℂ) * A i j := by funext i j; rw [one_mul]
  rw [hAe] at ha ⊢
  obtain ⟨φ, hφ, hd⟩ := mraf_drop (c := 1) (by simp) ha hT hw hm0 hm1 u
  refine ⟨φ, hφ, fun N hN => ?_⟩
  set E := fun N => windowError l.slm (fun i j => (1 : ℂ) * A i j) (fun i j => m / (1 - m) * T i j) S (φ N) with hE
  have hMN : (0 : ℝ) < l.slm.Ny * l.slm.Nx := by
    have h1 : (0 : ℝ) < l.slm.Ny := by exact_mod_cast ha.hNy
    have h2 : (0 : ℝ) < l.slm.Nx := by exact_mod_cast ha.hNx
    positivity
  have nonneg : ∀ N, 0 ≤ E N := fun N => sum_nonneg fun k _ => sum_nonneg fun m _ => by
    split_ifs
    · exact sq_nonneg _
    · exact le_refl _
  have hE0 : E N = 0 := sum_eq_zero fun k hk => sum_eq_zero fun j hj => by
    split_ifs with hS
    · rw [hN k (mem_range.mp hk) j (mem_range.mp hj) hS, sub_self]; norm_num
    · rfl
  -- one step from an error of zero
  have step : ∀ K, E K = 0 → E (K + 1) = 0 ∧ ∀ i < l.slm.Ny, ∀ j < l.slm.Nx, cexp (I * φ (K + 1) i j) = cexp (I * φ K i j) := by
    intro K hK
    have hdK := hd K
    set M := l.slm.Ny
    set Nn := l.slm.Nx
    set g := idft2 M Nn (modulate (fun i j => (1 : ℂ) * A i j) (φ K)) with hg
    set F : ℕ → ℕ → ℂ := project (ifftshift2 M Nn fun i j => m / (1 - m) * T i j) (ifftshift2 M Nn S) g with hF
    have hFg : ∀ a < M, ∀ b < Nn, F a b = g a b := by
      intro a ha b hb
      have hz := hK
      simp only [hE] at hz
      rw [windowError_eq] at hz
      unfold rawWindowError at hz
      have h1 := (sum_eq_zero_iff_of_nonneg fun a _ => sum_nonneg fun b _ => by
        split_ifs
        · exact sq_nonneg _
        · exact le_refl _).mp hz a (mem_range.mpr ha)
      have h2 := (sum_eq_zero_iff_of_nonneg fun b _ => by
        split_ifs
        · exact sq_nonneg _
        · exact le_refl _).mp h1 b (mem_range.mpr hb)
      simp only [hF, project]
      split_ifs with hS
      · rw [if_pos hS] at h2
        have h3 : ‖g a b‖ = ifftshift2 M Nn (fun i j => m / (1 - m) * T i j) a b := sub_eq_zero.mp (pow_eq_zero_iff two_ne_zero |>.mp h2)
        rw [← h3, mul_expI_arg]
      · rfl
    have hFd : ∀ a < M, ∀ b < Nn, ‖dft2 M Nn F a b‖ = A a b := by
      intro a ha b hb
      rw [dft2_congr hFg, hg, dft2_idft2 _ ha hb]
      unfold modulate
      simp only [one_mul]
      rw [norm_mul, norm_expI, mul_one, Complex.norm_real, Real.norm_eq_abs, abs_of_pos (hA a ha b hb)]
    have hterm : ∀ a ∈ range M, ∀ b ∈ range Nn, 0 ≤ A a b * ‖dft2 M Nn F a b‖ *
        ‖(1 : ℂ) * cexp (I * φ K a b) - cexp (I * φ (K + 1) a b)‖ ^ 2 := fun a ha b hb => by
      have := hA a (mem_range.mp ha) b (mem_range.mp hb)
      positivity
    have hsum0 := sum_nonneg fun a ha => sum_nonneg (hterm a ha)
    have hEK : windowError l.slm (fun i j => (1 : ℂ) * A i j) (fun i j => m / (1 - m) * T i j) S (φ K) = 0 := hK
    rw [hEK] at hdK
    have hn1 : 0 ≤ windowError l.slm (fun i j => (1 : ℂ) * A i j) (fun i j => m / (1 - m) * T i j) S (φ (K + 1)) := nonneg (K + 1)
    have hD0 := div_nonneg hsum0 hMN.le
    have hD : (∑ a ∈ range M, ∑ b ∈ range Nn, A a b * ‖dft2 M Nn F a b‖ *
        ‖(1 : ℂ) * cexp (I * φ K a b) - cexp (I * φ (K + 1) a b)‖ ^ 2) / (M * Nn : ℝ) = 0 := by linarith
    refine ⟨le_antisymm (by linarith) (nonneg _), fun i hi j hj => ?_⟩
    have hs := (div_eq_zero_iff.mp hD).resolve_right hMN.ne'
    have h1 := (sum_eq_zero_iff_of_nonneg fun a ha => sum_nonneg (hterm a ha)).mp hs i (mem_range.mpr hi)
    have h2 := (sum_eq_zero_iff_of_nonneg (hterm i (mem_range.mpr hi))).mp h1 j (mem_range.mpr hj)
    rw [hFd i hi j hj, one_mul] at h2
    have hAi := (hA i hi j hj).ne'
    have h3 := (mul_eq_zero.mp h2).resolve_left (mul_ne_zero hAi hAi)
    exact (sub_eq_zero.mp (norm_eq_zero.mp (pow_eq_zero_iff two_ne_zero |>.mp h3))).symm
  intro N' hNN'
  have : E N' = 0 ∧ ∀ i < l.slm.Ny, ∀ j < l.slm.Nx, cexp (I * φ N' i j) = cexp (I * φ N i j) := by
    induction N', hNN' using Nat.le_induction with
    | base => exact ⟨hE0, fun _ _ _ _ => rfl⟩
    | succ K _ ih =>
      have := step K ih.1
      exact ⟨this.1, fun i hi j hj => (this.2 i hi j hj).trans (ih.2 i hi j hj)⟩
  exact this.2

/-- **C128** (proved part): with mixing factor 1/2, more iterations of method `mraf` never increase the squared error between the
modulus of the predicted image and the target over the signal window.  Missing: the other mixing factors, the default among
them, for which it is false (`C128_refuted`). -/
theorem C128_partial {l : LCOS} {h : Profile.Heap} {inp target : ProfArg} {A T : ℕ → ℕ → ℝ} {c : ℂ} (hc : ‖c‖ = 1)
    (ha : HologramArgs l.slm h inp target (fun i j => c * A i j) T)
    (hA : ∀ i < l.slm.Ny, ∀ j < l.slm.Nx, 0 ≤ A i j) (hT : ∀ i < l.slm.Ny, ∀ j < l.slm.Nx, 0 ≤ T i j)
    {sw : ProfArg} {S : ℕ → ℕ → Bool} (hw : DMD.TargetArg l.slm h sw (indicator S)) (u : ℕ → ℕ → ℝ) {N N' : ℕ} (hN : N ≤ N') :
    ∃ φ φ', Shows (after l h inp target "mraf" (mrafArgs N sw (1 / 2)) u) φ ∧
      Shows (after l h inp target "mraf" (mrafArgs N' sw (1 / 2)) u) φ' ∧
      windowError l.slm (fun i j => c * A i j) T S φ' ≤ windowError l.slm (fun i j => c * A i j) T S φ := by
  obtain ⟨φ, hφ, hE, _⟩ := C127_monotone hc ha hA hT hw (m := 1 / 2) (by norm_num) (by norm_num) u
  have h1 := hE N N' hN
  have h2 : (fun i j => (1 / 2 : ℝ) / (1 - 1 / 2) * T i j) = T := by funext i j; norm_num
  simp only [h2] at h1
  exact ⟨φ N, φ N', hφ N, hφ N', h1⟩

/-- **C128**, negation: on every device with an even number of columns, with uniform illumination and every mixing factor between
0 and 1 other than 1/2, there are a target, a signal window and a random draw for which the image is perfect in the
window before the first iteration and imperfect after it. -/
theorem C128_refuted {l : LCOS} {h : Profile.Heap} {inp target sw : ProfArg} (he : l.slm.Nx % 2 = 0)
    (ha : HologramArgs l.slm h inp target (fun _ _ => 1) fun i j => √2 / 2 * oneSpot (l.slm.Ny / 2) (l.slm.Nx / 2) i j)
    (hw : DMD.TargetArg l.slm h sw (indicator fun i j => decide (i = l.slm.Ny / 2 ∧ j = l.slm.Nx / 2)))
    {m : ℝ} (hm0 : 0 < m) (hm1 : m < 1) (hm2 : m ≠ 1 / 2) :
    ∃ u : ℕ → ℕ → ℝ, (∀ i j, 0 ≤ u i j ∧ u i j < 1) ∧
      ∃ φ φ', Shows (after l h inp target "mraf" (mrafArgs 0 sw m) u) φ ∧
        Shows (after l h inp target "mraf" (mrafArgs 1 sw m) u) φ' ∧
        windowError l.slm (fun _ _ => 1) (fun i j => √2 / 2 * oneSpot (l.slm.Ny / 2) (l.slm.Nx / 2) i j)
          (fun i j => decide (i = l.slm.Ny / 2 ∧ j = l.slm.Nx / 2)) φ = 0 ∧
        0 < windowError l.slm (fun _ _ => 1) (fun i j => √2 / 2 * oneSpot (l.slm.Ny / 2) (l.slm.Nx / 2) i j)
          (fun i j => decide (i = l.slm.Ny / 2 ∧ j = l.slm.Nx / 2)) φ' := by
  obtain ⟨A', B', W', hA', hB', hW', e⟩ := calculate_mraf ha hw
  have hM := ha.hNy
  have hN := ha.hNx
  obtain ⟨K, hK⟩ : ∃ K, l.slm.Nx = 2 * K := ⟨l.slm.Nx / 2, by omega⟩
  have hK0 : 0 < K := by omega
  set M := l.slm.Ny with hMd
  -- the error in the order of the algorithm
  have hshift : ∀ a < M, ∀ b < l.slm.Nx, ifftshift2 M l.slm.Nx (oneSpot (M / 2) (l.slm.Nx / 2)) a b = spot 0 0 a b := by
    intro a ha b hb
    have h := ifftshift2_oneSpot (M := M) (N := l.slm.Nx) (k := M / 2) (l := l.slm.Nx / 2) (a := a) (b := b) (by omega) (by omega) ha hb
    rwa [fftshiftIdx_half hM, fftshiftIdx_half hN] at h
  have hdec : ∀ a < M, ∀ b < l.slm.Nx, (ifftshift2 M l.slm.Nx (fun i j => decide (i = M / 2 ∧ j = l.slm.Nx / 2)) a b = true ↔ (a = 0 ∧ b = 0)) := by
    intro a ha b hb
    have h1 := hshift a ha b hb
    unfold ifftshift2 oneSpot spot at h1
    unfold ifftshift2
    rw [decide_eq_true_iff]
    constructor
    · intro h2
      by_contra h3
      rw [if_pos h2, if_neg h3] at h1
      norm_num at h1
    · intro h2
      by_contra h3
      rw [if_neg h3, if_pos h2] at h1
      norm_num at h1
  have herr : ∀ φ, windowError l.slm (fun _ _ => 1) (fun i j => √2 / 2 * oneSpot (M / 2) (l.slm.Nx / 2) i j)
      (fun i j => decide (i = M / 2 ∧ j = l.slm.Nx / 2)) φ = (‖idft2 M l.slm.Nx (modulate A' φ) 0 0‖ - √2 / 2) ^ 2 := by
    intro φ
    rw [windowError_eq, ← rawWindowError_congr hA']
    unfold rawWindowError
    rw [Finset.sum_eq_single 0, Finset.sum_eq_single 0]
    · rw [if_pos ((hdec 0 hM 0 hN).mpr ⟨rfl, rfl⟩)]
      have h1 := hshift 0 hM 0 hN
      unfold ifftshift2 spot at h1
      unfold ifftshift2
      rw [if_pos ⟨rfl, rfl⟩] at h1
      simp only [← hMd, h1, mul_one]
    · intro b hb hb0
      rw [if_neg fun hc => hb0 ((hdec 0 hM b (mem_range.mp hb)).mp hc).2]
    · intro hc; exact absurd (mem_range.mpr hN) hc
    · intro a ha ha0
      refine Finset.sum_eq_zero fun b hb => ?_
      rw [if_neg fun hc => ha0 ((hdec a (mem_range.mp ha) b (mem_range.mp hb)).mp hc).1]
    · intro hc; exact absurd (mem_range.mpr hM) hc
  have hBs : ∀ a < M, ∀ b < 2 * K, B' a b = (√2 / 2 : ℝ) * (spot 0 0 a b : ℂ) := by
    intro a ha b hb
    rw [hB' a ha b (by omega), ← hshift a ha b (by omega)]
    unfold ifftshift2
    push_cast
    ring
  have hWs : ∀ a < M, ∀ b < 2 * K, W' a b = (spot 0 0 a b : ℂ) := by
    intro a ha b hb
    rw [hW' a ha b (by omega)]
    have h1 := hdec a ha b (by omega)
    unfold ifftshift2 at h1 ⊢
    unfold indicator spot
    by_cases h2 : a = 0 ∧ b = 0
    · rw [if_pos (h1.mpr h2), if_pos h2, ofReal_one]
    · rw [if_neg fun hc => h2 (h1.mp hc), if_neg h2, ofReal_zero]
  set u : ℕ → ℕ → ℝ := fun _ j => if j % 2 = 0 then 0 else 1 / 4 with hu
  have h0 : ∀ a < M, ∀ b < 2 * K, modulate A' (initialPhase u) a b = (1 + I) / 2 + (1 - I) / 2 * sgn b := by
    intro a ha b hb
    rw [modulate, hA' a ha b (by omega), one_mul, initialPhase, hu, sgn]
    simp only
    split_ifs
    · push_cast
      rw [mul_zero, mul_zero, Complex.exp_zero]
      ring
    · rw [show (I * ((2 * Real.pi * (1 / 4) : ℝ) : ℂ)) = Real.pi / 2 * I by push_cast; ring, Complex.exp_pi_div_two_mul_I]
      ring
  refine ⟨u, fun i j => ?_, initialPhase u, mrafStep M (2 * K) A' B' W' m (initialPhase u), ?_, ?_, ?_, ?_⟩
  · rw [hu]; simp only; split_ifs <;> norm_num
  · rw [after, e _ _ rfl]; exact shows_phaseState _ _
  · rw [after, e _ _ rfl, ← hK]; exact shows_phaseState _ _
  · rw [herr, hK, idft2_congr h0, idft2_two hM hK0 _ _ hM (by omega)]
    have h1 : ¬(0 = K) := by omega
    simp only [spot, h1, and_self, and_false, if_true, if_false, ofReal_one, ofReal_zero, mul_one, mul_zero, add_zero]
    have : ‖(1 + I) / 2‖ = √2 / 2 := by
      rw [norm_div, Complex.norm_def, Complex.normSq_apply]
      norm_num
    rw [this, sub_self]
    norm_num
  · set ρ : ℝ := √(1 + (2 * m - 1) ^ 2) / 2 with hρ
    have hρ0 : 0 < ρ := by positivity
    rw [herr, hK, idft2_congr (v := fun a b => (m * ((1 + I) / 2) / ρ) + ((1 - m) * ((1 - I) / 2) / ρ) * sgn b)]
    · rw [idft2_two hM hK0 _ _ hM (by omega)]
      have h1 : ¬(0 = K) := by omega
      simp only [spot, h1, and_self, and_false, if_true, if_false, ofReal_one, ofReal_zero, mul_one, mul_zero, add_zero]
      have h2 : ‖(1 + I) / 2‖ = √2 / 2 := by
        rw [norm_div, Complex.norm_def, Complex.normSq_apply]
        norm_num
      rw [norm_div, norm_mul, h2, Complex.norm_real, Complex.norm_real, Real.norm_eq_abs, Real.norm_eq_abs, abs_of_pos hm0, abs_of_pos hρ0]
      have h3 : m * (√2 / 2) / ρ - √2 / 2 = √2 / 2 * ((m - ρ) / ρ) := by field_simp
      have h4 : m - ρ ≠ 0 := by
        intro h5
        have h6 : m ^ 2 = ρ ^ 2 := by rw [sub_eq_zero.mp h5]
        rw [hρ, div_pow, Real.sq_sqrt (by positivity)] at h6
        exact hm2 (by linarith)
      rw [h3]
      positivity
    · intro a ha b hb
      rw [mrafStep_two hM hK0 (fun a ha b hb => hA' a ha b (by omega)) hBs hWs h0 ha hb]
      ring

/-! ## The hypotheses are met -/

/-- C127_monotone, C128_partial: a window of two columns on a 4 x 6 SLM. -/
example (h : Profile.Heap) : ∃ inp target sw, HologramArgs exLcos.slm h inp target
      (fun i j => I * ((i + j : ℝ) : ℂ)) (fun i j => 1 + i * j) ∧
    (∀ i < exLcos.slm.Ny, ∀ j < exLcos.slm.Nx, (0 : ℝ) ≤ 1 + (i : ℝ) * j) ∧
    DMD.TargetArg exLcos.slm h sw (indicator fun _ j => decide (j = 2 ∨ j = 3)) :=
  ⟨_, _, .ndarray .cplx ⟨.mat 4 6, indicator fun _ j => decide (j = 2 ∨ j = 3)⟩, exHologramArgs h _ _, fun i _ j _ => by positivity,
    _, rfl, rfl, fun _ _ _ _ => rfl⟩

/-- C128_refuted: the default mixing factor on a 4 x 6 SLM. -/
example (h : Profile.Heap) : ∃ inp target sw, HologramArgs exLcos.slm h inp target (fun _ _ => 1)
      (fun i j => √2 / 2 * oneSpot (exLcos.slm.Ny / 2) (exLcos.slm.Nx / 2) i j) ∧
    DMD.TargetArg exLcos.slm h sw (indicator fun i j => decide (i = exLcos.slm.Ny / 2 ∧ j = exLcos.slm.Nx / 2)) ∧
    exLcos.slm.Nx % 2 = 0 ∧ (0 : ℝ) < 0.4 ∧ (0.4 : ℝ) < 1 ∧ (0.4 : ℝ) ≠ 1 / 2 :=
  ⟨_, _, .ndarray .cplx ⟨.mat 4 6, indicator fun i j => decide (i = exLcos.slm.Ny / 2 ∧ j = exLcos.slm.Nx / 2)⟩, exHologramArgs h _ _,
    ⟨_, rfl, rfl, fun _ _ _ _ => rfl⟩, by decide, by norm_num, by norm_num, by norm_num⟩

/-- C127_fixed: with uniform illumination, a flat hologram and the target `(1 - m) / m` at the centre, the image before the first
iteration is `m / (1 - m)` times the target. -/
example {m : ℝ} (hm0 : 0 < m) (hm1 : m < 1) : ∀ i < exLcos.slm.Ny, ∀ j < exLcos.slm.Nx,
    ‖predicted exLcos.slm (modulated (fun _ _ => ((1 : ℝ) : ℂ)) (initialPhase fun _ _ => 0)) i j‖ =
      m / (1 - m) * ((1 - m) / m * oneSpot 2 3 i j) := by
  intro i hi j hj
  have h1 : (1 - m : ℝ) ≠ 0 := by linarith
  have h2 : m / (1 - m) * ((1 - m) / m * oneSpot 2 3 i j) = oneSpot 2 3 i j := by field_simp
  have hb : (modulated (fun _ _ => ((1 : ℝ) : ℂ)) (initialPhase fun _ _ => 0)) = blaze 4 6 0 0 := by
    funext a b
    rw [blaze_zero]
    simp [modulated, initialPhase]
  have hi' : i < 4 := hi
  have hj' : j < 6 := hj
  rw [h2, predicted_eq _ hi hj, hb]
  show ‖idft2 4 6 _ (fftshiftIdx 4 i) (fftshiftIdx 6 j)‖ = _
  rw [idft2_blaze (by norm_num) (by norm_num) (show fftshiftIdx 4 i < 4 from Nat.mod_lt _ (by norm_num))
    (show fftshiftIdx 6 j < 6 from Nat.mod_lt _ (by norm_num)), Complex.norm_real]
  unfold spot oneSpot fftshiftIdx
  interval_cases i <;> interval_cases j <;> norm_num

end PySLM2.LCOS
