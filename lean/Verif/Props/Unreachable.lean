import Verif.Lemmas.Unreachable

/-!
# C150: holograms that Gerchberg-Saxton never produces
-/

noncomputable section

open Complex

namespace PySLM2.LCOS

open Lib

/-- **C150.** Take a target that vanishes at some pixel of the image plane.  Arbitrarily near to every phase pattern there is a phase
pattern (with values in `[0, 2π)`) which method `gs` never produces for this target: not for any input beam, random draw and
positive number of iterations. -/
theorem C150_unreachable {s : SLM} {T : ℕ → ℕ → ℝ} (hT : ∃ k < s.Ny, ∃ m < s.Nx, T k m = 0) (φ : ℕ → ℕ → ℝ) {ε : ℝ} (hε : 0 < ε) :
    ∃ ψ : ℕ → ℕ → ℝ,
      (∀ i < s.Ny, ∀ j < s.Nx, 0 ≤ ψ i j ∧ ψ i j < 2 * Real.pi ∧ ‖cexp (I * ψ i j) - cexp (I * φ i j)‖ < ε) ∧
      ∀ (l : LCOS) (h : Profile.Heap) (inp target : ProfArg) (A : ℕ → ℕ → ℂ) (kw : Kwargs) (u χ : ℕ → ℕ → ℝ), l.slm = s →
        HologramArgs l.slm h inp target A T → kw.N.getD 200 ≠ 0 → Shows (after l h inp target "gs" kw u) χ →
        ∃ i < s.Ny, ∃ j < s.Nx, cexp (I * χ i j) ≠ cexp (I * ψ i j) := by
  obtain ⟨k, hk, m, hm, h0⟩ := hT
  obtain ⟨ψ, h1, h2⟩ := dft2_unreachable (M := s.Ny) (N := s.Nx) (fun a b => ((ifftshift2 s.Ny s.Nx T a b : ℝ) : ℂ))
    (fftshiftIdx_lt hk) (fftshiftIdx_lt hm)
    (by rw [ifftshift2, ifftshift_fftshift hk, ifftshift_fftshift hm, h0, ofReal_zero]) φ hε
  refine ⟨ψ, h1, ?_⟩
  rintro l h inp target A kw u χ rfl ha hN hs
  obtain ⟨A', B', -, hB', e⟩ := calculate_gs ha
  rw [after, e kw u] at hs
  obtain ⟨n, hn⟩ := Nat.exists_eq_succ_of_ne_zero hN
  have hχ : ∀ i < l.slm.Ny, ∀ j < l.slm.Nx, gsLoop l.slm.Ny l.slm.Nx A' B' (initialPhase u) (n + 1) i j = χ i j := fun i hi j hj => by
    have := hs.2.2 i hi j hj
    rw [hn] at this
    exact ofReal_injective this
  by_contra hc
  push Not at hc
  refine h2 B' (fun a b => arg (idft2 l.slm.Ny l.slm.Nx (modulate A' (gsLoop l.slm.Ny l.slm.Nx A' B' (initialPhase u) n)) a b))
    hB' fun i hi j hj => ?_
  rw [← hc i hi j hj, ← hχ i hi j hj]
  rfl

/-- C150: a target with a dark pixel, and a beam for it. -/
example : (∃ k < (⟨1, 1, 2, 2, 1⟩ : SLM).Ny, ∃ m < (⟨1, 1, 2, 2, 1⟩ : SLM).Nx, (fun i _ => (i : ℝ) : ℕ → ℕ → ℝ) k m = 0) ∧
    ∃ (h : Profile.Heap) (inp target : ProfArg), HologramArgs (⟨1, 1, 2, 2, 1⟩ : SLM) h inp target (fun _ _ => 1) (fun i _ => (i : ℝ)) := by
  refine ⟨⟨0, by norm_num, 0, by norm_num, by norm_num⟩, ⟨fun _ => 0, fun _ => 0, 0⟩, .tensor .cplx ⟨.mat 2 2, fun _ _ => 1⟩,
    .tensor .cplx ⟨.mat 2 2, fun i _ => i⟩, by norm_num, by norm_num, ⟨_, rfl, rfl, ?_⟩, ⟨_, rfl, rfl, ?_⟩⟩ <;>
  · intro i _ j _
    simp [castTo, Tensor.map]

end PySLM2.LCOS
