import Verif.Lemmas.Simulation

/-! Helper lemmas about `propagate_to_image`: overlaps, tilts and reflections. -/

noncomputable section

open Complex Finset

namespace PySLM2

open Lib

theorem idft2_inner (M N : ℕ) (u v : ℕ → ℕ → ℂ) :
    (M * N : ℂ) * ∑ k ∈ range M, ∑ l ∈ range N, idft2 M N u k l * (starRingEnd ℂ) (idft2 M N v k l) =
      ∑ a ∈ range M, ∑ b ∈ range N, u a b * (starRingEnd ℂ) (v a b) := by
  rw [← dft2_inner]
  exact Finset.sum_congr rfl fun a ha => Finset.sum_congr rfl fun b hb => by
    rw [dft2_idft2 u (mem_range.mp ha) (mem_range.mp hb), dft2_idft2 v (mem_range.mp ha) (mem_range.mp hb)]

namespace Sim

theorem centredIdft_inner (M N : ℕ) (f g : ℕ → ℕ → ℂ) :
    (M * N : ℂ) * ∑ k ∈ range M, ∑ l ∈ range N, centredIdft M N f k l * (starRingEnd ℂ) (centredIdft M N g k l) =
      ∑ a ∈ range M, ∑ b ∈ range N, f a b * (starRingEnd ℂ) (g a b) := by
  unfold centredIdft fftshift2
  rw [← sum_ifftshift M (fun _ a => ∑ l ∈ range N,
    idft2 M N (ifftshift2 M N f) a (fftshiftIdx N l) * (starRingEnd ℂ) (idft2 M N (ifftshift2 M N g) a (fftshiftIdx N l)))]
  have h1 : ∀ a, ∑ l ∈ range N, idft2 M N (ifftshift2 M N f) a (fftshiftIdx N l) *
        (starRingEnd ℂ) (idft2 M N (ifftshift2 M N g) a (fftshiftIdx N l)) =
      ∑ b ∈ range N, idft2 M N (ifftshift2 M N f) a b * (starRingEnd ℂ) (idft2 M N (ifftshift2 M N g) a b) := fun a =>
    (sum_ifftshift N (fun _ b => idft2 M N (ifftshift2 M N f) a b * (starRingEnd ℂ) (idft2 M N (ifftshift2 M N g) a b))).symm
  simp only [h1]
  rw [idft2_inner]
  unfold ifftshift2
  rw [sum_ifftshift M (fun i _ => ∑ b ∈ range N, f i (ifftshiftIdx N b) * (starRingEnd ℂ) (g i (ifftshiftIdx N b)))]
  refine Finset.sum_congr rfl fun i _ => ?_
  exact sum_ifftshift N (fun j _ => f i j * (starRingEnd ℂ) (g i j))

theorem sum_inner_pad2 (M N py px : ℕ) (f g : ℕ → ℕ → ℂ) :
    ∑ i ∈ range (M + 2 * py), ∑ j ∈ range (N + 2 * px), pad2 M N py px f i j * (starRingEnd ℂ) (pad2 M N py px g i j) =
      ∑ i ∈ range M, ∑ j ∈ range N, f i j * (starRingEnd ℂ) (g i j) := by
  have h := sum_pad2 M N py px f (fun z i j => z * (starRingEnd ℂ) (pad2 M N py px g i j)) (by simp)
  refine h.trans (Finset.sum_congr rfl fun i hi => Finset.sum_congr rfl fun j hj => ?_)
  have hi := mem_range.mp hi
  have hj := mem_range.mp hj
  simp only [pad2]
  rw [if_pos (by omega)]
  simp

/-- A linear phase displaces the diffraction pattern. -/
theorem fraunhofer_tilt (s : SLM) (U : ℕ → ℕ → ℂ) (x y x0 y0 : ℝ) :
    fraunhofer s (fun i j => U i j * cexp (2 * Real.pi * I *
        ((x0 * s.fourierGrid.1.get i j + y0 * s.fourierGrid.2.get i j : ℝ) : ℂ) / ((s.wavelength * s.focal : ℝ) : ℂ))) x y =
      fraunhofer s U (x + x0) (y + y0) := by
  unfold fraunhofer
  congr 1
  refine Finset.sum_congr rfl fun i _ => Finset.sum_congr rfl fun j _ => ?_
  rw [mul_assoc, ← Complex.exp_add]
  congr 2
  push_cast
  ring

theorem fraunhofer_congr {s : SLM} {U V : ℕ → ℕ → ℂ} (h : ∀ i < s.Ny, ∀ j < s.Nx, U i j = V i j) (x y : ℝ) :
    fraunhofer s U x y = fraunhofer s V x y := by
  unfold fraunhofer
  congr 1
  exact Finset.sum_congr rfl fun i hi => Finset.sum_congr rfl fun j hj => by
    rw [h i (mem_range.mp hi) j (mem_range.mp hj)]

theorem fieldAt_congr {s : SLM} {U V : ℕ → ℕ → ℂ} (h : ∀ i < s.Ny, ∀ j < s.Nx, U i j = V i j) (x y : ℝ) :
    fieldAt s U x y = fieldAt s V x y := by
  unfold fieldAt
  congr 1
  exact Finset.sum_congr rfl fun i hi => Finset.sum_congr rfl fun j hj => by
    rw [h i (mem_range.mp hi) j (mem_range.mp hj)]

/-- Complex conjugation on the SLM reflects and conjugates the field. -/
theorem fieldAt_conj (s : SLM) (U : ℕ → ℕ → ℂ) (x y : ℝ) :
    fieldAt s (fun i j => (starRingEnd ℂ) (U i j)) (-x) (-y) = (starRingEnd ℂ) (fieldAt s U x y) := by
  unfold fieldAt
  rw [map_mul, Complex.conj_ofReal, map_sum]
  congr 1
  refine Finset.sum_congr rfl fun i _ => ?_
  rw [map_sum]
  refine Finset.sum_congr rfl fun j _ => ?_
  rw [map_mul, ← Complex.exp_conj]
  congr 2
  simp only [map_mul, Complex.conj_I, Complex.conj_ofReal, map_ofNat]
  push_cast
  ring

/-- Turning the pattern on the SLM by 180 degrees turns the diffraction pattern, up to a phase. -/
theorem norm_fraunhofer_turn (s : SLM) (U : ℕ → ℕ → ℂ) (x y : ℝ) :
    ‖fraunhofer s (fun i j => U (s.Ny - 1 - i) (s.Nx - 1 - j)) x y‖ = ‖fraunhofer s U (-x) (-y)‖ := by
  obtain ⟨cx, cy, hgrid⟩ : ∃ cx cy : ℝ, ∀ i < s.Ny, ∀ j < s.Nx,
      s.fourierGrid.1.get (s.Ny - 1 - i) (s.Nx - 1 - j) = cx - s.fourierGrid.1.get i j ∧
      s.fourierGrid.2.get (s.Ny - 1 - i) (s.Nx - 1 - j) = cy - s.fourierGrid.2.get i j := by
    refine ⟨s.fourierGrid.1.get 0 0 + s.fourierGrid.1.get (s.Ny - 1) (s.Nx - 1),
      s.fourierGrid.2.get 0 0 + s.fourierGrid.2.get (s.Ny - 1) (s.Nx - 1), fun i hi j hj => ?_⟩
    have e1 : ((s.Ny - 1 - i : ℕ) : ℝ) = (s.Ny - 1 : ℕ) - (i : ℝ) := by rw [Nat.cast_sub (by omega)]
    have e2 : ((s.Nx - 1 - j : ℕ) : ℝ) = (s.Nx - 1 : ℕ) - (j : ℝ) := by rw [Nat.cast_sub (by omega)]
    constructor
    · simp only [SLM.fourierGrid, fourierX_eq, e2, Nat.cast_zero]
      ring
    · simp only [SLM.fourierGrid, fourierY_eq, e1, Nat.cast_zero]
      ring
  have key : fraunhofer s (fun i j => U (s.Ny - 1 - i) (s.Nx - 1 - j)) x y = fraunhofer s U (-x) (-y) *
      cexp (((2 * Real.pi * (x * cx + y * cy) / (s.wavelength * s.focal) : ℝ) : ℂ) * I) := by
    unfold fraunhofer
    rw [mul_assoc (((s.ps ^ 2 / (s.wavelength * s.focal) : ℝ) : ℂ)), Finset.sum_mul]
    congr 1
    rw [← Finset.sum_range_reflect]
    refine Finset.sum_congr rfl fun i hi => ?_
    have hi := mem_range.mp hi
    rw [← Finset.sum_range_reflect, Finset.sum_mul]
    refine Finset.sum_congr rfl fun j hj => ?_
    have hj := mem_range.mp hj
    simp only []
    rw [(hgrid i hi j hj).1, (hgrid i hi j hj).2, mul_assoc (U i j), ← Complex.exp_add,
      show s.Ny - 1 - (s.Ny - 1 - i) = i by omega, show s.Nx - 1 - (s.Nx - 1 - j) = j by omega]
    congr 2
    push_cast
    ring
  rw [key, norm_mul, Complex.norm_exp_ofReal_mul_I, mul_one]

end Sim

end PySLM2
