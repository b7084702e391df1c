import Verif.Model.Simulation

/-! Helper lemmas about index shifts and grid coordinates. -/

noncomputable section

namespace PySLM2

open Lib

theorem fftshiftIdx_eq {n j : ℕ} (hj : j < n) :
    fftshiftIdx n j = if j < n / 2 then j + (n - n / 2) else j - n / 2 := by
  unfold fftshiftIdx
  split_ifs with h
  · exact Nat.mod_eq_of_lt (by omega)
  · have : j + (n - n / 2) = (j - n / 2) + n := by omega
    rw [this, Nat.add_mod_right]
    exact Nat.mod_eq_of_lt (by omega)

theorem ifftshiftIdx_eq {n j : ℕ} (hj : j < n) :
    ifftshiftIdx n j = if j < n - n / 2 then j + n / 2 else j - (n - n / 2) := by
  unfold ifftshiftIdx
  split_ifs with h
  · exact Nat.mod_eq_of_lt (by omega)
  · have : j + n / 2 = (j - (n - n / 2)) + n := by omega
    rw [this, Nat.add_mod_right]
    exact Nat.mod_eq_of_lt (by omega)

theorem fftshiftIdx_lt {n j : ℕ} (hj : j < n) : fftshiftIdx n j < n :=
  Nat.mod_lt _ (by omega)

theorem ifftshiftIdx_lt {n j : ℕ} (hj : j < n) : ifftshiftIdx n j < n :=
  Nat.mod_lt _ (by omega)

theorem fftshift_ifftshift {n j : ℕ} (hj : j < n) : fftshiftIdx n (ifftshiftIdx n j) = j := by
  have h := ifftshiftIdx_lt hj
  rw [fftshiftIdx_eq h, ifftshiftIdx_eq hj]
  split_ifs <;> omega

theorem ifftshift_fftshift {n j : ℕ} (hj : j < n) : ifftshiftIdx n (fftshiftIdx n j) = j := by
  have h := fftshiftIdx_lt hj
  rw [ifftshiftIdx_eq h, fftshiftIdx_eq hj]
  split_ifs <;> omega

/-- The shifted frequencies are `(j - n//2) / (n d)`. -/
theorem fftfreq_shift {n j : ℕ} (hj : j < n) (d : ℝ) :
    fftfreq n d (fftshiftIdx n j) = ((j : ℝ) - (n / 2 : ℕ)) / (n * d) := by
  unfold fftfreq
  rw [fftshiftIdx_eq hj]
  by_cases h : j < n / 2
  · rw [if_pos h, if_neg (by omega)]
    congr 1
    have : (n - n / 2) + n / 2 = n := by omega
    have h2 : ((n - n / 2 : ℕ) : ℝ) + (n / 2 : ℕ) = n := by exact_mod_cast this
    push_cast
    linarith
  · rw [if_neg h, if_pos (by omega)]
    congr 1
    push_cast [Nat.cast_sub (Nat.le_of_not_lt h)]
    ring

theorem imageX_eq {n j : ℕ} (hj : j < n) (ps sc : ℝ) (i : ℕ) :
    imageX n ps sc i j = ((j : ℝ) - (n / 2 : ℕ)) * (sc / (n * ps)) := by
  unfold imageX
  rw [fftfreq_shift hj]
  ring

theorem imageY_eq {n i : ℕ} (hi : i < n) (ps sc : ℝ) (j : ℕ) :
    imageY n ps sc i j = ((n / 2 : ℕ) - (i : ℝ)) * (sc / (n * ps)) := by
  unfold imageY
  rw [fftfreq_shift hi]
  ring

theorem fourierX_eq (s : SLM) (i j : ℕ) : s.fourierX i j = ((j : ℝ) - (s.Nx : ℝ) / 2) * s.ps := rfl

theorem fourierY_eq (s : SLM) (i j : ℕ) :
    s.fourierY i j = ((s.Ny : ℝ) / 2 - (i : ℝ)) * s.ps := by
  simp only [SLM.fourierY, SLM.indexToCoord]; ring

theorem fourierPaddedGrid_ok {s : Sim} (hx : 0 ≤ s.NxInt) (hy : 0 ≤ s.NyInt) :
    s.fourierPaddedGrid = .ok (⟨.mat s.Ny s.Nx, s.fourierPaddedX⟩, ⟨.mat s.Ny s.Nx, s.fourierPaddedY⟩) :=
  if_neg (by omega)

theorem fourierPaddedX_eq (s : Sim) (i j : ℕ) :
    s.fourierPaddedX i j = ((j : ℝ) - s.px - (s.dev.slm.Nx : ℝ) / 2) * s.dev.slm.ps := rfl

theorem fourierPaddedY_eq (s : Sim) (i j : ℕ) :
    s.fourierPaddedY i j = ((s.dev.slm.Ny : ℝ) / 2 - ((i : ℝ) - s.py)) * s.dev.slm.ps := by
  simp only [Sim.fourierPaddedY, SLM.indexToCoord]; ring

end PySLM2
