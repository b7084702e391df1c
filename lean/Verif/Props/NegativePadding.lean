import Verif.Props.Geometry
import Verif.Lemmas.SimLife
import Verif.Props.Propagation

/-!
# C142: negative paddings
-/

noncomputable section

namespace PySLM2.Sim

open Lib

theorem pad_neg {t : Tensor ℂ} {py px : ℤ} (h : px < 0 ∨ py < 0) : pad t py px = .error .tensorflow := by
  unfold pad
  cases t.shape with
  | scalar => rfl
  | mat M N => exact if_pos (by tauto)

theorem propagate_neg {s : Sim} (hneg : s.px < 0 ∨ s.py < 0) (h : Profile.Heap) (a : ProfArg) :
    (s.propagate h a).1 = s ∧ ∃ e, (s.propagate h a).2 = .error e := by
  unfold propagate
  cases s.dev.slm.profileToTensor h a true true with
  | error e => exact ⟨rfl, e, rfl⟩
  | ok t =>
    simp only [pad_neg hneg]
    exact ⟨trivial, _, rfl⟩

/-- What stays true in a simulation with a negative padding. -/
structure Void (s : Sim) : Prop where
  neg : s.px < 0 ∨ s.py < 0
  inp : s.inputField = none
  out : s.outputField = none
  img : s.imageField = none

theorem Void.block {s : Sim} (v : Void s) (r : Option ℝ) :
    (s.blockZerothOrder r).1 = s ∧ ∃ e, (s.blockZerothOrder r).2 = .error e := by
  unfold blockZerothOrder
  cases hd : s.dev with
  | base sl => exact ⟨rfl, _, rfl⟩
  | lcos l => exact ⟨rfl, _, rfl⟩
  | dmd d st =>
    simp only [v.out]
    exact ⟨trivial, _, rfl⟩

theorem Void.step {s : Sim} (v : Void s) (op : Op) : Void (s.step op).1 := by
  cases op with
  | propagate h a =>
    simp only [Sim.step]
    rw [(propagate_neg v.neg h a).1]
    exact v
  | block r =>
    simp only [Sim.step]
    rw [(v.block r).1]
    exact v
  | clear => exact ⟨v.neg, rfl, rfl, rfl⟩
  | setState st =>
    simp only [Sim.step]
    cases s.dev with
    | base sl => exact v
    | lcos l => exact v
    | dmd d st' => exact ⟨v.neg, v.inp, v.out, v.img⟩
  | setLcos st =>
    simp only [Sim.step]
    cases s.dev with
    | base sl => exact v
    | dmd d st' => exact v
    | lcos l => exact ⟨v.neg, v.inp, v.out, v.img⟩

theorem Void.run {s : Sim} (v : Void s) (ops : List Op) : Void (s.run ops) := by
  induction ops generalizing s with
  | nil => exact v
  | cons op ops ih => exact ih (v.step op)

/-- **C142.** The constructors accept negative paddings, but such a simulation never has a result: after any history of calls, all
fields are still `None`, and every further propagation, every blocking and every power query raises. -/
theorem C142_never (dev : Device) {px py : ℤ} (hneg : px < 0 ∨ py < 0) (ops : List Op) :
    ∃ s0, newSLM (.dev dev) (.int px) (.int py) = .ok s0 ∧
      let s := s0.run ops
      s.inputField = none ∧ s.outputField = none ∧ s.imageField = none ∧
      (∀ h a, (s.propagate h a).1 = s ∧ ∃ e, (s.propagate h a).2 = .error e) ∧
      (∀ r, (s.blockZerothOrder r).1 = s ∧ ∃ e, (s.blockZerothOrder r).2 = .error e) ∧
      s.inputPower = .error .typeError ∧ s.outputPower = .error .typeError ∧ ∃ e, s.imagePower = .error e := by
  refine ⟨_, rfl, ?_⟩
  have v : Void (Sim.run ⟨dev, px, py, none, none, none⟩ ops) := Void.run ⟨hneg, rfl, rfl, rfl⟩ ops
  refine ⟨v.inp, v.out, v.img, fun h a => propagate_neg v.neg h a, fun r => v.block r, ?_, ?_, ?_⟩
  · simp [inputPower, intensity, v.inp]
  · simp [outputPower, intensity, v.out]
  · unfold imagePower
    cases imagePixelArea _ with
    | error e => exact ⟨e, rfl⟩
    | ok A => exact ⟨.typeError, by simp [intensity, v.img]⟩

/-- A DMD simulation with paddings `-1` and `2`. -/
example : newDMD (.dev (.dmd exDmd (.bool exState))) (.int (-1)) (.int 2) =
    newSLM (.dev (.dmd exDmd (.bool exState))) (.int (-1)) (.int 2) ∧ ((-1 : ℤ) < 0 ∨ (2 : ℤ) < 0) := ⟨rfl, by omega⟩

/-- **C142.** For paddings of either sign that leave a plane of `Nx x Ny` pixels, the padded grids are those of that plane: the
Fourier plane grid is the unpadded one extended or cropped, the image plane grid has the spacing of `Nx x Ny` pixels, and
`image_plane_pixel_area` is the product of its spacings. -/
theorem C142_grids (s : Sim) {Nx Ny : ℕ} (hx : (Nx : ℤ) = s.dev.slm.Nx + 2 * s.px) (hy : (Ny : ℤ) = s.dev.slm.Ny + 2 * s.py) :
    (∃ f, s.fourierPaddedGrid = .ok f ∧ f.1.shape = .mat Ny Nx ∧ f.2.shape = .mat Ny Nx ∧
      ∀ i j i' j' : ℕ, (i' : ℤ) = i - s.py → (j' : ℤ) = j - s.px →
        f.1.get i j = s.dev.slm.fourierGrid.1.get i' j' ∧ f.2.get i j = s.dev.slm.fourierGrid.2.get i' j') ∧
    (∀ g, s.imagePaddedGrid = .ok g → IsImageGrid g Nx Ny (s.dev.slm.wavelength * s.dev.slm.focal / (Nx * s.dev.slm.ps))
        (s.dev.slm.wavelength * s.dev.slm.focal / (Ny * s.dev.slm.ps)) ∧
      s.imagePixelArea = .ok ((s.dev.slm.wavelength * s.dev.slm.focal / (Nx * s.dev.slm.ps)) *
        (s.dev.slm.wavelength * s.dev.slm.focal / (Ny * s.dev.slm.ps)))) ∧
    ((∃ g, s.imagePaddedGrid = .ok g) ↔ 0 < Nx ∧ 0 < Ny ∧ s.dev.slm.ps ≠ 0) := by
  have ex : s.NxInt = Nx := hx.symm
  have ey : s.NyInt = Ny := hy.symm
  have nx : s.Nx = Nx := by unfold Sim.Nx; rw [ex]; rfl
  have ny : s.Ny = Ny := by unfold Sim.Ny; rw [ey]; rfl
  have hgrid : s.imagePaddedGrid = imageGridOf Nx Ny s.dev.slm.ps s.dev.slm.scaling := by
    unfold imagePaddedGrid
    rw [ex, ey, nx, ny, if_neg]
    omega
  refine ⟨⟨_, fourierPaddedGrid_ok (by rw [ex]; omega) (by rw [ey]; omega), by rw [nx, ny], by rw [nx, ny],
    fun i j i' j' hi hj => ?_⟩, fun g hg => ?_, ?_⟩
  · have hi' : (i' : ℝ) = i - s.py := by exact_mod_cast hi
    have hj' : (j' : ℝ) = j - s.px := by exact_mod_cast hj
    simp only [SLM.fourierGrid, fourierX_eq, fourierY_eq, fourierPaddedX_eq, fourierPaddedY_eq, hi', hj']
    exact ⟨trivial, trivial⟩
  · rw [hgrid] at hg
    refine ⟨by simpa [SLM.scaling] using imageGridOf_isImageGrid _ _ _ _ _ hg, ?_⟩
    unfold imageGridOf at hg
    split_ifs at hg with h0
    simp only [mul_eq_zero, not_or, Nat.cast_eq_zero] at h0
    obtain ⟨⟨h1, h2⟩, h3, -⟩ := h0
    unfold imagePixelArea
    rw [ex, ey, if_neg (by simp [h1, h2, h3])]
    congr 1
    simp only [SLM.scaling]
    push_cast
    have : (Nx : ℝ) ≠ 0 := by exact_mod_cast h1
    have : (Ny : ℝ) ≠ 0 := by exact_mod_cast h3
    field_simp
  · rw [hgrid]
    unfold imageGridOf
    split_ifs with h0
    · simp only [mul_eq_zero, Nat.cast_eq_zero] at h0
      simp only [reduceCtorEq, exists_false, false_iff]
      rintro ⟨h1, h2, h3⟩
      rcases h0 with (h | h) | (h | h)
      · omega
      · exact h3 h
      · omega
      · exact h3 h
    · simp only [mul_eq_zero, not_or, Nat.cast_eq_zero] at h0
      simp only [Except.ok.injEq, exists_eq', true_iff]
      exact ⟨by omega, by omega, h0.1.2⟩

/-- A plane of 6 x 8 pixels cut out of, and added to, an 8 x 4 SLM. -/
example : ∃ s : Sim, s.px = -1 ∧ s.py = 2 ∧ ((6 : ℕ) : ℤ) = s.dev.slm.Nx + 2 * s.px ∧ ((8 : ℕ) : ℤ) = s.dev.slm.Ny + 2 * s.py ∧
    ∃ g, s.imagePaddedGrid = .ok g := by
  refine ⟨⟨.base ⟨1, 1, 8, 4, 2⟩, -1, 2, none, none, none⟩, rfl, rfl, rfl, rfl, ?_⟩
  exact (C142_grids _ (Nx := 6) (Ny := 8) rfl rfl).2.2.2 ⟨by omega, by omega, by norm_num [Device.slm]⟩

/-- **C142.** If the paddings take away as many pixels as there are in one direction or more, `image_plane_padded_grid` raises, and if
they take away all pixels of a direction the pixel area raises too; `fourier_plane_padded_grid` raises exactly if they take away more. -/
theorem C142_empty (s : Sim) :
    (s.dev.slm.Nx + 2 * s.px ≤ 0 ∨ s.dev.slm.Ny + 2 * s.py ≤ 0 → ∃ e, s.imagePaddedGrid = .error e) ∧
    (s.dev.slm.Nx + 2 * s.px = 0 ∨ s.dev.slm.Ny + 2 * s.py = 0 → s.imagePixelArea = .error .zeroDivisionError) ∧
    ((s.dev.slm.Nx + 2 * s.px < 0 ∨ s.dev.slm.Ny + 2 * s.py < 0) ↔ ∃ e, s.fourierPaddedGrid = .error e) := by
  refine ⟨fun h => ?_, fun h => ?_, fun h => ⟨_, if_pos h⟩, fun ⟨e, he⟩ => ?_⟩
  · cases hg : s.imagePaddedGrid with
    | error e => exact ⟨e, rfl⟩
    | ok g =>
      exfalso
      obtain ⟨h1, h2, h3⟩ := imagePaddedGrid_inv hg
      unfold imageGridOf at h3
      split_ifs at h3 with h0
      simp only [mul_eq_zero, not_or, Nat.cast_eq_zero] at h0
      unfold NxInt at h1
      unfold NyInt at h2
      omega
  · unfold imagePixelArea NxInt NyInt
    exact if_pos (Or.inl (by rcases h with h | h <;> rw [h] <;> simp))
  · unfold fourierPaddedGrid at he
    split_ifs at he with h
    exact h

/-- An 8 x 4 SLM with paddings `-4` and `0`. -/
example : ∃ s : Sim, (s.dev.slm.Nx + 2 * s.px = 0 ∨ s.dev.slm.Ny + 2 * s.py = 0) ∧ 0 < s.dev.slm.Nx :=
  ⟨⟨.base ⟨1, 1, 8, 4, 2⟩, -4, 0, none, none, none⟩, Or.inl rfl, Nat.succ_pos 7⟩

end PySLM2.Sim
