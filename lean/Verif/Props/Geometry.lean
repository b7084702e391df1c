import Verif.Lemmas.Simulation
import Verif.Lemmas.Geometry

/-!
# C04 - C09: coordinates and grids
-/

noncomputable section

namespace PySLM2

open Lib

/-- **C04.** Converting a (fractional) pixel index to a coordinate and back. -/
theorem C04_index_roundtrip (s : SLM) (hps : s.ps ≠ 0) (i j : ℝ) :
    s.coordToIndex (s.indexToCoord i j).1 (s.indexToCoord i j).2 = (i, j) := by
  simp only [SLM.coordToIndex, SLM.indexToCoord, mul_div_assoc, div_self hps, mul_one]
  ext <;> simp

/-- **C04.** Converting a coordinate to an index and back. -/
theorem C04_coord_roundtrip (s : SLM) (hps : s.ps ≠ 0) (x y : ℝ) :
    s.indexToCoord (s.coordToIndex x y).1 (s.coordToIndex x y).2 = (x, y) := by
  simp only [SLM.coordToIndex, SLM.indexToCoord]
  ext <;> simp <;> field_simp

example : ∃ s : SLM, s.ps ≠ 0 ∧ s.indexToCoord 1 2 ≠ (0, 0) :=
  ⟨⟨1, 1, 6, 4, 2⟩, by norm_num, by norm_num [SLM.indexToCoord, Prod.ext_iff]⟩

/-- **C05.** Shape, orientation, spacing and origin of `fourier_plane_grid`. -/
theorem C05_fourier_grid (s : SLM) :
    s.fourierGrid.1.shape = .mat s.Ny s.Nx ∧ s.fourierGrid.2.shape = .mat s.Ny s.Nx ∧
    (∀ i i' j, s.fourierGrid.1.get i j = s.fourierGrid.1.get i' j) ∧
    (∀ i j, s.fourierGrid.1.get i (j + 1) - s.fourierGrid.1.get i j = s.ps) ∧
    (∀ i j j', s.fourierGrid.2.get i j = s.fourierGrid.2.get i j') ∧
    (∀ i j, s.fourierGrid.2.get (i + 1) j - s.fourierGrid.2.get i j = -s.ps) ∧
    (Even s.Nx → ∀ i, s.fourierGrid.1.get i (s.Nx / 2) = 0) ∧
    (Even s.Ny → ∀ j, s.fourierGrid.2.get (s.Ny / 2) j = 0) := by
  simp only [SLM.fourierGrid, fourierX_eq, fourierY_eq, true_and]
  refine ⟨fun _ _ _ => trivial, fun i j => by push_cast; ring, fun _ _ _ => trivial,
    fun i j => by push_cast; ring, fun h i => ?_, fun h j => ?_⟩
  · obtain ⟨k, hk⟩ := h
    have h2 : s.Nx / 2 = k := by omega
    rw [h2, hk]; push_cast; ring
  · obtain ⟨k, hk⟩ := h
    have h2 : s.Ny / 2 = k := by omega
    rw [h2, hk]; push_cast; ring

example : ((⟨1, 1, 6, 4, 2⟩ : SLM).fourierGrid.1.get 0 0, (⟨1, 1, 6, 4, 2⟩ : SLM).fourierGrid.2.get 0 0)
    = (-6, 4) := by norm_num [SLM.fourierGrid, SLM.fourierX, SLM.fourierY, SLM.indexToCoord]

/-- The orientation, spacing and origin that C06 asks for, of a pair of coordinate arrays with `Ny`
rows, `Nx` columns and cell `dx` by `dy`: the axis is at pixel `(Ny / 2, Nx / 2)` (integer division). -/
structure IsImageGrid (g : Tensor ℝ × Tensor ℝ) (Nx Ny : ℕ) (dx dy : ℝ) : Prop where
  shapeX : g.1.shape = .mat Ny Nx
  shapeY : g.2.shape = .mat Ny Nx
  originX : ∀ i, g.1.get i (Nx / 2) = 0
  originY : ∀ j, g.2.get (Ny / 2) j = 0
  rowsX : ∀ i i' j, g.1.get i j = g.1.get i' j
  colsY : ∀ i j j', g.2.get i j = g.2.get i j'
  stepX : ∀ i j, j + 1 < Nx → g.1.get i (j + 1) - g.1.get i j = dx
  stepY : ∀ i j, i + 1 < Ny → g.2.get (i + 1) j - g.2.get i j = -dy

theorem imageGridOf_isImageGrid (Nx Ny : ℕ) (ps sc : ℝ) (g : Tensor ℝ × Tensor ℝ)
    (h : imageGridOf Nx Ny ps sc = .ok g) :
    IsImageGrid g Nx Ny (sc / (Nx * ps)) (sc / (Ny * ps)) := by
  unfold imageGridOf at h
  split_ifs at h with h0
  push Not at h0
  obtain rfl := Except.ok.inj h
  have hx : 0 < Nx := Nat.pos_of_ne_zero fun e => h0.1 (by simp [e])
  have hy : 0 < Ny := Nat.pos_of_ne_zero fun e => h0.2 (by simp [e])
  refine ⟨rfl, rfl, fun i => ?_, fun j => ?_, fun _ _ _ => rfl, fun _ _ _ => rfl, fun i j hj => ?_,
    fun i j hi => ?_⟩
  · simp only
    rw [imageX_eq (by omega)]; simp
  · simp only
    rw [imageY_eq (by omega)]; simp
  · simp only
    rw [imageX_eq hj, imageX_eq (by omega)]; push_cast; ring
  · simp only
    rw [imageY_eq hi, imageY_eq (by omega)]; push_cast; ring

/-- **C06.** `image_plane_grid`, for both parities of the sizes.  It exists for every device with
pixels and a non-zero pixel size. -/
theorem C06_image_grid (s : SLM) :
    ((∃ g, s.imageGrid = .ok g) ↔ s.Nx ≠ 0 ∧ s.Ny ≠ 0 ∧ s.ps ≠ 0) ∧
    ∀ g, s.imageGrid = .ok g →
      IsImageGrid g s.Nx s.Ny (s.wavelength * s.focal / (s.Nx * s.ps))
        (s.wavelength * s.focal / (s.Ny * s.ps)) := by
  refine ⟨?_, fun g h => imageGridOf_isImageGrid _ _ _ _ _ h⟩
  unfold SLM.imageGrid imageGridOf
  split_ifs with h
  · simp only [exists_false, false_iff]
    rintro ⟨h1, h2, h3⟩
    simp [h1, h2, h3] at h
  · push Not at h
    simp only [Except.ok.injEq, exists_eq', true_iff]
    refine ⟨fun e => h.1 (by simp [e]), fun e => h.2 (by simp [e]), fun e => h.1 (by simp [e])⟩

/-- **C06.** `image_plane_padded_grid`: the same with the padded sizes; it is obtained unless a padded size or the pixel size is zero. -/
theorem C06_image_padded_grid (s : Sim) (px py : ℕ) (hpx : s.px = px) (hpy : s.py = py) :
    ((∃ g, s.imagePaddedGrid = .ok g) ↔ s.dev.slm.Nx + 2 * px ≠ 0 ∧ s.dev.slm.Ny + 2 * py ≠ 0 ∧ s.dev.slm.ps ≠ 0) ∧
    ∀ g, s.imagePaddedGrid = .ok g →
      IsImageGrid g (s.dev.slm.Nx + 2 * px) (s.dev.slm.Ny + 2 * py)
        (s.dev.slm.wavelength * s.dev.slm.focal / ((s.dev.slm.Nx + 2 * px : ℕ) * s.dev.slm.ps))
        (s.dev.slm.wavelength * s.dev.slm.focal / ((s.dev.slm.Ny + 2 * py : ℕ) * s.dev.slm.ps)) := by
  constructor
  · rw [Sim.imagePaddedGrid_nat hpx hpy, Sim.Nx_eq hpx, Sim.Ny_eq hpy]
    generalize s.dev.slm.Nx + 2 * px = m
    generalize s.dev.slm.Ny + 2 * py = n
    unfold imageGridOf
    split_ifs with h
    · simp only [exists_false, false_iff]
      rintro ⟨h1, h2, h3⟩
      simp [h1, h2, h3] at h
    · push Not at h
      simp only [Except.ok.injEq, exists_eq', true_iff]
      refine ⟨fun e => h.1 (by simp [e]), fun e => h.2 (by simp [e]), fun e => h.1 (by simp [e])⟩
  · intro g h
    have := imageGridOf_isImageGrid _ _ _ _ _ (Sim.imagePaddedGrid_inv h).2.2
    simpa [Sim.Nx_eq hpx, Sim.Ny_eq hpy, SLM.scaling] using this

example : ∃ g, (⟨1, 1, 6, 5, 2⟩ : SLM).imageGrid = .ok g :=
  (C06_image_grid _).1.2 ⟨by decide, by decide, by norm_num⟩

/-- **C07.** Cropping the padding from `fourier_plane_padded_grid` gives `fourier_plane_grid`, and the
padded grid has the padded shape and continues it with the same spacing. -/
theorem C07_padding_extends (s : Sim) (px py : ℕ) (hpx : s.px = px) (hpy : s.py = py) :
    ∃ g, s.fourierPaddedGrid = .ok g ∧
    g.1.shape = .mat (s.dev.slm.Ny + 2 * py) (s.dev.slm.Nx + 2 * px) ∧
    g.2.shape = .mat (s.dev.slm.Ny + 2 * py) (s.dev.slm.Nx + 2 * px) ∧
    (∀ i j, g.1.get (i + py) (j + px) = s.dev.slm.fourierGrid.1.get i j ∧
      g.2.get (i + py) (j + px) = s.dev.slm.fourierGrid.2.get i j) ∧
    (∀ i j, g.1.get i (j + 1) - g.1.get i j = s.dev.slm.ps ∧
      g.2.get (i + 1) j - g.2.get i j = -s.dev.slm.ps) ∧
    (∀ i i' j j', g.1.get i j = g.1.get i' j ∧
      g.2.get i j = g.2.get i j') := by
  refine ⟨_, fourierPaddedGrid_ok (by unfold Sim.NxInt; omega) (by unfold Sim.NyInt; omega), ?_⟩
  simp only [SLM.fourierGrid, fourierX_eq, fourierY_eq, fourierPaddedX_eq,
    fourierPaddedY_eq, Sim.Nx_eq hpx, Sim.Ny_eq hpy, hpx, hpy, true_and, Int.cast_natCast]
  refine ⟨fun i j => ⟨?_, ?_⟩, fun i j => ⟨?_, ?_⟩, fun _ _ _ _ => trivial⟩ <;> push_cast <;> ring

/-- **C08.** Padded image plane coordinates refine the unpadded ones: if the padded number of columns
(rows) is `c` times the unpadded one, the padded coordinate at the pixel that is `c` times as far from
the axis pixel equals the unpadded coordinate. -/
theorem C08_padding_refines (s : Sim) (px py c : ℕ) (hpx : s.px = px) (hpy : s.py = py)
    (g g' : Tensor ℝ × Tensor ℝ) (hg : s.dev.slm.imageGrid = .ok g) (hg' : s.imagePaddedGrid = .ok g') :
    (s.dev.slm.Nx + 2 * px = c * s.dev.slm.Nx →
      ∀ i i' j j', j < s.dev.slm.Nx → j' < c * s.dev.slm.Nx →
        (j' : ℤ) - (c * s.dev.slm.Nx / 2 : ℕ) = c * ((j : ℤ) - (s.dev.slm.Nx / 2 : ℕ)) →
        g'.1.get i' j' = g.1.get i j) ∧
    (s.dev.slm.Ny + 2 * py = c * s.dev.slm.Ny →
      ∀ i i' j j', i < s.dev.slm.Ny → i' < c * s.dev.slm.Ny →
        (i' : ℤ) - (c * s.dev.slm.Ny / 2 : ℕ) = c * ((i : ℤ) - (s.dev.slm.Ny / 2 : ℕ)) →
        g'.2.get i' j' = g.2.get i j) := by
  have e : ∀ {N Nn : ℕ} {ps sc : ℝ}, imageGridOf N Nn ps sc = .ok g →
      g = (⟨.mat Nn N, imageX N ps sc⟩, ⟨.mat Nn N, imageY Nn ps sc⟩) ∧ (N : ℝ) * ps ≠ 0 ∧
        (Nn : ℝ) * ps ≠ 0 := by
    intro N Nn ps sc h
    unfold imageGridOf at h
    split_ifs at h with h0
    push Not at h0
    exact ⟨(Except.ok.inj h).symm, h0⟩
  have e' : ∀ {N Nn : ℕ} {ps sc : ℝ}, imageGridOf N Nn ps sc = .ok g' →
      g' = (⟨.mat Nn N, imageX N ps sc⟩, ⟨.mat Nn N, imageY Nn ps sc⟩) ∧ (N : ℝ) * ps ≠ 0 ∧
        (Nn : ℝ) * ps ≠ 0 := by
    intro N Nn ps sc h
    unfold imageGridOf at h
    split_ifs at h with h0
    push Not at h0
    exact ⟨(Except.ok.inj h).symm, h0⟩
  obtain ⟨rfl, hx, hy⟩ := e hg
  obtain ⟨rfl, hx', hy'⟩ := e' (Sim.imagePaddedGrid_inv hg').2.2
  simp only [Sim.Nx_eq hpx, Sim.Ny_eq hpy] at hx' hy' ⊢
  constructor
  · intro hc i i' j j' hj hj' he
    rw [hc] at hx' ⊢
    rw [imageX_eq hj, imageX_eq hj']
    have he' : (j' : ℝ) - (c * s.dev.slm.Nx / 2 : ℕ) = c * ((j : ℝ) - (s.dev.slm.Nx / 2 : ℕ)) := by
      exact_mod_cast he
    rw [he']
    have hc0 : (c : ℝ) ≠ 0 := by rintro h; simp [h] at hx'
    push_cast
    field_simp
  · intro hc i i' j j' hj hj' he
    rw [hc] at hy' ⊢
    rw [imageY_eq hj, imageY_eq hj']
    have he' : (i' : ℝ) - (c * s.dev.slm.Ny / 2 : ℕ) = c * ((i : ℝ) - (s.dev.slm.Ny / 2 : ℕ)) := by
      exact_mod_cast he
    have he'' : (c * s.dev.slm.Ny / 2 : ℕ) - (i' : ℝ) = c * ((s.dev.slm.Ny / 2 : ℕ) - (i : ℝ)) := by
      linarith
    rw [he'']
    have hc0 : (c : ℝ) ≠ 0 := by rintro h; simp [h] at hy'
    push_cast
    field_simp

/-- The matching pixel of C08 always exists. -/
theorem C08_matching_pixel (n c j : ℕ) (hj : j < n) (hc : 0 < c) :
    ∃ j' < c * n, (j' : ℤ) - (c * n / 2 : ℕ) = c * ((j : ℤ) - (n / 2 : ℕ)) := by
  have h1 : c * (n / 2) ≤ c * n / 2 := by
    rw [Nat.le_div_iff_mul_le (by norm_num), mul_assoc]
    exact Nat.mul_le_mul_left c (Nat.div_mul_le_self n 2)
  have h2 : c * n / 2 < c * (n / 2) + c := by
    rw [Nat.div_lt_iff_lt_mul (by norm_num)]
    have : n < (n / 2 + 1) * 2 := by omega
    calc c * n < c * ((n / 2 + 1) * 2) := Nat.mul_lt_mul_of_pos_left this hc
      _ = (c * (n / 2) + c) * 2 := by ring
  refine ⟨c * j + (c * n / 2 - c * (n / 2)), ?_, ?_⟩
  · have : c * j + c ≤ c * n := by
      calc c * j + c = c * (j + 1) := by ring
        _ ≤ c * n := Nat.mul_le_mul_left c hj
    omega
  · push_cast [Nat.cast_sub h1]
    ring

/-- **C09.** The reported pixel areas are the areas of a grid cell: for coordinate arrays with the
padded shapes, the product of the two spacings. -/
theorem C09_pixel_areas (s : Sim) (px py : ℕ) (hpx : s.px = px) (hpy : s.py = py)
    (g : Tensor ℝ × Tensor ℝ) (hg : s.imagePaddedGrid = .ok g) :
    (∃ f, s.fourierPaddedGrid = .ok f ∧ ∀ i j, (f.1.get i (j + 1) - f.1.get i j) *
      (f.2.get i j - f.2.get (i + 1) j) = s.fourierPixelArea) ∧
    ∃ area, s.imagePixelArea = .ok area ∧
      ∀ i j, i + 1 < s.dev.slm.Ny + 2 * py → j + 1 < s.dev.slm.Nx + 2 * px →
        (g.1.get i (j + 1) - g.1.get i j) * (g.2.get i j - g.2.get (i + 1) j) = area := by
  obtain ⟨f, hf, -, -, -, h, -⟩ := C07_padding_extends s px py hpx hpy
  refine ⟨⟨f, hf, fun i j => ?_⟩, ?_⟩
  · have h1 := (h i j).1
    have h2 := (h i j).2
    rw [h1]
    have : f.2.get i j - f.2.get (i + 1) j = s.dev.slm.ps := by
      linarith
    rw [this, Sim.fourierPixelArea, sq]
  · have hgrid := (C06_image_padded_grid s px py hpx hpy).2 g hg
    replace hg := (Sim.imagePaddedGrid_inv hg).2.2
    unfold imageGridOf at hg
    split_ifs at hg with h0
    push Not at h0
    have hps : s.dev.slm.ps ≠ 0 := fun e => h0.1 (by simp [e])
    have hNx : s.Nx ≠ 0 := fun e => h0.1 (by simp [e])
    have hNy : s.Ny ≠ 0 := fun e => h0.2 (by simp [e])
    refine ⟨_, by rw [Sim.imagePixelArea_nat hpx hpy, if_neg]; simp [hps, hNx, hNy], fun i j hi hj => ?_⟩
    rw [hgrid.stepX i j hj]
    have := hgrid.stepY i j hi
    have h3 : g.2.get i j - g.2.get (i + 1) j =
      s.dev.slm.wavelength * s.dev.slm.focal / ((s.dev.slm.Ny + 2 * py : ℕ) * s.dev.slm.ps) := by
      linarith
    rw [h3]
    simp only [Sim.Nx_eq hpx, Sim.Ny_eq hpy, SLM.scaling] at hNx hNy ⊢
    have hx : ((s.dev.slm.Nx + 2 * px : ℕ) : ℝ) ≠ 0 := by exact_mod_cast hNx
    have hy : ((s.dev.slm.Ny + 2 * py : ℕ) : ℝ) ≠ 0 := by exact_mod_cast hNy
    rw [Nat.cast_mul]
    field_simp

/-- A simulation of a 6 x 4 base SLM with paddings 3 and 4 (padded sizes 12 and 12): the grids exist and
the refinement factors 2 and 3 occur. -/
example : ∃ s : Sim, s.px = (3 : ℕ) ∧ s.py = (4 : ℕ) ∧ (∃ g, s.dev.slm.imageGrid = .ok g) ∧
    (∃ g, s.imagePaddedGrid = .ok g) ∧ s.dev.slm.Nx + 2 * 3 = 2 * s.dev.slm.Nx ∧
    s.dev.slm.Ny + 2 * 4 = 3 * s.dev.slm.Ny := by
  refine ⟨⟨.base ⟨1, 1, 6, 4, 2⟩, 3, 4, none, none, none⟩, rfl, rfl, ?_, ?_, rfl, rfl⟩
  · exact (C06_image_grid _).1.2 ⟨by decide, by decide, by simp [Device.slm]⟩
  · simp [Sim.imagePaddedGrid, imageGridOf, Sim.Nx, Sim.Ny, Sim.NxInt, Sim.NyInt, Device.slm]

end PySLM2
