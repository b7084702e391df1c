import Verif.Props.Pack
import Verif.Props.Propagation

/-!
# C96: the device models
-/

noncomputable section

namespace PySLM2

open Lib

/-- Nominal diagonal of the active area in inches, as in the manufacturers' data sheets ("0.95 1080p", "0.7 XGA",
"0.90 WQXGA", "0.7 inch diagonal"). -/
def Model.nominalInches : Model → ℝ
  | .DLP9500 => 0.95
  | .DLP7000 => 0.7
  | .DLP9000 => 0.9
  | .PLUTO_2 => 0.7

/-- **C96.** Every device model keeps the given wavelength and focal length, is wider than tall, and the diagonal of its
pixel array (pixel size times pixel counts, in metres) is the nominal diagonal within 2 percent. -/
theorem C96_geometry (m : Model) (wavelength focal : ℝ) :
    (m.slm wavelength focal).wavelength = wavelength ∧ (m.slm wavelength focal).focal = focal ∧
    (m.slm wavelength focal).Ny < (m.slm wavelength focal).Nx ∧
    0.98 * (m.nominalInches * 0.0254) ≤
      √(((m.slm wavelength focal).Nx * (m.slm wavelength focal).ps) ^ 2 +
        ((m.slm wavelength focal).Ny * (m.slm wavelength focal).ps) ^ 2) ∧
    √(((m.slm wavelength focal).Nx * (m.slm wavelength focal).ps) ^ 2 +
        ((m.slm wavelength focal).Ny * (m.slm wavelength focal).ps) ^ 2) ≤ 1.02 * (m.nominalInches * 0.0254) := by
  refine ⟨by cases m <;> rfl, by cases m <;> rfl, by cases m <;> simp [Model.slm], ?_, ?_⟩
  · refine Real.le_sqrt_of_sq_le ?_
    cases m <;> norm_num [Model.slm, Model.nominalInches]
  · refine Real.sqrt_le_iff.mpr ⟨?_, ?_⟩ <;> cases m <;> norm_num [Model.slm, Model.nominalInches]

/-- **C96**, simulation: the sizes of the models are even, so that the simulated complex field, not only its modulus, is
the diffraction integral on the advertised coordinates. -/
theorem C96_field {s : Sim} {px py : ℕ} {h : Profile.Heap} {a : ProfArg} {u m : ℕ → ℕ → ℂ} (r : Sim.Ready s px py h a u m)
    (model : Model) (wavelength focal : ℝ) (hs : s.dev.slm = model.slm wavelength focal) :
    ∃ img g, (s.propagate h a).1.imageField = some img ∧ s.imagePaddedGrid = .ok g ∧
      ∀ k < s.dev.slm.Ny + 2 * py, ∀ l < s.dev.slm.Nx + 2 * px,
        img.get k l = Sim.fraunhofer s.dev.slm (fun i j => u i j * m i j) (g.1.get k l) (g.2.get k l) := by
  obtain ⟨-, img, g, h1, h2, -, h4⟩ := Sim.C10_fraunhofer r
  refine ⟨img, g, h1, h2, fun k hk l hl => (h4 k hk l hl).2 ?_ ?_⟩
  · rw [hs, Nat.even_iff]
    cases model <;> norm_num [Model.slm]
  · rw [hs, Nat.even_iff]
    cases model <;> norm_num [Model.slm]

/-- **C96**, packing: for the models every row of mirrors fills whole bytes: `pack_dmd_state` returns `Ny * Nx / 8`
bytes, and mirror `(i, j)` is bit `j % 8` (from the most significant) of byte `j / 8` of row `i`. -/
theorem C96_rows (model : Model) (wavelength focal : ℝ) {t : Tensor Bool}
    (ht : t.shape = .mat (model.slm wavelength focal).Ny (model.slm wavelength focal).Nx) :
    ∃ bytes : List ℕ, DMD.packDmdState (.bool t) = .ok bytes ∧
      bytes.length = (model.slm wavelength focal).Ny * ((model.slm wavelength focal).Nx / 8) ∧
      ∀ i < (model.slm wavelength focal).Ny, ∀ j < (model.slm wavelength focal).Nx,
        (bytes.getD (i * ((model.slm wavelength focal).Nx / 8) + j / 8) 0).testBit (7 - j % 8) = t.get i j := by
  obtain ⟨bytes, h1, h2, -, h3, -⟩ := DMD.C41_pack ht
  obtain ⟨c, hc⟩ : ∃ c, (model.slm wavelength focal).Nx = 8 * c := by
    cases model
    · exact ⟨240, rfl⟩
    · exact ⟨128, rfl⟩
    · exact ⟨320, rfl⟩
    · exact ⟨240, rfl⟩
  generalize (model.slm wavelength focal).Nx = N at *
  generalize (model.slm wavelength focal).Ny = M at *
  subst hc
  have e8 : 8 * c / 8 = c := by omega
  rw [e8]
  refine ⟨bytes, h1, ?_, fun i hi j hj => ?_⟩
  · rw [h2]
    have : (M * (8 * c : ℕ) : ℚ) / 8 = ((M * c : ℕ) : ℚ) := by push_cast; ring
    rw [this, Nat.ceil_natCast]
  · rw [← h3 i hi j hj]
    have e1 : (i * (8 * c) + j) / 8 = i * c + j / 8 := by
      rw [show i * (8 * c) = 8 * (i * c) by ring]
      omega
    have e2 : (i * (8 * c) + j) % 8 = j % 8 := by
      rw [show i * (8 * c) = 8 * (i * c) by ring]
      omega
    rw [e1, e2]

/-- The hypotheses of `C96_field` hold for a DLP9500 with a non-constant input and all mirrors on. -/
example (h : Profile.Heap) :
    let d : DMD := DMD.new (Model.DLP9500.slm 1 2) 4 0 false
    let s : Sim := ⟨.dmd d d.allOn, 10, 5, none, none, none⟩
    s.dev.slm = Model.DLP9500.slm 1 2 ∧
    Sim.Ready s 10 5 h (.ndarray .real ⟨.mat 1080 1920, fun i j => i + j⟩) (fun i j => i + j) (fun _ _ => 1) := by
  refine ⟨rfl, rfl, rfl, by simp [Device.slm, DMD.new, Model.slm], by simp [Device.slm, DMD.new, Model.slm], ?_, ?_,
    ⟨_, rfl, rfl, fun _ _ _ _ => rfl⟩, ⟨_, rfl, rfl, fun i _ j _ => ?_⟩⟩
  · norm_num [Device.slm, DMD.new, Model.slm]
  · norm_num [Device.slm, DMD.new, Model.slm]
  · simp [Tensor.map]

end PySLM2
