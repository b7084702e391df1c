import Verif.Lemmas.Centred
import Verif.Spec.Simulation

/-! Helper lemmas about `propagate_to_image`. -/

noncomputable section

open Complex Finset

namespace PySLM2

open Lib

theorem Tensor.at_eq_get {α : Type} {t : Tensor α} {M N i j : ℕ} (hs : t.shape = .mat M N)
    (hi : i < M) (hj : j < N) : t.at_ i j = t.get i j := by
  unfold Tensor.at_
  rw [hs]
  simp only
  congr 1
  · split_ifs <;> omega
  · split_ifs <;> omega

theorem bcast_self (M N : ℕ) : bcast (.mat M N) (.mat M N) = some (.mat M N) := by
  simp [bcast, bcastDim]

namespace Sim

theorem pad2_congr {M N py px : ℕ} {f g : ℕ → ℕ → ℂ} (h : ∀ i < M, ∀ j < N, f i j = g i j) :
    pad2 M N py px f = pad2 M N py px g := by
  funext i j
  unfold pad2
  split_ifs with hij
  · exact h _ (by omega) _ (by omega)
  · rfl

/-- The constant in front of the image plane field. -/
def gain (s : Sim) : ℝ := (s.Nx * s.Ny : ℕ) * s.fourierPixelArea / s.dev.slm.scaling

/-- What a successful propagation of field `u` through modulation `m` leaves in the object. -/
def propagated (s : Sim) (px py : ℕ) (u m : ℕ → ℕ → ℂ) : Sim :=
  let M := s.dev.slm.Ny
  let N := s.dev.slm.Nx
  let sh := Shape.mat (M + 2 * py) (N + 2 * px)
  let out := pad2 M N py px fun i j => u i j * m i j
  { s with
    inputField := some ⟨sh, pad2 M N py px u⟩
    outputField := some ⟨sh, out⟩
    imageField := some ⟨sh, fun i j => centredIdft (M + 2 * py) (N + 2 * px) out i j * (s.gain : ℂ)⟩ }

theorem propagate_ready {s : Sim} {px py : ℕ} {h : Profile.Heap} {a : ProfArg} {u m : ℕ → ℕ → ℂ}
    (r : Ready s px py h a u m) : s.propagate h a = (s.propagated px py u m, .ok ()) := by
  obtain ⟨hpx, hpy, hNx, hNy, hsc, hps, ⟨ti, hti, htis, htiu⟩, ⟨tm, htm, htms, htmu⟩⟩ := r
  have hpadi : pad ti s.py s.px = .ok ⟨.mat (s.dev.slm.Ny + 2 * py) (s.dev.slm.Nx + 2 * px),
      pad2 s.dev.slm.Ny s.dev.slm.Nx py px u⟩ := by
    unfold pad
    rw [htis, hpx, hpy]
    simp only [Int.toNat_natCast]
    rw [if_neg (by omega), pad2_congr htiu]
  have hmul : Tensor.map2 (fun a b => a * b) ti tm =
      .ok ⟨.mat s.dev.slm.Ny s.dev.slm.Nx, fun i j => ti.at_ i j * tm.at_ i j⟩ := by
    unfold Tensor.map2
    rw [htis, htms, bcast_self]
  have hpado : pad ⟨.mat s.dev.slm.Ny s.dev.slm.Nx, fun i j => ti.at_ i j * tm.at_ i j⟩ s.py s.px =
      .ok ⟨.mat (s.dev.slm.Ny + 2 * py) (s.dev.slm.Nx + 2 * px),
        pad2 s.dev.slm.Ny s.dev.slm.Nx py px fun i j => u i j * m i j⟩ := by
    unfold pad
    rw [hpx, hpy]
    simp only [Int.toNat_natCast]
    rw [if_neg (by omega)]
    congr 2
    refine pad2_congr fun i hi j hj => ?_
    rw [Tensor.at_eq_get htis hi hj, Tensor.at_eq_get htms hi hj, htiu i hi j hj, htmu i hi j hj]
  unfold propagate
  rw [hti]
  simp only [hpadi]
  have hst : ∀ (f : Option (Tensor ℂ)), ({ s with inputField := f } : Sim).dev.stateTensor = .ok tm :=
    fun f => htm
  simp only [htm, hmul, hpado]
  unfold imageOf
  simp only
  rw [if_neg (by omega), if_neg (show ¬ s.dev.slm.scaling = 0 from hsc)]
  rfl

theorem propagated_dev (s : Sim) (px py : ℕ) (u m : ℕ → ℕ → ℂ) :
    (s.propagated px py u m).dev = s.dev := rfl

theorem intensityPixel_eq (z : ℂ) : intensityPixel z = ‖z‖ ^ 2 := by
  rw [intensityPixel, ← Complex.normSq_eq_norm_sq, Complex.normSq_apply]; ring

theorem Nx_eq {s : Sim} {px : ℕ} (h : s.px = px) : s.Nx = s.dev.slm.Nx + 2 * px := by
  unfold Nx NxInt
  rw [h]
  omega

theorem Ny_eq {s : Sim} {py : ℕ} (h : s.py = py) : s.Ny = s.dev.slm.Ny + 2 * py := by
  unfold Ny NyInt
  rw [h]
  omega

theorem NxInt_eq {s : Sim} {px : ℕ} (h : s.px = px) : s.NxInt = s.Nx := by
  unfold Nx NxInt
  rw [h]
  omega

theorem NyInt_eq {s : Sim} {py : ℕ} (h : s.py = py) : s.NyInt = s.Ny := by
  unfold Ny NyInt
  rw [h]
  omega

theorem imagePixelArea_nat {s : Sim} {px py : ℕ} (hpx : s.px = px) (hpy : s.py = py) : s.imagePixelArea =
    if s.Nx * s.Ny = 0 ∨ s.dev.slm.ps ^ 2 = 0 then .error .zeroDivisionError
    else .ok (s.dev.slm.scaling ^ 2 / (s.Nx * s.Ny : ℕ) / s.dev.slm.ps ^ 2) := by
  unfold imagePixelArea
  rw [NxInt_eq hpx, NyInt_eq hpy]
  norm_cast

theorem imagePaddedGrid_nat {s : Sim} {px py : ℕ} (hpx : s.px = px) (hpy : s.py = py) : s.imagePaddedGrid =
    imageGridOf s.Nx s.Ny s.dev.slm.ps s.dev.slm.scaling := by
  unfold imagePaddedGrid
  rw [NxInt_eq hpx, NyInt_eq hpy, if_neg]
  omega

/-- Where the padded grid exists, the padded sizes are not negative. -/
theorem imagePaddedGrid_inv {s : Sim} {g : Tensor ℝ × Tensor ℝ} (hg : s.imagePaddedGrid = .ok g) :
    s.NxInt = s.Nx ∧ s.NyInt = s.Ny ∧ imageGridOf s.Nx s.Ny s.dev.slm.ps s.dev.slm.scaling = .ok g := by
  unfold imagePaddedGrid at hg
  split_ifs at hg with h
  have h' := hg
  unfold imageGridOf at h'
  split_ifs at h' with h0
  push Not at h h0
  have hps : s.dev.slm.ps ≠ 0 := fun e => h0.1 (by simp [e])
  obtain ⟨h1, h2⟩ := h hps
  have hx : s.Nx ≠ 0 := fun e => h0.1 (by simp [e])
  unfold Nx at hx ⊢
  unfold Ny
  exact ⟨by omega, by have := h2 (by omega); omega, hg⟩

theorem half_pad (n p : ℕ) : (n + 2 * p) / 2 = n / 2 + p := by omega

/-- The image plane field as a function of centred indices. -/
theorem propagated_image_get {s : Sim} {px py : ℕ} (u m : ℕ → ℕ → ℂ) {k l : ℕ}
    (hpx : s.px = px) (hpy : s.py = py)
    (hk : k < s.dev.slm.Ny + 2 * py) (hl : l < s.dev.slm.Nx + 2 * px) :
    centredIdft (s.dev.slm.Ny + 2 * py) (s.dev.slm.Nx + 2 * px)
      (pad2 s.dev.slm.Ny s.dev.slm.Nx py px fun i j => u i j * m i j) k l * (s.gain : ℂ) =
    ((s.dev.slm.ps ^ 2 / s.dev.slm.scaling : ℝ) : ℂ) *
      ∑ i ∈ range s.dev.slm.Ny, ∑ j ∈ range s.dev.slm.Nx, u i j * m i j *
        (Ec (s.dev.slm.Ny + 2 * py) k (i + py) * Ec (s.dev.slm.Nx + 2 * px) l (j + px)) := by
  rw [centredIdft_eq _ hk hl]
  rw [sum_pad2 s.dev.slm.Ny s.dev.slm.Nx py px (fun i j => u i j * m i j)
    (fun z i j => z * (Ec (s.dev.slm.Ny + 2 * py) k i * Ec (s.dev.slm.Nx + 2 * px) l j))
    (fun i j => by simp)]
  have h1 : ((s.dev.slm.Ny + 2 * py : ℕ) : ℂ) ≠ 0 := by exact_mod_cast (by omega)
  have h2 : ((s.dev.slm.Nx + 2 * px : ℕ) : ℂ) ≠ 0 := by exact_mod_cast (by omega)
  simp only [gain, Nx_eq hpx, Ny_eq hpy, fourierPixelArea]
  push_cast
  push_cast at h1 h2
  field_simp

theorem Ec_pad {n p k a : ℕ} (h0 : n + 2 * p ≠ 0) {ps sc : ℝ} (hps : ps ≠ 0) (hsc : sc ≠ 0) :
    Ec (n + 2 * p) k (a + p) =
      cexp ((2 * Real.pi * I) * (((((k : ℝ) - ((n + 2 * p) / 2 : ℕ)) * (sc / ((n + 2 * p : ℕ) * ps))) *
        ((a : ℝ) - (n / 2 : ℕ)) * ps / sc : ℝ) : ℂ)) := by
  unfold Ec
  congr 2
  rw [half_pad]
  have h1 : ((n + 2 * p : ℕ) : ℂ) ≠ 0 := by exact_mod_cast h0
  have h2 : (ps : ℂ) ≠ 0 := by exact_mod_cast hps
  have h3 : (sc : ℂ) ≠ 0 := by exact_mod_cast hsc
  generalize n / 2 = c
  push_cast
  push_cast at h1
  field_simp
  ring

/-- The image plane field of a propagation, as a function of the coordinates of the padded grid. -/
theorem propagated_image_fieldAt {s : Sim} {px py : ℕ} {h : Profile.Heap} {a : ProfArg}
    {u m : ℕ → ℕ → ℂ} (r : Ready s px py h a u m) {g : Tensor ℝ × Tensor ℝ}
    (hg : s.imagePaddedGrid = .ok g) {k l : ℕ}
    (hk : k < s.dev.slm.Ny + 2 * py) (hl : l < s.dev.slm.Nx + 2 * px) :
    centredIdft (s.dev.slm.Ny + 2 * py) (s.dev.slm.Nx + 2 * px)
      (pad2 s.dev.slm.Ny s.dev.slm.Nx py px fun i j => u i j * m i j) k l * (s.gain : ℂ) =
    fieldAt s.dev.slm (fun i j => u i j * m i j) (g.1.get k l) (g.2.get k l) := by
  rw [propagated_image_get u m r.hpx r.hpy hk hl]
  rw [imagePaddedGrid_nat r.hpx r.hpy] at hg
  unfold imageGridOf at hg
  split_ifs at hg
  obtain rfl := Except.ok.inj hg
  unfold fieldAt
  congr 1
  refine Finset.sum_congr rfl fun i _ => Finset.sum_congr rfl fun j _ => ?_
  congr 1
  rw [Nx_eq r.hpx, Ny_eq r.hpy]
  simp only
  rw [imageX_eq hl, imageY_eq hk]
  have hsc : s.dev.slm.scaling ≠ 0 := r.hsc
  rw [Ec_pad (by omega) r.hps hsc, Ec_pad (by omega) r.hps hsc, ← Complex.exp_add]
  congr 1
  push_cast
  ring

end Sim

end PySLM2

noncomputable section

open Complex Finset

namespace PySLM2

open Lib

namespace Sim

/-- The centred field and the Fraunhofer sum differ by a phase that is trivial for even sizes. -/
theorem fieldAt_eq_fraunhofer (s : SLM) (U : ℕ → ℕ → ℂ) (x y : ℝ) :
    fieldAt s U x y = fraunhofer s U x y *
      cexp (((2 * Real.pi * ((x * ((s.Nx : ℝ) / 2 - (s.Nx / 2 : ℕ)) +
        y * ((s.Ny / 2 : ℕ) - (s.Ny : ℝ) / 2)) * s.ps / s.scaling) : ℝ) : ℂ) * I) := by
  unfold fieldAt fraunhofer
  rw [mul_assoc (((s.ps ^ 2 / (s.wavelength * s.focal) : ℝ) : ℂ))]
  refine congrArg₂ _ rfl ?_
  rw [Finset.sum_mul]
  refine Finset.sum_congr rfl fun i _ => ?_
  rw [Finset.sum_mul]
  refine Finset.sum_congr rfl fun j _ => ?_
  rw [mul_assoc (U i j), ← Complex.exp_add]
  congr 2
  simp only [SLM.fourierGrid, fourierX_eq, fourierY_eq, SLM.scaling]
  generalize s.Nx / 2 = a
  generalize s.Ny / 2 = b
  push_cast
  ring

theorem fieldAt_even (s : SLM) (U : ℕ → ℕ → ℂ) (x y : ℝ) (hx : Even s.Nx) (hy : Even s.Ny) :
    fieldAt s U x y = fraunhofer s U x y := by
  rw [fieldAt_eq_fraunhofer]
  have h : ∀ n : ℕ, Even n → ((n / 2 : ℕ) : ℝ) = (n : ℝ) / 2 := by
    rintro n ⟨k, rfl⟩
    rw [show (k + k) / 2 = k by omega]; push_cast; ring
  rw [h _ hx, h _ hy]
  simp

theorem norm_fieldAt (s : SLM) (U : ℕ → ℕ → ℂ) (x y : ℝ) :
    ‖fieldAt s U x y‖ = ‖fraunhofer s U x y‖ := by
  rw [fieldAt_eq_fraunhofer, norm_mul, Complex.norm_exp_ofReal_mul_I, mul_one]

theorem imagePaddedGrid_ok {s : Sim} {px py : ℕ} {h : Profile.Heap} {a : ProfArg}
    {u m : ℕ → ℕ → ℂ} (r : Ready s px py h a u m) : ∃ g, s.imagePaddedGrid = .ok g := by
  rw [imagePaddedGrid_nat r.hpx r.hpy]
  unfold imageGridOf
  rw [Nx_eq r.hpx, Ny_eq r.hpy, if_neg]
  · exact ⟨_, rfl⟩
  · have := r.hNx
    have := r.hNy
    have h1 : ((s.dev.slm.Nx + 2 * px : ℕ) : ℝ) ≠ 0 := by exact_mod_cast (by omega)
    have h2 : ((s.dev.slm.Ny + 2 * py : ℕ) : ℝ) ≠ 0 := by exact_mod_cast (by omega)
    simp only [mul_eq_zero, not_or]
    exact ⟨⟨h1, r.hps⟩, ⟨h2, r.hps⟩⟩

/-- Sum of intensities of a padded array. -/
theorem sum_norm_pad2 (M N py px : ℕ) (f : ℕ → ℕ → ℂ) :
    ∑ i ∈ range (M + 2 * py), ∑ j ∈ range (N + 2 * px), ‖pad2 M N py px f i j‖ ^ 2 =
      ∑ i ∈ range M, ∑ j ∈ range N, ‖f i j‖ ^ 2 :=
  sum_pad2 M N py px f (fun z _ _ => ‖z‖ ^ 2) (by simp)

/-- Parseval for the centred transform. -/
theorem centredIdft_parseval (M N : ℕ) (f : ℕ → ℕ → ℂ) :
    (M * N : ℝ) * ∑ k ∈ range M, ∑ l ∈ range N, ‖centredIdft M N f k l‖ ^ 2 =
      ∑ a ∈ range M, ∑ b ∈ range N, ‖f a b‖ ^ 2 := by
  unfold centredIdft fftshift2
  rw [← sum_ifftshift M (fun _ a => ∑ l ∈ range N,
    ‖idft2 M N (ifftshift2 M N f) a (fftshiftIdx N l)‖ ^ 2)]
  have h1 : ∀ a, ∑ l ∈ range N, ‖idft2 M N (ifftshift2 M N f) a (fftshiftIdx N l)‖ ^ 2 =
      ∑ b ∈ range N, ‖idft2 M N (ifftshift2 M N f) a b‖ ^ 2 := fun a =>
    (sum_ifftshift N (fun _ b => ‖idft2 M N (ifftshift2 M N f) a b‖ ^ 2)).symm
  simp only [h1]
  rw [idft2_parseval]
  unfold ifftshift2
  rw [sum_ifftshift M (fun i _ => ∑ b ∈ range N, ‖f i (ifftshiftIdx N b)‖ ^ 2)]
  refine Finset.sum_congr rfl fun i _ => ?_
  exact sum_ifftshift N (fun j _ => ‖f i j‖ ^ 2)

/-- The powers after a propagation. -/
theorem propagated_powers {s : Sim} {px py : ℕ} {h : Profile.Heap} {a : ProfArg}
    {u m : ℕ → ℕ → ℂ} (r : Ready s px py h a u m) :
    (s.propagated px py u m).inputPower = .ok (slmPower s.dev.slm u) ∧
    (s.propagated px py u m).outputPower = .ok (slmPower s.dev.slm fun i j => u i j * m i j) ∧
    (s.propagated px py u m).imagePower = .ok (slmPower s.dev.slm fun i j => u i j * m i j) := by
  refine ⟨?_, ?_, ?_⟩
  · simp only [inputPower, propagated, intensity, Option.map, sumTensor, Tensor.map, fourierPixelArea,
      intensityPixel_eq, slmPower]
    rw [sum_norm_pad2]
  · simp only [outputPower, propagated, intensity, Option.map, sumTensor, Tensor.map, fourierPixelArea,
      intensityPixel_eq, slmPower]
    rw [sum_norm_pad2]
  · have hNx := r.hNx
    have hNy := r.hNy
    have hps := r.hps
    have hsc : s.dev.slm.scaling ≠ 0 := r.hsc
    have h1 : ((s.dev.slm.Nx + 2 * px : ℕ) : ℝ) ≠ 0 := by exact_mod_cast (by omega)
    have h2 : ((s.dev.slm.Ny + 2 * py : ℕ) : ℝ) ≠ 0 := by exact_mod_cast (by omega)
    have harea : (s.propagated px py u m).imagePixelArea =
        .ok (s.dev.slm.scaling ^ 2 / ((s.dev.slm.Nx + 2 * px) * (s.dev.slm.Ny + 2 * py) : ℕ) /
          s.dev.slm.ps ^ 2) := by
      rw [imagePixelArea_nat (s := s.propagated px py u m) r.hpx r.hpy]
      rw [Nx_eq (s := s.propagated px py u m) r.hpx, Ny_eq (s := s.propagated px py u m) r.hpy,
        propagated_dev, if_neg]
      push Not
      refine ⟨?_, pow_ne_zero 2 hps⟩
      have : 0 < (s.dev.slm.Nx + 2 * px) * (s.dev.slm.Ny + 2 * py) :=
        Nat.mul_pos (by omega) (by omega)
      omega
    unfold imagePower
    rw [harea]
    have hn : ∀ z w : ℂ, ‖z * w‖ ^ 2 = ‖z‖ ^ 2 * ‖w‖ ^ 2 := fun z w => by rw [norm_mul, mul_pow]
    simp only [propagated, intensity, Option.map, sumTensor, Tensor.map, intensityPixel_eq, slmPower,
      hn _ (s.gain : ℂ), ← Finset.sum_mul]
    rw [← sum_norm_pad2 s.dev.slm.Ny s.dev.slm.Nx py px (fun i j => u i j * m i j),
      ← centredIdft_parseval (s.dev.slm.Ny + 2 * py) (s.dev.slm.Nx + 2 * px)
        (pad2 s.dev.slm.Ny s.dev.slm.Nx py px fun i j => u i j * m i j)]
    congr 1
    have hg : ‖(s.gain : ℂ)‖ ^ 2 = s.gain ^ 2 := by
      rw [Complex.norm_real, Real.norm_eq_abs, sq_abs]
    rw [hg, gain, Nx_eq r.hpx, Ny_eq r.hpy, fourierPixelArea]
    rw [Nat.cast_mul]
    field_simp

theorem Modulation.unique {d : Device} {m m' : ℕ → ℕ → ℂ} (h : Modulation d m) (h' : Modulation d m') :
    ∀ i < d.slm.Ny, ∀ j < d.slm.Nx, m i j = m' i j := by
  obtain ⟨t, ht, -, hm⟩ := h
  obtain ⟨t', ht', -, hm'⟩ := h'
  obtain rfl := Except.ok.inj (ht.symm.trans ht')
  intro i hi j hj
  rw [← hm i hi j hj, hm' i hi j hj]

theorem slmPower_congr {s : SLM} {U V : ℕ → ℕ → ℂ}
    (h : ∀ i < s.Ny, ∀ j < s.Nx, ‖U i j‖ = ‖V i j‖) : slmPower s U = slmPower s V := by
  unfold slmPower
  congr 1
  exact Finset.sum_congr rfl fun i hi => Finset.sum_congr rfl fun j hj => by
    rw [h i (mem_range.mp hi) j (mem_range.mp hj)]

theorem slmPower_le {s : SLM} {U V : ℕ → ℕ → ℂ}
    (h : ∀ i < s.Ny, ∀ j < s.Nx, ‖U i j‖ ≤ ‖V i j‖) : slmPower s U ≤ slmPower s V := by
  unfold slmPower
  refine mul_le_mul_of_nonneg_right ?_ (sq_nonneg _)
  exact Finset.sum_le_sum fun i hi => Finset.sum_le_sum fun j hj =>
    pow_le_pow_left₀ (norm_nonneg _) (h i (mem_range.mp hi) j (mem_range.mp hj)) 2

theorem centredIdft_lin (M N : ℕ) (α β : ℂ) (f g : ℕ → ℕ → ℂ) (k l : ℕ) :
    centredIdft M N (fun i j => α * f i j + β * g i j) k l =
      α * centredIdft M N f k l + β * centredIdft M N g k l := by
  unfold centredIdft fftshift2
  have : ifftshift2 M N (fun i j => α * f i j + β * g i j) =
      fun i j => α * ifftshift2 M N f i j + β * ifftshift2 M N g i j := rfl
  rw [this, idft2_add, idft2_smul, idft2_smul]

theorem pad2_lin (M N py px : ℕ) (α β : ℂ) (f g : ℕ → ℕ → ℂ) :
    pad2 M N py px (fun i j => α * f i j + β * g i j) =
      fun i j => α * pad2 M N py px f i j + β * pad2 M N py px g i j := by
  funext i j
  unfold pad2
  split_ifs <;> simp

end Sim

end PySLM2
