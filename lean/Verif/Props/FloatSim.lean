import Verif.Lemmas.Float
import Verif.Lemmas.FloatSim
import Verif.Props.Propagation
import Verif.Props.RandomImage

/-!
# C137: what rounding does to the simulation
-/

noncomputable section

open Complex Finset

namespace PySLM2.Sim

open Lib Spec

variable {s : Sim} {px py : ℕ} {h : Profile.Heap} {a : ProfArg} {f m : ℕ → ℕ → ℂ} {u τ : ℝ} {k : ℕ} {F : SimArith}

theorem Ready.pos (r : Ready s px py h a f m) : 0 < s.Ny ∧ 0 < s.Nx := by
  have h1 := r.hNx
  have h2 := r.hNy
  rw [Nx_eq r.hpx, Ny_eq r.hpy]
  omega

theorem Ready.padding (r : Ready s px py h a f m) : s.py.toNat = py ∧ s.px.toNat = px := by
  rw [r.hpx, r.hpy]
  simp

/-- **C137.** In arithmetic of precision `u` and with an inverse FFT of accuracy `τ`, the image computed by `propagate_to_image` is the
exact one up to a relative error of `exp (τ + 13 u) - 1` in the root of the sum of squares. -/
theorem C137_field (r : Ready s px py h a f m) (hF : SimPrecise u τ k s.Ny s.Nx F) (hu : u ≤ 1 / 100) (hτ : 0 ≤ τ) :
    ∃ img, (s.propagate h a).1.imageField = some img ∧
      ∑ i ∈ range s.Ny, ∑ j ∈ range s.Nx, ‖s.imageFieldR F f m i j - img.get i j‖ ^ 2 ≤
        (Real.exp (τ + 13 * u) - 1) ^ 2 * ∑ i ∈ range s.Ny, ∑ j ∈ range s.Nx, ‖img.get i j‖ ^ 2 := by
  have hu0 := hF.rnd.nonneg
  have := imageFieldR_near hF hu hτ r.pos.1 r.pos.2 f m
  rw [vec_near_iff (by linarith), r.padding.1, r.padding.2] at this
  refine ⟨_, by rw [propagate_ready r]; rfl, ?_⟩
  simp only
  rw [← Nx_eq r.hpx, ← Ny_eq r.hpy]
  exact this

/-- **C137.** The three reported powers are the exact ones up to the stated relative errors, in whatever order `np.sum` adds. -/
theorem C137_power (r : Ready s px py h a f m) (hF : SimPrecise u τ k s.Ny s.Nx F) (hu : u ≤ 1 / 100) (hτ : 0 ≤ τ) :
    ∃ Pin P, (s.propagate h a).1.inputPower = .ok Pin ∧ (s.propagate h a).1.outputPower = .ok P ∧
      (s.propagate h a).1.imagePower = .ok P ∧
      |s.inputPowerR F f - Pin| ≤ (Real.exp ((k + 5) * u) - 1) * Pin ∧
      |s.outputPowerR F f m - P| ≤ (Real.exp ((k + 11) * u) - 1) * P ∧
      |s.imagePowerR F f m - P| ≤ (Real.exp (2 * τ + (k + 39) * u) - 1) * P := by
  have hu0 := hF.rnd.nonneg
  have hP0 : ∀ v : ℕ → ℕ → ℂ, 0 ≤ slmPower s.dev.slm v := fun v =>
    mul_nonneg (sum_nonneg fun i _ => sum_nonneg fun j _ => sq_nonneg _) (sq_nonneg _)
  have hpad : ∀ v : ℕ → ℕ → ℂ, (∑ i ∈ range s.Ny, ∑ j ∈ range s.Nx,
      ‖pad2 s.dev.slm.Ny s.dev.slm.Nx s.py.toNat s.px.toNat v i j‖ ^ 2) * s.fourierPixelArea = slmPower s.dev.slm v := by
    intro v
    rw [r.padding.1, r.padding.2, Nx_eq r.hpx, Ny_eq r.hpy, sum_norm_pad2]
    rfl
  have fin : ∀ {c P P' : ℝ}, 0 ≤ P → Near c P P' → |P' - P| ≤ (Real.exp c - 1) * P := fun hP hn => by
    unfold Near at hn
    rwa [Real.norm_eq_abs, Real.norm_of_nonneg hP] at hn
  refine ⟨slmPower s.dev.slm f, slmPower s.dev.slm fun i j => f i j * m i j, ?_, ?_, ?_, ?_, ?_, ?_⟩
  · rw [propagate_ready r]; exact (propagated_powers r).1
  · rw [propagate_ready r]; exact (propagated_powers r).2.1
  · rw [propagate_ready r]; exact (propagated_powers r).2.2
  · have := powerR_near hF hu le_rfl hu0 (Near.refl (le_refl 0) (vec s.Ny s.Nx (s.inputFieldR f)))
      (fourierPixelAreaR_near hF.py s)
    unfold inputFieldR at this
    rw [hpad] at this
    exact fin (hP0 _) (this.mono (le_of_eq (by ring)))
  · have := powerR_near hF hu (by linarith : 0 ≤ 3 * u) hu0
      (vec_near (by linarith : 0 ≤ 3 * u) fun i _ j _ => outputFieldR_near hF.rnd hu s f m i j)
      (fourierPixelAreaR_near hF.py s)
    rw [hpad] at this
    exact fin (hP0 _) (this.mono (le_of_eq (by ring)))
  · have := powerR_near hF hu (by linarith : 0 ≤ τ + 13 * u) (by linarith : 0 ≤ 9 * u)
      (imageFieldR_near hF hu hτ r.pos.1 r.pos.2 f m) (imagePixelAreaR_near hF.py hu s)
    have e : (∑ i ∈ range s.Ny, ∑ j ∈ range s.Nx, ‖centredIdft s.Ny s.Nx
        (pad2 s.dev.slm.Ny s.dev.slm.Nx s.py.toNat s.px.toNat fun i j => f i j * m i j) i j * (s.gain : ℂ)‖ ^ 2) *
        (s.dev.slm.scaling ^ 2 / (s.Nx * s.Ny : ℕ) / s.dev.slm.ps ^ 2) = slmPower s.dev.slm fun i j => f i j * m i j := by
      have hps := r.hps
      have hsc : s.dev.slm.scaling ≠ 0 := r.hsc
      have h1 : (s.Nx : ℝ) ≠ 0 := by exact_mod_cast r.pos.2.ne'
      have h2 : (s.Ny : ℝ) ≠ 0 := by exact_mod_cast r.pos.1.ne'
      rw [← hpad, ← centredIdft_parseval s.Ny s.Nx
        (pad2 s.dev.slm.Ny s.dev.slm.Nx s.py.toNat s.px.toNat fun i j => f i j * m i j)]
      simp only [norm_mul, mul_pow, ← sum_mul]
      rw [norm_real, Real.norm_eq_abs, sq_abs, gain, fourierPixelArea, Nat.cast_mul]
      generalize s.dev.slm.scaling = w at hsc ⊢
      field_simp
    rw [e] at this
    exact fin (hP0 _) (this.mono (le_of_eq (by ring)))

/-- Two numbers near the same one agree to a relative error of `1e-6`. -/
theorem agree {P x y c : ℝ} (hP : 0 ≤ P) (hc : 0 ≤ c) (hc' : c ≤ 2 / 10 ^ 7) (hx : |x - P| ≤ (Real.exp c - 1) * P)
    (hy : |y - P| ≤ (Real.exp c - 1) * P) : |x - y| ≤ 1 / 10 ^ 6 * |y| := by
  have he : Real.exp c - 1 ≤ 4 / 10 ^ 7 := by
    have := Real.abs_exp_sub_one_le (x := c) (by rw [abs_of_nonneg hc]; linarith)
    rw [abs_of_nonneg hc] at this
    have := le_abs_self (Real.exp c - 1)
    linarith
  have h1 : |x - P| ≤ 4 / 10 ^ 7 * P := hx.trans (mul_le_mul_of_nonneg_right he hP)
  have h2 : |y - P| ≤ 4 / 10 ^ 7 * P := hy.trans (mul_le_mul_of_nonneg_right he hP)
  have h3 : P - 4 / 10 ^ 7 * P ≤ |y| := by
    have := neg_le_of_abs_le h2
    have := le_abs_self y
    linarith
  have h4 : |x - y| ≤ |x - P| + |y - P| := by
    rw [show x - y = (x - P) - (y - P) by ring]
    exact abs_sub _ _
  linarith

/-- **C137.** In double precision, with an inverse FFT accurate to `1e-8` and no more than `10 ^ 9` additions in a row: energy conservation
holds to the relative tolerance `1e-6` of `pytest.approx`, whatever the input field and the state of the SLM; and if the SLM only changes
the phase, the input power agrees as well. -/
theorem C137_double (r : Ready s px py h a f m) (hF : SimPrecise u τ k s.Ny s.Nx F) (hu : u ≤ 1 / 2 ^ 53) (hτ : 0 ≤ τ)
    (hτ' : τ ≤ 1 / 10 ^ 8) (hk : k ≤ 10 ^ 9) :
    |s.outputPowerR F f m - s.imagePowerR F f m| ≤ 1 / 10 ^ 6 * |s.imagePowerR F f m| ∧
    ((∀ i < s.dev.slm.Ny, ∀ j < s.dev.slm.Nx, ‖m i j‖ = 1) →
      |s.inputPowerR F f - s.outputPowerR F f m| ≤ 1 / 10 ^ 6 * |s.outputPowerR F f m| ∧
      |s.inputPowerR F f - s.imagePowerR F f m| ≤ 1 / 10 ^ 6 * |s.imagePowerR F f m|) := by
  have hu0 := hF.rnd.nonneg
  have hu' : u ≤ 12 / 10 ^ 17 := hu.trans (by norm_num)
  obtain ⟨Pin, P, h1, h2, h3, h4, h5, h6⟩ := C137_power r hF (hu'.trans (by norm_num)) hτ
  rw [propagate_ready r] at h1 h2
  rw [(propagated_powers r).1] at h1
  rw [(propagated_powers r).2.1] at h2
  obtain rfl := Except.ok.inj h1
  obtain rfl := Except.ok.inj h2
  have hP0 : ∀ v : ℕ → ℕ → ℂ, 0 ≤ slmPower s.dev.slm v := fun v =>
    mul_nonneg (sum_nonneg fun i _ => sum_nonneg fun j _ => sq_nonneg _) (sq_nonneg _)
  have hk' : (k : ℝ) ≤ 10 ^ 9 := by exact_mod_cast hk
  have hk0 : (0 : ℝ) ≤ k := Nat.cast_nonneg k
  set c := 2 * τ + (k + 39) * u with hc
  have hc0 : 0 ≤ c := by positivity
  have hc1 : c ≤ 2 / 10 ^ 7 := by
    have : ((k : ℝ) + 39) * u ≤ (10 ^ 9 + 39) * (12 / 10 ^ 17) :=
      mul_le_mul (by linarith) hu' hu0 (by positivity)
    rw [hc]
    norm_num at this hτ' ⊢
    linarith
  have up : ∀ {d x Q : ℝ}, 0 ≤ Q → d ≤ c → |x - Q| ≤ (Real.exp d - 1) * Q → |x - Q| ≤ (Real.exp c - 1) * Q :=
    fun hQ hd hx => hx.trans (mul_le_mul_of_nonneg_right (sub_le_sub_right (Real.exp_le_exp.mpr hd) 1) hQ)
  have h4' := up (hP0 _) (by rw [hc]; nlinarith) h4
  have h5' := up (hP0 _) (by rw [hc]; nlinarith) h5
  refine ⟨agree (hP0 _) hc0 hc1 h5' h6, fun hm => ?_⟩
  have e : (slmPower s.dev.slm fun i j => f i j * m i j) = slmPower s.dev.slm f := by
    unfold slmPower
    congr 1
    refine sum_congr rfl fun i hi => sum_congr rfl fun j hj => ?_
    rw [norm_mul, hm i (mem_range.mp hi) j (mem_range.mp hj), mul_one]
  rw [e] at h5' h6
  exact ⟨agree (hP0 _) hc0 hc1 h4' h5', agree (hP0 _) hc0 hc1 h4' h6⟩

/-- **C137.** In double precision the paddings change the reported input, output and image powers by at most `1e-6`. -/
theorem C137_padding {s' : Sim} {px' py' : ℕ} {h' : Profile.Heap} {a' : ProfArg} {F' : SimArith} (r : Ready s px py h a f m)
    (r' : Ready s' px' py' h' a' f m) (hdev : s'.dev.slm = s.dev.slm) (hF : SimPrecise u τ k s.Ny s.Nx F)
    (hF' : SimPrecise u τ k s'.Ny s'.Nx F') (hu : u ≤ 1 / 2 ^ 53) (hτ : 0 ≤ τ) (hτ' : τ ≤ 1 / 10 ^ 8) (hk : k ≤ 10 ^ 9) :
    |s.inputPowerR F f - s'.inputPowerR F' f| ≤ 1 / 10 ^ 6 * |s'.inputPowerR F' f| ∧
    |s.outputPowerR F f m - s'.outputPowerR F' f m| ≤ 1 / 10 ^ 6 * |s'.outputPowerR F' f m| ∧
    |s.imagePowerR F f m - s'.imagePowerR F' f m| ≤ 1 / 10 ^ 6 * |s'.imagePowerR F' f m| := by
  have hu0 := hF.rnd.nonneg
  have hu' : u ≤ 12 / 10 ^ 17 := hu.trans (by norm_num)
  obtain ⟨Pin, P, h1, h2, h3, h4, h5, h6⟩ := C137_power r hF (hu'.trans (by norm_num)) hτ
  obtain ⟨Pin', P', g1, g2, g3, g4, g5, g6⟩ := C137_power r' hF' (hu'.trans (by norm_num)) hτ
  obtain ⟨e0, e1, e2, -⟩ := C13_padding_power r r' hdev
  rw [h1, g1] at e1
  rw [h2, g2] at e2
  rw [h1] at e0
  obtain rfl := Except.ok.inj e1
  obtain rfl := Except.ok.inj e2
  obtain rfl := Except.ok.inj e0
  rw [propagate_ready r] at h2
  rw [(propagated_powers r).2.1] at h2
  obtain rfl := Except.ok.inj h2
  have hP0 : ∀ v : ℕ → ℕ → ℂ, 0 ≤ slmPower s.dev.slm v := fun v =>
    mul_nonneg (sum_nonneg fun i _ => sum_nonneg fun j _ => sq_nonneg _) (sq_nonneg _)
  have hk' : (k : ℝ) ≤ 10 ^ 9 := by exact_mod_cast hk
  have hk0 : (0 : ℝ) ≤ k := Nat.cast_nonneg k
  set c := 2 * τ + (k + 39) * u with hc
  have hc0 : 0 ≤ c := by positivity
  have hc1 : c ≤ 2 / 10 ^ 7 := by
    have : ((k : ℝ) + 39) * u ≤ (10 ^ 9 + 39) * (12 / 10 ^ 17) :=
      mul_le_mul (by linarith) hu' hu0 (by positivity)
    rw [hc]
    norm_num at this hτ' ⊢
    linarith
  have up : ∀ {d x Q : ℝ}, 0 ≤ Q → d ≤ c → |x - Q| ≤ (Real.exp d - 1) * Q → |x - Q| ≤ (Real.exp c - 1) * Q :=
    fun hQ hd hx => hx.trans (mul_le_mul_of_nonneg_right (sub_le_sub_right (Real.exp_le_exp.mpr hd) 1) hQ)
  have i5 : ((k : ℝ) + 5) * u ≤ c := by rw [hc]; nlinarith
  have i11 : ((k : ℝ) + 11) * u ≤ c := by rw [hc]; nlinarith
  exact ⟨agree (hP0 _) hc0 hc1 (up (hP0 _) i5 h4) (up (hP0 _) i5 g4), agree (hP0 _) hc0 hc1 (up (hP0 _) i11 h5) (up (hP0 _) i11 g5),
    agree (hP0 _) hc0 hc1 h6 g6⟩

/-! ## Blocking the zeroth order -/

theorem fftfreqR_near (hp : RelErr u F.py) (hu : u ≤ 1 / 100) (n : ℕ) (d : ℝ) (i : ℕ) :
    Near (4 * u) (fftfreq n d i) (fftfreqR F n d i) := by
  have hu0 := hp.nonneg
  have hv := hp.near' ((Near.refl (le_refl 0) (1 : ℝ)).div (hp.near (n * d)) le_rfl hu0 (by linarith))
  have hz : ∀ z : ℝ, Near (4 * u) (z / (n * d)) (F.py (z * F.py (1 / F.py (n * d)))) := by
    intro z
    have := hp.near' ((Near.refl (le_refl 0) z).mul hv le_rfl (by linarith))
    rw [mul_one_div] at this
    exact this.mono (by linarith)
  unfold fftfreq fftfreqR
  simp only
  split_ifs
  · exact hz _
  · exact hz _

theorem _root_.PySLM2.Near.neg {c x y : ℝ} (hn : Near c x y) : Near c (-x) (-y) := by
  unfold Near at hn ⊢
  rwa [norm_neg, ← neg_add', norm_neg, ← sub_eq_add_neg]

theorem imageXR_near (hr : RelErr u F.rnd) (hp : RelErr u F.py) (hu : u ≤ 1 / 100) (s : Sim) (i j : ℕ) :
    Near (8 * u) (imageX s.Nx s.dev.slm.ps s.dev.slm.scaling i j) (s.imageXR F j) := by
  have hu0 := hp.nonneg
  have := hr.near' ((hr.near' (fftfreqR_near hp hu s.Nx s.dev.slm.ps (fftshiftIdx s.Nx j))).mul
    (hr.near' (scalingR_near hp s)) (by linarith) (by linarith))
  exact this.mono (by linarith)

theorem imageYR_near (hr : RelErr u F.rnd) (hp : RelErr u F.py) (hu : u ≤ 1 / 100) (s : Sim) (i j : ℕ) :
    Near (8 * u) (imageY s.Ny s.dev.slm.ps s.dev.slm.scaling i j) (s.imageYR F i) := by
  have hu0 := hp.nonneg
  have := hr.near' ((hr.near' (fftfreqR_near hp hu s.Ny s.dev.slm.ps (fftshiftIdx s.Ny i)).neg).mul
    (hr.near' (scalingR_near hp s)) (by linarith) (by linarith))
  exact this.mono (by linarith)

/-- **C137.** The computed coordinates of the padded image plane grid are the exact ones up to a relative error of `exp (8 u) - 1`. -/
theorem C137_grid {g : Tensor ℝ × Tensor ℝ} (hg : s.imagePaddedGrid = .ok g) (hr : RelErr u F.rnd) (hp : RelErr u F.py)
    (hu : u ≤ 1 / 100) (i j : ℕ) :
    |s.imageXR F j - g.1.get i j| ≤ (Real.exp (8 * u) - 1) * |g.1.get i j| ∧
    |s.imageYR F i - g.2.get i j| ≤ (Real.exp (8 * u) - 1) * |g.2.get i j| := by
  replace hg := (imagePaddedGrid_inv hg).2.2
  unfold imageGridOf at hg
  split_ifs at hg
  obtain rfl := Except.ok.inj hg
  exact ⟨imageXR_near hr hp hu s i j, imageYR_near hr hp hu s i j⟩

theorem blockRadiusSqR_near (hr : RelErr u F.rnd) (hp : RelErr u F.py) (hu : u ≤ 1 / 100) (s : Sim) (p : ℝ) (r : Option ℝ) :
    Near (9 * u) ((r.getD (s.dev.slm.wavelength * s.dev.slm.focal / p / 2)) ^ 2) (s.blockRadiusSqR F p r) := by
  have hu0 := hp.nonneg
  cases r with
  | some r =>
    simp only [Option.getD_some, blockRadiusSqR]
    rw [sq]
    exact (hr.near' (hp.near (r * r))).mono (by linarith)
  | none =>
    simp only [Option.getD_none, blockRadiusSqR]
    have h1 := hr.near' ((hr.near' (scalingR_near hp s)).div (Near.refl (le_refl 0) p) (by linarith) le_rfl (by norm_num))
    have h2 := hr.near' (h1.div (Near.refl (le_refl 0) (2 : ℝ)) (by linarith) le_rfl (by norm_num))
    have h3 := hr.near' (h2.mul h2 (by linarith) (by linarith))
    rw [← sq] at h3
    exact h3.mono (by linarith)

/-- **C137.** `block_zeroth_order` in the arithmetic `F`: with the radius `r`, or by default half the distance of the first order, only pixels
whose squared distance from the axis is within a factor `exp (45 u)` of the squared radius can end up on the wrong side. -/
theorem C137_block {g : Tensor ℝ × Tensor ℝ} (hg : s.imagePaddedGrid = .ok g) (hr : RelErr u F.rnd) (hp : RelErr u F.py)
    (hu : u ≤ 1 / 100) (p : ℝ) (r : Option ℝ) (i j : ℕ) :
    (s.blockedR F p r i j → g.1.get i j ^ 2 + g.2.get i j ^ 2 <
      Real.exp (45 * u) * (r.getD (s.dev.slm.wavelength * s.dev.slm.focal / p / 2)) ^ 2) ∧
    (¬ s.blockedR F p r i j → Real.exp (-(45 * u)) * (r.getD (s.dev.slm.wavelength * s.dev.slm.focal / p / 2)) ^ 2 ≤
      g.1.get i j ^ 2 + g.2.get i j ^ 2) := by
  have hu0 := hp.nonneg
  have hx := imageXR_near hr hp hu s i j
  have hy := imageYR_near hr hp hu s i j
  have hR := blockRadiusSqR_near hr hp hu s p r
  replace hg := (imagePaddedGrid_inv hg).2.2
  unfold imageGridOf at hg
  split_ifs at hg
  obtain rfl := Except.ok.inj hg
  simp only
  set x := imageX s.Nx s.dev.slm.ps s.dev.slm.scaling i j
  set y := imageY s.Ny s.dev.slm.ps s.dev.slm.scaling i j
  set R := (r.getD (s.dev.slm.wavelength * s.dev.slm.focal / p / 2)) ^ 2 with hRdef
  have hR0 : 0 ≤ R := sq_nonneg _
  have hA := hr.near' (near_add (hr.near' (hx.mul hx (by linarith) (by linarith))) (hr.near' (hy.mul hy (by linarith) (by linarith)))
    (mul_self_nonneg _) (mul_self_nonneg _))
  rw [← sq, ← sq] at hA
  have hA0 : 0 ≤ x ^ 2 + y ^ 2 := by positivity
  unfold blockedR
  set A' := F.rnd (F.rnd (s.imageXR F j * s.imageXR F j) + F.rnd (s.imageYR F i * s.imageYR F i)) with hA'
  have hA'0 : 0 ≤ A' := hr.map_nonneg hu (add_nonneg (hr.map_nonneg hu (mul_self_nonneg _)) (hr.map_nonneg hu (mul_self_nonneg _)))
  set R' := s.blockRadiusSqR F p r with hR'
  have e1 := hA.le_norm (by linarith) (by linarith)
  have e2 := hR.norm_le
  have e3 := hA.norm_le
  have e4 := hR.le_norm (by linarith) (by linarith)
  rw [Real.norm_of_nonneg hA0, Real.norm_of_nonneg hA'0] at e1 e3
  rw [Real.norm_of_nonneg hR0, Real.norm_eq_abs] at e2 e4
  refine ⟨fun hb => ?_, fun hb => ?_⟩
  · have h1 : A' < Real.exp (9 * u) * R := hb.trans_le ((le_abs_self _).trans e2)
    calc x ^ 2 + y ^ 2 ≤ Real.exp (2 * (8 * u + 8 * u + u + u)) * A' := e1
      _ < Real.exp (2 * (8 * u + 8 * u + u + u)) * (Real.exp (9 * u) * R) := mul_lt_mul_of_pos_left h1 (Real.exp_pos _)
      _ = Real.exp (45 * u) * R := by rw [← mul_assoc, ← Real.exp_add]; congr 2; ring
  · have hR'0 : 0 ≤ R' := by
      rw [hR']
      unfold blockRadiusSqR
      cases r with
      | some r => exact hr.map_nonneg hu (hp.map_nonneg hu (mul_self_nonneg _))
      | none => exact hr.map_nonneg hu (mul_self_nonneg _)
    rw [abs_of_nonneg hR'0] at e4
    have h1 : R' ≤ A' := not_lt.mp hb
    have h2 : R ≤ Real.exp (36 * u) * (x ^ 2 + y ^ 2) := by
      calc R ≤ Real.exp (2 * (9 * u)) * R' := e4
        _ ≤ Real.exp (2 * (9 * u)) * (Real.exp (8 * u + 8 * u + u + u) * (x ^ 2 + y ^ 2)) :=
          mul_le_mul_of_nonneg_left (h1.trans e3) (Real.exp_pos _).le
        _ = _ := by rw [← mul_assoc, ← Real.exp_add]; congr 2; ring
    calc Real.exp (-(45 * u)) * R ≤ Real.exp (-(45 * u)) * (Real.exp (36 * u) * (x ^ 2 + y ^ 2)) :=
        mul_le_mul_of_nonneg_left h2 (Real.exp_pos _).le
      _ = Real.exp (-(9 * u)) * (x ^ 2 + y ^ 2) := by rw [← mul_assoc, ← Real.exp_add]; congr 2; ring
      _ ≤ 1 * (x ^ 2 + y ^ 2) := mul_le_mul_of_nonneg_right (Real.exp_le_one_iff.mpr (by linarith)) hA0
      _ = _ := one_mul _

/-! ## The hypotheses can be met -/

theorem exists_order (l : List (ℕ × ℕ)) (hl : l ≠ []) : ∃ t : SumTree, t.leaves = (l : Multiset (ℕ × ℕ)) ∧ t.depth ≤ l.length := by
  induction l with
  | nil => exact absurd rfl hl
  | cons p l ih =>
    by_cases h0 : l = []
    · subst h0
      exact ⟨.leaf p.1 p.2, by simp [SumTree.leaves], by simp [SumTree.depth]⟩
    · obtain ⟨t, h1, h2⟩ := ih h0
      refine ⟨.node (.leaf p.1 p.2) t, ?_, ?_⟩
      · rw [SumTree.leaves, SumTree.leaves, h1, Multiset.singleton_add, Multiset.cons_coe]
      · simp only [SumTree.depth, List.length_cons]
        omega

/-- Double precision (rounding to nearest), an inverse FFT that is off by `1e-8` and sums from left to right satisfy the assumptions on
all arrays of up to `10 ^ 9` pixels. -/
theorem exists_precise {M N : ℕ} (hM : 0 < M) (hN : 0 < N) (hMN : M * N ≤ 10 ^ 9) :
    ∃ F, SimPrecise (1 / 2 ^ 53) (1 / 10 ^ 8) (10 ^ 9) M N F ∧ F.rnd = nearest 53 := by
  have hr : RelErr (1 / 2 ^ 53) (nearest 53) := fun x => by
    have := (nearest_roundsTo (t := 53) (by norm_num)).err x
    rw [div_eq_mul_one_div, mul_comm] at this
    exact this
  have hne : (range M ×ˢ range N).toList ≠ [] := by
    intro hc
    rw [Finset.toList_eq_nil, Finset.product_eq_empty] at hc
    rcases hc with hc | hc <;> rw [range_eq_empty_iff] at hc <;> omega
  obtain ⟨t, h1, h2⟩ := exists_order _ hne
  refine ⟨⟨nearest 53, nearest 53, nearest 53, fun M N f i j => (1 + 1 / 10 ^ 8) * idft2 M N f i j, fun _ _ => t⟩,
    ⟨hr, hr, hr, fun f => ?_, ?_, ?_⟩, rfl⟩
  · rw [mul_sum]
    refine sum_le_sum fun i _ => ?_
    rw [mul_sum]
    refine sum_le_sum fun j _ => le_of_eq ?_
    rw [show (1 + 1 / 10 ^ 8) * idft2 M N f i j - idft2 M N f i j = ((1 / 10 ^ 8 : ℝ) : ℂ) * idft2 M N f i j by push_cast; ring,
      norm_mul, mul_pow, norm_real, Real.norm_of_nonneg (by positivity)]
  · simp only [h1, Finset.coe_toList]
  · refine h2.trans ?_
    rw [Finset.length_toList, card_product, card_range, card_range]
    exact hMN

end PySLM2.Sim

namespace PySLM2.DMD

open Sim Lib Spec

/-- C137: the checkerboard of `exSim` in double precision. -/
example (h : Profile.Heap) : ∃ F u m, Ready exSim 3 1 h exInput u m ∧
    SimPrecise (1 / 2 ^ 53) (1 / 10 ^ 8) (10 ^ 9) exSim.Ny exSim.Nx F ∧ F.rnd = nearest 53 := by
  obtain ⟨F, h1, h2⟩ := exists_precise (exReady h).pos.1 (exReady h).pos.2 (by decide)
  exact ⟨F, _, _, exReady h, h1, h2⟩

end PySLM2.DMD
