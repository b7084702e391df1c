import Verif.Props.IftaWindow

/-!
# C139, C140: the scale `s` of method `ifta`, and `ifta` compared with `simple`
-/

noncomputable section

open Complex Finset

namespace PySLM2.DMD

open Lib
open LCOS (predicted predicted_eq backPropagated backPropagated_eq reflect)

/-- **C139** (proved part): if there are no iterations, or the signal window is 1 everywhere, or 0 everywhere, a larger scale
`s` switches no illuminated mirror off, for non-negative amplitudes.  Missing: other signal windows, for which it is false
(`C139_refuted`). -/
theorem C139_partial {d : DMD} {h : Profile.Heap} {amp phaseIn phaseOut : ProfArg} {A φin φout : ℕ → ℕ → ℝ}
    {kw : Kwargs} {u W : ℕ → ℕ → ℂ} (ga : GratingArgs d h amp phaseIn phaseOut A φin φout)
    (hA : ∀ i < d.slm.Ny, ∀ j < d.slm.Nx, 0 ≤ A i j)
    (hk : IftaKwargs d.slm kw u W) (hNx : 0 < d.slm.Nx) (hNy : 0 < d.slm.Ny) (hp : d.p ≠ 0)
    (hdeg : kw.N.getD 200 = 0 ∨ (∀ i < d.slm.Ny, ∀ j < d.slm.Nx, W i j = 1) ∨
      (∀ i < d.slm.Ny, ∀ j < d.slm.Nx, W i j = 0)) {s s' : ℝ} (hs : s ≤ s') (draw : ℕ → ℕ → ℝ) :
    ∃ t t' : Tensor Bool,
      d.setDmdGratingState h amp phaseIn phaseOut "ifta" { kw with s := some s } draw = ⟨.rebind (.bool t), .ok ()⟩ ∧
      d.setDmdGratingState h amp phaseIn phaseOut "ifta" { kw with s := some s' } draw = ⟨.rebind (.bool t'), .ok ()⟩ ∧
      ∀ i < d.slm.Ny, ∀ j < d.slm.Nx, u i j ≠ 0 → t.get i j = true → t'.get i j = true := by
  obtain ⟨t, tid, h1, h2, -, h4⟩ := C35_degenerate (kw := { kw with s := some s }) (u := u) (W := W) ga ⟨hk.input, hk.window⟩ hNx hNy hp hdeg draw
  obtain ⟨t', tid', h1', h2', -, h4'⟩ := C35_degenerate (kw := { kw with s := some s' }) (u := u) (W := W) ga ⟨hk.input, hk.window⟩ hNx hNy hp hdeg draw
  obtain ⟨ta, ti, tj, g1, g2, g3, g4⟩ := setGrating_of_grating ga
  obtain ⟨⟨tid0, i1, i2, i3⟩, -, -⟩ := grating_elementwise g1 g2 g3 { kw with s := some s } draw
  obtain ⟨⟨tid0', i1', i2', i3'⟩, -, -⟩ := grating_elementwise g1 g2 g3 { kw with s := some s' } draw
  have e : tid0 = tid := by
    rw [g4, i1] at h2
    injection h2 with h2
    injection h2 with h2
    injection h2
  have e' : tid0' = tid' := by
    rw [g4, i1'] at h2'
    injection h2' with h2'
    injection h2' with h2'
    injection h2'
  subst e e'
  refine ⟨t, t', h1, h1', fun i hi j hj hu ht => ?_⟩
  obtain ⟨v, hv, hiff⟩ := h4 i hi j hj hu
  obtain ⟨v', hv', hiff'⟩ := h4' i hi j hj hu
  have hval := (i3 i hi j hj).trans (idealPixel_eq d hp A φin φout i j)
  have hval' := (i3' i hi j hj).trans (idealPixel_eq d hp A φin φout i j)
  rw [hv] at hval
  rw [hv'] at hval'
  injection hval with hval
  injection hval' with hval'
  have hnn : 0 ≤ v := by
    rw [hval]
    have := Real.neg_one_le_cos (d.detuning φin φout i j)
    exact mul_nonneg (hA i hi j hj) (by linarith)
  rw [hiff']
  rw [hiff] at ht
  simp only [Option.getD_some] at ht ⊢
  rw [hval', ← hval]
  exact ht.trans_le (mul_le_mul_of_nonneg_right hs hnn)

/-- A DMD with one row of `2 m` mirrors. -/
def exRow (m : ℕ) : DMD := DMD.new ⟨1, 1, 2 * m, 1, 1⟩ 4 0 false

/-- Amplitudes `v` whose ideal grating is `v` itself: the phase of the carrier is requested. -/
def exRowPhase (m : ℕ) : ℕ → ℕ → ℝ := (exRow m).detuning (fun _ _ => 0) (fun _ _ => 0)

/-- Keyword arguments for uniform illumination and a signal window that consists of the outermost pixel of the row. -/
def exRowKw (m N : ℕ) (s : ℝ) : Kwargs :=
  { N := some N, s := some s, inputProfile := some ⟨.mat 1 (2 * m), fun _ _ => 1⟩, signalWindow := some ⟨.mat 1 (2 * m), fun _ l => if l = 0 then 1 else 0⟩ }

theorem exRowKw_ok (m N : ℕ) (s : ℝ) :
    IftaKwargs (exRow m).slm (exRowKw m N s) (fun _ _ => 1) (fun _ l => if l = 0 then 1 else 0) :=
  ⟨⟨_, rfl, Tensor.denotes_of_mat rfl fun _ _ _ _ => rfl⟩, _, rfl, rfl, fun _ _ _ _ => rfl⟩

theorem exRow_ideal (m : ℕ) (v : ℕ → ℕ → ℝ) (i j : ℕ) :
    v i j * (Real.cos ((exRow m).detuning (fun _ _ => 0) (exRowPhase m) i j) / 2 + 1 / 2) = v i j := by
  have : (exRow m).detuning (fun _ _ => 0) (exRowPhase m) i j = 0 := by
    simp [exRowPhase, detuning, exRow, DMD.new]
  rw [this, Real.cos_zero]
  ring

theorem exRow_wave {m : ℕ} (hm : 0 < m) (j : ℕ) :
    cexp (-(2 * Real.pi * I) * ((((0 : ℕ) : ℂ) - ((1 / 2 : ℕ) : ℂ)) * (0 : ℕ) / (1 : ℕ) + (((0 : ℕ) : ℂ) - ((2 * m / 2 : ℕ) : ℂ)) * j / (2 * m : ℕ))) =
      (-1) ^ j := by
  have hm' : (m : ℂ) ≠ 0 := by exact_mod_cast hm.ne'
  rw [show 2 * m / 2 = m by omega, ← exp_pi_mul_I, ← Complex.exp_nat_mul]
  congr 1
  push_cast
  field_simp
  ring

theorem exRow_wave' {m : ℕ} (hm : 0 < m) (j : ℕ) :
    cexp ((2 * Real.pi * I) * ((((0 : ℕ) : ℂ) - ((1 / 2 : ℕ) : ℂ)) * (0 : ℕ) / (1 : ℕ) + (((0 : ℕ) : ℂ) - ((2 * m / 2 : ℕ) : ℂ)) * j / (2 * m : ℕ))) =
      (-1) ^ j := by
  have h := exRow_wave hm j
  have h2 := congrArg (fun z : ℂ => z⁻¹) h
  simp only [← Complex.exp_neg] at h2
  rw [neg_mul, neg_neg] at h2
  rw [h2, ← inv_pow, inv_neg, inv_one]

/-- The outermost pixel of the predicted image of a row. -/
theorem exRow_predicted {m : ℕ} (hm : 0 < m) (x : ℕ → ℕ → ℝ) :
    predicted (exRow m).slm (fun i j => (x i j : ℂ)) 0 0 = ((1 / (2 * m) * ∑ j ∈ range (2 * m), x 0 j * (-1) ^ j : ℝ) : ℂ) := by
  unfold predicted
  show 1 / (((1 : ℕ) : ℂ) * ((2 * m : ℕ) : ℂ)) * ∑ i ∈ range 1, ∑ j ∈ range (2 * m), _ = _
  rw [Finset.sum_range_one]
  push_cast
  rw [one_mul]
  congr 1
  refine Finset.sum_congr rfl fun j _ => ?_
  congr 1
  exact_mod_cast exRow_wave' hm j

theorem exRow_back {m : ℕ} (hm : 0 < m) (F : ℕ → ℕ → ℂ) (j : ℕ) :
    backPropagated (exRow m).slm (fun k l => (if l = 0 then 1 else 0) * F k l) 0 j = F 0 0 * (-1) ^ j := by
  unfold backPropagated
  show ∑ k ∈ range 1, ∑ l ∈ range (2 * m), _ = _
  rw [Finset.sum_range_one, Finset.sum_eq_single 0]
  · simp only
    rw [if_pos trivial, one_mul, ← exRow_wave hm j]
    rfl
  · intro l _ hl
    simp only
    rw [if_neg hl, zero_mul, zero_mul]
  · intro h
    exact absurd (mem_range.mpr (by omega : 0 < 2 * m)) h

/-- One iteration for a row. -/
theorem exRow_step {m : ℕ} (hm : 0 < m) {g₀ g g' : ℕ → ℕ → ℝ} {t : ℝ}
    (hs : IftaStep (exRow m).slm (fun _ _ => 1) (fun _ l => if l = 0 then 1 else 0) g₀ t g g') {j : ℕ} (hj : j < 2 * m) :
    g' 0 j = clip t (g 0 j) + 1 / (2 * m) * (∑ l ∈ range (2 * m), (g₀ 0 l - clip t (g 0 l)) * (-1) ^ l) * (-1) ^ j := by
  rw [hs.value (show 0 < 1 by decide) hj one_ne_zero]
  congr 1
  rw [exRow_back hm, div_one, predicted_congr (V := fun i j => ((g₀ i j - clip t (g i j) : ℝ) : ℂ)) fun i _ j _ => by rw [one_mul],
    exRow_predicted hm]
  rw [show ((-1 : ℂ) ^ j) = (((-1) ^ j : ℝ) : ℂ) by push_cast; rfl, ← ofReal_mul, ofReal_re]

/-- What `ifta` does with a row, as iterations. -/
theorem exRow_ifta {m : ℕ} (hm : 0 < m) (h : Profile.Heap) (v : ℕ → ℕ → ℝ) (N : ℕ) (s : ℝ) (draw : ℕ → ℕ → ℝ) :
    ∃ (t : Tensor Bool) (g : ℕ → ℕ → ℕ → ℝ),
      (exRow m).setDmdGratingState h (realArray (exRow m).slm v) (realArray (exRow m).slm fun _ _ => 0)
        (realArray (exRow m).slm (exRowPhase m)) "ifta" (exRowKw m N s) draw = ⟨.rebind (.bool t), .ok ()⟩ ∧
      (∀ j < 2 * m, g 0 0 j = s * v 0 j) ∧
      (∀ n < N, ∀ j < 2 * m, g (n + 1) 0 j = clip (((n : ℕ) + 1) / (2 * N)) (g n 0 j) +
        1 / (2 * m) * (∑ l ∈ range (2 * m), (g 0 0 l - clip (((n : ℕ) + 1) / (2 * N)) (g n 0 l)) * (-1) ^ l) * (-1) ^ j) ∧
      ∀ j < 2 * m, (t.get 0 j = true ↔ 1 / 2 < g N 0 j) := by
  have ga := gratingArgs_realArray (exRow m) h v (fun _ _ => 0) (exRowPhase m)
  have hp : (exRow m).p ≠ 0 := by norm_num [exRow, DMD.new]
  obtain ⟨t, tid, g, h1, h2, -, h4, h5, h6⟩ := C87_ifta ga (exRowKw_ok m N s) (show 0 < 2 * m by omega) (show 0 < 1 by decide) hp draw
  obtain ⟨ta, ti, tj, g1, g2, g3, g4⟩ := setGrating_of_grating ga
  obtain ⟨⟨tid0, i1, i2, i3⟩, -, -⟩ := grating_elementwise g1 g2 g3 (exRowKw m N s) draw
  have e : tid0 = tid := by
    rw [g4, i1] at h2
    injection h2 with h2
    injection h2 with h2
    injection h2
  subst e
  refine ⟨t, g, h1, fun j hj => ?_, fun n hn j hj => exRow_step hm (h5 n hn) hj, fun j hj => h6 0 Nat.one_pos j hj⟩
  obtain ⟨w, hw, hg⟩ := h4 0 Nat.one_pos j hj
  have hval := (i3 0 Nat.one_pos j hj).trans (idealPixel_eq (exRow m) hp v (fun _ _ => 0) (exRowPhase m) 0 j)
  rw [hw] at hval
  injection hval with hval
  rw [hg, hval, exRow_ideal]
  rfl

/-- What `simple` does with a row. -/
theorem exRow_simple (m : ℕ) (h : Profile.Heap) (v : ℕ → ℕ → ℝ) (kw : Kwargs) (draw : ℕ → ℕ → ℝ) :
    ∃ t : Tensor Bool,
      (exRow m).setDmdGratingState h (realArray (exRow m).slm v) (realArray (exRow m).slm fun _ _ => 0)
        (realArray (exRow m).slm (exRowPhase m)) "simple" kw draw = ⟨.rebind (.bool t), .ok ()⟩ ∧
      ∀ j < 2 * m, (t.get 0 j = true ↔ 1 / 2 < v 0 j) := by
  have ga := gratingArgs_realArray (exRow m) h v (fun _ _ => 0) (exRowPhase m)
  have hp : (exRow m).p ≠ 0 := by norm_num [exRow, DMD.new]
  obtain ⟨ta, ti, tj, g1, g2, g3, g4⟩ := setGrating_of_grating ga
  obtain ⟨-, ⟨ts, j1, j2, j3⟩, -⟩ := grating_elementwise g1 g2 g3 kw draw
  refine ⟨ts, by rw [g4, j1], fun j hj => ?_⟩
  rw [j3 0 Nat.one_pos j hj]
  have := idealPixel_eq (exRow m) hp v (fun _ _ => 0) (exRowPhase m) 0 j
  rw [exRow_ideal] at this
  show (idealPixel _ _ _ _).gtFin 0.5 ↔ _
  erw [this]
  show (0.5 : ℝ) < v 0 j ↔ _
  norm_num

/-- **C139**, negation: two mirrors with ideal grating values 0.6 and 0.5, uniform illumination and a signal window on one of the
two pixels of the image plane.  With one iteration both mirrors are on for `s = 1.1`, but only the first one for `s = 20`. -/
theorem C139_refuted (h : Profile.Heap) (draw : ℕ → ℕ → ℝ) :
    ∃ (d : DMD) (amp phaseIn phaseOut : ProfArg) (A φin φout : ℕ → ℕ → ℝ) (kw : Kwargs) (u W : ℕ → ℕ → ℂ) (s s' : ℝ) (t t' : Tensor Bool),
      GratingArgs d h amp phaseIn phaseOut A φin φout ∧ (∀ i j, 0 ≤ A i j ∧ A i j ≤ 1) ∧ IftaKwargs d.slm kw u W ∧
      d.slm.Nx = 2 ∧ d.slm.Ny = 1 ∧ d.p ≠ 0 ∧ (∀ i j, u i j = 1) ∧ 0 < s ∧ s ≤ s' ∧
      d.setDmdGratingState h amp phaseIn phaseOut "ifta" { kw with s := some s } draw = ⟨.rebind (.bool t), .ok ()⟩ ∧
      d.setDmdGratingState h amp phaseIn phaseOut "ifta" { kw with s := some s' } draw = ⟨.rebind (.bool t'), .ok ()⟩ ∧
      t.get 0 0 = true ∧ t.get 0 1 = true ∧ t'.get 0 0 = true ∧ t'.get 0 1 = false := by
  set v : ℕ → ℕ → ℝ := fun _ j => if j = 0 then 0.6 else 0.5 with hv
  obtain ⟨t, g, h1, h2, h3, h4⟩ := exRow_ifta (m := 1) one_pos h v 1 1.1 draw
  obtain ⟨t', g', h1', h2', h3', h4'⟩ := exRow_ifta (m := 1) one_pos h v 1 20 draw
  have a0 := h2 0 (by decide)
  have a1 := h2 1 (by decide)
  have b0 := h2' 0 (by decide)
  have b1 := h2' 1 (by decide)
  simp only [hv, if_true, one_ne_zero, if_false] at a0 a1 b0 b1
  have s0 := h3 0 (by decide) 0 (by decide)
  have s1 := h3 0 (by decide) 1 (by decide)
  have r0 := h3' 0 (by decide) 0 (by decide)
  have r1 := h3' 0 (by decide) 1 (by decide)
  norm_num [Finset.sum_range_succ, a0, a1, b0, b1, clip] at s0 s1 r0 r1
  refine ⟨exRow 1, _, _, _, v, _, _, exRowKw 1 1 1, _, _, 1.1, 20, t, t', gratingArgs_realArray (exRow 1) h v (fun _ _ => 0) (exRowPhase 1),
    fun i j => ?_, exRowKw_ok 1 1 1, rfl, rfl, by norm_num [exRow, DMD.new], fun _ _ => rfl, by norm_num, by norm_num, h1, h1', ?_, ?_, ?_, ?_⟩
  · simp only [hv]
    split_ifs <;> norm_num
  · rw [h4 0 (by decide), s0]; norm_num
  · rw [h4 1 (by decide), s1]; norm_num
  · rw [h4' 0 (by decide), r0]; norm_num
  · rw [Bool.eq_false_iff, ne_eq, h4' 1 (by decide), r1]; norm_num

/-- **C140** (proved part): without iterations, with a signal window that is 1 everywhere or 0 everywhere, or if the ideal grating is
0 or 1 at every illuminated mirror, method `ifta` (with `s = 1`) is not worse than method `simple`: the squared error over any
set `S` of image pixels, against the image of the ideal grating, is not larger.  Missing: other signal windows, for
which it is false (`C140_refuted`). -/
theorem C140_partial {d : DMD} {h : Profile.Heap} {amp phaseIn phaseOut : ProfArg} {A φin φout : ℕ → ℕ → ℝ}
    {kw : Kwargs} {u W : ℕ → ℕ → ℂ} (ga : GratingArgs d h amp phaseIn phaseOut A φin φout)
    (hk : IftaKwargs d.slm kw u W) (hNx : 0 < d.slm.Nx) (hNy : 0 < d.slm.Ny) (hp : d.p ≠ 0) (hs : kw.s.getD 1 = 1)
    (draw : ℕ → ℕ → ℝ) {tid : Tensor XR} {v : ℕ → ℕ → ℝ}
    (hid : d.setDmdGratingState h amp phaseIn phaseOut "ideal" kw draw = ⟨.rebind (.float tid), .ok ()⟩)
    (hv : ∀ i < d.slm.Ny, ∀ j < d.slm.Nx, tid.get i j = .fin (v i j))
    (hdeg : kw.N.getD 200 = 0 ∨ (∀ i < d.slm.Ny, ∀ j < d.slm.Nx, W i j = 1) ∨
      (∀ i < d.slm.Ny, ∀ j < d.slm.Nx, W i j = 0) ∨
      (∀ i < d.slm.Ny, ∀ j < d.slm.Nx, u i j ≠ 0 → v i j = 0 ∨ v i j = 1)) :
    ∃ t ts : Tensor Bool,
      d.setDmdGratingState h amp phaseIn phaseOut "ifta" kw draw = ⟨.rebind (.bool t), .ok ()⟩ ∧
      d.setDmdGratingState h amp phaseIn phaseOut "simple" kw draw = ⟨.rebind (.bool ts), .ok ()⟩ ∧
      ∀ S, signalError d.slm u S (onOff t.get) v ≤ signalError d.slm u S (onOff ts.get) v := by
  have key : ∃ t ts : Tensor Bool,
      d.setDmdGratingState h amp phaseIn phaseOut "ifta" kw draw = ⟨.rebind (.bool t), .ok ()⟩ ∧
      d.setDmdGratingState h amp phaseIn phaseOut "simple" kw draw = ⟨.rebind (.bool ts), .ok ()⟩ ∧
      ∀ i < d.slm.Ny, ∀ j < d.slm.Nx, u i j ≠ 0 → t.get i j = ts.get i j := by
    by_cases hb : ∀ i < d.slm.Ny, ∀ j < d.slm.Nx, u i j ≠ 0 → v i j = 0 ∨ v i j = 1
    · obtain ⟨t, h1, -, h3⟩ := C138_binary ga hk hNx hNy hp draw hid (fun i hi j hj hu => ⟨_, hv i hi j hj, by
        rw [hs, one_mul]; exact hb i hi j hj hu⟩)
      obtain ⟨ta, ti, tj, g1, g2, g3, g4⟩ := setGrating_of_grating ga
      obtain ⟨⟨tid', i1, i2, i3⟩, ⟨ts, j1, j2, j3⟩, -⟩ := grating_elementwise g1 g2 g3 kw draw
      have e : tid' = tid := by
        rw [g4, i1] at hid
        injection hid with hid
        injection hid with hid
        injection hid
      subst e
      refine ⟨t, ts, h1, by rw [g4, j1], fun i hi j hj hu => ?_⟩
      obtain ⟨w, hw, hiff⟩ := h3 i hi j hj hu
      have hvv := hv i hi j hj
      rw [hw] at hvv
      injection hvv with hvv
      rw [Bool.eq_iff_iff, hiff, j3 i hi j hj, ← i3 i hi j hj, hw, hs, one_mul, hvv]
      show _ ↔ (0.5 : ℝ) < v i j
      rcases hb i hi j hj hu with hb | hb <;> rw [hb] <;> norm_num
    · refine C35_simple ga hk hNx hNy hp ?_ hs draw
      rcases hdeg with hd | hd | hd | hd
      · exact .inl hd
      · exact .inr (.inl hd)
      · exact .inr (.inr hd)
      · exact absurd hd hb
  obtain ⟨t, ts, h1, h2, h3⟩ := key
  refine ⟨t, ts, h1, h2, fun S => le_of_eq ?_⟩
  refine Finset.sum_congr rfl fun k _ => Finset.sum_congr rfl fun l _ => ?_
  rw [predicted_congr (V := fun i j => u i j * onOff ts.get i j) fun i hi j hj => ?_]
  by_cases hu : u i j = 0
  · rw [hu, zero_mul, zero_mul]
  · rw [onOff, onOff, h3 i hi j hj hu]

/-- **C140**, negation: four mirrors with ideal grating values 0.4, 0.55, 0.9 and 0.49, uniform illumination, a signal window that
consists of one pixel, two iterations.  The error in that pixel is larger with method `ifta` than with method `simple`. -/
theorem C140_refuted (h : Profile.Heap) (draw : ℕ → ℕ → ℝ) :
    ∃ (d : DMD) (amp phaseIn phaseOut : ProfArg) (v φin φout : ℕ → ℕ → ℝ) (kw : Kwargs) (u : ℕ → ℕ → ℂ) (S : ℕ → ℕ → Bool) (tid : Tensor XR) (t ts : Tensor Bool),
      GratingArgs d h amp phaseIn phaseOut v φin φout ∧ (∀ i j, 0 ≤ v i j ∧ v i j ≤ 1) ∧
      IftaKwargs d.slm kw u (fun k l => if S k l then 1 else 0) ∧ d.slm.Nx = 4 ∧ d.slm.Ny = 1 ∧ d.p ≠ 0 ∧ (∀ i j, u i j = 1) ∧
      kw.N = some 2 ∧ kw.s.getD 1 = 1 ∧
      d.setDmdGratingState h amp phaseIn phaseOut "ideal" kw draw = ⟨.rebind (.float tid), .ok ()⟩ ∧
      (∀ i < d.slm.Ny, ∀ j < d.slm.Nx, tid.get i j = .fin (v i j)) ∧
      d.setDmdGratingState h amp phaseIn phaseOut "ifta" kw draw = ⟨.rebind (.bool t), .ok ()⟩ ∧
      d.setDmdGratingState h amp phaseIn phaseOut "simple" kw draw = ⟨.rebind (.bool ts), .ok ()⟩ ∧
      signalError d.slm u S (onOff ts.get) v < signalError d.slm u S (onOff t.get) v := by
  set v : ℕ → ℕ → ℝ := fun _ j => if j = 0 then 0.4 else if j = 1 then 0.55 else if j = 2 then 0.9 else 0.49 with hv
  obtain ⟨t, g, h1, h2, h3, h4⟩ := exRow_ifta (m := 2) two_pos h v 2 1 draw
  obtain ⟨ts, k1, k2⟩ := exRow_simple 2 h v (exRowKw 2 2 1) draw
  have ga := gratingArgs_realArray (exRow 2) h v (fun _ _ => 0) (exRowPhase 2)
  have hp : (exRow 2).p ≠ 0 := by norm_num [exRow, DMD.new]
  obtain ⟨ta, ti, tj, g1, g2, g3, g4⟩ := setGrating_of_grating ga
  obtain ⟨⟨tid, i1, i2, i3⟩, -, -⟩ := grating_elementwise g1 g2 g3 (exRowKw 2 2 1) draw
  have a0 := h2 0 (by decide)
  have a1 := h2 1 (by decide)
  have a2 := h2 2 (by decide)
  have a3 := h2 3 (by decide)
  norm_num [hv] at a0 a1 a2 a3
  have b : ∀ j < 4, _ := h3 0 (by decide)
  have b0 := b 0 (by decide)
  have b1 := b 1 (by decide)
  have b2 := b 2 (by decide)
  have b3 := b 3 (by decide)
  norm_num [Finset.sum_range_succ, a0, a1, a2, a3, clip] at b0 b1 b2 b3
  have c : ∀ j < 4, _ := h3 1 (by decide)
  have c0 := c 0 (by decide)
  have c1 := c 1 (by decide)
  have c2 := c 2 (by decide)
  have c3 := c 3 (by decide)
  norm_num [Finset.sum_range_succ, a0, a1, a2, a3, b0, b1, b2, b3, clip] at c0 c1 c2 c3
  have t0 := h4 0 (by decide)
  have t1 := h4 1 (by decide)
  have t2 := h4 2 (by decide)
  have t3 := h4 3 (by decide)
  norm_num [c0, c1, c2, c3] at t0 t1 t2 t3
  have q0 := k2 0 (by decide)
  have q1 := k2 1 (by decide)
  have q2 := k2 2 (by decide)
  have q3 := k2 3 (by decide)
  norm_num [hv] at q0 q1 q2 q3
  have herr : ∀ b : ℕ → ℕ → Bool, signalError (exRow 2).slm (fun _ _ => 1) (fun _ l => decide (l = 0)) (onOff b) v =
      (1 / 4 * (onOff b 0 0 - onOff b 0 1 + onOff b 0 2 - onOff b 0 3 - 0.26)) ^ 2 := by
    intro b
    unfold signalError
    show ∑ k ∈ range 1, ∑ l ∈ range 4, _ = _
    rw [Finset.sum_range_one, Finset.sum_eq_single 0]
    · simp only [decide_true, if_true, one_mul]
      rw [exRow_predicted two_pos, exRow_predicted two_pos, ← ofReal_sub, norm_real, Real.norm_eq_abs, sq_abs]
      congr 1
      norm_num [Finset.sum_range_succ, hv]
      ring
    · intro l _ hl
      rw [if_neg (by simpa using hl)]
    · intro h
      exact absurd (mem_range.mpr (by decide : 0 < 4)) h
  refine ⟨exRow 2, _, _, _, v, _, _, exRowKw 2 2 1, _, fun _ l => decide (l = 0), tid, t, ts, ga, fun i j => ?_, ?_, rfl, rfl, hp, fun _ _ => rfl,
    rfl, rfl, by rw [g4, i1], fun i hi j hj => ?_, h1, k1, ?_⟩
  · simp only [hv]
    split_ifs <;> norm_num
  · simpa using exRowKw_ok 2 2 1
  · exact (i3 i hi j hj).trans ((idealPixel_eq (exRow 2) hp v (fun _ _ => 0) (exRowPhase 2) i j).trans (by rw [exRow_ideal]))
  · rw [herr, herr]
    simp only [onOff, t0, t1, t2, t3, q0, q1, q2, q3]
    norm_num

/-! ## The hypotheses can be met -/

/-- C139_partial: non-negative amplitudes, a signal window that is 1 everywhere. -/
example (h : Profile.Heap) : GratingArgs exGrating h
      (.ndarray .real ⟨.mat 2 4, fun i j => (((i + j) / 8 : ℝ) : ℂ)⟩) (.num (.real 0)) (.num (.real 1))
      (fun i j => ((i : ℝ) + j) / 8) (fun _ _ => 0) (fun _ _ => 1) ∧
    (∀ i j : ℕ, (0 : ℝ) ≤ ((i : ℝ) + j) / 8) ∧
    IftaKwargs exGrating.slm
      { N := some 3, inputProfile := some ⟨.mat 2 4, fun i j => (i : ℂ) + j⟩, signalWindow := some ⟨.mat 2 4, fun _ _ => 1⟩ } (fun i j => (i : ℂ) + j) (fun _ _ => 1) :=
  ⟨exGratingArgs h, fun i j => by positivity, ⟨_, rfl, Tensor.denotes_of_mat rfl fun _ _ _ _ => rfl⟩, _, rfl, rfl, fun _ _ _ _ => rfl⟩

/-- C140_partial: four mirrors whose ideal grating is 1, 0, 0, 0, and a signal window of one pixel. -/
example (h : Profile.Heap) (draw : ℕ → ℕ → ℝ) : ∃ (tid : Tensor XR) (v : ℕ → ℕ → ℝ),
    (∀ i j, v i j = if j = 0 then 1 else 0) ∧
    GratingArgs (exRow 2) h (realArray (exRow 2).slm v) (realArray (exRow 2).slm fun _ _ => 0) (realArray (exRow 2).slm (exRowPhase 2)) v
      (fun _ _ => 0) (exRowPhase 2) ∧
    IftaKwargs (exRow 2).slm (exRowKw 2 3 1) (fun _ _ => 1) (fun _ l => if l = 0 then 1 else 0) ∧
    (exRow 2).setDmdGratingState h (realArray (exRow 2).slm v) (realArray (exRow 2).slm fun _ _ => 0)
      (realArray (exRow 2).slm (exRowPhase 2)) "ideal" (exRowKw 2 3 1) draw = ⟨.rebind (.float tid), .ok ()⟩ ∧
    (∀ i < (exRow 2).slm.Ny, ∀ j < (exRow 2).slm.Nx, tid.get i j = .fin (v i j)) ∧
    (exRowKw 2 3 1).s.getD 1 = 1 ∧ ∀ i j, v i j = 0 ∨ v i j = 1 := by
  have ga := gratingArgs_realArray (exRow 2) h (fun _ j => if j = 0 then 1 else 0) (fun _ _ => 0) (exRowPhase 2)
  have hp : (exRow 2).p ≠ 0 := by norm_num [exRow, DMD.new]
  obtain ⟨ta, ti, tj, g1, g2, g3, g4⟩ := setGrating_of_grating ga
  obtain ⟨⟨tid, i1, i2, i3⟩, -, -⟩ := grating_elementwise g1 g2 g3 (exRowKw 2 3 1) draw
  refine ⟨tid, fun _ j => if j = 0 then 1 else 0, fun _ _ => rfl, ga, exRowKw_ok 2 3 1, by rw [g4, i1], fun i hi j hj => ?_, rfl, fun i j => ?_⟩
  · exact (i3 i hi j hj).trans ((idealPixel_eq (exRow 2) hp (fun _ j => if j = 0 then 1 else 0) (fun _ _ => 0) (exRowPhase 2) i j).trans (by
      rw [exRow_ideal 2 (fun _ j => if j = 0 then 1 else 0)]))
  · by_cases hj : j = 0 <;> simp [hj]

end PySLM2.DMD
