import Verif.Spec.Steepness
import Verif.Lemmas.Grating
import Mathlib.Analysis.SpecialFunctions.Trigonometric.Inverse
import Mathlib.Analysis.SpecialFunctions.Exp

/-!
# C107: the steepness `r` of method `random`
-/

noncomputable section

open Filter

namespace PySLM2.DMD

open Lib

variable {d : DMD} {h : Profile.Heap} {amp pin pout : ProfArg} {A φin φout : ℕ → ℕ → ℝ}

theorem fold_le (x : ℝ) (n : ℤ) : Real.arccos (Real.cos x) ≤ |x - 2 * Real.pi * n| := by
  have h1 : Real.cos x = Real.cos |x - 2 * Real.pi * n| := by
    rw [Real.cos_abs, ← Real.cos_sub_int_mul_two_pi x n]; congr 1; ring
  by_cases hx : |x - 2 * Real.pi * n| ≤ Real.pi
  · rw [h1, Real.arccos_cos (abs_nonneg _) hx]
  · exact (Real.arccos_le_pi _).trans (le_of_not_ge hx)

theorem fold_attained (x : ℝ) : ∃ n : ℤ, Real.arccos (Real.cos x) = |x - 2 * Real.pi * n| := by
  refine ⟨round (x / (2 * Real.pi)), ?_⟩
  set n := round (x / (2 * Real.pi)) with hn
  have h0 : (0 : ℝ) < 2 * Real.pi := Real.two_pi_pos
  have h1 : Real.cos x = Real.cos |x - 2 * Real.pi * n| := by
    rw [Real.cos_abs, ← Real.cos_sub_int_mul_two_pi x n]; congr 1; ring
  have h2 : |x - 2 * Real.pi * n| ≤ Real.pi := by
    have h3 := abs_sub_round (x / (2 * Real.pi))
    have h4 : x - 2 * Real.pi * n = (2 * Real.pi) * (x / (2 * Real.pi) - n) := by field_simp
    rw [h4, abs_mul, abs_of_pos h0]
    rw [← hn] at h3
    nlinarith
  rw [h1, Real.arccos_cos (abs_nonneg _) h2]

theorem one_sub_tanh (x : ℝ) : 1 - Real.tanh x ≤ 2 * Real.exp (-2 * x) := by
  have h1 := Real.exp_pos x
  have h2 := Real.exp_pos (-x)
  have h3 : Real.exp (-2 * x) = Real.exp (-x) * Real.exp (-x) := by rw [← Real.exp_add]; ring_nf
  have h4 : Real.exp x * Real.exp (-x) = 1 := by rw [← Real.exp_add]; simp
  rw [Real.tanh_eq, h3]
  have h5 : 1 - (Real.exp x - Real.exp (-x)) / (Real.exp x + Real.exp (-x)) =
      2 * Real.exp (-x) / (Real.exp x + Real.exp (-x)) := by field_simp; ring
  rw [h5, div_le_iff₀ (by positivity)]
  nlinarith [mul_pos h2 (mul_pos h2 h2)]

theorem duty_inside (d : DMD) {r ε : ℝ} (hr : 0 ≤ r) {i j : ℕ} (hA : 0 ≤ A i j)
    (hn : ∃ n : ℤ, |d.detuning φin φout i j - 2 * Real.pi * n| ≤ Real.arcsin (A i j) - ε) :
    1 - 2 * Real.exp (-2 * r * ε) ≤ d.duty r A φin φout i j := by
  obtain ⟨n, hn⟩ := hn
  have h1 := (fold_le (d.detuning φin φout i j) n).trans hn
  unfold duty
  set x := Real.arccos (Real.cos (d.detuning φin φout i j)) with hx
  have hx0 : 0 ≤ x := Real.arccos_nonneg _
  have hw : 0 ≤ Real.arcsin (A i j) := Real.arcsin_nonneg.mpr hA
  set w := Real.arcsin (A i j) with hwd
  have h2 : Real.tanh (r * ε) ≤ Real.tanh (r * (x + w)) := tanh_mono (mul_le_mul_of_nonneg_left (by linarith) hr)
  have h3 : Real.tanh (r * ε) ≤ Real.tanh (-(r * (x - w))) := by
    refine tanh_mono ?_
    have := mul_le_mul_of_nonneg_left (show ε ≤ w - x by linarith) hr
    linarith
  rw [Real.tanh_neg] at h3
  have h4 := one_sub_tanh (r * ε)
  rw [← mul_assoc] at h4
  linarith

theorem duty_outside (d : DMD) {r ε : ℝ} (hr : 0 ≤ r) {i j : ℕ}
    (hn : ∀ n : ℤ, Real.arcsin (A i j) + ε ≤ |d.detuning φin φout i j - 2 * Real.pi * n|) :
    d.duty r A φin φout i j ≤ Real.exp (-2 * r * ε) := by
  obtain ⟨n, hx⟩ := fold_attained (d.detuning φin φout i j)
  have h1 := hn n
  rw [← hx] at h1
  unfold duty
  set x := Real.arccos (Real.cos (d.detuning φin φout i j)) with hxd
  set w := Real.arcsin (A i j) with hwd
  have h2 := (tanh_bounds (r * (x + w))).2
  have h3 : Real.tanh (r * ε) ≤ Real.tanh (r * (x - w)) := tanh_mono (mul_le_mul_of_nonneg_left (by linarith) hr)
  have h4 := one_sub_tanh (r * ε)
  rw [← mul_assoc] at h4
  linarith

/-- **C107.** `method="random"` with steepness `r ≥ 0`, amplitudes in `[0, 1]`.  Seen from the centre of the nearest
line of the grating, a line has half width `asin(amp)` in units of the carrier phase.  A mirror at least `ε` inside
the line is on unless its draw is among the top `2 exp(-2 r ε)` of the unit interval; a mirror at least `ε` outside
all lines is off unless its draw is below `exp(-2 r ε)`. -/
theorem C107_sharp (g : GratingArgs d h amp pin pout A φin φout) (hp : d.p ≠ 0) (kw : Kwargs)
    (draw : ℕ → ℕ → ℝ) {r : ℝ} (hr : 0 ≤ r) (hkw : kw.r = some r) :
    ∃ t : Tensor Bool, d.setDmdGratingState h amp pin pout "random" kw draw = ⟨.rebind (.bool t), .ok ()⟩ ∧
      t.shape = .mat d.slm.Ny d.slm.Nx ∧ ∀ i < d.slm.Ny, ∀ j < d.slm.Nx, 0 ≤ A i j → A i j ≤ 1 → ∀ ε : ℝ,
        ((∃ n : ℤ, |d.detuning φin φout i j - 2 * Real.pi * n| ≤ Real.arcsin (A i j) - ε) →
          draw i j < 1 - 2 * Real.exp (-2 * r * ε) → t.get i j = true) ∧
        ((∀ n : ℤ, Real.arcsin (A i j) + ε ≤ |d.detuning φin φout i j - 2 * Real.pi * n|) →
          Real.exp (-2 * r * ε) ≤ draw i j → t.get i j = false) := by
  obtain ⟨-, -, t, h1, h2, h3⟩ := setGrating_eq g kw draw
  refine ⟨t, h1, h2, fun i hi j hj hA hA1 ε => ⟨fun h4 h5 => ?_, fun h4 h5 => ?_⟩⟩
  · rw [h3 i hi j hj, randomPixel_iff d hp, hkw]
    exact ⟨by linarith, hA1, h5.trans_le (duty_inside d hr hA h4)⟩
  · rw [h3 i hi j hj, ← Bool.not_eq_true, randomPixel_iff d hp, hkw]
    rintro ⟨-, -, h6⟩
    have := duty_outside d (A := A) hr h4
    simp only [Option.getD_some] at h6
    linarith

/-- **C107**, the limit of a steep method: for draws strictly between 0 and 1, amplitudes in `[0, 1]` and no mirror
exactly on the edge of a line, every sufficiently large steepness gives the same pattern: the mirrors within
`asin(amp)` of a line are on, all others off. -/
theorem C107_limit (g : GratingArgs d h amp pin pout A φin φout) (hp : d.p ≠ 0) (kw : Kwargs)
    (draw : ℕ → ℕ → ℝ) (hu : ∀ i < d.slm.Ny, ∀ j < d.slm.Nx, 0 < draw i j ∧ draw i j < 1)
    (hA : ∀ i < d.slm.Ny, ∀ j < d.slm.Nx, 0 ≤ A i j ∧ A i j ≤ 1)
    (hedge : ∀ i < d.slm.Ny, ∀ j < d.slm.Nx, ∀ n : ℤ,
      |d.detuning φin φout i j - 2 * Real.pi * n| ≠ Real.arcsin (A i j)) :
    ∃ R : ℝ, ∀ r ≥ R, ∃ t : Tensor Bool,
      d.setDmdGratingState h amp pin pout "random" { kw with r := some r } draw = ⟨.rebind (.bool t), .ok ()⟩ ∧
      t.shape = .mat d.slm.Ny d.slm.Nx ∧ ∀ i < d.slm.Ny, ∀ j < d.slm.Nx,
        (t.get i j = true ↔ d.NearLine φin φout (Real.arcsin (A i j)) i j) := by
  have key : ∀ i ∈ Finset.range d.slm.Ny, ∀ j ∈ Finset.range d.slm.Nx, ∀ᶠ r in atTop,
      (draw i j < d.duty r A φin φout i j ↔ d.NearLine φin φout (Real.arcsin (A i j)) i j) := by
    intro i hi j hj
    rw [Finset.mem_range] at hi hj
    have hlim : ∀ ε : ℝ, 0 < ε → Tendsto (fun r : ℝ => Real.exp (-2 * r * ε)) atTop (nhds 0) := by
      intro ε hε
      have h2 : Tendsto (fun r : ℝ => (2 * ε) * r) atTop atTop := tendsto_id.const_mul_atTop (by positivity)
      have h3 := Real.tendsto_exp_neg_atTop_nhds_zero.comp h2
      refine h3.congr fun r => ?_
      simp only [Function.comp]
      congr 1
      ring
    by_cases hn : d.NearLine φin φout (Real.arcsin (A i j)) i j
    · obtain ⟨n, hn'⟩ := hn
      have hε : 0 < Real.arcsin (A i j) - |d.detuning φin φout i j - 2 * Real.pi * n| := by linarith
      have hev : ∀ᶠ r : ℝ in atTop, Real.exp (-2 * r * (Real.arcsin (A i j) - |d.detuning φin φout i j - 2 * Real.pi * n|)) <
          (1 - draw i j) / 2 := (hlim _ hε).eventually_lt_const (by linarith [(hu i hi j hj).2])
      filter_upwards [hev, eventually_ge_atTop 0] with r h5 h6
      refine ⟨fun _ => ⟨n, hn'⟩, fun _ => ?_⟩
      have := duty_inside d (φin := φin) (φout := φout) (A := A) h6 (hA i hi j hj).1 ⟨n, (sub_sub_cancel _ _).ge⟩
      linarith
    · obtain ⟨n, hx⟩ := fold_attained (d.detuning φin φout i j)
      have h4 : Real.arcsin (A i j) < |d.detuning φin φout i j - 2 * Real.pi * n| := by
        refine lt_of_le_of_ne ?_ (hedge i hi j hj n).symm
        by_contra h5
        exact hn ⟨n, lt_of_not_ge h5⟩
      have hev : ∀ᶠ r : ℝ in atTop, Real.exp (-2 * r * (|d.detuning φin φout i j - 2 * Real.pi * n| - Real.arcsin (A i j))) <
          draw i j := (hlim _ (by linarith)).eventually_lt_const (hu i hi j hj).1
      filter_upwards [hev, eventually_ge_atTop 0] with r h5 h6
      refine ⟨fun h7 => ?_, fun h7 => absurd h7 hn⟩
      have := duty_outside d (φin := φin) (φout := φout) (A := A) h6 (i := i) (j := j)
        (ε := |d.detuning φin φout i j - 2 * Real.pi * n| - Real.arcsin (A i j)) (fun m => by
          rw [← hx]
          have := fold_le (d.detuning φin φout i j) m
          linarith)
      linarith
  have h2 := (eventually_all_finset (Finset.range d.slm.Ny)).mpr fun i hi =>
    (eventually_all_finset (Finset.range d.slm.Nx)).mpr fun j hj => key i hi j hj
  obtain ⟨R, hR⟩ := eventually_atTop.mp h2
  refine ⟨R, fun r hr => ?_⟩
  obtain ⟨-, -, t, h3, h4, h5⟩ := setGrating_eq g { kw with r := some r } draw
  refine ⟨t, h3, h4, fun i hi j hj => ?_⟩
  rw [h5 i hi j hj, randomPixel_iff d hp]
  have h6 := hR r hr i (Finset.mem_range.mpr hi) j (Finset.mem_range.mpr hj)
  have h7 := hA i hi j hj
  exact ⟨fun h8 => h6.mp h8.2.2, fun h8 => ⟨by linarith, h7.2, h6.mpr h8⟩⟩

/-- **C107**, the other end: with a steepness that is not positive every mirror whose amplitude is not negative is
off. -/
theorem C107_flat (g : GratingArgs d h amp pin pout A φin φout) (hp : d.p ≠ 0) (kw : Kwargs)
    (draw : ℕ → ℕ → ℝ) {r : ℝ} (hr : r ≤ 0) (hkw : kw.r = some r) (hu : ∀ i j, 0 ≤ draw i j) :
    ∃ t : Tensor Bool, d.setDmdGratingState h amp pin pout "random" kw draw = ⟨.rebind (.bool t), .ok ()⟩ ∧
      t.shape = .mat d.slm.Ny d.slm.Nx ∧ ∀ i < d.slm.Ny, ∀ j < d.slm.Nx, 0 ≤ A i j → t.get i j = false := by
  obtain ⟨-, -, t, h1, h2, h3⟩ := setGrating_eq g kw draw
  refine ⟨t, h1, h2, fun i hi j hj hA => ?_⟩
  rw [h3 i hi j hj, ← Bool.not_eq_true, randomPixel_iff d hp, hkw]
  rintro ⟨-, -, h4⟩
  simp only [Option.getD_some] at h4
  have h5 : d.duty r A φin φout i j = -d.duty (-r) A φin φout i j := by
    unfold duty
    rw [neg_mul, neg_mul, Real.tanh_neg, Real.tanh_neg]
    ring
  have h6 := duty_nonneg d (neg_nonneg.mpr hr) A φin φout i j hA
  have := hu i j
  linarith

/-- The hypotheses are satisfiable: period 4 along x, amplitude 1 (half width `pi / 2`) and phase difference `pi / 4`; no
pixel is exactly on an edge, and some pixels are inside and others outside a line. -/
def steep : DMD := DMD.new ⟨1, 1, 4, 2, 1⟩ 4 0 false

theorem steep_args (h : Profile.Heap) : GratingArgs steep h (.num (.real 1)) (.num (.real 0)) (.num (.real (Real.pi / 4)))
    (fun _ _ => 1) (fun _ _ => 0) (fun _ _ => Real.pi / 4) := by
  refine ⟨⟨_, rfl, rfl, fun i _ j _ => ?_⟩, ⟨_, rfl, rfl, fun i _ j _ => ?_⟩,
    ⟨_, rfl, rfl, fun i _ j _ => ?_⟩⟩ <;> simp [Tensor.at_, Tensor.map, Tensor.scalar]

theorem steep_detuning (i j : ℕ) : steep.detuning (fun _ _ => 0) (fun _ _ => Real.pi / 4) i j =
    (2 * j - 5) * (Real.pi / 4) := by
  simp [steep, DMD.detuning, DMD.carrier, DMD.new, SLM.fourierGrid, SLM.fourierX, SLM.fourierY, SLM.indexToCoord]
  ring

example : steep.p ≠ 0 ∧ (∀ i < steep.slm.Ny, ∀ j < steep.slm.Nx, ∀ n : ℤ,
      |steep.detuning (fun _ _ => 0) (fun _ _ => Real.pi / 4) i j - 2 * Real.pi * n| ≠ Real.arcsin 1) ∧
    steep.NearLine (fun _ _ => 0) (fun _ _ => Real.pi / 4) (Real.arcsin 1) 0 2 ∧
    ¬ steep.NearLine (fun _ _ => 0) (fun _ _ => Real.pi / 4) (Real.arcsin 1) 0 0 := by
  have hpi := Real.pi_pos
  refine ⟨by norm_num [steep, DMD.new], fun i _ j _ n h => ?_, ⟨0, ?_⟩, ?_⟩
  · rw [steep_detuning, Real.arcsin_one] at h
    have h1 : ((2 * j - 5 : ℝ) * (Real.pi / 4) - 2 * Real.pi * n) = (2 * j - 5 - 8 * n : ℤ) * (Real.pi / 4) := by
      push_cast; ring
    rw [h1, abs_mul, abs_of_pos (by positivity : 0 < Real.pi / 4)] at h
    have h2 : |((2 * j - 5 - 8 * n : ℤ) : ℝ)| = ((2 : ℤ) : ℝ) := by
      push_cast at h ⊢
      nlinarith
    have h3 : |(2 * j - 5 - 8 * n : ℤ)| = 2 := by exact_mod_cast h2
    rcases abs_eq (by norm_num : (0 : ℤ) ≤ 2) |>.mp h3 with h4 | h4 <;> omega
  · rw [steep_detuning, Real.arcsin_one]
    rw [abs_lt]
    push_cast
    constructor <;> nlinarith
  · rintro ⟨n, hn⟩
    rw [steep_detuning, Real.arcsin_one] at hn
    have h1 : ((2 * (0 : ℕ) - 5 : ℝ) * (Real.pi / 4) - 2 * Real.pi * n) = (- 5 - 8 * n : ℤ) * (Real.pi / 4) := by
      push_cast; ring
    rw [h1, abs_mul, abs_of_pos (by positivity : 0 < Real.pi / 4)] at hn
    have h2 : |((-5 - 8 * n : ℤ) : ℝ)| < ((2 : ℤ) : ℝ) := by
      push_cast at hn ⊢
      nlinarith
    have h3 : |(-5 - 8 * n : ℤ)| < 2 := by exact_mod_cast h2
    rw [abs_lt] at h3
    omega

end PySLM2.DMD
