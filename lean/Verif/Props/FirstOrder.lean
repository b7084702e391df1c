import Verif.Lemmas.FirstOrder
import Verif.Props.Grating

/-!
# C90: amplitude of the first diffraction order for the three elementwise methods

`firstOrder` and `mirror` are in `Verif/Spec/FirstOrder.lean`.
-/

noncomputable section

open Complex MeasureTheory Filter Topology

namespace PySLM2.DMD

open Lib

variable {d : DMD} {h : Profile.Heap} {amp pin : ProfArg} {A φin : ℕ → ℕ → ℝ}

theorem gratingArgs_num {pout : ProfArg} {φout : ℕ → ℕ → ℝ} (g : GratingArgs d h amp pin pout A φin φout) (c : ℝ) :
    GratingArgs d h amp pin (.num (.real c)) A φin fun _ _ => c :=
  ⟨g.amp, g.phaseIn, ⟨_, rfl, rfl, fun i _ j _ => by simp [Tensor.at_, Tensor.map, Tensor.scalar]⟩⟩

/-- **C90**, method `ideal`: the first order amplitude of every pixel is a quarter of the requested amplitude. -/
theorem C90_ideal (g : GratingArgs d h amp pin (.num (.real 0)) A φin fun _ _ => 0) (hp : d.p ≠ 0) (kw : Kwargs)
    (draw : ℕ → ℕ → ℝ) {i j : ℕ} (hi : i < d.slm.Ny) (hj : j < d.slm.Nx) :
    firstOrder d φin i j (fun c =>
      mirror (d.setDmdGratingState h amp pin (.num (.real c)) "ideal" kw draw).effect i j) = A i j / 4 := by
  rw [firstOrder_eq (F := fun t => A i j * (Real.cos t / 2 + 1 / 2)) d φin i j (fun c => ?_) (fun t => by
    simp only [Real.cos_add_two_pi])]
  · have h1 : ∀ t : ℝ, ((A i j * (Real.cos t / 2 + 1 / 2) : ℝ) : ℂ) * cexp (I * t) =
        A i j * (1 / 4 + (1 / 2 * cexp (I * t) + 1 / 4 * cexp ((2 * I) * t))) := by
      intro t
      push_cast
      rw [Complex.cos, show (2 * I) * (t : ℂ) = t * I + t * I by ring, Complex.exp_add, mul_comm I]
      have : cexp ((t : ℂ) * I) * cexp (-(t : ℂ) * I) = 1 := by rw [← Complex.exp_add]; simp
      linear_combination (A i j : ℂ) * (1 / 4) * this
    simp only [h1]
    have c1 : IntervalIntegrable (fun t : ℝ => (1 / 2 : ℂ) * cexp (I * t)) volume (-Real.pi) Real.pi :=
      (by fun_prop : Continuous fun t : ℝ => (1 / 2 : ℂ) * cexp (I * t)).intervalIntegrable _ _
    have c2 : IntervalIntegrable (fun t : ℝ => (1 / 4 : ℂ) * cexp ((2 * I) * t)) volume (-Real.pi) Real.pi :=
      (by fun_prop : Continuous fun t : ℝ => (1 / 4 : ℂ) * cexp ((2 * I) * t)).intervalIntegrable _ _
    rw [intervalIntegral.integral_const_mul, intervalIntegral.integral_add intervalIntegrable_const (c1.add c2),
      intervalIntegral.integral_add c1 c2, intervalIntegral.integral_const_mul, intervalIntegral.integral_const_mul,
      integral_exp_mul_complex I_ne_zero, integral_exp_mul_complex (by simp [I_ne_zero]), intervalIntegral.integral_const]
    have e1 : cexp (I * (Real.pi : ℝ)) = -1 := by rw [mul_comm, Complex.exp_pi_mul_I]
    have e2 : cexp (I * ((-Real.pi : ℝ) : ℂ)) = -1 := by
      push_cast; rw [mul_neg, Complex.exp_neg, mul_comm, Complex.exp_pi_mul_I]; norm_num
    have e3 : cexp (2 * I * (Real.pi : ℝ)) = 1 := by
      rw [show 2 * I * ((Real.pi : ℝ) : ℂ) = 2 * Real.pi * I by ring, Complex.exp_two_pi_mul_I]
    have e4 : cexp (2 * I * ((-Real.pi : ℝ) : ℂ)) = 1 := by
      push_cast
      rw [show 2 * I * -(Real.pi : ℂ) = -(2 * Real.pi * I) by ring, Complex.exp_neg, Complex.exp_two_pi_mul_I, inv_one]
    rw [e1, e2, e3, e4]
    have hpi : (Real.pi : ℂ) ≠ 0 := by exact_mod_cast Real.pi_pos.ne'
    rw [Complex.real_smul]
    push_cast
    field_simp
    ring
  · obtain ⟨⟨t, h1, h2, h3⟩, -, -⟩ := setGrating_eq (gratingArgs_num g c) kw draw
    rw [h1]
    simp only [mirror]
    rw [h3 i hi j hj, idealPixel_eq d hp]

/-- **C90**, method `random`: averaged over the draws, the first order amplitude of every pixel with a requested
amplitude in `[0, 1]` tends to `1 / pi` times that amplitude as the steepness `r` grows. -/
theorem C90_random (g : GratingArgs d h amp pin (.num (.real 0)) A φin fun _ _ => 0) (hp : d.p ≠ 0) (kw : Kwargs)
    {i j : ℕ} (hi : i < d.slm.Ny) (hj : j < d.slm.Nx) (hA : 0 ≤ A i j) (hA1 : A i j ≤ 1) :
    Tendsto (fun r : ℝ => firstOrder d φin i j fun c => ∫ u in (0 : ℝ)..1,
      mirror (d.setDmdGratingState h amp pin (.num (.real c)) "random" { kw with r := some r } fun _ _ => u).effect i j)
      atTop (𝓝 (A i j / Real.pi)) := by
  have hw0 : 0 ≤ Real.arcsin (A i j) := Real.arcsin_nonneg.mpr hA
  have hw1 : Real.arcsin (A i j) ≤ Real.pi := (Real.arcsin_le_pi_div_two _).trans (by have := Real.pi_pos; linarith)
  have hlim := (tendsto_integral_pulse hw0 hw1).const_mul (1 / (2 * (Real.pi : ℂ)))
  rw [Real.sin_arcsin (by linarith) hA1] at hlim
  have e : 1 / (2 * (Real.pi : ℂ)) * (2 * (A i j : ℂ)) = A i j / Real.pi := by
    have hpi : (Real.pi : ℂ) ≠ 0 := by exact_mod_cast Real.pi_pos.ne'
    field_simp
  rw [e] at hlim
  refine hlim.congr' ?_
  filter_upwards [eventually_ge_atTop (0 : ℝ)] with r hr
  rw [firstOrder_eq (F := pulse r (Real.arcsin (A i j))) d φin i j (fun c => ?_) (pulse_periodic _ _)]
  have hd : pulse r (Real.arcsin (A i j)) (d.detuning φin (fun _ _ => c) i j) = d.duty r A φin (fun _ _ => c) i j := rfl
  rw [hd]
  rw [← mean_below (duty_nonneg d hr A φin _ i j hA) (duty_lt_one d r A φin (fun _ _ => c) i j).le
    (fun u => u < d.duty r A φin (fun _ _ => c) i j) fun u _ _ => Iff.rfl]
  refine intervalIntegral.integral_congr fun u _ => ?_
  obtain ⟨-, -, t, h1, h2, h3⟩ := setGrating_eq (gratingArgs_num g c) { kw with r := some r } fun _ _ => u
  rw [h1]
  simp only [mirror]
  have h4 := randomPixel_iff d hp r u A φin (fun _ _ => c) i j
  have h5 := h3 i hi j hj
  simp only [Option.getD_some] at h5
  rw [h5]
  by_cases hu : u < d.duty r A φin (fun _ _ => c) i j
  · rw [if_pos hu, if_pos (h4.mpr ⟨by linarith, hA1, hu⟩)]
  · rw [if_neg hu, if_neg (fun hc => hu (h4.mp hc).2.2)]

/-- **C90**, method `simple`: the first order amplitude is not proportional to the requested amplitude `a`: it is
`sqrt(1 - (1/a - 1)^2) / pi` for `a` in `(1/2, 1]`, and 0 for `a` up to `1/2`. -/
theorem C90_simple (g : GratingArgs d h amp pin (.num (.real 0)) A φin fun _ _ => 0) (hp : d.p ≠ 0) (kw : Kwargs)
    (draw : ℕ → ℕ → ℝ) {i j : ℕ} (hi : i < d.slm.Ny) (hj : j < d.slm.Nx) :
    (1 / 2 < A i j → A i j ≤ 1 → firstOrder d φin i j (fun c =>
      mirror (d.setDmdGratingState h amp pin (.num (.real c)) "simple" kw draw).effect i j) =
        Real.sqrt (1 - (1 / A i j - 1) ^ 2) / Real.pi) ∧
    (A i j ≤ 1 / 2 → firstOrder d φin i j (fun c =>
      mirror (d.setDmdGratingState h amp pin (.num (.real c)) "simple" kw draw).effect i j) = 0) := by
  classical
  have hval : ∀ c, mirror (d.setDmdGratingState h amp pin (.num (.real c)) "simple" kw draw).effect i j =
      if 1 / 2 < A i j * (Real.cos (d.detuning φin (fun _ _ => c) i j) / 2 + 1 / 2) then 1 else 0 := by
    intro c
    obtain ⟨-, ⟨t, h1, h2, h3⟩, -⟩ := setGrating_eq (gratingArgs_num g c) kw draw
    rw [h1]
    simp only [mirror]
    rw [h3 i hi j hj]
    have := simplePixel_iff d hp A φin (fun _ _ => c) i j
    by_cases hc : 1 / 2 < A i j * (Real.cos (d.detuning φin (fun _ _ => c) i j) / 2 + 1 / 2)
    · rw [if_pos hc, if_pos (this.mpr hc)]
    · rw [if_neg hc, if_neg (fun h => hc (this.mp h))]
  rw [firstOrder_eq (F := fun t => if 1 / 2 < A i j * (Real.cos t / 2 + 1 / 2) then 1 else 0) d φin i j hval (fun t => by
    simp only [Real.cos_add_two_pi])]
  refine ⟨fun h0 h1 => ?_, fun h0 => ?_⟩
  · rw [intervalIntegral.integral_congr (g := fun t : ℝ => (rect (Real.arccos (1 / A i j - 1)) t : ℂ) * cexp (I * t))]
    · rw [integral_rect (Real.arccos_nonneg _) (Real.arccos_le_pi _), Real.sin_arccos]
      have hpi : (Real.pi : ℂ) ≠ 0 := by exact_mod_cast Real.pi_pos.ne'
      field_simp
    · intro t ht
      rw [Set.uIcc_of_le (by have := Real.pi_pos; linarith)] at ht
      simp only [rect]
      rw [if_congr (simple_rect h0 h1 (abs_le.mpr ht)) rfl rfl]
  · have : ∀ t : ℝ, ¬ 1 / 2 < A i j * (Real.cos t / 2 + 1 / 2) := by
      intro t
      have h1 := cos_half_nonneg t
      have h2 := cos_half_le_one t
      nlinarith
    simp only [if_neg (this _), Complex.ofReal_zero, zero_mul, intervalIntegral.integral_zero, mul_zero]

/-- The hypotheses of C90 hold for the arguments of `exGratingArgs` with `phase_out = 0`; its amplitudes lie in
`[0, 1/2]`, and those of the second array in `(1/2, 1]`. -/
example (h : Profile.Heap) : (∃ amp, GratingArgs exGrating h amp (.num (.real 0)) (.num (.real 0))
      (fun i j => ((i : ℝ) + j) / 8) (fun _ _ => 0) (fun _ _ => 0)) ∧
    (∃ amp, GratingArgs exGrating h amp (.num (.real 0)) (.num (.real 0))
      (fun _ j => ((j : ℝ) + 5) / 8) (fun _ _ => 0) (fun _ _ => 0)) ∧ exGrating.p ≠ 0 ∧
    ∀ j < 4, 1 / 2 < ((j : ℕ) + 5 : ℝ) / 8 ∧ ((j : ℕ) + 5 : ℝ) / 8 ≤ 1 := by
  refine ⟨⟨_, gratingArgs_num (exGratingArgs h) 0⟩, ⟨.ndarray .real ⟨.mat 2 4, fun _ j => (((j + 5) / 8 : ℝ) : ℂ)⟩,
    ⟨⟨_, rfl, rfl, fun i _ j _ => ?_⟩, (exGratingArgs h).phaseIn, (gratingArgs_num (exGratingArgs h) 0).phaseOut⟩⟩,
    by norm_num [exGrating, DMD.new], fun j hj => ?_⟩
  · simp [castTo, Tensor.map, Tensor.at_]
  · have h1 : (j : ℝ) ≤ 3 := by exact_mod_cast (by omega : j ≤ 3)
    have h2 : (0 : ℝ) ≤ j := Nat.cast_nonneg j
    constructor <;> linarith

end PySLM2.DMD
