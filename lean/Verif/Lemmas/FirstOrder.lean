import Verif.Spec.FirstOrder
import Verif.Lemmas.Grating
import Mathlib.Analysis.SpecialFunctions.Integrals.Basic
import Mathlib.MeasureTheory.Integral.IntervalIntegral.Periodic
import Mathlib.MeasureTheory.Integral.DominatedConvergence

/-!
# Lemmas on first order amplitudes
-/

noncomputable section

open Complex MeasureTheory Filter Topology

namespace PySLM2.DMD

open Lib

/-- Averaging over `phase_out` is averaging over the detuning. -/
theorem firstOrder_eq (d : DMD) (φin : ℕ → ℕ → ℝ) (i j : ℕ) {f F : ℝ → ℝ}
    (hf : ∀ c, f c = F (d.detuning φin (fun _ _ => c) i j)) (hF : Function.Periodic F (2 * Real.pi)) :
    firstOrder d φin i j f = 1 / (2 * Real.pi) * ∫ t in (-Real.pi)..Real.pi, (F t : ℂ) * cexp (I * t) := by
  unfold firstOrder
  congr 1
  have hper : Function.Periodic (fun t : ℝ => (F t : ℂ) * cexp (I * t)) (2 * Real.pi) := by
    intro t
    simp only
    rw [hF t]
    congr 1
    push_cast
    rw [mul_add, Complex.exp_add, show I * (2 * (Real.pi : ℂ)) = 2 * Real.pi * I by ring, Complex.exp_two_pi_mul_I, mul_one]
  set δ := d.detuning φin (fun _ _ => 0) i j with hδ
  have e : ∀ a : ℝ, ∫ t in a..(a + 2 * Real.pi), (F t : ℂ) * cexp (I * t) =
      ∫ t in (-Real.pi)..Real.pi, (F t : ℂ) * cexp (I * t) := by
    intro a
    have := hper.intervalIntegral_add_eq a (-Real.pi)
    rw [show -Real.pi + 2 * Real.pi = Real.pi by ring] at this
    exact this
  by_cases hn : d.neg
  · have h1 : ∀ c : ℝ, d.detuning φin (fun _ _ => c) i j = δ + c := by
      intro c; rw [hδ]; unfold detuning; simp only [hn, if_true]; ring
    rw [intervalIntegral.integral_congr (g := fun c : ℝ => (fun t : ℝ => (F t : ℂ) * cexp (I * t)) (δ + c))
      (fun c _ => by simp only; rw [hf, h1])]
    rw [intervalIntegral.integral_comp_add_left (fun t : ℝ => (F t : ℂ) * cexp (I * t)), ← e (δ + -Real.pi)]
    congr 1
    ring
  · have h1 : ∀ c : ℝ, d.detuning φin (fun _ _ => c) i j = δ - c := by
      intro c; rw [hδ]; unfold detuning; simp only [hn]; simp; ring
    rw [intervalIntegral.integral_congr (g := fun c : ℝ => (fun t : ℝ => (F t : ℂ) * cexp (I * t)) (δ - c))
      (fun c _ => by simp only; rw [hf, h1])]
    rw [intervalIntegral.integral_comp_sub_left (fun t : ℝ => (F t : ℂ) * cexp (I * t)), ← e (δ - Real.pi)]
    congr 1
    ring

/-- A rectangular pulse of half width `w`. -/
def rect (w t : ℝ) : ℝ := if |t| < w then 1 else 0

theorem integral_rect {w : ℝ} (h0 : 0 ≤ w) (h1 : w ≤ Real.pi) :
    ∫ t in (-Real.pi)..Real.pi, (rect w t : ℂ) * cexp (I * t) = 2 * Real.sin w := by
  have hpi := Real.pi_pos
  have h2 : ∫ t in (-Real.pi)..Real.pi, (rect w t : ℂ) * cexp (I * t) = ∫ t in (-w)..w, cexp (I * t) := by
    rw [intervalIntegral.integral_of_le (by linarith), intervalIntegral.integral_of_le (by linarith),
      integral_Ioc_eq_integral_Ioo, integral_Ioc_eq_integral_Ioo]
    have : (fun t : ℝ => (rect w t : ℂ) * cexp (I * t)) = (Set.Ioo (-w) w).indicator fun t : ℝ => cexp (I * t) := by
      funext t
      unfold rect Set.indicator
      simp only [Set.mem_Ioo, ← abs_lt]
      split_ifs <;> simp
    rw [this, setIntegral_indicator measurableSet_Ioo, Set.inter_eq_right.mpr]
    exact Set.Ioo_subset_Ioo (by linarith) h1
  rw [h2, integral_exp_mul_complex I_ne_zero]
  rw [Complex.ofReal_sin, Complex.sin]
  push_cast
  rw [mul_comm I, mul_comm I, div_eq_iff I_ne_zero]
  have := I_mul_I
  linear_combination (cexp (-(w : ℂ) * I) - cexp ((w : ℂ) * I)) * (-1 : ℂ) * (this)

theorem tendsto_tanh : Tendsto Real.tanh atTop (𝓝 1) := by
  have h : ∀ x, Real.tanh x = 1 - 2 / (Real.exp (2 * x) + 1) := by
    intro x
    rw [Real.tanh_eq_sinh_div_cosh, Real.sinh_eq, Real.cosh_eq]
    have h1 := Real.exp_pos x
    rw [Real.exp_neg, two_mul, Real.exp_add]
    field_simp
    ring
  have h2 : Tendsto (fun x : ℝ => 1 - 2 / (Real.exp (2 * x) + 1)) atTop (𝓝 (1 - 0)) := by
    refine tendsto_const_nhds.sub (Tendsto.const_div_atTop ?_ 2)
    exact tendsto_atTop_add_const_right _ _ (Real.tendsto_exp_atTop.comp (tendsto_id.const_mul_atTop (by norm_num)))
  rw [sub_zero] at h2
  exact h2.congr fun x => (h x).symm

theorem tendsto_tanh_mul {c : ℝ} (hc : 0 < c) : Tendsto (fun r : ℝ => Real.tanh (r * c)) atTop (𝓝 1) :=
  tendsto_tanh.comp (tendsto_id.atTop_mul_const hc)

theorem tendsto_tanh_mul_neg {c : ℝ} (hc : c < 0) : Tendsto (fun r : ℝ => Real.tanh (r * c)) atTop (𝓝 (-1)) := by
  have := (tendsto_tanh_mul (neg_pos.mpr hc)).neg
  refine this.congr fun r => ?_
  rw [mul_neg, Real.tanh_neg, neg_neg]

/-- The smoothed pulse of method `random` as a function of the detuning. -/
def pulse (r w t : ℝ) : ℝ :=
  (Real.tanh (r * (Real.arccos (Real.cos t) + w)) - Real.tanh (r * (Real.arccos (Real.cos t) - w))) / 2

theorem pulse_periodic (r w : ℝ) : Function.Periodic (pulse r w) (2 * Real.pi) := by
  intro t
  unfold pulse
  rw [Real.cos_add_two_pi]

theorem arccos_cos_abs {t : ℝ} (h : |t| ≤ Real.pi) : Real.arccos (Real.cos t) = |t| := by
  rw [← Real.cos_abs, Real.arccos_cos (abs_nonneg _) h]

theorem abs_pulse_le (r w t : ℝ) : |pulse r w t| ≤ 1 := by
  unfold pulse
  have h1 := tanh_bounds (r * (Real.arccos (Real.cos t) + w))
  have h2 := tanh_bounds (r * (Real.arccos (Real.cos t) - w))
  rw [abs_le]
  constructor <;> linarith

theorem continuous_pulse (r w : ℝ) : Continuous (pulse r w) := by
  have ht : Continuous Real.tanh := by
    have : Real.tanh = fun x => Real.sinh x / Real.cosh x := by funext x; exact Real.tanh_eq_sinh_div_cosh x
    rw [this]
    exact Real.continuous_sinh.div Real.continuous_cosh fun x => (Real.cosh_pos x).ne'
  have hc : Continuous fun t : ℝ => Real.arccos (Real.cos t) := Real.continuous_arccos.comp Real.continuous_cos
  unfold pulse
  exact ((ht.comp ((hc.add continuous_const).const_mul r)).sub (ht.comp ((hc.sub continuous_const).const_mul r))).div_const 2

theorem tendsto_pulse {w t : ℝ} (h0 : 0 ≤ w) (ht : |t| ≤ Real.pi) (hw : |t| ≠ w) :
    Tendsto (fun r => pulse r w t) atTop (𝓝 (rect w t)) := by
  unfold pulse rect
  rw [arccos_cos_abs ht]
  rcases lt_or_gt_of_ne hw with h | h
  · rw [if_pos h]
    have hp : 0 < |t| + w := by have := abs_nonneg t; linarith
    have := ((tendsto_tanh_mul hp).sub (tendsto_tanh_mul_neg (sub_neg.mpr h))).div_const 2
    norm_num at this
    exact this
  · rw [if_neg (by linarith)]
    have hp : 0 < |t| + w := by linarith
    have := ((tendsto_tanh_mul hp).sub (tendsto_tanh_mul (sub_pos.mpr h))).div_const 2
    norm_num at this
    exact this

/-- In the limit of sharp edges the pulse has the first order amplitude of the rectangular pulse. -/
theorem tendsto_integral_pulse {w : ℝ} (h0 : 0 ≤ w) (h1 : w ≤ Real.pi) :
    Tendsto (fun r => ∫ t in (-Real.pi)..Real.pi, (pulse r w t : ℂ) * cexp (I * t)) atTop (𝓝 (2 * Real.sin w : ℂ)) := by
  have hpi := Real.pi_pos
  rw [← integral_rect h0 h1]
  refine intervalIntegral.tendsto_integral_filter_of_dominated_convergence (fun _ => 1) ?_ ?_ ?_ ?_
  · refine Eventually.of_forall fun r => ?_
    refine Continuous.aestronglyMeasurable ?_
    exact (Complex.continuous_ofReal.comp (continuous_pulse r w)).mul
      (Complex.continuous_exp.comp (continuous_const.mul Complex.continuous_ofReal))
  · refine Eventually.of_forall fun r => Eventually.of_forall fun t _ => ?_
    rw [norm_mul, mul_comm I, Complex.norm_exp_ofReal_mul_I, mul_one, Complex.norm_real, Real.norm_eq_abs]
    exact abs_pulse_le r w t
  · exact intervalIntegrable_const
  · have hcount : ∀ᵐ t : ℝ, t ∉ ({w, -w} : Set ℝ) := by
      refine (Set.Countable.ae_notMem ?_ _)
      exact (Set.toFinite _).countable
    filter_upwards [hcount] with t ht hmem
    rw [Set.uIoc_of_le (by linarith)] at hmem
    have ha : |t| ≤ Real.pi := abs_le.mpr ⟨by linarith [hmem.1], hmem.2⟩
    have hw : |t| ≠ w := by
      intro h
      apply ht
      rcases abs_choice t with h2 | h2
      · left; rw [← h, h2]
      · right; show t = -w; rw [← h, h2]; ring
    refine Tendsto.mul_const _ ?_
    exact (Complex.continuous_ofReal.tendsto _).comp (tendsto_pulse h0 ha hw)

/-- Mean over a uniform draw of the indicator of being below `D`. -/
theorem mean_below {D : ℝ} (h0 : 0 ≤ D) (h1 : D ≤ 1) (p : ℝ → Prop) [DecidablePred p] (hp : ∀ u, 0 ≤ u → u < 1 → (p u ↔ u < D)) :
    ∫ u in (0 : ℝ)..1, (if p u then (1 : ℝ) else 0) = D := by
  rw [intervalIntegral.integral_of_le (by norm_num), integral_Ioc_eq_integral_Ioo]
  have : Set.EqOn (fun u : ℝ => if p u then (1 : ℝ) else 0) ((Set.Iio D).indicator fun _ => 1) (Set.Ioo 0 1) := by
    intro u hu
    simp only [Set.indicator, Set.mem_Iio]
    have := hp u hu.1.le hu.2
    by_cases h : u < D
    · rw [if_pos (this.mpr h), if_pos h]
    · rw [if_neg (fun hc => h (this.mp hc)), if_neg h]
  rw [setIntegral_congr_fun measurableSet_Ioo this, setIntegral_indicator measurableSet_Iio]
  have h2 : Set.Ioo (0 : ℝ) 1 ∩ Set.Iio D = Set.Ioo 0 D := by
    ext u
    simp only [Set.mem_inter_iff, Set.mem_Ioo, Set.mem_Iio]
    constructor
    · rintro ⟨⟨a, b⟩, c⟩; exact ⟨a, c⟩
    · rintro ⟨a, b⟩; exact ⟨⟨a, by linarith⟩, b⟩
  rw [h2]
  simp [h0]

/-- The threshold of method `simple` is a rectangular pulse. -/
theorem simple_rect {a t : ℝ} (ha : 1 / 2 < a) (h1 : a ≤ 1) (ht : |t| ≤ Real.pi) :
    1 / 2 < a * (Real.cos t / 2 + 1 / 2) ↔ |t| < Real.arccos (1 / a - 1) := by
  have ha0 : 0 < a := by linarith
  have h2 : 1 ≤ 1 / a := by rw [le_div_iff₀ ha0]; linarith
  have h3 : 1 / a < 2 := by rw [div_lt_iff₀ ha0]; linarith
  have e : 1 / 2 < a * (Real.cos t / 2 + 1 / 2) ↔ 1 / a - 1 < Real.cos t := by
    constructor
    · intro h
      have : 1 / a < Real.cos t + 1 := by rw [div_lt_iff₀ ha0]; nlinarith
      linarith
    · intro h
      have : 1 / a < Real.cos t + 1 := by linarith
      rw [div_lt_iff₀ ha0] at this
      nlinarith
  rw [e, ← Real.cos_abs t]
  conv_lhs => rw [← Real.cos_arccos (x := 1 / a - 1) (by linarith) (by linarith)]
  constructor
  · intro h
    by_contra hc
    exact absurd h (not_lt.mpr (Real.cos_le_cos_of_nonneg_of_le_pi (Real.arccos_nonneg _) ht (not_lt.mp hc)))
  · intro h
    exact Real.cos_lt_cos_of_nonneg_of_le_pi (abs_nonneg _) (Real.arccos_le_pi _) h

end PySLM2.DMD
