import Verif.Lemmas.LaguerreOrtho
import Verif.Props.Modes

/-!
# C91, C92: the overlap of two modes
-/

noncomputable section

open MeasureTheory Complex
open scoped Nat

namespace PySLM2.Profile

/-- The value of a profile as a complex function. -/
def cplxValue (r : Heap × Prof) (x y : ℝ) : ℂ := (eval r.1 r.2 x y).getD 0

/-- The overlap `∫∫ E(x, y) conj(E'(x, y)) dx dy` of two profiles; for `E' = E` this is the power of the beam. -/
def overlap (r r' : Heap × Prof) : ℂ :=
  ∫ z : ℝ × ℝ, cplxValue r z.1 z.2 * (starRingEnd ℂ) (cplxValue r' z.1 z.2)

/-- **C91.** Two Hermite-Gaussian modes with the same centre and waist overlap only if both indices agree, and then the
overlap is `a a' 2^(n+m) n! m! π w²/2` (the power of the beam for `a' = a`). -/
theorem C91_hermite (h : Heap) (x0 y0 a a' w : ℝ) (hw : w ≠ 0) (n m n' m' : ℕ) {r r' : Heap × Prof}
    (hr : New.run h (.hg x0 y0 a w n m) = .ok r) (hr' : New.run h (.hg x0 y0 a' w n' m') = .ok r') :
    overlap r r' = if n = n' ∧ m = m' then
      ((a * a' * 2 ^ (n + m) * (n ! : ℝ) * (m ! : ℝ) * (Real.pi * w ^ 2 / 2) : ℝ) : ℂ) else 0 := by
  have val : ∀ {a : ℝ} {n m : ℕ} {r : Heap × Prof}, New.run h (.hg x0 y0 a w n m) = .ok r → ∀ x y,
      cplxValue r x y = (Spec.hermiteGauss x0 y0 a w n m x y : ℂ) := by
    intro a n m r hr x y
    unfold cplxValue
    rw [C56_formula h x0 y0 a w n m hw hr x y, Option.getD_some]
  unfold overlap
  have e : ∀ z : ℝ × ℝ, cplxValue r z.1 z.2 * (starRingEnd ℂ) (cplxValue r' z.1 z.2) =
      ((a * a' * ((Spec.rodrigues n (√2 * (z.1 - x0) / w) * Spec.rodrigues n' (√2 * (z.1 - x0) / w) *
        Real.exp (-(2 * (z.1 - x0) ^ 2 / w ^ 2))) * (Spec.rodrigues m (√2 * (z.2 - y0) / w) *
        Spec.rodrigues m' (√2 * (z.2 - y0) / w) * Real.exp (-(2 * (z.2 - y0) ^ 2 / w ^ 2)))) : ℝ) : ℂ) := by
    intro z
    rw [val hr, val hr', Complex.conj_ofReal, ← ofReal_mul]
    congr 1
    unfold Spec.hermiteGauss
    have he : Real.exp (-((z.1 - x0) ^ 2 + (z.2 - y0) ^ 2) / w ^ 2) * Real.exp (-((z.1 - x0) ^ 2 + (z.2 - y0) ^ 2) / w ^ 2) =
        Real.exp (-(2 * (z.1 - x0) ^ 2 / w ^ 2)) * Real.exp (-(2 * (z.2 - y0) ^ 2 / w ^ 2)) := by
      rw [← Real.exp_add, ← Real.exp_add]
      congr 1
      ring
    linear_combination (a * Spec.rodrigues n (√2 * (z.1 - x0) / w) * Spec.rodrigues m (√2 * (z.2 - y0) / w) *
      (a' * Spec.rodrigues n' (√2 * (z.1 - x0) / w) * Spec.rodrigues m' (√2 * (z.2 - y0) / w))) * he
  simp only [e]
  rw [integral_complex_ofReal, integral_const_mul, Measure.volume_eq_prod,
    integral_prod_mul (fun x => Spec.rodrigues n (√2 * (x - x0) / w) * Spec.rodrigues n' (√2 * (x - x0) / w) *
        Real.exp (-(2 * (x - x0) ^ 2 / w ^ 2))) (fun y => Spec.rodrigues m (√2 * (y - y0) / w) *
        Spec.rodrigues m' (√2 * (y - y0) / w) * Real.exp (-(2 * (y - y0) ^ 2 / w ^ 2))),
    hermite_ortho_scaled hw, hermite_ortho_scaled hw]
  by_cases h1 : n = n' <;> by_cases h2 : m = m'
  · rw [if_pos h1, if_pos h2, if_pos ⟨h1, h2⟩]
    congr 1
    have s2 : √(2 : ℝ) * √2 = 2 := Real.mul_self_sqrt (by norm_num)
    have sp : √Real.pi * √Real.pi = Real.pi := Real.mul_self_sqrt Real.pi_pos.le
    have sw : |w| * |w| = w ^ 2 := by rw [abs_mul_abs_self, sq]
    have h20 : √(2 : ℝ) ≠ 0 := by positivity
    rw [← sw]
    rw [show |w| / √2 = |w| * √2 / 2 by rw [div_eq_div_iff h20 two_ne_zero, mul_assoc, s2], pow_add]
    linear_combination (a * a' * (|w| / 2) * (2 ^ n * (n ! : ℝ) * √Real.pi) * ((|w| / 2) * (2 ^ m * (m ! : ℝ) * √Real.pi))) * s2 +
      (a * a' * (|w| * |w| / 2) * (2 ^ n * (n ! : ℝ)) * (2 ^ m * (m ! : ℝ))) * sp
  all_goals simp [h1, h2]

/-- C91: the modes exist. -/
example (h : Heap) : (∃ r, New.run h (.hg 1 2 1 (1/2) 2 3) = .ok r) ∧ ∃ r, New.run h (.hg 1 2 1 (1/2) 3 3) = .ok r :=
  ⟨⟨_, rfl⟩, ⟨_, rfl⟩⟩

/-- **C92.** Two Laguerre-Gaussian modes with the same centre and waist overlap only if both indices agree, and then the
overlap is `a a' (p+|l|)!/p! π w²/2` (the power of the beam for `a' = a`). -/
theorem C92_laguerre (h : Heap) (x0 y0 a a' w : ℝ) (hw : w ≠ 0) (l l' : ℤ) (p p' : ℕ) {r r' : Heap × Prof}
    (hr : New.run h (.lg x0 y0 a w l p) = .ok r) (hr' : New.run h (.lg x0 y0 a' w l' p') = .ok r') :
    overlap r r' = if l = l' ∧ p = p' then
      ((a * a' * (((p + l.natAbs)! : ℝ) / (p ! : ℝ)) * (Real.pi * w ^ 2 / 2) : ℝ) : ℂ) else 0 := by
  injection hr with hr
  injection hr' with hr'
  subst hr hr'
  have hb : (0 : ℝ) < 2 / w ^ 2 := by positivity
  -- the radial and the angular part of a mode
  have val : ∀ (a : ℝ) (l : ℤ) (p : ℕ) (ρ t : ℝ), 0 < ρ → t ∈ Set.Ioo (-Real.pi) Real.pi →
      cplxValue (newLaguerreGaussian h x0 y0 a w l p) (ρ * Real.cos t + x0) (ρ * Real.sin t + y0) =
      ((a * (√2 * ρ / w) ^ l.natAbs * Real.exp (-ρ ^ 2 / w ^ 2) * polyval (genlaguerreCoef p l.natAbs) (2 / w ^ 2 * ρ ^ 2) : ℝ) : ℂ)
        * cexp (-I * l * t) := by
    intro a l p ρ t hρ ht
    unfold cplxValue
    rw [eval_newLg]
    have hsq : (ρ * Real.cos t) ^ 2 + (ρ * Real.sin t) ^ 2 = ρ ^ 2 := by
      have := Real.sin_sq_add_cos_sq t
      linear_combination ρ ^ 2 * this
    have harg : atan2 (ρ * Real.sin t) (ρ * Real.cos t) = t := by
      unfold atan2
      have e : (⟨ρ * Real.cos t, ρ * Real.sin t⟩ : ℂ) = (ρ : ℂ) * (Complex.cos t + Complex.sin t * Complex.I) := by
        rw [← ofReal_cos, ← ofReal_sin]
        apply Complex.ext
        · simp [-ofReal_cos, -ofReal_sin]
        · simp [-ofReal_cos, -ofReal_sin]
      rw [e, Complex.arg_mul_cos_add_sin_mul_I hρ ⟨ht.1, ht.2.le⟩]
    simp only [lgFunc, if_neg hw, add_sub_cancel_right, hsq, harg, Real.sqrt_sq hρ.le, Option.getD_some]
    rw [show 2 * ρ ^ 2 / w ^ 2 = 2 / w ^ 2 * ρ ^ 2 by ring]
  unfold overlap
  rw [← integral_add_right_eq_self (μ := (volume : Measure (ℝ × ℝ))) _ ((x0, y0) : ℝ × ℝ)]
  rw [plane_integral
    (fun ρ => (((a * (√2 * ρ / w) ^ l.natAbs * Real.exp (-ρ ^ 2 / w ^ 2) * polyval (genlaguerreCoef p l.natAbs) (2 / w ^ 2 * ρ ^ 2)) *
      (a' * (√2 * ρ / w) ^ l'.natAbs * Real.exp (-ρ ^ 2 / w ^ 2) * polyval (genlaguerreCoef p' l'.natAbs) (2 / w ^ 2 * ρ ^ 2)) : ℝ) : ℂ))
    (fun t => cexp (I * ((l' - l : ℤ) : ℂ) * t)) _ (by
      intro ρ t hρ ht
      simp only [Prod.mk_add_mk]
      rw [val a l p ρ t hρ ht, val a' l' p' ρ t hρ ht, map_mul, Complex.conj_ofReal, ← exp_conj]
      have : (starRingEnd ℂ) (-I * l' * t) = I * l' * t := by simp
      rw [this, mul_mul_mul_comm, ← Complex.exp_add, ← ofReal_mul]
      congr 2
      push_cast
      ring)]
  rw [angular_integral]
  by_cases hl : l = l'
  · subst hl
    rw [sub_self, if_pos rfl]
    have e : ∀ ρ : ℝ, (ρ : ℂ) * (((a * (√2 * ρ / w) ^ l.natAbs * Real.exp (-ρ ^ 2 / w ^ 2) * polyval (genlaguerreCoef p l.natAbs) (2 / w ^ 2 * ρ ^ 2)) *
      (a' * (√2 * ρ / w) ^ l.natAbs * Real.exp (-ρ ^ 2 / w ^ 2) * polyval (genlaguerreCoef p' l.natAbs) (2 / w ^ 2 * ρ ^ 2)) : ℝ) : ℂ) =
      ((a * a' * (ρ * ((2 / w ^ 2 * ρ ^ 2) ^ l.natAbs * Real.exp (-(2 / w ^ 2 * ρ ^ 2)) *
        (polyval (genlaguerreCoef p l.natAbs) (2 / w ^ 2 * ρ ^ 2) * polyval (genlaguerreCoef p' l.natAbs) (2 / w ^ 2 * ρ ^ 2)))) : ℝ) : ℂ) := by
      intro ρ
      rw [← ofReal_mul]
      congr 1
      have h1 : (√2 * ρ / w) ^ l.natAbs * (√2 * ρ / w) ^ l.natAbs = (2 / w ^ 2 * ρ ^ 2) ^ l.natAbs := by
        rw [← mul_pow]
        congr 1
        have s2 : √(2 : ℝ) * √2 = 2 := Real.mul_self_sqrt (by norm_num)
        field_simp
        linear_combination ρ ^ 2 * s2
      have h2 : Real.exp (-ρ ^ 2 / w ^ 2) * Real.exp (-ρ ^ 2 / w ^ 2) = Real.exp (-(2 / w ^ 2 * ρ ^ 2)) := by
        rw [← Real.exp_add]
        congr 1
        ring
      rw [← h1, ← h2]
      ring
    simp only [e]
    rw [integral_complex_ofReal, integral_const_mul, laguerre_radial hb]
    by_cases hp : p = p'
    · rw [if_pos hp, if_pos ⟨trivial, hp⟩]
      have : ((2 : ℂ) * Real.pi) = ((2 * Real.pi : ℝ) : ℂ) := by push_cast; rfl
      rw [this]
      rw [← ofReal_mul]
      congr 1
      have : ((p ! : ℕ) : ℝ) ≠ 0 := by exact_mod_cast (Nat.factorial_pos p).ne'
      field_simp
    · simp [hp]
  · have : l' - l ≠ 0 := sub_ne_zero.mpr (Ne.symm hl)
    rw [if_neg this, mul_zero, if_neg fun h => hl h.1]

/-- C92: the modes exist. -/
example (h : Heap) : (∃ r, New.run h (.lg 1 2 1 (1/2) (-2) 3) = .ok r) ∧ ∃ r, New.run h (.lg 1 2 1 (1/2) 2 3) = .ok r :=
  ⟨⟨_, rfl⟩, ⟨_, rfl⟩⟩

end PySLM2.Profile
