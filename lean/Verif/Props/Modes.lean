import Verif.Lemmas.Modes
import Verif.Spec.ProfileHistory
import Mathlib.Analysis.SpecialFunctions.Complex.Arg

/-!
# Beam profiles and windows (properties C56–C59, C63)
-/

noncomputable section

open Complex

namespace PySLM2.Profile

/-! ## C56 -/

/-- **C56.** A freshly constructed `HermiteGaussian` follows the documented formula. -/
theorem C56_formula (h : Heap) (x0 y0 a w : ℝ) (n m : ℕ) (hw : w ≠ 0) {r : Heap × Prof}
    (hr : New.run h (.hg x0 y0 a w n m) = .ok r) (x y : ℝ) :
    eval r.1 r.2 x y = some (Spec.hermiteGauss x0 y0 a w n m x y : ℂ) := by
  injection hr with hr
  subst hr
  rw [eval_newHg, hgFunc_eq hw, Option.map_some]

/-- **C56.** The same formula with the current values of the parameters, whatever assignments were made. -/
theorem C56_current (h : Heap) (x0 y0 a w n m : ℕ) (hw : h.re w ≠ 0) (x y : ℝ) :
    eval h (.hg x0 y0 a w n m) x y =
      some (Spec.hermiteGauss (h.re x0) (h.re y0) (h.re a) (h.re w) n m x y : ℂ) := by
  rw [eval, hgFunc_eq hw, Option.map_some]

/-- **C56.** Mirroring about the centre multiplies by the parity of the order. -/
theorem C56_parity (x0 y0 a w : ℝ) (n m : ℕ) (dx dy : ℝ) :
    Spec.hermiteGauss x0 y0 a w n m (x0 - dx) (y0 + dy) = (-1) ^ n * Spec.hermiteGauss x0 y0 a w n m (x0 + dx) (y0 + dy) ∧
    Spec.hermiteGauss x0 y0 a w n m (x0 + dx) (y0 - dy) = (-1) ^ m * Spec.hermiteGauss x0 y0 a w n m (x0 + dx) (y0 + dy) := by
  have e : ∀ t u : ℝ, √2 * (t - u - t) / w = -(√2 * (t + u - t) / w) := fun t u => by ring
  have e2 : ∀ t u : ℝ, (t - u - t) ^ 2 = (t + u - t) ^ 2 := fun t u => by ring
  unfold Spec.hermiteGauss
  simp only [← hermiteFun_rodrigues]
  rw [e, e, e2, e2, hermiteFun_neg, hermiteFun_neg]
  constructor <;> ring

/-- C56: a third-order mode. -/
example (h : Heap) : ∃ r, New.run h (.hg 1 2 3 4 3 0) = .ok r ∧ (4 : ℝ) ≠ 0 := ⟨_, rfl, by norm_num⟩

/-! ## C57 -/

/-- **C57.** The three fundamental modes are the same function, bounded by the amplitude, which is attained only at
the centre; at distance `w` it is `a/e`. -/
theorem C57_fundamental (h : Heap) (x0 y0 a w : ℝ) (hw : w ≠ 0) {r₁ r₂ r₃ : Heap × Prof}
    (h₁ : New.run h (.hg x0 y0 a w 0 0) = .ok r₁) (h₂ : New.run h (.sg x0 y0 a w 1) = .ok r₂)
    (h₃ : New.run h (.lg x0 y0 a w 0 0) = .ok r₃) :
    (∀ x y, eval r₁.1 r₁.2 x y = eval r₂.1 r₂.2 x y ∧ eval r₂.1 r₂.2 x y = eval r₃.1 r₃.2 x y) ∧
      ∀ x y, ∃ v : ℝ, eval r₁.1 r₁.2 x y = some (v : ℂ) ∧ |v| ≤ |a| ∧
        (a ≠ 0 → (|v| = |a| ↔ x = x0 ∧ y = y0)) ∧ (x = x0 ∧ y = y0 → v = a) ∧
        ((x - x0) ^ 2 + (y - y0) ^ 2 = w ^ 2 → v = a / Real.exp 1) := by
  injection h₁ with h₁
  injection h₂ with h₂
  injection h₃ with h₃
  subst h₁ h₂ h₃
  have g : ∀ x y : ℝ, ((x - x0) / w) ^ 2 + ((y - y0) / w) ^ 2 = ((x - x0) ^ 2 + (y - y0) ^ 2) / w ^ 2 := by
    intro x y
    field_simp
  have e1 : ∀ x y, hgFunc x0 y0 a w 0 0 x y = some (a * Real.exp (-(((x - x0) ^ 2 + (y - y0) ^ 2) / w ^ 2))) := by
    intro x y
    simp only [hgFunc, if_neg hw, polyval_hermite, hermiteFun, physHermite, map_one, g, mul_one]
  have e2 : ∀ x y, sgFunc x0 y0 a w 1 x y = some (a * Real.exp (-(((x - x0) ^ 2 + (y - y0) ^ 2) / w ^ 2))) := by
    intro x y
    simp only [sgFunc, if_neg hw, g]
    rw [powReal_one (by positivity), Option.map_some]
  have e3 : ∀ x y, lgFunc x0 y0 a w 0 0 x y = some ((a * Real.exp (-(((x - x0) ^ 2 + (y - y0) ^ 2) / w ^ 2)) : ℝ) : ℂ) := by
    intro x y
    have hp : ∀ t, polyval (genlaguerreCoef 0 0) t = 1 := by intro t; simp [genlaguerreCoef, polyval]
    simp only [lgFunc, if_neg hw, Int.natAbs_zero, hp, pow_zero, mul_one, Int.cast_zero, mul_zero, zero_mul,
      Complex.exp_zero, neg_div]
  refine ⟨fun x y => ⟨?_, ?_⟩, fun x y => ⟨a * Real.exp (-(((x - x0) ^ 2 + (y - y0) ^ 2) / w ^ 2)), ?_, ?_, ?_, ?_, ?_⟩⟩
  · rw [eval_newHg, eval_newSg, e1, e2]
  · rw [eval_newSg, eval_newLg, e2, e3, Option.map_some]
  · rw [eval_newHg, e1, Option.map_some]
  · rw [abs_mul, Real.abs_exp]
    refine mul_le_of_le_one_right (abs_nonneg _) (Real.exp_le_one_iff.mpr ?_)
    have : 0 ≤ ((x - x0) ^ 2 + (y - y0) ^ 2) / w ^ 2 := by positivity
    linarith
  · intro ha
    rw [abs_mul, Real.abs_exp]
    have ha' : |a| ≠ 0 := abs_ne_zero.mpr ha
    constructor
    · intro he
      have h1 : Real.exp (-(((x - x0) ^ 2 + (y - y0) ^ 2) / w ^ 2)) = 1 := mul_left_cancel₀ ha' (by rw [he, mul_one])
      rw [Real.exp_eq_one_iff, neg_eq_zero, div_eq_zero_iff] at h1
      rcases h1 with h1 | h1
      · have h2 : (x - x0) ^ 2 = 0 := by nlinarith [sq_nonneg (x - x0), sq_nonneg (y - y0)]
        have h3 : (y - y0) ^ 2 = 0 := by nlinarith [sq_nonneg (x - x0), sq_nonneg (y - y0)]
        exact ⟨sub_eq_zero.mp (pow_eq_zero_iff two_ne_zero |>.mp h2), sub_eq_zero.mp (pow_eq_zero_iff two_ne_zero |>.mp h3)⟩
      · exact absurd h1 (pow_ne_zero 2 hw)
    · rintro ⟨rfl, rfl⟩
      simp
  · rintro ⟨rfl, rfl⟩
    simp
  · intro hd
    rw [hd, div_self (pow_ne_zero 2 hw), Real.exp_neg]
    rfl

/-- **C57.** For every power `p`, the super-Gaussian has the value `a/e` at distance `w`. -/
theorem C57_super (h : Heap) (x0 y0 a w p : ℝ) (hw : w ≠ 0) {r : Heap × Prof}
    (hr : New.run h (.sg x0 y0 a w p) = .ok r) (x y : ℝ) (hd : (x - x0) ^ 2 + (y - y0) ^ 2 = w ^ 2) :
    eval r.1 r.2 x y = some ((a / Real.exp 1 : ℝ) : ℂ) := by
  injection hr with hr
  subst hr
  have g : ((x - x0) / w) ^ 2 + ((y - y0) / w) ^ 2 = 1 := by
    rw [div_pow, div_pow, ← add_div, hd, div_self (pow_ne_zero 2 hw)]
  rw [eval_newSg]
  simp only [sgFunc, if_neg hw, g, powReal, if_pos one_pos, Real.one_rpow, Option.map_some, Real.exp_neg]
  rfl

/-- C57: centre at the origin, width 2, a point at distance 2. -/
example : (2 : ℝ) ≠ 0 ∧ ((0 : ℝ) - 0) ^ 2 + (2 - 0) ^ 2 = 2 ^ 2 := by norm_num

/-! ## C58 -/

/-- The phase factor of a vortex. -/
theorem exp_arg (z : ℂ) (hz : z ≠ 0) (l : ℤ) : cexp (-I * l * (Complex.arg z : ℂ)) = (z / ‖z‖) ^ (-l) := by
  have h1 : z / ‖z‖ = cexp (Complex.arg z * I) := by
    have := Complex.norm_mul_exp_arg_mul_I z
    have hn : (‖z‖ : ℂ) ≠ 0 := by exact_mod_cast norm_ne_zero_iff.mpr hz
    rw [div_eq_iff hn, mul_comm]
    exact this.symm
  rw [h1, ← Complex.exp_int_mul]
  congr 1
  push_cast
  ring

/-- **C58.** Index `-l` gives the complex conjugate; the modulus depends on the distance from the centre only; for
`l ≠ 0` the centre is dark. -/
theorem C58_symmetry (h : Heap) (x0 y0 a w : ℝ) (l : ℤ) (p : ℕ) (hw : w ≠ 0) {r r' : Heap × Prof}
    (hr : New.run h (.lg x0 y0 a w l p) = .ok r) (hr' : New.run h (.lg x0 y0 a w (-l) p) = .ok r') :
    (∀ x y, ∃ v, eval r.1 r.2 x y = some v ∧ eval r'.1 r'.2 x y = some (starRingEnd ℂ v)) ∧
      (∀ x y x' y', (x - x0) ^ 2 + (y - y0) ^ 2 = (x' - x0) ^ 2 + (y' - y0) ^ 2 →
        (eval r.1 r.2 x y).map norm = (eval r.1 r.2 x' y').map norm) ∧
      (l ≠ 0 → eval r.1 r.2 x0 y0 = some 0) := by
  injection hr with hr
  injection hr' with hr'
  subst hr hr'
  simp only [eval_newLg]
  have hph : ∀ t : ℝ, ‖cexp (-I * l * t)‖ = 1 := by
    intro t
    have : -I * l * t = ((-(l * t) : ℝ) : ℂ) * I := by push_cast; ring
    rw [this, Complex.norm_exp_ofReal_mul_I]
  refine ⟨fun x y => ?_, fun x y x' y' hd => ?_, fun hl => ?_⟩
  · simp only [lgFunc, if_neg hw, Int.natAbs_neg]
    refine ⟨_, rfl, ?_⟩
    rw [map_mul, Complex.conj_ofReal, ← Complex.exp_conj]
    simp
  · simp only [lgFunc, if_neg hw, Option.map_some, norm_mul, hph, hd]
  · have : l.natAbs ≠ 0 := Int.natAbs_ne_zero.mpr hl
    simp [lgFunc, hw, this]

/-- **C58.** Rotating the profile about its own centre (`shift`, `rotate(t)`, `shift` back) multiplies it by
`exp(-i l t)`. -/
theorem C58_rotation (h : Heap) (x0 y0 a w : ℝ) (l : ℤ) (p : ℕ) (hw : w ≠ 0) {r : Heap × Prof}
    (hr : New.run h (.lg x0 y0 a w l p) = .ok r) (t x y : ℝ) :
    ∃ v, eval r.1 r.2 x y = some v ∧
      eval r.1 (.shift (.rotate (.shift r.2 (-x0) (-y0)) t) x0 y0) x y = some (cexp (-I * l * t) * v) := by
  injection hr with hr
  subst hr
  simp only [eval]
  rw [eval_newLg, eval_newLg]
  simp only [lgFunc, if_neg hw]
  refine ⟨_, rfl, ?_⟩
  set X := x - x0
  set Y := y - y0
  have hr2 : (Real.cos t * X - Real.sin t * Y - -x0 - x0) ^ 2 + (Real.sin t * X + Real.cos t * Y - -y0 - y0) ^ 2 = X ^ 2 + Y ^ 2 := by
    have := Real.sin_sq_add_cos_sq t
    linear_combination (X ^ 2 + Y ^ 2) * this
  rw [hr2]
  by_cases h0 : X = 0 ∧ Y = 0
  · obtain ⟨hX, hY⟩ := h0
    rw [hX, hY]
    by_cases hl : l = 0
    · subst hl; simp
    · have : l.natAbs ≠ 0 := Int.natAbs_ne_zero.mpr hl
      simp [this]
  · set z : ℂ := ⟨X, Y⟩ with hz
    have hz0 : z ≠ 0 := by
      intro h
      exact h0 ⟨congrArg Complex.re h, congrArg Complex.im h⟩
    have hrot : (⟨Real.cos t * X - Real.sin t * Y - -x0 - x0, Real.sin t * X + Real.cos t * Y - -y0 - y0⟩ : ℂ) = cexp (t * I) * z := by
      rw [Complex.exp_mul_I, ← Complex.ofReal_cos, ← Complex.ofReal_sin]
      apply Complex.ext <;> simp [hz, ← Complex.ofReal_cos, ← Complex.ofReal_sin] <;> ring
    have e1 := exp_arg z hz0 l
    have e2 := exp_arg (cexp (t * I) * z) (mul_ne_zero (Complex.exp_ne_zero _) hz0) l
    have hn : ‖cexp (t * I) * z‖ = ‖z‖ := by rw [norm_mul, Complex.norm_exp_ofReal_mul_I, one_mul]
    rw [hn, mul_div_assoc, mul_zpow, ← e1, ← Complex.exp_int_mul] at e2
    have e3 : cexp (((-l : ℤ) : ℂ) * (t * I)) = cexp (-I * l * t) := by
      congr 1
      push_cast
      ring
    rw [e3] at e2
    unfold atan2
    rw [hrot, e2]
    congr 1
    ring

/-- C58: `l = 2`, `p = 1`. -/
example (h : Heap) : (∃ r, New.run h (.lg 0 0 1 2 2 1) = .ok r) ∧ (2 : ℝ) ≠ 0 ∧ (2 : ℤ) ≠ 0 := by
  refine ⟨⟨_, rfl⟩, by norm_num, by norm_num⟩

/-! ## C59 -/

/-- **C59.** The python expression `-1j * (hg01 + 1j * hg10)` is the profile `LaguerreGaussian(l=1)` of twice the
amplitude. -/
theorem C59_first_order (h : Heap) (x0 y0 a w : ℝ) (hw : w ≠ 0) {rl : Heap × Prof} {c₁ c₂ c₃ c₄ d₁ d₂ d₃ d₄ : ℕ}
    {hh : Heap} (hc : hh.re c₁ = x0 ∧ hh.re c₂ = y0 ∧ hh.re c₃ = a ∧ hh.re c₄ = w)
    (hd : hh.re d₁ = x0 ∧ hh.re d₂ = y0 ∧ hh.re d₃ = a ∧ hh.re d₄ = w) {f g e : Prof}
    (hf : pyBinary .mul (.num (.cplx I)) (.prof (.hg d₁ d₂ d₃ d₄ 1 0)) = .ok f)
    (hg : pyBinary .add (.prof (.hg c₁ c₂ c₃ c₄ 0 1)) (.prof f) = .ok g)
    (he : pyBinary .mul (.num (.cplx (-I))) (.prof g) = .ok e)
    (hl : New.run h (.lg x0 y0 (2 * a) w 1 0) = .ok rl) (x y : ℝ) :
    eval hh e x y = eval rl.1 rl.2 x y ∧ (eval rl.1 rl.2 x y).isSome := by
  obtain ⟨hc1, hc2, hc3, hc4⟩ := hc
  obtain ⟨hd1, hd2, hd3, hd4⟩ := hd
  injection hf with hf
  injection hg with hg
  injection he with he
  injection hl with hl
  subst hf hg he hl
  rw [eval_newLg]
  have e10 : hgFunc x0 y0 a w 1 0 x y = some (a * (2 * (√2 * ((x - x0) / w))) * Real.exp (-((x - x0) ^ 2 + (y - y0) ^ 2) / w ^ 2)) := by
    simp only [hgFunc, if_neg hw, polyval_hermite, hermiteFun, physHermite, map_mul, aeval_two, Polynomial.aeval_X, map_one, mul_one]
    congr 3
    field_simp
  have e01 : hgFunc x0 y0 a w 0 1 x y = some (a * (2 * (√2 * ((y - y0) / w))) * Real.exp (-((x - x0) ^ 2 + (y - y0) ^ 2) / w ^ 2)) := by
    simp only [hgFunc, if_neg hw, polyval_hermite, hermiteFun, physHermite, map_mul, aeval_two, Polynomial.aeval_X, map_one, mul_one]
    congr 3
    field_simp
  simp only [eval, hc1, hc2, hc3, hc4, hd1, hd2, hd3, hd4, e10, e01, Option.map_some, applyAttr, PyNum.val, lgFunc, if_neg hw]
  refine ⟨congrArg some ?_, rfl⟩
  have hp : ∀ t, polyval (genlaguerreCoef 0 1) t = 1 := by intro t; simp [genlaguerreCoef, polyval]
  simp only [Int.natAbs_one, hp, pow_one, mul_one, Int.cast_one]
  set X := x - x0
  set Y := y - y0
  set E := Real.exp (-(X ^ 2 + Y ^ 2) / w ^ 2)
  have hz : ((√(X ^ 2 + Y ^ 2) : ℝ) : ℂ) * cexp (-I * (atan2 Y X : ℝ)) = X - Y * I := by
    have h1 := Complex.norm_mul_exp_arg_mul_I (⟨X, Y⟩ : ℂ)
    have h2 : ‖(⟨X, Y⟩ : ℂ)‖ = √(X ^ 2 + Y ^ 2) := by
      rw [Complex.norm_def, Complex.normSq_mk]
      congr 1
      ring
    rw [h2] at h1
    have h3 := congrArg (starRingEnd ℂ) h1
    rw [map_mul, Complex.conj_ofReal, ← Complex.exp_conj] at h3
    simp only [map_mul, Complex.conj_ofReal, Complex.conj_I] at h3
    have h4 : -I * (atan2 Y X : ℝ) = ((Complex.arg ⟨X, Y⟩ : ℝ) : ℂ) * -I := by unfold atan2; ring
    rw [h4, h3]
    apply Complex.ext <;> simp
  have hwc : (w : ℂ) ≠ 0 := by exact_mod_cast hw
  have hx : ((2 * a * (√2 * √(X ^ 2 + Y ^ 2) / w) * E : ℝ) : ℂ) * cexp (-I * (atan2 Y X : ℝ)) =
      2 * a * √2 / w * E * (((√(X ^ 2 + Y ^ 2) : ℝ) : ℂ) * cexp (-I * (atan2 Y X : ℝ))) := by
    push_cast
    ring
  rw [hx, hz]
  push_cast
  linear_combination -(2 * a * √2 / w * E * X) * Complex.I_sq

/-- C59: the two Hermite-Gaussian profiles constructed one after the other. -/
example (h : Heap) (x0 y0 a w : ℝ) :
    let r₁ := newHermiteGaussian h x0 y0 a w 0 1
    let r₂ := newHermiteGaussian r₁.1 x0 y0 a w 1 0
    ∃ c₁ c₂ c₃ c₄ d₁ d₂ d₃ d₄, r₁.2 = .hg c₁ c₂ c₃ c₄ 0 1 ∧ r₂.2 = .hg d₁ d₂ d₃ d₄ 1 0 ∧
      (r₂.1.re c₁ = x0 ∧ r₂.1.re c₂ = y0 ∧ r₂.1.re c₃ = a ∧ r₂.1.re c₄ = w) ∧
      r₂.1.re d₁ = x0 ∧ r₂.1.re d₂ = y0 ∧ r₂.1.re d₃ = a ∧ r₂.1.re d₄ = w := by
  refine ⟨h.next, h.next + 1, h.next + 2, h.next + 3, h.next + 4, h.next + 5, h.next + 6, h.next + 7, rfl, rfl, ?_, ?_⟩ <;>
    simp [newHermiteGaussian, allocRe, Function.update_apply] <;> split_ifs <;> first | rfl | omega

/-! ## C63 -/

/-- **C63.** A rectangular window is the indicator function of the open rectangle. -/
theorem C63_rectangle (h : Heap) (x0 y0 wx wy : ℝ) {r : Heap × Prof} (hr : New.run h (.rect x0 y0 wx wy) = .ok r)
    (x y : ℝ) [Decidable (x0 - wx / 2 < x ∧ x < x0 + wx / 2 ∧ y0 - wy / 2 < y ∧ y < y0 + wy / 2)] :
    eval r.1 r.2 x y =
      some (if x0 - wx / 2 < x ∧ x < x0 + wx / 2 ∧ y0 - wy / 2 < y ∧ y < y0 + wy / 2 then 1 else 0) := by
  injection hr with hr
  subst hr
  rw [eval_newRect, rectFunc]
  simp only [abs_lt]
  have k1 : -(wx / 2) < x - x0 ∧ x - x0 < wx / 2 ↔ x0 - wx / 2 < x ∧ x < x0 + wx / 2 :=
    ⟨fun h => ⟨by linarith [h.1], by linarith [h.2]⟩, fun h => ⟨by linarith [h.1], by linarith [h.2]⟩⟩
  have k2 : -(wy / 2) < y - y0 ∧ y - y0 < wy / 2 ↔ y0 - wy / 2 < y ∧ y < y0 + wy / 2 :=
    ⟨fun h => ⟨by linarith [h.1], by linarith [h.2]⟩, fun h => ⟨by linarith [h.1], by linarith [h.2]⟩⟩
  have k3 : (x0 - wx / 2 < x ∧ x < x0 + wx / 2 ∧ y0 - wy / 2 < y ∧ y < y0 + wy / 2) ↔
      (-(wx / 2) < x - x0 ∧ x - x0 < wx / 2) ∧ (-(wy / 2) < y - y0 ∧ y - y0 < wy / 2) := by
    rw [k1, k2, and_assoc]
  by_cases h1 : -(wx / 2) < x - x0 ∧ x - x0 < wx / 2 <;> by_cases h2 : -(wy / 2) < y - y0 ∧ y - y0 < wy / 2
  · rw [if_pos h1, if_pos h2, if_pos (k3.mpr ⟨h1, h2⟩)]; simp
  · rw [if_pos h1, if_neg h2, if_neg fun hc => h2 (k3.mp hc).2]; simp
  · rw [if_neg h1, if_pos h2, if_neg fun hc => h1 (k3.mp hc).1]; simp
  · rw [if_neg h1, if_neg h2, if_neg fun hc => h1 (k3.mp hc).1]; simp

/-- **C63.** A circular window is the indicator function of the closed disc. -/
theorem C63_disc (h : Heap) (x0 y0 rad : ℝ) {r : Heap × Prof} (hr : New.run h (.circ x0 y0 rad) = .ok r)
    (x y : ℝ) [Decidable (√((x - x0) ^ 2 + (y - y0) ^ 2) ≤ |rad|)] :
    eval r.1 r.2 x y = some (if √((x - x0) ^ 2 + (y - y0) ^ 2) ≤ |rad| then 1 else 0) := by
  injection hr with hr
  subst hr
  rw [eval_newCirc, circFunc]
  have : (x - x0) ^ 2 + (y - y0) ^ 2 ≤ rad ^ 2 ↔ √((x - x0) ^ 2 + (y - y0) ^ 2) ≤ |rad| := by
    rw [← Real.sqrt_sq_eq_abs, Real.sqrt_le_sqrt_iff (sq_nonneg _)]
  by_cases hc : (x - x0) ^ 2 + (y - y0) ^ 2 ≤ rad ^ 2
  · rw [if_pos hc, if_pos (this.mp hc)]; simp
  · rw [if_neg hc, if_neg fun h => hc (this.mpr h)]; simp

/-- **C63.** Windows are idempotent (`w * w`, `w ** k` for every integer `k ≥ 1`), and shifting a window gives the
window with the shifted centre; in every state of their parameters. -/
theorem C63_algebra (h : Heap) (f : Prof) (hf : (∃ a b c d, f = .rect a b c d) ∨ ∃ a b c, f = .circ a b c)
    {s p : Prof} {k : ℕ} (hk : 1 ≤ k) (hs : pyBinary .mul (.prof f) (.prof f) = .ok s)
    (hp : pyBinary .pow (.prof f) (.num (.real k)) = .ok p) (x y : ℝ) :
    eval h s x y = eval h f x y ∧ eval h p x y = eval h f x y ∧ (eval h f x y = some 0 ∨ eval h f x y = some 1) := by
  have h01 : eval h f x y = some 0 ∨ eval h f x y = some 1 := by
    rcases hf with ⟨a, b, c, d, rfl⟩ | ⟨a, b, c, rfl⟩
    · simp only [eval, rectFunc]
      split_ifs <;> simp
    · simp only [eval, circFunc]
      split_ifs <;> simp
  have hkind : kind f = .real := by
    rcases hf with ⟨a, b, c, d, rfl⟩ | ⟨a, b, c, rfl⟩ <;> rfl
  injection hs with hs
  injection hp with hp
  subst hs hp
  refine ⟨?_, ?_, h01⟩
  · rcases h01 with h0 | h1
    · simp [eval, h0, applyAttr]
    · simp [eval, h1, applyAttr]
  · have hk0 : (0 : ℝ) < k := by exact_mod_cast hk
    rcases h01 with h0 | h1
    · simp [eval, h0, applyAttr, hkind, PyNum.kind, Kind.join, powReal, PyNum.val, hk0]
    · simp [eval, h1, applyAttr, hkind, PyNum.kind, Kind.join, powReal, PyNum.val]

/-- **C63.** A shifted window is the window with the shifted centre. -/
theorem C63_shift (h : Heap) (x0 y0 wx wy dx dy : ℝ) {r r' c c' : Heap × Prof}
    (hr : New.run h (.rect x0 y0 wx wy) = .ok r) (hr' : New.run h (.rect (x0 + dx) (y0 + dy) wx wy) = .ok r')
    (hc : New.run h (.circ x0 y0 wx) = .ok c) (hc' : New.run h (.circ (x0 + dx) (y0 + dy) wx) = .ok c') (x y : ℝ) :
    eval r.1 (.shift r.2 dx dy) x y = eval r'.1 r'.2 x y ∧ eval c.1 (.shift c.2 dx dy) x y = eval c'.1 c'.2 x y := by
  injection hr with hr
  injection hr' with hr'
  injection hc with hc
  injection hc' with hc'
  subst hr hr' hc hc'
  have e : ∀ t u v : ℝ, t - v - u = t - (u + v) := fun t u v => by ring
  simp only [eval]
  rw [eval_newRect, eval_newRect, eval_newCirc, eval_newCirc]
  simp only [rectFunc, circFunc, e, and_self]

/-- C63: the edge of a rectangle is outside, the edge of a disc is inside. -/
example (h : Heap) : ∃ r c, New.run h (.rect 0 0 2 2) = .ok r ∧ New.run h (.circ 0 0 1) = .ok c ∧
    eval r.1 r.2 1 0 = some 0 ∧ eval c.1 c.2 1 0 = some 1 := by
  refine ⟨_, _, rfl, rfl, ?_, ?_⟩
  · rw [C63_rectangle h 0 0 2 2 rfl]; norm_num
  · rw [eval_newCirc, circFunc]; norm_num

end PySLM2.Profile
