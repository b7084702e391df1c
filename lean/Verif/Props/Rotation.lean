import Verif.Props.Modes
import Verif.Props.Zernike
import Verif.Props.SuperGaussian
import Verif.Props.LaguerreSpot

/-!
# C131: modes under rotations and reflections
-/

noncomputable section

open Complex

namespace PySLM2.Profile

/-! ## Zernike modes -/

theorem angular_unit (m : ℤ) (t : ℝ) : Spec.angular m t =
    if 0 ≤ m then (cexp (t * I) ^ m.natAbs).re else (cexp (t * I) ^ m.natAbs).im := by
  have h : cexp (t * I) ^ m.natAbs = ((Real.cos (m.natAbs * t) : ℝ) : ℂ) + ((Real.sin (m.natAbs * t) : ℝ) : ℂ) * I := by
    rw [← Complex.exp_nat_mul, ← mul_assoc, Complex.exp_mul_I]
    push_cast
    rfl
  rw [h]
  unfold Spec.angular
  split_ifs with hm
  · have hc : ((m.natAbs : ℕ) : ℝ) = (m : ℝ) := by
      rw [← Int.cast_natCast, Int.natAbs_of_nonneg hm]
    rw [hc]
    simp only [add_re, ofReal_re, mul_re, I_re, mul_zero, ofReal_im, I_im, mul_one, sub_self, add_zero]
  · simp only [add_im, ofReal_im, mul_im, ofReal_re, I_im, mul_one, I_re, mul_zero, add_zero, zero_add]

theorem radial_zero {n m : ℕ} (hm : 0 < m) (hmn : m ≤ n) : Spec.radial n m 0 = 0 := by
  unfold Spec.radial
  refine Finset.sum_eq_zero fun k hk => ?_
  have := Finset.mem_range.mp hk
  rw [zero_pow (by omega), mul_zero]

/-- The mode at a point of the plane `z = x + iy`. -/
theorem zernikeMode_unit (n m : ℤ) (R x y : ℝ) : Spec.zernikeMode n m R x y =
    Spec.radial n.toNat m.natAbs (‖(x + y * I : ℂ)‖ / R) *
      if 0 ≤ m then (cexp (((x + y * I : ℂ).arg : ℝ) * I) ^ m.natAbs).re else (cexp (((x + y * I : ℂ).arg : ℝ) * I) ^ m.natAbs).im := by
  unfold Spec.zernikeMode
  rw [angular_unit, Complex.norm_add_mul_I]

/-- How a mode changes under a map of the plane that keeps distances from the origin. -/
theorem zernike_map {n m : ℤ} (hv : Spec.ZernikeIndex n m) (R : ℝ) {x y x' y' : ℝ} {g : ℂ → ℂ}
    (hz : (x' + y' * I : ℂ) = g (x + y * I)) (hn : ∀ z, ‖g z‖ = ‖z‖) (hg : ∀ (z : ℂ) (r : ℝ), 0 < r → g (z / r) = g z / r)
    {A B : ℝ} (hA : ∀ e : ℂ, ‖e‖ = 1 → (if 0 ≤ m then (g e ^ m.natAbs).re else (g e ^ m.natAbs).im) =
      A * (e ^ m.natAbs).re + B * (e ^ m.natAbs).im) (h0 : m = 0 → A = 1) :
    Spec.zernikeMode n m R x' y' = Spec.radial n.toNat m.natAbs (‖(x + y * I : ℂ)‖ / R) *
      (A * (cexp (((x + y * I : ℂ).arg : ℝ) * I) ^ m.natAbs).re + B * (cexp (((x + y * I : ℂ).arg : ℝ) * I) ^ m.natAbs).im) := by
  rw [zernikeMode_unit, hz, hn]
  by_cases hz0 : (x + y * I : ℂ) = 0
  · have hgz : g (x + y * I) = 0 := by rw [← norm_eq_zero, hn, hz0, norm_zero]
    rw [hz0, norm_zero, zero_div]
    by_cases hm : m = 0
    · subst hm
      simp [h0]
    · have := hv.1
      have hm' : 0 < m.natAbs := Int.natAbs_pos.mpr hm
      rw [radial_zero hm' (by rw [Int.abs_eq_natAbs] at this; omega), zero_mul, zero_mul]
  · have hnz : 0 < ‖(x + y * I : ℂ)‖ := norm_pos_iff.mpr hz0
    have hu : ∀ w : ℂ, 0 < ‖w‖ → cexp (((w.arg : ℝ) : ℂ) * I) = w / (‖w‖ : ℂ) := fun w hw => by
      rw [eq_div_iff (by exact_mod_cast hw.ne'), mul_comm]
      exact Complex.norm_mul_exp_arg_mul_I w
    rw [hu _ hnz, hu (g _) (by rw [hn]; exact hnz), hn, ← hg _ _ hnz, hA]
    rw [norm_div, Complex.norm_real, norm_norm, div_self hnz.ne']

/-- **C131.** `Zernike(n, m)` and `Zernike(n, -m)`, `m > 0`, are mixed by the angle `m t` when rotated by `t` (for the
convention of the documentation of `rotate`); `Zernike(n, 0)` does not change. -/
theorem C131_zernike_rotate (h h' : Heap) (a R t : ℝ) {n m : ℤ} (nrm ex : Bool) (hv : Spec.ZernikeIndex n m) (hm : 0 ≤ m) (hR : 0 < R) :
    ∃ r r', New.run h (.zernike a R n m nrm ex) = .ok r ∧ New.run h' (.zernike a R n (-m) nrm ex) = .ok r' ∧ ∀ x y : ℝ,
      ∃ c s : ℂ, eval r.1 r.2 x y = some c ∧ eval r'.1 r'.2 x y = some s ∧
        (0 < m → eval r.1 (.rotate r.2 t) x y = some (Real.cos (m * t) * c - Real.sin (m * t) * s) ∧
          eval r'.1 (.rotate r'.2 t) x y = some (Real.cos (m * t) * s + Real.sin (m * t) * c)) ∧
        (m = 0 → eval r.1 (.rotate r.2 t) x y = some c) := by
  have hv' : Spec.ZernikeIndex n (-m) := by
    refine ⟨by rw [abs_neg]; exact hv.1, ?_⟩
    obtain ⟨k, hk⟩ := hv.2
    exact ⟨k + m, by omega⟩
  obtain ⟨r, hr, hf⟩ := C60_formula h a R nrm ex hv hR
  obtain ⟨r', hr', hf'⟩ := C60_formula h' a R nrm ex hv' hR
  refine ⟨r, r', hr, hr', fun x y => ⟨_, _, hf x y, hf' x y, ?_, ?_⟩⟩
  all_goals
    set x' := Real.cos t * x - Real.sin t * y with hx'
    set y' := Real.sin t * x + Real.cos t * y with hy'
    have hrad : x' ^ 2 + y' ^ 2 = x ^ 2 + y ^ 2 := by
      rw [hx', hy']
      linear_combination (x ^ 2 + y ^ 2) * Real.sin_sq_add_cos_sq t
    have hz : (x' + y' * I : ℂ) = cexp (t * I) * (x + y * I) := by
      rw [Complex.exp_mul_I, ← Complex.ofReal_cos, ← Complex.ofReal_sin, hx', hy']
      push_cast
      linear_combination (-(Complex.sin t) * y : ℂ) * Complex.I_sq
    have hn : ∀ z : ℂ, ‖cexp (t * I) * z‖ = ‖z‖ := fun z => by rw [norm_mul, Complex.norm_exp_ofReal_mul_I, one_mul]
    have hg : ∀ (z : ℂ) (r : ℝ), 0 < r → cexp (t * I) * (z / r) = cexp (t * I) * z / r := fun z r _ => by rw [mul_div_assoc]
  · intro hm0
    have hk : ((m.natAbs : ℕ) : ℝ) = (m : ℝ) := by rw [← Int.cast_natCast, Int.natAbs_of_nonneg hm]
    have hp : ∀ e : ℂ, (cexp (t * I) * e) ^ m.natAbs =
        (((Real.cos (m * t) : ℝ) : ℂ) + ((Real.sin (m * t) : ℝ) : ℂ) * I) * e ^ m.natAbs := fun e => by
      rw [mul_pow, ← Complex.exp_nat_mul, ← mul_assoc, Complex.exp_mul_I, ← hk]
      push_cast
      rfl
    have e1 := zernike_map hv R hz hn hg (A := Real.cos (m * t)) (B := -Real.sin (m * t))
      (fun e _ => by
        rw [if_pos hm, hp]
        simp only [mul_re, add_re, ofReal_re, I_re, mul_zero, ofReal_im, I_im, mul_one, sub_self, add_zero, add_im, mul_im, zero_add]
        ring) (by omega)
    have e2 := zernike_map hv' R hz hn hg (A := Real.sin (m * t)) (B := Real.cos (m * t))
      (fun e _ => by
        rw [if_neg (by omega), Int.natAbs_neg, hp]
        simp only [mul_re, add_re, ofReal_re, I_re, mul_zero, ofReal_im, I_im, mul_one, sub_self, add_zero, add_im, mul_im, zero_add]
        ring) (by omega)
    have u1 := zernikeMode_unit n m R x y
    have u2 := zernikeMode_unit n (-m) R x y
    rw [if_pos hm] at u1
    rw [if_neg (by omega)] at u2
    rw [Int.natAbs_neg] at e2 u2
    have hnorm : Spec.zernikeNorm n (-m) = Spec.zernikeNorm n m := by
      unfold Spec.zernikeNorm; simp only [neg_eq_zero]
    simp only [eval]
    rw [hf, hf', hrad, e1, e2, u1, u2, hnorm]
    generalize (if nrm = true then Spec.zernikeNorm n m else 1) = N
    constructor
    · congr 1
      split_ifs
      · simp
      · push_cast; ring
    · congr 1
      split_ifs
      · simp
      · push_cast; ring
  · intro hm0
    subst hm0
    have e1 := zernike_map hv R hz hn hg (A := 1) (B := 0) (fun e _ => by simp) (fun _ => rfl)
    have u1 := zernikeMode_unit n 0 R x y
    rw [if_pos le_rfl] at u1
    simp only [eval]
    rw [hf, hrad, e1, u1, one_mul, zero_mul, add_zero]

/-- **C131.** Reflections: `rescale_y(-1)` keeps the modes with `m ≥ 0` and negates those with `m < 0`; `rescale_x(-1)`
does the same with a factor `(-1)^m`. -/
theorem C131_zernike_mirror (h : Heap) (a R : ℝ) {n m : ℤ} (nrm ex : Bool) (hv : Spec.ZernikeIndex n m) (hR : 0 < R) :
    ∃ r, New.run h (.zernike a R n m nrm ex) = .ok r ∧ ∀ x y : ℝ, ∃ v : ℂ, eval r.1 r.2 x y = some v ∧
      eval r.1 (.rescaleY r.2 (-1)) x y = some (if 0 ≤ m then v else -v) ∧
      eval r.1 (.rescaleX r.2 (-1)) x y = some ((-1) ^ m.natAbs * if 0 ≤ m then v else -v) := by
  obtain ⟨r, hr, hf⟩ := C60_formula h a R nrm ex hv hR
  refine ⟨r, hr, fun x y => ⟨_, hf x y, ?_, ?_⟩⟩
  · have e1 := zernike_map hv R (x := x) (y := y) (x' := x) (y' := -y) (g := starRingEnd ℂ)
      (by simp) (fun z => by rw [RCLike.norm_conj])
      (fun z r _ => by rw [map_div₀, Complex.conj_ofReal]) (A := if 0 ≤ m then 1 else 0) (B := if 0 ≤ m then 0 else -1)
      (fun e _ => by
        rw [← map_pow]
        split_ifs <;> simp only [conj_re, conj_im] <;> ring) (by rintro rfl; simp)
    have u1 := zernikeMode_unit n m R x y
    simp only [eval]
    rw [if_neg (by norm_num), div_neg, div_one, hf, e1, u1, neg_sq]
    generalize (if nrm = true then Spec.zernikeNorm n m else 1) = N
    congr 1
    split_ifs <;> simp
  · have e1 := zernike_map hv R (x := x) (y := y) (x' := -x) (y' := y) (g := fun z => -starRingEnd ℂ z)
      (by simp; ring) (fun z => by rw [norm_neg, RCLike.norm_conj])
      (fun z r _ => by rw [map_div₀, Complex.conj_ofReal, neg_div]) (A := if 0 ≤ m then (-1) ^ m.natAbs else 0)
      (B := if 0 ≤ m then 0 else -(-1) ^ m.natAbs)
      (fun e _ => by
        rw [neg_pow, ← map_pow]
        rcases neg_one_pow_eq_or ℂ m.natAbs with h1 | h1 <;> rcases neg_one_pow_eq_or ℝ m.natAbs with h2 | h2
        · rw [h1, h2]; split_ifs <;> simp only [one_mul, neg_mul, neg_neg, neg_re, neg_im, conj_re, conj_im] <;> ring
        · exfalso
          have : ((-1 : ℝ) : ℂ) ^ m.natAbs = 1 := by push_cast; exact h1
          rw [← Complex.ofReal_pow, h2] at this
          norm_num at this
        · exfalso
          have : ((-1 : ℝ) : ℂ) ^ m.natAbs = -1 := by push_cast; exact h1
          rw [← Complex.ofReal_pow, h2] at this
          norm_num at this
        · rw [h1, h2]; split_ifs <;> simp only [one_mul, neg_mul, neg_neg, neg_re, neg_im, conj_re, conj_im] <;> ring) (by rintro rfl; simp)
    have u1 := zernikeMode_unit n m R x y
    simp only [eval]
    rw [if_neg (by norm_num), div_neg, div_one, hf, e1, u1, neg_sq]
    generalize (if nrm = true then Spec.zernikeNorm n m else 1) = N
    congr 1
    split_ifs <;> simp <;> ring

/-! ## Beams -/

/-- **C131.** A Hermite-Gaussian mode on the axis, turned by 90 degrees, is the mode with the indices exchanged, with the sign
`(-1)^n`; reflections multiply it by the parity of the index. -/
theorem C131_hermite (h h' : Heap) (a w : ℝ) (n m : ℕ) (hw : w ≠ 0) {r r' : Heap × Prof}
    (hr : New.run h (.hg 0 0 a w n m) = .ok r) (hr' : New.run h' (.hg 0 0 a w m n) = .ok r') (x y : ℝ) :
    ∃ v v' : ℂ, eval r.1 r.2 x y = some v ∧ eval r'.1 r'.2 x y = some v' ∧
      eval r.1 (.rotate r.2 (Real.pi / 2)) x y = some ((-1) ^ n * v') ∧
      eval r.1 (.rotate r.2 Real.pi) x y = some ((-1) ^ (n + m) * v) ∧
      eval r.1 (.rescaleX r.2 (-1)) x y = some ((-1) ^ n * v) ∧ eval r.1 (.rescaleY r.2 (-1)) x y = some ((-1) ^ m * v) := by
  have p1 : ∀ x y, Spec.hermiteGauss 0 0 a w n m (-x) y = (-1) ^ n * Spec.hermiteGauss 0 0 a w n m x y := fun x y => by
    have := (C56_parity 0 0 a w n m x y).1
    simpa using this
  have p2 : ∀ x y, Spec.hermiteGauss 0 0 a w n m x (-y) = (-1) ^ m * Spec.hermiteGauss 0 0 a w n m x y := fun x y => by
    have := (C56_parity 0 0 a w n m x y).2
    simpa using this
  have hswap : ∀ x y, Spec.hermiteGauss 0 0 a w n m y x = Spec.hermiteGauss 0 0 a w m n x y := fun x y => by
    unfold Spec.hermiteGauss
    rw [add_comm ((y - 0) ^ 2)]
    ring
  refine ⟨_, _, C56_formula h 0 0 a w n m hw hr x y, C56_formula h' 0 0 a w m n hw hr' x y, ?_, ?_, ?_, ?_⟩
  · simp only [eval]
    rw [Real.cos_pi_div_two, Real.sin_pi_div_two, zero_mul, zero_sub, one_mul, one_mul, zero_mul, add_zero,
      C56_formula h 0 0 a w n m hw hr, p1, hswap]
    push_cast
    rfl
  · simp only [eval]
    rw [Real.cos_pi, Real.sin_pi, zero_mul, sub_zero, zero_mul, zero_add, neg_one_mul, neg_one_mul,
      C56_formula h 0 0 a w n m hw hr, p1, p2]
    push_cast
    rw [pow_add, mul_assoc]
  · simp only [eval]
    rw [if_neg (by norm_num), div_neg, div_one, C56_formula h 0 0 a w n m hw hr, p1]
    push_cast
    rfl
  · simp only [eval]
    rw [if_neg (by norm_num), div_neg, div_one, C56_formula h 0 0 a w n m hw hr, p2]
    push_cast
    rfl

theorem conj_div_norm {z : ℂ} (hz : z ≠ 0) : starRingEnd ℂ z / (‖z‖ : ℂ) = (z / ‖z‖)⁻¹ := by
  have hn : (‖z‖ : ℂ) ≠ 0 := by exact_mod_cast norm_ne_zero_iff.mpr hz
  rw [inv_div, div_eq_div_iff hn hz, ← Complex.normSq_eq_conj_mul_self, Complex.normSq_eq_norm_sq]
  push_cast
  ring

theorem rodrigues_zero (t : ℝ) : Spec.rodrigues 0 t = 1 := by
  unfold Spec.rodrigues
  rw [pow_zero, one_mul, iteratedDeriv_zero, ← Real.exp_add, add_neg_cancel, Real.exp_zero]

/-- **C131.** Reflecting a Laguerre-Gaussian mode on the axis reverses its vortex. -/
theorem C131_laguerre (h h' : Heap) (a w : ℝ) (l : ℤ) (p : ℕ) (hw : w ≠ 0) {r r' : Heap × Prof}
    (hr : New.run h (.lg 0 0 a w l p) = .ok r) (hr' : New.run h' (.lg 0 0 a w (-l) p) = .ok r') (x y : ℝ) :
    ∃ v' : ℂ, eval r'.1 r'.2 x y = some v' ∧ eval r.1 (.rescaleY r.2 (-1)) x y = some v' ∧
      eval r.1 (.rescaleX r.2 (-1)) x y = some ((-1) ^ l.natAbs * v') := by
  refine ⟨_, C113_formula h' 0 0 a w (-l) p hw hr' x y, ?_, ?_⟩
  all_goals
    simp only [eval]
    rw [if_neg (by norm_num), div_neg, div_one, C113_formula h 0 0 a w l p hw hr]
    simp only [Spec.laguerreGauss, sub_zero, neg_sq, Int.natAbs_neg]
    congr 1
    by_cases hz : (⟨x, y⟩ : ℂ) = 0
    · have hx : x = 0 := congrArg Complex.re hz
      have hy : y = 0 := congrArg Complex.im hz
      subst hx hy
      by_cases hl : l = 0
      · subst hl; simp
      · simp [hl]
  · have hz' : (⟨x, -y⟩ : ℂ) = starRingEnd ℂ ⟨x, y⟩ := by apply Complex.ext <;> simp
    have hz0 : (⟨x, -y⟩ : ℂ) ≠ 0 := by rw [hz']; simpa using hz
    rw [exp_arg _ hz0 l, exp_arg _ hz (-l), hz', RCLike.norm_conj, conj_div_norm hz, inv_zpow']
  · have hz' : (⟨-x, y⟩ : ℂ) = -starRingEnd ℂ ⟨x, y⟩ := by apply Complex.ext <;> simp
    have hz0 : (⟨-x, y⟩ : ℂ) ≠ 0 := by rw [hz']; simpa using hz
    rw [exp_arg _ hz0 l, exp_arg _ hz (-l), hz', norm_neg, RCLike.norm_conj, neg_div' _ (starRingEnd ℂ _) |>.symm, conj_div_norm hz,
      ← neg_one_mul (⟨x, y⟩ / (‖(⟨x, y⟩ : ℂ)‖ : ℂ))⁻¹, mul_zpow, inv_zpow', zpow_neg (-1 : ℂ), ← zpow_natCast (-1 : ℂ)]
    have hs : ((-1 : ℂ) ^ l)⁻¹ = (-1) ^ ((l.natAbs : ℕ) : ℤ) := by
      rcases Int.natAbs_eq l with h1 | h1
      · rw [← h1, inv_eq_iff_eq_inv, ← inv_zpow, inv_neg_one]
      · rw [← zpow_neg]
        congr 1
        omega
    rw [hs]
    ring

/-- **C131.** The profiles that depend on the distance from the centre only do not change when rotated about the origin, if they
are centred there: the fundamental Gaussian mode, the super-Gaussian and the circular window. -/
theorem C131_round (h : Heap) (a w p : ℝ) (hw : w ≠ 0) (hp : 0 < p) {r1 r2 r3 : Heap × Prof}
    (h1 : New.run h (.hg 0 0 a w 0 0) = .ok r1) (h2 : New.run h (.sg 0 0 a w p) = .ok r2) (h3 : New.run h (.circ 0 0 w) = .ok r3)
    (t x y : ℝ) :
    eval r1.1 (.rotate r1.2 t) x y = eval r1.1 r1.2 x y ∧ eval r2.1 (.rotate r2.2 t) x y = eval r2.1 r2.2 x y ∧
      eval r3.1 (.rotate r3.2 t) x y = eval r3.1 r3.2 x y := by
  classical
  have hrad : (Real.cos t * x - Real.sin t * y) ^ 2 + (Real.sin t * x + Real.cos t * y) ^ 2 = x ^ 2 + y ^ 2 := by
    linear_combination (x ^ 2 + y ^ 2) * Real.sin_sq_add_cos_sq t
  refine ⟨?_, ?_, ?_⟩
  · simp only [eval]
    rw [C56_formula h 0 0 a w 0 0 hw h1, C56_formula h 0 0 a w 0 0 hw h1]
    simp only [Spec.hermiteGauss, sub_zero, hrad, rodrigues_zero]
  · simp only [eval]
    rw [C100_formula h 0 0 a w p hw hp h2, C100_formula h 0 0 a w p hw hp h2]
    simp only [sub_zero, hrad]
  · simp only [eval]
    rw [C63_disc h 0 0 w h3, C63_disc h 0 0 w h3]
    simp only [sub_zero, hrad]

/-! ## Instances -/

/-- C131: astigmatism (2, 2), rotated by 45 degrees, becomes the other astigmatism (2, -2), up to the sign. -/
example (h h' : Heap) (x y : ℝ) : ∃ r r', New.run h (.zernike 1 2 2 2 true true) = .ok r ∧ New.run h' (.zernike 1 2 2 (-2) true true) = .ok r' ∧
    ∃ s, eval r'.1 r'.2 x y = some s ∧ eval r.1 (.rotate r.2 (Real.pi / 4)) x y = some (-s) := by
  obtain ⟨r, r', h1, h2, h3⟩ := C131_zernike_rotate h h' 1 2 (Real.pi / 4) (n := 2) (m := 2) true true ⟨by norm_num, by norm_num⟩
    (by norm_num) (by norm_num)
  obtain ⟨c, s, -, e2, e3, -⟩ := h3 x y
  refine ⟨r, r', h1, h2, s, e2, ?_⟩
  rw [(e3 (by norm_num)).1, show ((2 : ℤ) : ℝ) * (Real.pi / 4) = Real.pi / 2 by push_cast; ring, Real.cos_pi_div_two, Real.sin_pi_div_two]
  congr 1
  push_cast
  ring

/-- C131: the constructors do not fail. -/
example (h : Heap) : (∃ r, New.run h (.hg 0 0 1 2 3 1) = .ok r) ∧ (∃ r, New.run h (.lg 0 0 1 2 (-3) 1) = .ok r) ∧
    (∃ r, New.run h (.sg 0 0 1 2 4) = .ok r) ∧ (∃ r, New.run h (.circ 0 0 2) = .ok r) ∧ Spec.ZernikeIndex 5 (-3) :=
  ⟨⟨_, rfl⟩, ⟨_, rfl⟩, ⟨_, rfl⟩, ⟨_, rfl⟩, by norm_num [Spec.ZernikeIndex]; decide⟩

end PySLM2.Profile
