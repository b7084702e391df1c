import Verif.Lemmas.FloatProfile
import Verif.Lemmas.Float

/-!
# C157 – C160: rounding in profiles and windows

`ProfPrecise u v F` says that every operation of the arithmetic `F` has a relative error of at most `u` and every library function an
error of at most `v`.  The parameters and the coordinates are the numbers in `BACKEND.dtype`.
-/

noncomputable section

open Complex

namespace PySLM2.Profile

open Spec

variable {u v g : ℝ} {F : ProfArith}

/-- **C157.** A Hermite-Gaussian profile in floating point.  The error is relative to the profile with the polynomials replaced by those
with the coefficients bounded by `Cn` and `Cm`. -/
theorem C157_hermite (H : ProfPrecise u v F) (hu : u ≤ 1 / 100) (hg : 0 ≤ g) {n m : ℕ} {Cn Cm cn cm : List ℝ}
    (hn : CoefClose g Cn (hermiteCoef n) cn) (hm : CoefClose g Cm (hermiteCoef m) cm) {x0 y0 a w x y : ℝ} (hw : w ≠ 0) :
    ∃ z, hgFunc x0 y0 a w n m x y = some z ∧
      |hgFuncR F x0 y0 a w cn cm x y - z| ≤
        (Real.exp (2 * g + 7 * u * (n + m) + 3 * u + v + 7 * u * (((x - x0) ^ 2 + (y - y0) ^ 2) / w ^ 2)) - 1) *
          (|a| * horner Cn (√2 * |(x - x0) / w|) * horner Cm (√2 * |(y - y0) / w|) *
            Real.exp (-(((x - x0) ^ 2 + (y - y0) ^ 2) / w ^ 2))) := by
  have hu0 := H.rnd.nonneg
  have hv := H.v_nonneg
  refine ⟨_, by unfold hgFunc; rw [if_neg hw], ?_⟩
  have e : ((x - x0) ^ 2 + (y - y0) ^ 2) / w ^ 2 = ((x - x0) / w) ^ 2 + ((y - y0) / w) ^ 2 := by rw [div_pow, div_pow, add_div]
  rw [e]
  have hx := norm_near H x x0 w
  have hy := norm_near H y y0 w
  have key : ∀ {t t' : ℝ}, Near (2 * u) t t' → Near (5 * u) (√2 * t) (F.rnd (F.rnd (F.py √2) * t')) := fun ht =>
    (H.rnd.near' ((sqrt_two_near H).mul ht (by linarith) (by linarith))).mono (by linarith)
  have hs := sqsum_near H (by linarith) hx hy
  have hexp := exp_neg_near H (by positivity) hs
  have hb : Real.exp (2 * (2 * u) + 2 * u) - 1 ≤ 7 * u := (exp_rel_le (by linarith) (by linarith)).trans (by linarith)
  have hexp' := hexp.mono (add_le_add (mul_le_mul_of_nonneg_right hb (by positivity)) (le_refl v))
  have hE : 0 ≤ 7 * u * (((x - x0) / w) ^ 2 + ((y - y0) / w) ^ 2) + v := by positivity
  have pn := polyvalR_within H.rnd hg (by linarith) (key hx) hn
  have pm := polyvalR_within H.rnd hg (by linarith) (key hy) hm
  have ln : (hermiteCoef n).length - 1 = n := by simp [hermiteCoef]
  have lm : (hermiteCoef m).length - 1 = m := by simp [hermiteCoef]
  rw [ln, abs_mul, abs_of_nonneg (Real.sqrt_nonneg 2)] at pn
  rw [lm, abs_mul, abs_of_nonneg (Real.sqrt_nonneg 2)] at pm
  have w1 := ((Within.of_near (Near.refl le_rfl a)).mul pn (by positivity)).rnd H.rnd
  have w2 := (w1.mul pm (by positivity)).rnd H.rnd
  have w3 := ((w2.mul (Within.of_near hexp') hE).rnd H.rnd).mono
    (show _ ≤ 2 * g + 7 * u * (n + m) + 3 * u + v + 7 * u * (((x - x0) / w) ^ 2 + ((y - y0) / w) ^ 2) by linarith)
  have := w3.2
  rw [Real.norm_of_nonneg (Real.exp_pos _).le] at this
  exact this

/-- **C157.** The fundamental Gaussian has a small relative error. -/
theorem C157_gaussian (H : ProfPrecise u v F) (hu : u ≤ 1 / 100) {x0 y0 a w x y : ℝ} (hw : w ≠ 0) :
    ∃ z, hgFunc x0 y0 a w 0 0 x y = some z ∧ z = a * Real.exp (-(((x - x0) ^ 2 + (y - y0) ^ 2) / w ^ 2)) ∧
      |hgFuncR F x0 y0 a w [1] [1] x y - z| ≤
        (Real.exp (3 * u + v + 7 * u * (((x - x0) ^ 2 + (y - y0) ^ 2) / w ^ 2)) - 1) * |z| := by
  have hc : CoefClose 0 [1] (hermiteCoef 0) [1] := by
    have : hermiteCoef 0 = [1] := by simp [hermiteCoef, physHermite]
    rw [this]
    simp [CoefClose]
  obtain ⟨z, hz, h⟩ := C157_hermite H hu le_rfl hc hc (x0 := x0) (y0 := y0) (a := a) (x := x) (y := y) hw
  refine ⟨z, hz, ?_, ?_⟩
  · unfold hgFunc at hz
    rw [if_neg hw] at hz
    have e : ((x - x0) ^ 2 + (y - y0) ^ 2) / w ^ 2 = ((x - x0) / w) ^ 2 + ((y - y0) / w) ^ 2 := by rw [div_pow, div_pow, add_div]
    simpa [hermiteCoef, physHermite, polyval, e, eq_comm] using hz
  · have hz' : z = a * Real.exp (-(((x - x0) ^ 2 + (y - y0) ^ 2) / w ^ 2)) := by
      unfold hgFunc at hz
      rw [if_neg hw] at hz
      have e : ((x - x0) ^ 2 + (y - y0) ^ 2) / w ^ 2 = ((x - x0) / w) ^ 2 + ((y - y0) / w) ^ 2 := by rw [div_pow, div_pow, add_div]
      simpa [hermiteCoef, physHermite, polyval, e, eq_comm] using hz
    rw [hz'] at h ⊢
    rw [abs_mul, abs_of_pos (Real.exp_pos _)]
    simpa [horner] using h

/-- **C158.** A super-Gaussian profile in floating point. -/
theorem C158_superGaussian (H : ProfPrecise u v F) (hu : u ≤ 1 / 100) {x0 y0 a w p x y : ℝ} (hw : w ≠ 0) (hp : 0 ≤ p) :
    ∃ z, sgFunc x0 y0 a w p x y = some z ∧
      |sgFuncR F x0 y0 a w p x y - z| ≤
        (Real.exp (u + v + (Real.exp (12 * u * p + v) - 1) * (((x - x0) ^ 2 + (y - y0) ^ 2) / w ^ 2) ^ p) - 1) * |z| := by
  have hu0 := H.rnd.nonneg
  have hv := H.v_nonneg
  have e : ((x - x0) ^ 2 + (y - y0) ^ 2) / w ^ 2 = ((x - x0) / w) ^ 2 + ((y - y0) / w) ^ 2 := by rw [div_pow, div_pow, add_div]
  rw [e]
  set s := ((x - x0) / w) ^ 2 + ((y - y0) / w) ^ 2 with hs
  have hs0 : 0 ≤ s := by positivity
  have hpow : powReal s p = some (s ^ p) := by
    unfold powReal
    rcases hs0.eq_or_lt with h | h
    · rw [if_neg (by rw [← h]; exact lt_irrefl _), if_pos h.symm, ← h]
      rcases hp.eq_or_lt with h' | h'
      · rw [← h', if_neg (lt_irrefl _), if_pos rfl, Real.rpow_zero]
      · rw [if_pos h', Real.zero_rpow h'.ne']
    · rw [if_pos h]
  refine ⟨a * Real.exp (-s ^ p), by unfold sgFunc; rw [if_neg hw]; simp only [← hs, hpow, Option.map_some], ?_⟩
  have h1 := (sqsum_near H (by linarith) (norm_near H x x0 w) (norm_near H y y0 w)).mono (show _ ≤ 6 * u by linarith)
  rw [← hs] at h1
  set s' := F.rnd (F.rnd (F.rnd (F.rnd (x - x0) / w) ^ 2) + F.rnd (F.rnd (F.rnd (y - y0) / w) ^ 2)) with hs'
  have hs'0 : 0 ≤ s' := near_nonneg (by linarith) hs0 h1
  have h2 := rpow_near (by linarith) (by linarith) hs0 hs'0 hp h1
  have h3 : Near (12 * u * p + v) (s ^ p) (F.pow s' p) := by
    refine (h2.trans (near_of_rel (u := v) ?_) hv).mono (by nlinarith)
    rw [Real.norm_of_nonneg (Real.rpow_nonneg hs'0 _)]
    exact H.pow s' p hs'0 hp
  have h4 := exp_neg_near H (Real.rpow_nonneg hs0 p) h3
  have hE : 0 ≤ (Real.exp (12 * u * p + v) - 1) * s ^ p + v :=
    add_nonneg (mul_nonneg (exp_sub_nonneg (by positivity)) (Real.rpow_nonneg hs0 p)) hv
  exact (H.rnd.near' ((Near.refl le_rfl a).mul h4 le_rfl hE)).mono (by linarith)

/-- **C158.** A rectangular window in floating point is the exact window, except at points that close to its edges. -/
theorem C158_rectangle (H : ProfPrecise u v F) (hu : u ≤ 1 / 100) {x0 y0 wx wy x y : ℝ}
    (hx : 3 * u * |wx / 2| ≤ |(|x - x0|) - wx / 2|) (hy : 3 * u * |wy / 2| ≤ |(|y - y0|) - wy / 2|) :
    rectFuncR F x0 y0 wx wy x y = rectFunc x0 y0 wx wy x y := by
  have hu0 := H.rnd.nonneg
  have key : ∀ d h : ℝ, 3 * u * |h| ≤ |(|d|) - h| → (|F.rnd d| < F.rnd h ↔ |d| < h) := by
    intro d h hdh
    have h1 := H.rnd d
    have h2 := H.rnd h
    have h3 := abs_le.mp (abs_abs_sub_abs_le (F.rnd d) d)
    have h4 := abs_le.mp h2
    have h0 := abs_nonneg d
    constructor
    · intro hlt
      by_contra hcon
      push Not at hcon
      rw [abs_of_nonneg (sub_nonneg.mpr hcon)] at hdh
      rcases le_total 0 h with hh | hh
      · rw [abs_of_nonneg hh] at hdh h4
        nlinarith
      · rw [abs_of_nonpos hh] at hdh h4
        have := abs_nonneg (F.rnd d)
        nlinarith
    · intro hlt
      have hh : 0 < h := by linarith
      rw [abs_of_neg (sub_neg.mpr hlt), abs_of_pos hh] at hdh
      rw [abs_of_pos hh] at h4
      rcases hu0.eq_or_lt with hz | hz
      · rw [← hz] at h1 h4
        nlinarith
      · nlinarith [mul_pos hz hh]
  unfold rectFuncR rectFunc
  simp only [key _ _ hx, key _ _ hy]

/-- **C158.** A circular window in floating point is the exact window, except at points that close to its edge. -/
theorem C158_circle (H : ProfPrecise u v F) (hu : u ≤ 1 / 100) {x0 y0 r x y : ℝ}
    (h : 7 * u * r ^ 2 ≤ |(x - x0) ^ 2 + (y - y0) ^ 2 - r ^ 2|) :
    circFuncR F x0 y0 r x y = circFunc x0 y0 r x y := by
  have hu0 := H.rnd.nonneg
  have h1 := (sqsum_near H hu0 (H.rnd.near (x - x0)) (H.rnd.near (y - y0))).mono (show _ ≤ 4 * u by linarith)
  have h2 := H.rnd (r ^ 2)
  set q := (x - x0) ^ 2 + (y - y0) ^ 2 with hq
  have hq0 : 0 ≤ q := by positivity
  have hr0 : 0 ≤ r ^ 2 := by positivity
  have hb := exp_rel_le (c := 4 * u) (by linarith) (by linarith)
  unfold Near at h1
  rw [Real.norm_eq_abs, Real.norm_of_nonneg hq0] at h1
  rw [abs_of_nonneg hr0] at h2
  have h3 := abs_le.mp h1
  have h4 := abs_le.mp h2
  have h5 : (Real.exp (4 * u) - 1) * q ≤ 14 / 3 * u * q := mul_le_mul_of_nonneg_right (by linarith) hq0
  unfold circFuncR circFunc
  refine if_congr ?_ rfl rfl
  constructor
  · intro hle
    by_contra hcon
    push Not at hcon
    rw [abs_of_pos (by linarith)] at h
    nlinarith [mul_nonneg hu0 hq0, mul_nonneg hu0 hr0]
  · intro hle
    rw [abs_of_nonpos (by linarith)] at h
    nlinarith [mul_nonneg hu0 hq0, mul_nonneg hu0 hr0]

/-- **C159.** A Laguerre-Gaussian profile in floating point. -/
theorem C159_laguerre (H : ProfPrecise u v F) (hu : u ≤ 1 / 100) (hv' : v ≤ 1 / 100) (hg : 0 ≤ g) {l : ℤ} {p : ℕ} {C c : List ℝ}
    (hc : CoefClose g C (genlaguerreCoef p l.natAbs) c) {x0 y0 a w x y : ℝ} (hw : 0 < w) :
    ∃ z, lgFunc x0 y0 a w l p x y = some z ∧
      ‖lgFuncR F x0 y0 a w l c x y - z‖ ≤
        (Real.exp (g + 10 * u * p + l.natAbs * (22 * u + 3 * v) + 6 * u + 3 * v + 9 * u * (((x - x0) ^ 2 + (y - y0) ^ 2) / w ^ 2)) - 1) *
          (|a| * (√2 * √((x - x0) ^ 2 + (y - y0) ^ 2) / w) ^ l.natAbs * Real.exp (-(((x - x0) ^ 2 + (y - y0) ^ 2) / w ^ 2)) *
            horner C (2 * ((x - x0) ^ 2 + (y - y0) ^ 2) / w ^ 2)) := by
  have hu0 := H.rnd.nonneg
  have hv := H.v_nonneg
  refine ⟨_, by unfold lgFunc; rw [if_neg hw.ne'], ?_⟩
  have hl : (0 : ℝ) ≤ l.natAbs := Nat.cast_nonneg _
  have h1 := (sqsum_near H hu0 (H.rnd.near (x - x0)) (H.rnd.near (y - y0))).mono (show _ ≤ 4 * u by linarith)
  set r2 := (x - x0) ^ 2 + (y - y0) ^ 2 with hr2
  set r2' := F.rnd (F.rnd (F.rnd (x - x0) ^ 2) + F.rnd (F.rnd (y - y0) ^ 2)) with hr2'
  have hr0 : 0 ≤ r2 := by positivity
  have hr0' : 0 ≤ r2' := near_nonneg (by linarith) hr0 h1
  have hsq := H.rnd.near (w ^ 2)
  -- the argument of the polynomial and of the exponential
  have harg : Near (8 * u) (2 * r2 / w ^ 2) (F.rnd (F.rnd (2 * r2') / F.rnd (w ^ 2))) := by
    have a1 := H.rnd.near' ((Near.refl le_rfl (2 : ℝ)).mul h1 le_rfl (by linarith))
    exact (H.rnd.near' (a1.div hsq (by linarith) hu0 (by linarith))).mono (by linarith)
  have hearg : Near (7 * u) (r2 / w ^ 2) (-F.rnd (-r2' / F.rnd (w ^ 2))) := by
    have a1 : Near (4 * u) (-r2) (-r2') := by
      unfold Near at h1 ⊢
      rwa [norm_neg, neg_sub_neg, norm_sub_rev]
    have a2 := (H.rnd.near' (a1.div hsq (by linarith) hu0 (by linarith))).mono (show _ ≤ 7 * u by linarith)
    unfold Near at a2 ⊢
    rw [neg_div (w ^ 2) r2, norm_neg] at a2
    rwa [← norm_neg, show -(-F.rnd (-r2' / F.rnd (w ^ 2)) - r2 / w ^ 2) = F.rnd (-r2' / F.rnd (w ^ 2)) - -(r2 / w ^ 2) by ring]
  have hs0 : 0 ≤ r2 / w ^ 2 := by positivity
  have hb : Real.exp (7 * u) - 1 ≤ 9 * u := (exp_rel_le (by linarith) (by linarith)).trans (by linarith)
  have hexp := (exp_neg_near H hs0 hearg).mono (add_le_add (mul_le_mul_of_nonneg_right hb hs0) (le_refl v))
  rw [neg_neg] at hexp
  have hE : 0 ≤ 9 * u * (r2 / w ^ 2) + v := by positivity
  -- the power of the radius
  have hrad : Near (8 * u + v) (√2 * √r2 / w) (F.rnd (F.rnd (F.rnd (F.py √2) * F.sqrt r2') / w)) := by
    have b1 : Near (4 * u + v) √r2 (F.sqrt r2') := by
      refine (sqrt_near hr0 h1).trans (near_of_rel ?_) hv
      rw [Real.norm_of_nonneg (Real.sqrt_nonneg _)]
      exact H.sqrt r2' hr0'
    have b2 := H.rnd.near' ((sqrt_two_near H).mul b1 (by linarith) (by linarith))
    have b3 := b2.mul (Near.refl le_rfl w⁻¹) (by linarith) le_rfl
    rw [← div_eq_mul_inv, ← div_eq_mul_inv] at b3
    exact (H.rnd.near' b3).mono (by linarith)
  have hR0 : 0 ≤ √2 * √r2 / w := by positivity
  have hR0' := near_nonneg (by linarith) hR0 hrad
  have hpow : Near (l.natAbs * (16 * u + 2 * v) + v) ((√2 * √r2 / w) ^ l.natAbs)
      (F.pow (F.rnd (F.rnd (F.rnd (F.py √2) * F.sqrt r2') / w)) l.natAbs) := by
    have c1 := rpow_near (by linarith) (by linarith) hR0 hR0' hl hrad
    have c2 : Near v (F.rnd (F.rnd (F.rnd (F.py √2) * F.sqrt r2') / w) ^ (l.natAbs : ℝ))
        (F.pow (F.rnd (F.rnd (F.rnd (F.py √2) * F.sqrt r2') / w)) l.natAbs) := by
      refine near_of_rel ?_
      rw [Real.norm_of_nonneg (Real.rpow_nonneg hR0' _)]
      exact H.pow _ _ hR0' hl
    have c3 := (c1.trans c2 hv).mono (show _ ≤ l.natAbs * (16 * u + 2 * v) + v by linarith)
    rwa [Real.rpow_natCast] at c3
  have pl := polyvalR_within H.rnd hg (by linarith) harg hc
  have hlen : (genlaguerreCoef p l.natAbs).length - 1 = p := by simp [genlaguerreCoef]
  rw [hlen, abs_of_nonneg (by positivity : 0 ≤ 2 * r2 / w ^ 2)] at pl
  have w1 := ((Within.of_near (Near.refl le_rfl a)).mul (Within.of_near hpow) (by positivity)).rnd H.rnd
  have w2 := (w1.mul (Within.of_near hexp) hE).rnd H.rnd
  have w3 := (w2.mul pl (by positivity)).rnd H.rnd
  rw [Real.norm_of_nonneg (pow_nonneg hR0 _), Real.norm_of_nonneg (Real.exp_pos _).le] at w3
  rw [← neg_div (w ^ 2) r2] at w3 ⊢
  have hκ : 0 ≤ v + l.natAbs * (6 * u + v) := by positivity
  by_cases hz : (x - x0, y - y0) = (0, 0) ∧ l ≠ 0
  · obtain ⟨hz, hl0⟩ := hz
    rw [Prod.mk.injEq] at hz
    have hr : r2 = 0 := by rw [hr2, hz.1, hz.2]; norm_num
    have hn : l.natAbs ≠ 0 := Int.natAbs_ne_zero.mpr hl0
    have hA : |a| * (√2 * √r2 / w) ^ l.natAbs * Real.exp (-r2 / w ^ 2) * horner C (2 * r2 / w ^ 2) = 0 := by simp [hr, hn]
    rw [Real.norm_eq_abs, hA] at w3
    have h0 := (norm_le_zero_iff.mp w3.1)
    have h0' := w3.norm_le
    rw [mul_zero, norm_le_zero_iff] at h0'
    rw [hA, mul_zero, norm_le_zero_iff, h0, ofReal_zero, zero_mul, sub_zero]
    have h3 := cmulR_near H.rnd hu 0 (F.expC (-I * F.rnd (l * F.atan2 (F.rnd (y - y0)) (F.rnd (x - x0)))))
    unfold Near at h3
    rw [zero_mul, norm_zero, mul_zero, sub_zero, norm_le_zero_iff] at h3
    unfold lgFuncR
    simp only [← hr2', h0', ofReal_zero]
    exact h3
  · have hph : Near (v + l.natAbs * (6 * u + v)) (cexp (-I * l * (atan2 (y - y0) (x - x0) : ℝ)))
        (F.expC (-I * F.rnd (l * F.atan2 (F.rnd (y - y0)) (F.rnd (x - x0))))) := by
      by_cases h0 : (x - x0, y - y0) = (0, 0)
      · have hl0 : l = 0 := by
          by_contra hl0
          exact hz ⟨h0, hl0⟩
        have hr0 : F.rnd 0 = 0 := by simpa using H.rnd 0
        have := H.expC 0
        subst hl0
        refine near_of_rel ?_
        simpa [hr0] using this
      · exact phase_near H hu h0 l
    have w4 := (w3.ofReal.mul (Within.of_near hph) hκ).trans_near (cmulR_near H.rnd hu _ _) (by linarith)
    have hone : ‖cexp (-I * l * (atan2 (y - y0) (x - x0) : ℝ))‖ = 1 := by
      rw [show -I * (l : ℂ) * ((atan2 (y - y0) (x - x0) : ℝ) : ℂ) = ((-(l * atan2 (y - y0) (x - x0)) : ℝ) : ℂ) * I by push_cast; ring,
        norm_exp_ofReal_mul_I]
    rw [hone, mul_one] at w4
    have w5 := (w4.mono (show _ ≤ g + 10 * u * p + l.natAbs * (22 * u + 3 * v) + 6 * u + 3 * v + 9 * u * (r2 / w ^ 2) by nlinarith)).2
    exact w5

/-- **C160.** A Zernike polynomial in floating point, away from the edge of its disc (unless it is extrapolated) and from the origin (unless
`m` is 0).  The normalisation is a python number. -/
theorem C160_zernike (H : ProfPrecise u v F) (huv : u + v ≤ 1 / 50) (hg : 0 ≤ g) {n m : ℤ} {C coef c : List ℝ} (hc : CoefClose g C coef c)
    {a radius x y : ℝ} (hr : 0 < radius) (norm : Option ℝ) (ex : Bool) (h0 : (x, y) ≠ (0, 0) ∨ m = 0)
    (hedge : ex = true ∨ 8 * (u + v) ≤ |√(x ^ 2 + y ^ 2) / radius - 1|) :
    ∃ z, zernikeFunc a radius n m coef norm ex x y = some z ∧
      |zernikeFuncR F a radius n m c (norm.map F.py) ex x y - z| ≤
        (Real.exp (g + (5 * u + v) * (coef.length - 1 : ℕ) + |(m : ℝ)| * (4 * u + v) + 5 * u + v) - 1) *
          (|norm.getD 1| * |a| * if n = 0 ∧ m = 0 then 1 else horner C (√(x ^ 2 + y ^ 2) / radius)) := by
  have hu0 := H.rnd.nonneg
  have hv := H.v_nonneg
  set r := √(x ^ 2 + y ^ 2) with hrdef
  have hρ0 : 0 ≤ r / radius := by positivity
  have hρ : Near (3 * u + v) (r / radius) (zernikeRhoR F radius x y) := by
    have h1 := sqsum_near H le_rfl (Near.refl le_rfl x) (Near.refl le_rfl y)
    have hs0 : 0 ≤ x ^ 2 + y ^ 2 := by positivity
    have hs0' := near_nonneg (by linarith) hs0 h1
    have h2 : Near (2 * u + v) r (F.sqrt (F.rnd (F.rnd (x ^ 2) + F.rnd (y ^ 2)))) := by
      refine ((sqrt_near hs0 h1).trans (near_of_rel (u := v) ?_) hv).mono (by linarith)
      rw [Real.norm_of_nonneg (Real.sqrt_nonneg _)]
      exact H.sqrt _ hs0'
    have h3 := h2.mul (Near.refl le_rfl radius⁻¹) (by linarith) le_rfl
    rw [← div_eq_mul_inv, ← div_eq_mul_inv] at h3
    exact (H.rnd.near' h3).mono (by linarith)
  set ρ := r / radius with hρdef
  set ρ' := zernikeRhoR F radius x y with hρ'def
  have hρ0' := near_nonneg (by linarith) hρ0 hρ
  have hdec : ex = true ∨ (ρ' > 1 ↔ ρ > 1) := by
    refine hedge.imp id fun he => ?_
    have e1 : Real.exp (3 * u + v) ≤ 1 + 7 / 2 * (u + v) := by
      have := exp_rel_le (c := 3 * u + v) (by linarith) (by linarith)
      linarith
    have e2 : Real.exp (2 * (3 * u + v)) ≤ 1 + 7 * (u + v) := by
      have := exp_rel_le (c := 2 * (3 * u + v)) (by linarith) (by linarith)
      linarith
    have a1 := hρ.norm_le
    have a2 := hρ.le_norm (by linarith) (by linarith)
    rw [Real.norm_of_nonneg hρ0, Real.norm_of_nonneg hρ0'] at a1 a2
    constructor
    · intro h
      by_contra hcon
      push Not at hcon
      rw [abs_of_nonpos (by linarith)] at he
      have : Real.exp (3 * u + v) * ρ ≤ (1 + 7 / 2 * (u + v)) * ρ := mul_le_mul_of_nonneg_right e1 hρ0
      nlinarith
    · intro h
      by_contra hcon
      push Not at hcon
      rw [abs_of_nonneg (by linarith)] at he
      have : Real.exp (2 * (3 * u + v)) * ρ' ≤ (1 + 7 * (u + v)) * 1 :=
        mul_le_mul e2 hcon hρ0' (by linarith)
      rcases (add_nonneg hu0 hv).eq_or_lt with hz | hz
      · rw [← hz] at this
        linarith
      · linarith
  -- the value before the normalisation
  have pR := polyvalR_within H.rnd hg (by linarith) hρ hc
  rw [abs_of_nonneg hρ0] at pR
  have hm0 : 0 ≤ |(m : ℝ)| * (4 * u + v) := by positivity
  have hL : 0 ≤ (5 * u + v) * (coef.length - 1 : ℕ) := by positivity
  have pa := ((Within.of_near (Near.refl le_rfl a)).mul pR (by positivity)).rnd H.rnd
  set κ := g + (5 * u + v) * (coef.length - 1 : ℕ) + |(m : ℝ)| * (4 * u + v) + 2 * u + v with hκ
  have trig : ∀ {t t' : ℝ}, |t| ≤ 1 → |t' - t| ≤ v + |(m : ℝ)| * (4 * u + v) → Within (v + |(m : ℝ)| * (4 * u + v)) 1 t t' := by
    intro t t' ht ht'
    refine ⟨ht, ht'.trans ?_⟩
    have := Real.add_one_le_exp (v + |(m : ℝ)| * (4 * u + v))
    linarith
  have hun : Within κ (|a| * if n = 0 ∧ m = 0 then 1 else horner C ρ)
      (if n = 0 ∧ m = 0 then a else if m = 0 then a * polyval coef ρ else
        if m > 0 then a * polyval coef ρ * Real.cos (m * atan2 y x) else a * polyval coef ρ * Real.sin (-m * atan2 y x))
      (if n = 0 ∧ m = 0 then a else if m = 0 then F.rnd (a * polyvalR F.rnd c ρ') else
        if m > 0 then F.rnd (F.rnd (a * polyvalR F.rnd c ρ') * F.cos (F.rnd (m * F.atan2 y x)))
        else F.rnd (F.rnd (a * polyvalR F.rnd c ρ') * F.sin (F.rnd (-m * F.atan2 y x)))) := by
    split_ifs with h1 h2 h3
    · rw [mul_one]
      exact (Within.of_near (Near.refl le_rfl a)).mono (by rw [hκ]; positivity)
    · exact pa.mono (by rw [hκ]; linarith)
    · have h0' : (x, y) ≠ (0, 0) := h0.resolve_right h2
      have := ((pa.mul (trig (Real.abs_cos_le_one _) (trig_close H h0' m).1) (by linarith)).rnd H.rnd).mono
        (show _ ≤ κ by rw [hκ]; linarith)
      rwa [mul_one] at this
    · have h0' : (x, y) ≠ (0, 0) := h0.resolve_right h2
      have ht := (trig_close H h0' (-m)).2
      push_cast at ht
      rw [abs_neg] at ht
      have := ((pa.mul (trig (Real.abs_sin_le_one _) ht) (by linarith)).rnd H.rnd).mono
        (show _ ≤ κ by rw [hκ]; linarith)
      rwa [mul_one] at this
  -- the normalisation
  set U := (if n = 0 ∧ m = 0 then a else if m = 0 then a * polyval coef ρ else
        if m > 0 then a * polyval coef ρ * Real.cos (m * atan2 y x) else a * polyval coef ρ * Real.sin (-m * atan2 y x)) with hU
  set U' := (if n = 0 ∧ m = 0 then a else if m = 0 then F.rnd (a * polyvalR F.rnd c ρ') else
        if m > 0 then F.rnd (F.rnd (a * polyvalR F.rnd c ρ') * F.cos (F.rnd (m * F.atan2 y x)))
        else F.rnd (F.rnd (a * polyvalR F.rnd c ρ') * F.sin (F.rnd (-m * F.atan2 y x)))) with hU'
  set Q := |a| * (if n = 0 ∧ m = 0 then 1 else horner C ρ) with hQ
  have hκ0 : 0 ≤ κ := by rw [hκ]; positivity
  obtain ⟨Z, hZ⟩ : ∃ Z, Z = (match (generalizing := false) norm with | some k => k * U | none => U) := ⟨_, rfl⟩
  obtain ⟨Z', hZ'⟩ : ∃ Z', Z' = (match (generalizing := false) norm.map F.py with | some k => F.rnd (F.rnd k * U') | none => U') := ⟨_, rfl⟩
  have hval : zernikeFunc a radius n m coef norm ex x y = some (if ex then Z else if ρ > 1 then 0 else Z) := by
    rw [hZ]
    unfold zernikeFunc
    rw [if_neg hr.ne']
    cases norm <;> rfl
  have hvalR : zernikeFuncR F a radius n m c (norm.map F.py) ex x y = if ex then Z' else if ρ' > 1 then 0 else Z' := by
    rw [hZ']
    rfl
  have hnorm : Within (κ + 3 * u) (|norm.getD 1| * Q) Z Z' := by
    rw [hZ, hZ']
    clear hval hvalR hZ hZ'
    cases norm with
    | none => simpa using hun.mono (by linarith : κ ≤ κ + 3 * u)
    | some k =>
      have := (((Within.of_near (H.rnd.near' (H.py.near k))).mul hun hκ0).rnd H.rnd).mono (show _ ≤ κ + 3 * u by linarith)
      simpa using this
  have hfin : κ + 3 * u = g + (5 * u + v) * (coef.length - 1 : ℕ) + |(m : ℝ)| * (4 * u + v) + 5 * u + v := by rw [hκ]; ring
  rw [hfin, hQ, ← mul_assoc] at hnorm
  refine ⟨_, hval, ?_⟩
  rw [hvalR]
  rcases hdec with hex | hd
  · rw [if_pos hex, if_pos hex]
    exact hnorm.2
  · by_cases hex : ex = true
    · rw [if_pos hex, if_pos hex]
      exact hnorm.2
    · rw [if_neg hex, if_neg hex]
      by_cases h1 : ρ > 1
      · rw [if_pos h1, if_pos (hd.mpr h1), sub_zero, abs_zero]
        exact (norm_nonneg _).trans hnorm.2
      · rw [if_neg h1, if_neg (fun h => h1 (hd.mp h))]
        exact hnorm.2

/-! ## The hypotheses can be met -/

/-- Single precision (rounding to nearest) with library functions off by `1e-6` satisfies the assumptions. -/
theorem exists_profPrecise : ∃ F, ProfPrecise (1 / 2 ^ 24) (1 / 10 ^ 6) F ∧ F.rnd = nearest 24 := by
  have hr : RelErr (1 / 2 ^ 24) (nearest 24) := fun x => by
    have := (nearest_roundsTo (t := 24) (by norm_num)).err x
    rw [div_eq_mul_one_div, mul_comm] at this
    exact this
  have key : ∀ t : ℝ, 0 ≤ t → |(1 + 1 / 10 ^ 6) * t - t| ≤ 1 / 10 ^ 6 * t := fun t ht => by
    rw [show (1 + 1 / 10 ^ 6) * t - t = 1 / 10 ^ 6 * t by ring, abs_of_nonneg (by positivity)]
  refine ⟨⟨nearest 24, nearest 24, fun x => (1 + 1 / 10 ^ 6) * Real.exp x, fun x p => (1 + 1 / 10 ^ 6) * x ^ p,
    fun x => (1 + 1 / 10 ^ 6) * √x, fun y x => arg ⟨x, y⟩, fun x => Real.cos x + 1 / 10 ^ 6, fun x => Real.sin x + 1 / 10 ^ 6, cexp⟩,
    ⟨hr, hr, fun x => key _ (Real.exp_pos x).le, fun x p hx _ => key _ (Real.rpow_nonneg hx p), fun x _ => key _ (Real.sqrt_nonneg x),
      fun x y _ => ⟨0, by norm_num⟩, fun x y => ?_, fun x => by norm_num, fun x => by norm_num, fun x => by norm_num⟩, rfl⟩
  have := abs_arg_le_pi (⟨x, y⟩ : ℂ)
  have := Real.pi_le_four
  dsimp only
  linarith

/-- C157: in single precision the fundamental Gaussian is right to `2e-6` within its 1/e radius. -/
example : ∃ F : ProfArith, F.rnd = nearest 24 ∧ ∀ a w x y : ℝ, w ≠ 0 → (x ^ 2 + y ^ 2) / w ^ 2 ≤ 1 →
    |hgFuncR F 0 0 a w [1] [1] x y - a * Real.exp (-((x ^ 2 + y ^ 2) / w ^ 2))| ≤ 2 / 10 ^ 6 * |a| := by
  obtain ⟨F, H, hF⟩ := exists_profPrecise
  refine ⟨F, hF, fun a w x y hw hxy => ?_⟩
  obtain ⟨z, -, hz, h⟩ := C157_gaussian H (by norm_num) (x0 := 0) (y0 := 0) (a := a) (x := x) (y := y) hw
  rw [sub_zero, sub_zero] at hz h
  have hs : 0 ≤ (x ^ 2 + y ^ 2) / w ^ 2 := by positivity
  generalize (x ^ 2 + y ^ 2) / w ^ 2 = s at *
  rw [hz] at h
  refine h.trans ?_
  rw [abs_mul, abs_of_pos (Real.exp_pos _)]
  have h1 := exp_rel_le (c := 3 * (1 / 2 ^ 24) + 1 / 10 ^ 6 + 7 * (1 / 2 ^ 24) * s) (by positivity) (by linarith)
  have h2 : Real.exp (-s) ≤ 1 := Real.exp_le_one_iff.mpr (by linarith)
  refine mul_le_mul (by linarith) ?_ (by positivity) (by norm_num)
  exact mul_le_of_le_one_right (abs_nonneg a) h2

/-- C157, C159, C160: coefficients that are exact, bounded by their absolute values. -/
example (c : List ℝ) : CoefClose 0 (c.map (|·|)) c c := by
  induction c with
  | nil => trivial
  | cons d ds ih => exact ⟨le_rfl, by simp, ih⟩

/-- C158: in single precision a circular window of radius 10 contains the points at distance 9 and not those at distance 11. -/
example : ∃ F : ProfArith, F.rnd = nearest 24 ∧ circFuncR F 0 0 10 9 0 = 1 ∧ circFuncR F 0 0 10 0 11 = 0 := by
  obtain ⟨F, H, hF⟩ := exists_profPrecise
  refine ⟨F, hF, ?_, ?_⟩
  · rw [C158_circle H (by norm_num) (by norm_num [abs_of_neg]), circFunc, if_pos (by norm_num)]
  · rw [C158_circle H (by norm_num) (by norm_num), circFunc, if_neg (by norm_num)]

/-- C158: and a rectangular window of half sides 4 and 2 contains the point (3, 1) and not (3, 3). -/
example : ∃ F : ProfArith, F.rnd = nearest 24 ∧ rectFuncR F 0 0 8 4 3 1 = 1 ∧ rectFuncR F 0 0 8 4 3 3 = 0 := by
  obtain ⟨F, H, hF⟩ := exists_profPrecise
  refine ⟨F, hF, ?_, ?_⟩
  · rw [C158_rectangle H (by norm_num) (by norm_num [abs_of_neg]) (by norm_num [abs_of_neg]), rectFunc, if_pos (by norm_num), if_pos (by norm_num), one_mul]
  · rw [C158_rectangle H (by norm_num) (by norm_num [abs_of_neg]) (by norm_num), rectFunc, if_neg (c := |(3 : ℝ) - 0| < 4 / 2) (by norm_num), mul_zero]

/-- C160: a tilt in single precision, at half its radius. -/
example (a : ℝ) : ∃ F : ProfArith, F.rnd = nearest 24 ∧ ∃ z, zernikeFunc a 2 1 1 [1, 0] none false 1 0 = some z ∧
    |zernikeFuncR F a 2 1 1 [1, 0] none false 1 0 - z| ≤ 4 / 10 ^ 6 * |a| := by
  obtain ⟨F, H, hF⟩ := exists_profPrecise
  have hc : CoefClose 0 [1, 0] [1, 0] [1, 0] := by simp [CoefClose]
  obtain ⟨z, hz, h⟩ := C160_zernike H (by norm_num) le_rfl (n := 1) (m := 1) hc (a := a) (radius := 2) (x := 1) (y := 0) (by norm_num) none false
    (Or.inl (by simp)) (Or.inr (by norm_num [abs_of_neg]))
  refine ⟨F, hF, z, hz, h.trans ?_⟩
  simp only [Option.getD_none, abs_one, one_mul, List.length_cons, List.length_nil, horner]
  norm_num
  have h1 := exp_rel_le (c := 5 / 16777216 + 1 / 1000000 + (1 / 4194304 + 1 / 1000000) + 5 / 16777216 + 1 / 1000000) (by norm_num) (by norm_num)
  nlinarith [abs_nonneg a]

end PySLM2.Profile
