import Verif.Lemmas.Gram
import Verif.Props.Ansi
import Mathlib.Topology.ContinuousMap.StoneWeierstrass

/-!
# The Zernike modes span all polynomials
-/

noncomputable section

open Finset MeasureTheory Filter Topology

namespace PySLM2.Analysis

open Spec

/-- `x + i y` -/
def cpt (z : ℝ × ℝ) : ℂ := z.1 + z.2 * Complex.I

theorem cpt_norm (z : ℝ × ℝ) : ‖cpt z‖ = √(z.1 ^ 2 + z.2 ^ 2) := by
  unfold cpt
  rw [Complex.norm_add_mul_I]

theorem cpt_pow (z : ℝ × ℝ) (m : ℕ) :
    (cpt z ^ m).re = √(z.1 ^ 2 + z.2 ^ 2) ^ m * Real.cos (m * Complex.arg (cpt z)) ∧
    (cpt z ^ m).im = √(z.1 ^ 2 + z.2 ^ 2) ^ m * Real.sin (m * Complex.arg (cpt z)) := by
  have h : cpt z ^ m = ((√(z.1 ^ 2 + z.2 ^ 2) ^ m : ℝ) : ℂ) * Complex.exp (((m * Complex.arg (cpt z) : ℝ) : ℂ) * Complex.I) := by
    conv_lhs => rw [← Complex.norm_mul_exp_arg_mul_I (cpt z)]
    rw [mul_pow, cpt_norm, ← Complex.exp_nat_mul]
    push_cast
    rw [mul_assoc]
  rw [h]
  constructor
  · rw [Complex.re_ofReal_mul, Complex.exp_ofReal_mul_I_re]
  · rw [Complex.im_ofReal_mul, Complex.exp_ofReal_mul_I_im]

/-- `ρ^(2q) Re w^m` -/
def polyRe (q m : ℕ) (z : ℝ × ℝ) : ℝ := (z.1 ^ 2 + z.2 ^ 2) ^ q * (cpt z ^ m).re

/-- `ρ^(2q) Im w^m` -/
def polyIm (q m : ℕ) (z : ℝ × ℝ) : ℝ := (z.1 ^ 2 + z.2 ^ 2) ^ q * (cpt z ^ m).im

theorem cpt_continuous : Continuous cpt := by unfold cpt; fun_prop

theorem polyRe_continuous (q m : ℕ) : Continuous (polyRe q m) := by
  unfold polyRe
  have := Complex.continuous_re.comp (cpt_continuous.pow m)
  exact (by fun_prop : Continuous fun z : ℝ × ℝ => (z.1 ^ 2 + z.2 ^ 2) ^ q).mul this

theorem polyIm_continuous (q m : ℕ) : Continuous (polyIm q m) := by
  unfold polyIm
  have := Complex.continuous_im.comp (cpt_continuous.pow m)
  exact (by fun_prop : Continuous fun z : ℝ × ℝ => (z.1 ^ 2 + z.2 ^ 2) ^ q).mul this

/-- The coefficients of the radial polynomial. -/
def radCoef (n m k : ℕ) : ℝ :=
  (-1) ^ k * ((n - k).factorial : ℝ) / ((k.factorial : ℝ) * (((n + m) / 2 - k).factorial : ℝ) * (((n - m) / 2 - k).factorial : ℝ))

theorem radCoef_zero (n m : ℕ) : radCoef n m 0 ≠ 0 := by
  unfold radCoef
  simp only [pow_zero, Nat.sub_zero, Nat.factorial_zero, Nat.cast_one, one_mul]
  exact div_ne_zero (by exact_mod_cast Nat.factorial_ne_zero _)
    (mul_ne_zero (by exact_mod_cast Nat.factorial_ne_zero _) (by exact_mod_cast Nat.factorial_ne_zero _))

theorem sqrt_pow_split {s : ℝ} (hs : 0 ≤ s) (m q k : ℕ) (hk : k ≤ q) : √s ^ (m + 2 * q - 2 * k) = s ^ (q - k) * √s ^ m := by
  have : m + 2 * q - 2 * k = 2 * (q - k) + m := by omega
  rw [this, pow_add, pow_mul, Real.sq_sqrt hs]

theorem mode_re (q m : ℕ) (z : ℝ × ℝ) : zernikeMode ((m + 2 * q : ℕ) : ℤ) m 1 z.1 z.2 =
    ∑ k ∈ range (q + 1), radCoef (m + 2 * q) m k * polyRe (q - k) m z := by
  unfold zernikeMode radial angular
  rw [if_pos (by positivity), Int.toNat_natCast, Int.natAbs_natCast, div_one]
  have e : (m + 2 * q - m) / 2 = q := by omega
  rw [Finset.sum_mul, e]
  refine Finset.sum_congr rfl fun k hk => ?_
  have hkq : k ≤ q := by rw [Finset.mem_range] at hk; omega
  rw [sqrt_pow_split (by positivity) m q k hkq]
  unfold polyRe
  rw [(cpt_pow z m).1]
  unfold radCoef cpt
  rw [e]
  push_cast
  ring

theorem mode_im (q m : ℕ) (hm : 0 < m) (z : ℝ × ℝ) : zernikeMode ((m + 2 * q : ℕ) : ℤ) (-(m : ℤ)) 1 z.1 z.2 =
    ∑ k ∈ range (q + 1), radCoef (m + 2 * q) m k * polyIm (q - k) m z := by
  unfold zernikeMode radial angular
  rw [if_neg (by omega), Int.toNat_natCast, Int.natAbs_neg, Int.natAbs_natCast, div_one]
  have e : (m + 2 * q - m) / 2 = q := by omega
  rw [Finset.sum_mul, e]
  refine Finset.sum_congr rfl fun k hk => ?_
  have hkq : k ≤ q := by rw [Finset.mem_range] at hk; omega
  rw [sqrt_pow_split (by positivity) m q k hkq]
  unfold polyIm
  rw [(cpt_pow z m).2]
  unfold radCoef cpt
  rw [e]
  ring

theorem index_cases {n m : ℤ} (h : ZernikeIndex n m) :
    ∃ q k : ℕ, n = ((k + 2 * q : ℕ) : ℤ) ∧ (m = k ∨ (0 < k ∧ m = -(k : ℤ))) := by
  obtain ⟨h1, t, ht⟩ := h
  rcases le_or_gt 0 m with hm | hm
  · rw [abs_of_nonneg hm] at h1
    refine ⟨t.toNat, m.toNat, ?_, .inl (by omega)⟩
    push_cast
    omega
  · rw [abs_of_neg hm] at h1
    refine ⟨(t + m).toNat, (-m).toNat, ?_, .inr ⟨by omega, by omega⟩⟩
    push_cast
    omega

/-- The normalised mode on the unit disc. -/
def unitMode (n m : ℤ) (z : ℝ × ℝ) : ℝ := zernikeNorm n m * zernikeMode n m 1 z.1 z.2

theorem unitMode_continuous {n m : ℤ} (h : ZernikeIndex n m) : Continuous (unitMode n m) := by
  unfold unitMode
  refine continuous_const.mul ?_
  obtain ⟨q, k, rfl, rfl | ⟨hk, rfl⟩⟩ := index_cases h
  · simp only [mode_re]
    exact continuous_finset_sum _ fun l _ => continuous_const.mul (polyRe_continuous _ _)
  · simp only [mode_im q k hk]
    exact continuous_finset_sum _ fun l _ => continuous_const.mul (polyIm_continuous _ _)

theorem norm_ne_zero {n m : ℤ} (h : ZernikeIndex n m) : zernikeNorm n m ≠ 0 := by
  have hn : (0 : ℝ) ≤ n := by exact_mod_cast (abs_nonneg m).trans h.1
  unfold zernikeNorm
  split_ifs
  · exact (Real.sqrt_pos.mpr (by linarith)).ne'
  · exact (Real.sqrt_pos.mpr (by linarith)).ne'

/-- The combinations of the modes in ANSI order. -/
def modeSpan : Submodule ℝ (ℝ × ℝ → ℝ) := Submodule.span ℝ (Set.range fun l : ℕ => unitMode (ansi l).1 (ansi l).2)

theorem mode_mem {n m : ℤ} (h : ZernikeIndex n m) : (fun z : ℝ × ℝ => zernikeMode n m 1 z.1 z.2) ∈ modeSpan := by
  obtain ⟨l, hl⟩ := C66_bijection.2.1 n m h
  have h1 : unitMode n m ∈ modeSpan := Submodule.subset_span ⟨l, by simp only [hl]⟩
  have h2 : (fun z : ℝ × ℝ => zernikeMode n m 1 z.1 z.2) = (zernikeNorm n m)⁻¹ • unitMode n m := by
    funext z
    rw [Pi.smul_apply, smul_eq_mul, unitMode, inv_mul_cancel_left₀ (norm_ne_zero h)]
  rw [h2]
  exact modeSpan.smul_mem _ h1

theorem polyRe_mem (q m : ℕ) : polyRe q m ∈ modeSpan := by
  induction q using Nat.strong_induction_on with
  | _ q ih =>
    have hv : ZernikeIndex ((m + 2 * q : ℕ) : ℤ) m := ⟨by rw [abs_of_nonneg (by positivity)]; push_cast; omega, ⟨q, by push_cast; ring⟩⟩
    have h1 := mode_mem hv
    have h2 : polyRe q m = (radCoef (m + 2 * q) m 0)⁻¹ • ((fun z : ℝ × ℝ => zernikeMode ((m + 2 * q : ℕ) : ℤ) m 1 z.1 z.2) -
        ∑ k ∈ range q, radCoef (m + 2 * q) m (k + 1) • polyRe (q - (k + 1)) m) := by
      funext z
      simp only [Pi.smul_apply, Pi.sub_apply, smul_eq_mul, Finset.sum_apply, mode_re, Finset.sum_range_succ' _ q, add_sub_cancel_left, Nat.sub_zero]
      rw [inv_mul_cancel_left₀ (radCoef_zero _ _)]
    rw [h2]
    refine modeSpan.smul_mem _ (modeSpan.sub_mem h1 (modeSpan.sum_mem fun k hk => modeSpan.smul_mem _ (ih _ ?_)))
    rw [Finset.mem_range] at hk
    omega

theorem polyIm_zero (q : ℕ) : polyIm q 0 = 0 := by
  funext z
  simp [polyIm]

theorem polyIm_mem (q m : ℕ) : polyIm q m ∈ modeSpan := by
  rcases Nat.eq_zero_or_pos m with rfl | hm
  · rw [polyIm_zero]
    exact modeSpan.zero_mem
  induction q using Nat.strong_induction_on with
  | _ q ih =>
    have hv : ZernikeIndex ((m + 2 * q : ℕ) : ℤ) (-(m : ℤ)) :=
      ⟨by rw [abs_neg, abs_of_nonneg (by positivity)]; push_cast; omega, ⟨m + q, by push_cast; ring⟩⟩
    have h1 := mode_mem hv
    have h2 : polyIm q m = (radCoef (m + 2 * q) m 0)⁻¹ • ((fun z : ℝ × ℝ => zernikeMode ((m + 2 * q : ℕ) : ℤ) (-(m : ℤ)) 1 z.1 z.2) -
        ∑ k ∈ range q, radCoef (m + 2 * q) m (k + 1) • polyIm (q - (k + 1)) m) := by
      funext z
      simp only [Pi.smul_apply, Pi.sub_apply, smul_eq_mul, Finset.sum_apply, mode_im q m hm, Finset.sum_range_succ' _ q, add_sub_cancel_left,
        Nat.sub_zero]
      rw [inv_mul_cancel_left₀ (radCoef_zero _ _)]
    rw [h2]
    refine modeSpan.smul_mem _ (modeSpan.sub_mem h1 (modeSpan.sum_mem fun k hk => modeSpan.smul_mem _ (ih _ ?_)))
    rw [Finset.mem_range] at hk
    omega

/-- The functions that are combinations of the `polyRe` and `polyIm`. -/
def polySpan : Submodule ℝ (ℝ × ℝ → ℝ) := Submodule.span ℝ {f | ∃ q m, f = polyRe q m ∨ f = polyIm q m}

theorem polySpan_le : polySpan ≤ modeSpan := by
  refine Submodule.span_le.mpr ?_
  rintro f ⟨q, m, rfl | rfl⟩
  exacts [polyRe_mem q m, polyIm_mem q m]

theorem re_mem (q m : ℕ) : polyRe q m ∈ polySpan := Submodule.subset_span ⟨q, m, .inl rfl⟩
theorem im_mem (q m : ℕ) : polyIm q m ∈ polySpan := Submodule.subset_span ⟨q, m, .inr rfl⟩

theorem cpt_re (z : ℝ × ℝ) : (cpt z).re = z.1 := by simp [cpt]
theorem cpt_im (z : ℝ × ℝ) : (cpt z).im = z.2 := by simp [cpt]

theorem x_mul_re (q m : ℕ) : (fun z : ℝ × ℝ => z.1) * polyRe q m ∈ polySpan := by
  rcases m with _ | m
  · have : (fun z : ℝ × ℝ => z.1) * polyRe q 0 = polyRe q 1 := by
      funext z
      simp only [Pi.mul_apply, polyRe, pow_zero, pow_one, Complex.one_re, cpt_re]
      ring
    rw [this]
    exact re_mem _ _
  · have : (fun z : ℝ × ℝ => z.1) * polyRe q (m + 1) = (1 / 2 : ℝ) • (polyRe q (m + 2) + polyRe (q + 1) m) := by
      funext z
      simp only [Pi.mul_apply, Pi.smul_apply, Pi.add_apply, smul_eq_mul, polyRe, pow_succ, Complex.mul_re, Complex.mul_im, cpt_re, cpt_im]
      ring
    rw [this]
    exact polySpan.smul_mem _ (polySpan.add_mem (re_mem _ _) (re_mem _ _))

theorem x_mul_im (q m : ℕ) : (fun z : ℝ × ℝ => z.1) * polyIm q m ∈ polySpan := by
  rcases m with _ | m
  · rw [polyIm_zero, mul_zero]
    exact polySpan.zero_mem
  · have : (fun z : ℝ × ℝ => z.1) * polyIm q (m + 1) = (1 / 2 : ℝ) • (polyIm q (m + 2) + polyIm (q + 1) m) := by
      funext z
      simp only [Pi.mul_apply, Pi.smul_apply, Pi.add_apply, smul_eq_mul, polyIm, pow_succ, Complex.mul_re, Complex.mul_im, cpt_re, cpt_im]
      ring
    rw [this]
    exact polySpan.smul_mem _ (polySpan.add_mem (im_mem _ _) (im_mem _ _))

theorem y_mul_re (q m : ℕ) : (fun z : ℝ × ℝ => z.2) * polyRe q m ∈ polySpan := by
  rcases m with _ | m
  · have : (fun z : ℝ × ℝ => z.2) * polyRe q 0 = polyIm q 1 := by
      funext z
      simp only [Pi.mul_apply, polyRe, polyIm, pow_zero, pow_one, Complex.one_re, cpt_im]
      ring
    rw [this]
    exact im_mem _ _
  · have : (fun z : ℝ × ℝ => z.2) * polyRe q (m + 1) = (1 / 2 : ℝ) • (polyIm q (m + 2) - polyIm (q + 1) m) := by
      funext z
      simp only [Pi.mul_apply, Pi.smul_apply, Pi.sub_apply, smul_eq_mul, polyRe, polyIm, pow_succ, Complex.mul_re, Complex.mul_im, cpt_re, cpt_im]
      ring
    rw [this]
    exact polySpan.smul_mem _ (polySpan.sub_mem (im_mem _ _) (im_mem _ _))

theorem y_mul_im (q m : ℕ) : (fun z : ℝ × ℝ => z.2) * polyIm q m ∈ polySpan := by
  rcases m with _ | m
  · rw [polyIm_zero, mul_zero]
    exact polySpan.zero_mem
  · have : (fun z : ℝ × ℝ => z.2) * polyIm q (m + 1) = (1 / 2 : ℝ) • (polyRe (q + 1) m - polyRe q (m + 2)) := by
      funext z
      simp only [Pi.mul_apply, Pi.smul_apply, Pi.sub_apply, smul_eq_mul, polyRe, polyIm, pow_succ, Complex.mul_re, Complex.mul_im, cpt_re, cpt_im]
      ring
    rw [this]
    exact polySpan.smul_mem _ (polySpan.sub_mem (re_mem _ _) (re_mem _ _))

theorem mul_closed {g : ℝ × ℝ → ℝ} (hr : ∀ q m, g * polyRe q m ∈ polySpan) (hi : ∀ q m, g * polyIm q m ∈ polySpan)
    {v : ℝ × ℝ → ℝ} (hv : v ∈ polySpan) : g * v ∈ polySpan := by
  induction hv using Submodule.span_induction with
  | mem f hf =>
    obtain ⟨q, m, rfl | rfl⟩ := hf
    exacts [hr q m, hi q m]
  | zero => rw [mul_zero]; exact polySpan.zero_mem
  | add a b _ _ ha hb => rw [mul_add]; exact polySpan.add_mem ha hb
  | smul c a _ ha => rw [mul_smul_comm]; exact polySpan.smul_mem _ ha

/-- The closed unit disc. -/
def closedDisc : Set (ℝ × ℝ) := {z | z.1 ^ 2 + z.2 ^ 2 ≤ 1}

theorem closedDisc_compact : IsCompact closedDisc := by
  refine Metric.isCompact_of_isClosed_isBounded (isClosed_le (by fun_prop) continuous_const) ?_
  refine (Metric.isBounded_closedBall (x := (0 : ℝ × ℝ)) (r := 1)).subset fun z hz => ?_
  rw [mem_closedBall_zero_iff, Prod.norm_def]
  have h : z.1 ^ 2 + z.2 ^ 2 ≤ 1 := hz
  refine max_le ?_ ?_ <;> rw [Real.norm_eq_abs, ← sq_le_one_iff_abs_le_one]
  · nlinarith [sq_nonneg z.2]
  · nlinarith [sq_nonneg z.1]

instance : CompactSpace closedDisc := isCompact_iff_compactSpace.mp closedDisc_compact

/-- The coordinates on the disc. -/
def coordX : C(closedDisc, ℝ) := ⟨fun z => z.1.1, by fun_prop⟩
def coordY : C(closedDisc, ℝ) := ⟨fun z => z.1.2, by fun_prop⟩

theorem adjoin_poly {p : C(closedDisc, ℝ)} (hp : p ∈ Algebra.adjoin ℝ {coordX, coordY}) :
    ∃ g : ℝ × ℝ → ℝ, (∀ v ∈ polySpan, g * v ∈ polySpan) ∧ ∀ z : closedDisc, p z = g z := by
  induction hp using Algebra.adjoin_induction with
  | mem f hf =>
    rcases hf with rfl | rfl
    · exact ⟨fun z => z.1, fun v hv => mul_closed x_mul_re x_mul_im hv, fun z => rfl⟩
    · exact ⟨fun z => z.2, fun v hv => mul_closed y_mul_re y_mul_im hv, fun z => rfl⟩
  | algebraMap r => exact ⟨fun _ => r, fun v hv => polySpan.smul_mem r hv, fun z => rfl⟩
  | add a b _ _ ha hb =>
    obtain ⟨g, hg, hg'⟩ := ha
    obtain ⟨k, hk, hk'⟩ := hb
    exact ⟨g + k, fun v hv => by rw [add_mul]; exact polySpan.add_mem (hg v hv) (hk v hv),
      fun z => by rw [ContinuousMap.add_apply, hg', hk']; rfl⟩
  | mul a b _ _ ha hb =>
    obtain ⟨g, hg, hg'⟩ := ha
    obtain ⟨k, hk, hk'⟩ := hb
    exact ⟨g * k, fun v hv => by rw [mul_assoc]; exact hg _ (hk v hv), fun z => by rw [ContinuousMap.mul_apply, hg', hk']; rfl⟩

/-- Continuous functions on the disc are uniform limits of combinations of modes. -/
theorem modes_dense {φ : ℝ × ℝ → ℝ} (hφ : ContinuousOn φ closedDisc) {ε : ℝ} (hε : 0 < ε) :
    ∃ v ∈ modeSpan, ∀ z ∈ closedDisc, |φ z - v z| < ε := by
  have hsep : (Algebra.adjoin ℝ {coordX, coordY}).SeparatesPoints := by
    intro x y hxy
    by_cases h : x.1.1 = y.1.1
    · refine ⟨coordY, ⟨coordY, Algebra.subset_adjoin (by simp), rfl⟩, fun h2 => hxy (Subtype.ext (Prod.ext h h2))⟩
    · exact ⟨coordX, ⟨coordX, Algebra.subset_adjoin (by simp), rfl⟩, h⟩
  obtain ⟨⟨p, hp⟩, hpd⟩ := ContinuousMap.exists_mem_subalgebra_near_continuousMap_of_separatesPoints _ hsep
    (⟨closedDisc.restrict φ, hφ.restrict⟩ : C(closedDisc, ℝ)) ε hε
  obtain ⟨g, hg, hg'⟩ := adjoin_poly hp
  have h1 : (polyRe 0 0 : ℝ × ℝ → ℝ) = 1 := by
    funext z
    simp [polyRe]
  have hgm : g ∈ modeSpan := polySpan_le (by
    have := hg _ (re_mem 0 0)
    rwa [h1, mul_one] at this)
  refine ⟨g, hgm, fun z hz => ?_⟩
  have h2 := (ContinuousMap.norm_coe_le_norm _ (⟨z, hz⟩ : closedDisc)).trans_lt hpd
  rw [ContinuousMap.sub_apply, hg', Real.norm_eq_abs, abs_sub_comm] at h2
  exact h2

/-- In coordinates. -/
theorem modes_dense' {φ : ℝ × ℝ → ℝ} (hφ : ContinuousOn φ closedDisc) {ε : ℝ} (hε : 0 < ε) :
    ∃ (T : ℕ) (a : ℕ → ℝ), ∀ z ∈ closedDisc, |φ z - ∑ l ∈ range T, a l * unitMode (ansi l).1 (ansi l).2 z| < ε := by
  obtain ⟨v, hv, hd⟩ := modes_dense hφ hε
  obtain ⟨c, rfl⟩ := Finsupp.mem_span_range_iff_exists_finsupp.mp hv
  refine ⟨c.support.sup id + 1, c, fun z hz => ?_⟩
  have h : (c.sum fun l a => a • unitMode (ansi l).1 (ansi l).2) z =
      ∑ l ∈ range (c.support.sup id + 1), c l * unitMode (ansi l).1 (ansi l).2 z := by
    rw [Finsupp.sum, Finset.sum_apply]
    simp only [Pi.smul_apply, smul_eq_mul]
    refine Finset.sum_subset (fun l hl => Finset.mem_range.mpr (Nat.lt_succ_of_le (Finset.le_sup (f := id) hl))) fun l _ hl => ?_
    rw [Finsupp.notMem_support_iff.mp hl, zero_mul]
  rw [← h]
  exact hd z hz

end PySLM2.Analysis
