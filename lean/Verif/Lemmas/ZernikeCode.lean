import Verif.Lemmas.Zernike
import Verif.Spec.ProfileHistory
import Mathlib.Data.List.GetD
import Mathlib.Analysis.SpecialFunctions.PolarCoord
import Mathlib.MeasureTheory.Integral.Prod

/-!
# The Zernike profile of the code follows the textbook definition
-/

noncomputable section

open Nat

namespace PySLM2.Profile

/-- Value of a coefficient list, lowest power first. -/
def listVal (l : List ℝ) (x : ℝ) : ℝ := ∑ j ∈ Finset.range l.length, l.getD j 0 * x ^ j

theorem polyval_reverse (l : List ℝ) (x : ℝ) : polyval l.reverse x = listVal l x := by
  have h : l.reverse = (List.range l.length).reverse.map fun j => l.getD j 0 := by
    rw [List.map_reverse]
    congr 1
    apply List.ext_getElem
    · simp
    · intro i h1 h2
      simp [h1]
  rw [h, polyval_sum]
  rfl

theorem listVal_set (l : List ℝ) (x : ℝ) {i : ℕ} (hi : i < l.length) (v : ℝ) (h0 : l.getD i 0 = 0) :
    listVal (l.set i v) x = listVal l x + v * x ^ i := by
  unfold listVal
  rw [List.length_set]
  have e : ∀ j ∈ Finset.range l.length, (l.set i v).getD j 0 * x ^ j = l.getD j 0 * x ^ j + if j = i then v * x ^ i else 0 := by
    intro j hj
    by_cases hji : j = i
    · subst hji
      simp [h0, List.getD_eq_getElem?_getD, hi] at h0 ⊢
      simp [h0]
    · rw [if_neg hji, add_zero]
      congr 1
      simp [List.getD_eq_getElem?_getD, List.getElem?_set_ne (Ne.symm hji)]
  rw [Finset.sum_congr rfl e, Finset.sum_add_distrib, Finset.sum_ite_eq' _ _ (fun _ => v * x ^ i), if_pos (Finset.mem_range.mpr hi)]

theorem fold_spec (n : ℕ) (E : ℕ → ℝ) (x : ℝ) : ∀ K : ℕ, 2 * K ≤ n + 2 →
    let l := (List.range K).foldl (fun (c : List ℝ) (k : ℕ) => c.set (n - 2 * k) (E k)) (List.replicate (n + 1) 0)
    l.length = n + 1 ∧ (∀ i, i + 2 * K < n + 2 → l.getD i 0 = 0) ∧ listVal l x = ∑ k ∈ Finset.range K, E k * x ^ (n - 2 * k) := by
  intro K
  induction K with
  | zero =>
    intro _
    refine ⟨by simp, ?_, ?_⟩
    · intro i hi
      simp [List.getD_eq_getElem?_getD, List.getElem?_replicate]
      split_ifs <;> rfl
    · simp only [listVal, List.range_zero, List.foldl_nil, Finset.range_zero, Finset.sum_empty]
      refine Finset.sum_eq_zero fun j _ => ?_
      have : (List.replicate (n + 1) (0 : ℝ)).getD j 0 = 0 := by
        simp [List.getD_eq_getElem?_getD, List.getElem?_replicate]
        split_ifs <;> rfl
      rw [this, zero_mul]
  | succ K ih =>
    intro hK
    obtain ⟨h1, h2, h3⟩ := ih (by omega)
    simp only [List.range_succ, List.foldl_append, List.foldl_cons, List.foldl_nil] at h1 h2 h3 ⊢
    refine ⟨by rw [List.length_set, h1], ?_, ?_⟩
    · intro i hi
      rw [List.getD_eq_getElem?_getD, List.getElem?_set_ne (by omega), ← List.getD_eq_getElem?_getD]
      exact h2 i (by omega)
    · rw [listVal_set _ _ (by rw [h1]; omega) _ (h2 _ (by omega)), h3, Finset.sum_range_succ]

/-- Normal form of a valid index pair. -/
theorem index_form {n m : ℤ} (h : Spec.ZernikeIndex n m) : ∃ p : ℕ, n = ((m.natAbs + 2 * p : ℕ) : ℤ) := by
  obtain ⟨h1, k, hk⟩ := h
  refine ⟨((n - |m|) / 2).toNat, ?_⟩
  push_cast
  rcases abs_cases m with ⟨ha, hb⟩ | ⟨ha, hb⟩ <;> rw [ha] at h1 ⊢ <;> omega

theorem polyval_zernike {n m : ℤ} (h : Spec.ZernikeIndex n m) (ρ : ℝ) :
    polyval (zernikeCoef n m).reverse ρ = Spec.radial n.toNat m.natAbs ρ := by
  obtain ⟨p, hp⟩ := index_form h
  have ht : n.toNat = m.natAbs + 2 * p := by omega
  rw [polyval_reverse, ht]
  have hm : |m| = (m.natAbs : ℤ) := (Int.natCast_natAbs m).symm
  have hK : ((n - |m|) / 2 + 1).toNat = p + 1 := by rw [hm]; omega
  have hn : (n + 1).toNat = m.natAbs + 2 * p + 1 := by omega
  have hfun : (fun (c : List ℝ) (k : ℕ) => c.set (n - 2 * (k : ℤ)).toNat (zernikeEntry n |m| k)) =
      fun (c : List ℝ) (k : ℕ) => c.set (m.natAbs + 2 * p - 2 * k) (zernikeEntry n |m| k) := by
    funext c k
    congr 1
    omega
  have hspec := (fold_spec (m.natAbs + 2 * p) (fun k => zernikeEntry n |m| k) ρ (p + 1) (by omega)).2.2
  unfold zernikeCoef
  rw [hK, hn, hfun, hspec, Spec.radial]
  have e1 : (m.natAbs + 2 * p - m.natAbs) / 2 = p := by omega
  have e2 : (m.natAbs + 2 * p + m.natAbs) / 2 = m.natAbs + p := by omega
  rw [e1, e2]
  refine Finset.sum_congr rfl fun k hk => ?_
  have hk' := Nat.lt_succ_iff.mp (Finset.mem_range.mp hk)
  unfold zernikeEntry
  have a1 : (n - (k : ℤ)).toNat = m.natAbs + 2 * p - k := by omega
  have a2 : ((n + |m|) / 2 - (k : ℤ)).toNat = m.natAbs + p - k := by rw [hm]; omega
  have a3 : ((n - |m|) / 2 - (k : ℤ)).toNat = p - k := by rw [hm]; omega
  rw [a1, a2, a3]

/-- The constructor accepts every valid index pair. -/
theorem zernikeData_valid {n m : ℤ} (h : Spec.ZernikeIndex n m) (normalize : Bool) :
    zernikeData n m normalize = .ok ((zernikeCoef n m).reverse, if normalize then some (Spec.zernikeNorm n m) else none) := by
  obtain ⟨h1, k, hk⟩ := h
  have h2 : m ≤ n := (le_abs_self m).trans h1
  have h0 : 0 ≤ n := (abs_nonneg m).trans h1
  have h3 : (n - m) % 2 = 0 := by omega
  have c0 : (0 : ℝ) ≤ n := by exact_mod_cast h0
  unfold zernikeData
  rw [if_neg (by simpa using h2), if_neg (by simpa using h3)]
  cases normalize with
  | false => rfl
  | true =>
    have e : (2 * (n : ℝ) + 2) = 2 * (n + 1) := by ring
    by_cases hm : m = 0
    · simp only [if_true, if_pos hm, mathSqrt, Spec.zernikeNorm]
      rw [if_neg (by linarith)]
      rfl
    · simp only [if_true, if_neg hm, mathSqrt, Spec.zernikeNorm, e]
      rw [if_neg (by linarith)]
      rfl

theorem zernikeFunc_valid {n m : ℤ} (h : Spec.ZernikeIndex n m) (a R : ℝ) (hR : R ≠ 0) (norm : Option ℝ) (ex : Bool) (x y : ℝ) :
    zernikeFunc a R n m (zernikeCoef n m).reverse norm ex x y =
      some (if ¬ ex ∧ √(x ^ 2 + y ^ 2) / R > 1 then 0 else norm.getD 1 * (a * Spec.zernikeMode n m R x y)) := by
  unfold zernikeFunc
  rw [if_neg hR]
  have hz : (if n = 0 ∧ m = 0 then a
      else
        let phi := atan2 y x
        let Q := polyval (zernikeCoef n m).reverse (√(x ^ 2 + y ^ 2) / R)
        if m = 0 then a * Q else if m > 0 then a * Q * Real.cos (m * phi) else a * Q * Real.sin (-m * phi)) =
      a * Spec.zernikeMode n m R x y := by
    have harg : Complex.arg (x + y * Complex.I) = atan2 y x := by
      unfold atan2
      congr 1
      apply Complex.ext <;> simp
    unfold Spec.zernikeMode
    rw [harg]
    split_ifs with h0 h1 h2
    · obtain ⟨rfl, rfl⟩ := h0
      simp [Spec.radial, Spec.angular]
    · simp only [polyval_zernike h]
      subst h1
      simp [Spec.angular]
    · simp only [polyval_zernike h]
      rw [Spec.angular, if_pos (by omega)]
      ring
    · simp only [polyval_zernike h]
      rw [Spec.angular, if_neg (by omega)]
      have : ((m.natAbs : ℕ) : ℝ) = -(m : ℝ) := by
        rw [← Int.cast_natCast, Int.ofNat_natAbs_of_nonpos (by omega)]
        push_cast
        rfl
      rw [this]
      ring
  simp only at hz ⊢
  rw [hz]
  congr 1
  cases norm with
  | none =>
    cases ex <;> simp [Option.getD_none]
  | some c =>
    cases ex <;> simp [Option.getD_some]

/-! ## Orthogonality over the disc -/

open MeasureTheory in
theorem disc_integral (A B : ℝ → ℝ) {R : ℝ} (hR : 0 < R) (f : ℝ × ℝ → ℝ)
    (hf : ∀ r t : ℝ, 0 < r → t ∈ Set.Ioo (-Real.pi) Real.pi → f (r * Real.cos t, r * Real.sin t) = A (r / R) * B t) :
    ∫ z in {z : ℝ × ℝ | z.1 ^ 2 + z.2 ^ 2 ≤ R ^ 2}, f z =
      R ^ 2 * (∫ s in (0 : ℝ)..1, A s * s) * ∫ t in (-Real.pi)..Real.pi, B t := by
  have hmeas : MeasurableSet {z : ℝ × ℝ | z.1 ^ 2 + z.2 ^ 2 ≤ R ^ 2} :=
    measurableSet_le (by fun_prop) (by fun_prop)
  rw [← integral_indicator hmeas, ← integral_comp_polarCoord_symm]
  have htarget : polarCoord.target = Set.Ioi (0 : ℝ) ×ˢ Set.Ioo (-Real.pi) Real.pi := rfl
  rw [htarget]
  have hpt : ∀ p ∈ Set.Ioi (0 : ℝ) ×ˢ Set.Ioo (-Real.pi) Real.pi,
      p.1 • ({z : ℝ × ℝ | z.1 ^ 2 + z.2 ^ 2 ≤ R ^ 2}.indicator f (polarCoord.symm p)) =
        (Set.Iic R).indicator (fun r => A (r / R) * r) p.1 * B p.2 := by
    rintro ⟨r, t⟩ ⟨hr, ht⟩
    simp only [Set.mem_Ioi] at hr
    simp only [polarCoord_symm_apply, smul_eq_mul]
    have hmem : (r * Real.cos t, r * Real.sin t) ∈ {z : ℝ × ℝ | z.1 ^ 2 + z.2 ^ 2 ≤ R ^ 2} ↔ r ∈ Set.Iic R := by
      simp only [Set.mem_setOf_eq, Set.mem_Iic]
      have : (r * Real.cos t) ^ 2 + (r * Real.sin t) ^ 2 = r ^ 2 := by
        have := Real.sin_sq_add_cos_sq t
        linear_combination r ^ 2 * this
      rw [this, sq_le_sq₀ hr.le hR.le]
    by_cases h : r ∈ Set.Iic R
    · rw [Set.indicator_of_mem (hmem.mpr h), Set.indicator_of_mem h, hf r t hr ht]
      ring
    · rw [Set.indicator_of_notMem fun h' => h (hmem.mp h'), Set.indicator_of_notMem h]
      ring
  rw [setIntegral_congr_fun (measurableSet_Ioi.prod measurableSet_Ioo) hpt, Measure.volume_eq_prod,
    setIntegral_prod_mul (fun r => (Set.Iic R).indicator (fun r => A (r / R) * r) r) B]
  congr 1
  · rw [setIntegral_indicator measurableSet_Iic]
    have : Set.Ioi (0 : ℝ) ∩ Set.Iic R = Set.Ioc 0 R := rfl
    rw [this, ← intervalIntegral.integral_of_le hR.le]
    have e : ∀ r : ℝ, A (r / R) * r = R * ((fun s => A s * s) (r / R)) := by
      intro r
      field_simp
    rw [show (fun r => A (r / R) * r) = fun r => R * ((fun s => A s * s) (r / R)) from funext e,
      intervalIntegral.integral_const_mul, intervalIntegral.integral_comp_div (fun s => A s * s) hR.ne', smul_eq_mul,
      zero_div, div_self hR.ne']
    ring
  · rw [intervalIntegral.integral_of_le (by linarith [Real.pi_pos]), integral_Ioc_eq_integral_Ioo]

theorem mode_polar (n m : ℤ) {R r t : ℝ} (hr : 0 < r) (ht : t ∈ Set.Ioo (-Real.pi) Real.pi) :
    Spec.zernikeMode n m R (r * Real.cos t) (r * Real.sin t) = Spec.radial n.toNat m.natAbs (r / R) * Spec.angular m t := by
  unfold Spec.zernikeMode
  have h1 : √((r * Real.cos t) ^ 2 + (r * Real.sin t) ^ 2) = r := by
    have : (r * Real.cos t) ^ 2 + (r * Real.sin t) ^ 2 = r ^ 2 := by
      have := Real.sin_sq_add_cos_sq t
      linear_combination r ^ 2 * this
    rw [this, Real.sqrt_sq hr.le]
  have h2 : Complex.arg (((r * Real.cos t : ℝ) : ℂ) + ((r * Real.sin t : ℝ) : ℂ) * Complex.I) = t := by
    have e : ((r * Real.cos t : ℝ) : ℂ) + ((r * Real.sin t : ℝ) : ℂ) * Complex.I = (r : ℂ) * (Complex.cos t + Complex.sin t * Complex.I) := by
      push_cast
      ring
    rw [e, Complex.arg_mul_cos_add_sin_mul_I hr ⟨ht.1, ht.2.le⟩]
  rw [h1, h2]

theorem angular_periodic (m : ℤ) (t : ℝ) (k : ℤ) : Spec.angular m (t + k * (2 * Real.pi)) = Spec.angular m t := by
  unfold Spec.angular
  have h1 : (m : ℝ) * (t + k * (2 * Real.pi)) = m * t + (m * k : ℤ) * (2 * Real.pi) := by push_cast; ring
  have h2 : (m.natAbs : ℝ) * (t + k * (2 * Real.pi)) = m.natAbs * t + (m.natAbs * k : ℤ) * (2 * Real.pi) := by
    push_cast
    rw [Nat.cast_natAbs]
    push_cast
    ring
  rw [h1, h2, Real.cos_add_int_mul_two_pi, Real.sin_add_int_mul_two_pi]

/-- The same at every angle. -/
theorem mode_polar' (n m : ℤ) {R r : ℝ} (hr : 0 < r) (t : ℝ) :
    Spec.zernikeMode n m R (r * Real.cos t) (r * Real.sin t) = Spec.radial n.toNat m.natAbs (r / R) * Spec.angular m t := by
  unfold Spec.zernikeMode
  have h1 : √((r * Real.cos t) ^ 2 + (r * Real.sin t) ^ 2) = r := by
    have : (r * Real.cos t) ^ 2 + (r * Real.sin t) ^ 2 = r ^ 2 := by
      have := Real.sin_sq_add_cos_sq t
      linear_combination r ^ 2 * this
    rw [this, Real.sqrt_sq hr.le]
  have h2 : Complex.arg (((r * Real.cos t : ℝ) : ℂ) + ((r * Real.sin t : ℝ) : ℂ) * Complex.I) =
      toIocMod Real.two_pi_pos (-Real.pi) t := by
    have e : ((r * Real.cos t : ℝ) : ℂ) + ((r * Real.sin t : ℝ) : ℂ) * Complex.I = (r : ℂ) * (Complex.cos t + Complex.sin t * Complex.I) := by
      push_cast
      ring
    rw [e, Complex.arg_mul_cos_add_sin_mul_I_eq_toIocMod hr]
  rw [h1, h2]
  congr 1
  rw [toIocMod, zsmul_eq_mul]
  have := angular_periodic m t (-(toIocDiv Real.two_pi_pos (-Real.pi) t))
  rw [← this]
  congr 1
  push_cast
  ring

/-- **Orthogonality of the modes.** -/
theorem disc_orth {n m n' m' : ℤ} (h : Spec.ZernikeIndex n m) (h' : Spec.ZernikeIndex n' m') {R : ℝ} (hR : 0 < R) :
    ∫ z in {z : ℝ × ℝ | z.1 ^ 2 + z.2 ^ 2 ≤ R ^ 2}, Spec.zernikeMode n m R z.1 z.2 * Spec.zernikeMode n' m' R z.1 z.2 =
      if n = n' ∧ m = m' then Real.pi * R ^ 2 / Spec.zernikeNorm n m ^ 2 else 0 := by
  rw [disc_integral (fun s => Spec.radial n.toNat m.natAbs s * Spec.radial n'.toNat m'.natAbs s)
    (fun t => Spec.angular m t * Spec.angular m' t) hR (fun z => Spec.zernikeMode n m R z.1 z.2 * Spec.zernikeMode n' m' R z.1 z.2)
    (fun r t hr ht => by simp only [mode_polar _ _ hr ht]; ring), angular_orth]
  by_cases hm : m = m'
  · subst hm
    obtain ⟨p, hp⟩ := index_form h
    obtain ⟨p', hp'⟩ := index_form h'
    have e1 : n.toNat = m.natAbs + 2 * p := by omega
    have e2 : n'.toNat = m.natAbs + 2 * p' := by omega
    rw [e1, e2, radial_orth, if_pos rfl]
    have hprop : (n = n' ∧ m = m) ↔ p' = p := by
      constructor
      · rintro ⟨h1, -⟩; omega
      · intro h1; exact ⟨by omega, rfl⟩
    by_cases hpp : p' = p
    · have hc : ((m.natAbs + 2 * p : ℕ) : ℝ) = (n : ℝ) := by
        rw [hp, Int.cast_natCast]
      have hn0 : (0 : ℝ) ≤ n := by rw [← hc]; positivity
      rw [if_pos hpp, if_pos (hprop.mpr hpp)]
      rw [hc, Spec.zernikeNorm]
      split_ifs with h0
      · rw [Real.sq_sqrt (by linarith)]
        field_simp
      · rw [Real.sq_sqrt (by linarith)]
        field_simp
    · rw [if_neg hpp, if_neg fun hc => hpp (hprop.mp hc)]
      ring
  · rw [if_neg hm, if_neg fun hc => hm hc.2]
    ring

end PySLM2.Profile
