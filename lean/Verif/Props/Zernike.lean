import Verif.Lemmas.ZernikeCode

/-!
# Zernike profiles (properties C60–C62)
-/

noncomputable section

open MeasureTheory

namespace PySLM2.Profile

theorem eval_newZernike {h : Heap} {a R : ℝ} {n m : ℤ} {nrm ex : Bool} {r : Heap × Prof}
    (hr : New.run h (.zernike a R n m nrm ex) = .ok r) (x y : ℝ) :
    ∃ d, zernikeData n m nrm = .ok d ∧ eval r.1 r.2 x y = (zernikeFunc a R n m d.1 d.2 ex x y).map Complex.ofReal := by
  simp only [New.run, newZernike] at hr
  cases hd : zernikeData n m nrm with
  | error e => rw [hd] at hr; cases hr
  | ok d =>
    rw [hd] at hr
    injection hr with hr
    subst hr
    refine ⟨d, rfl, ?_⟩
    simp only [allocRe, eval, Function.update_self]

/-! ## C60 -/

/-- **C60.** Every valid index pair is accepted, and the profile is the textbook mode (times the amplitude, and times
the normalisation factor unless switched off), cut off outside the radius unless extrapolated. -/
theorem C60_formula (h : Heap) (a R : ℝ) {n m : ℤ} (nrm ex : Bool) (hv : Spec.ZernikeIndex n m) (hR : 0 < R) :
    ∃ r, New.run h (.zernike a R n m nrm ex) = .ok r ∧ ∀ x y : ℝ,
      eval r.1 r.2 x y = some (((if ex = false ∧ √(x ^ 2 + y ^ 2) > R then 0
        else a * (if nrm then Spec.zernikeNorm n m else 1) * Spec.zernikeMode n m R x y : ℝ)) : ℂ) := by
  have hd := zernikeData_valid hv nrm
  obtain ⟨r, hr⟩ : ∃ r, New.run h (.zernike a R n m nrm ex) = .ok r := by
    simp only [New.run, newZernike, hd]
    exact ⟨_, rfl⟩
  refine ⟨r, hr, fun x y => ?_⟩
  obtain ⟨d, hd', he⟩ := eval_newZernike hr x y
  rw [hd] at hd'
  injection hd' with hd'
  subst hd'
  rw [he, zernikeFunc_valid hv a R hR.ne', Option.map_some]
  congr 2
  have hgt : √(x ^ 2 + y ^ 2) / R > 1 ↔ √(x ^ 2 + y ^ 2) > R := one_lt_div hR
  have hcond : (¬ ex = true ∧ √(x ^ 2 + y ^ 2) / R > 1) ↔ (ex = false ∧ √(x ^ 2 + y ^ 2) > R) := by
    rw [hgt, Bool.not_eq_true]
  by_cases hc : ex = false ∧ √(x ^ 2 + y ^ 2) > R
  · rw [if_pos hc, if_pos (hcond.mpr hc)]
  · rw [if_neg hc, if_neg fun h => hc (hcond.mp h)]
    cases nrm <;> simp <;> ring

/-- **C60.** The radial polynomial is 1 at the edge: on the circle of the given radius the profile is the amplitude
times the azimuthal factor (times the normalisation factor). -/
theorem C60_edge (h : Heap) (a R : ℝ) {n m : ℤ} (nrm ex : Bool) (hv : Spec.ZernikeIndex n m) (hR : 0 < R) :
    Spec.radial n.toNat m.natAbs 1 = 1 ∧
    ∃ r, New.run h (.zernike a R n m nrm ex) = .ok r ∧ ∀ t : ℝ,
      eval r.1 r.2 (R * Real.cos t) (R * Real.sin t) =
        some ((a * (if nrm then Spec.zernikeNorm n m else 1) * Spec.angular m t : ℝ) : ℂ) := by
  have h1 : Spec.radial n.toNat m.natAbs 1 = 1 := by
    obtain ⟨p, hp⟩ := index_form hv
    have ht : n.toNat = m.natAbs + 2 * p := by omega
    rw [ht, radial_one]
  obtain ⟨r, hr, he⟩ := C60_formula h a R nrm ex hv hR
  refine ⟨h1, r, hr, fun t => ?_⟩
  rw [he]
  have hs : √((R * Real.cos t) ^ 2 + (R * Real.sin t) ^ 2) = R := by
    have : (R * Real.cos t) ^ 2 + (R * Real.sin t) ^ 2 = R ^ 2 := by
      have := Real.sin_sq_add_cos_sq t
      linear_combination R ^ 2 * this
    rw [this, Real.sqrt_sq hR.le]
  rw [if_neg (by rw [hs]; exact fun h => lt_irrefl _ h.2), mode_polar' n m hR t, div_self hR.ne', h1, one_mul]

/-- **C60.** Without extrapolation the profile vanishes beyond the radius and agrees with the extrapolated one
elsewhere; this holds for every accepted index pair. -/
theorem C60_support (h : Heap) (a R : ℝ) (n m : ℤ) (nrm : Bool) (hR : 0 < R) {r r' : Heap × Prof}
    (hr : New.run h (.zernike a R n m nrm false) = .ok r) (hr' : New.run h (.zernike a R n m nrm true) = .ok r')
    (x y : ℝ) :
    (R ^ 2 < x ^ 2 + y ^ 2 → eval r.1 r.2 x y = some 0) ∧
      (x ^ 2 + y ^ 2 ≤ R ^ 2 → eval r.1 r.2 x y = eval r'.1 r'.2 x y) := by
  obtain ⟨d, hd, he⟩ := eval_newZernike hr x y
  obtain ⟨d', hd', he'⟩ := eval_newZernike hr' x y
  rw [hd] at hd'
  injection hd' with hd'
  subst hd'
  rw [he, he']
  have hgt : √(x ^ 2 + y ^ 2) / R > 1 ↔ R ^ 2 < x ^ 2 + y ^ 2 := by
    rw [gt_iff_lt, one_lt_div hR, Real.lt_sqrt hR.le]
  constructor
  · intro hc
    simp only [zernikeFunc, if_neg hR.ne', Bool.false_eq_true, if_false, if_pos (hgt.mpr hc), Option.map_some, Complex.ofReal_zero]
  · intro hc
    simp only [zernikeFunc, if_neg hR.ne', Bool.false_eq_true, if_false, if_true, if_neg fun h => absurd (hgt.mp h) (not_lt.mpr hc)]

/-- C60: coma, `n = 3`, `m = -1`. -/
example : Spec.ZernikeIndex 3 (-1) ∧ (0 : ℝ) < 2 := ⟨⟨by norm_num, 2, by norm_num⟩, by norm_num⟩

/-! ## C61 -/

/-- The value of a profile as a real function. -/
def realValue (r : Heap × Prof) (x y : ℝ) : ℝ := ((eval r.1 r.2 x y).getD 0).re

/-- **C61.** Orthonormality over the aperture. -/
theorem C61_orthonormal (h : Heap) {R : ℝ} (hR : 0 < R) {n m n' m' : ℤ} (hv : Spec.ZernikeIndex n m)
    (hv' : Spec.ZernikeIndex n' m') (ex ex' : Bool) {r r' : Heap × Prof}
    (hr : New.run h (.zernike 1 R n m true ex) = .ok r) (hr' : New.run h (.zernike 1 R n' m' true ex') = .ok r') :
    (∫ z in {z : ℝ × ℝ | z.1 ^ 2 + z.2 ^ 2 ≤ R ^ 2}, realValue r z.1 z.2 * realValue r' z.1 z.2) / (Real.pi * R ^ 2) =
      if n = n' ∧ m = m' then 1 else 0 := by
  have val : ∀ {n m : ℤ} {ex : Bool} {r : Heap × Prof}, Spec.ZernikeIndex n m → New.run h (.zernike 1 R n m true ex) = .ok r →
      ∀ z ∈ {z : ℝ × ℝ | z.1 ^ 2 + z.2 ^ 2 ≤ R ^ 2}, realValue r z.1 z.2 = Spec.zernikeNorm n m * Spec.zernikeMode n m R z.1 z.2 := by
    intro n m ex r hv hr z hz
    obtain ⟨r₂, hr₂, he⟩ := C60_formula h 1 R true ex hv hR
    rw [hr] at hr₂
    injection hr₂ with hr₂
    subst hr₂
    have hs : ¬ √(z.1 ^ 2 + z.2 ^ 2) > R := by
      rw [gt_iff_lt, not_lt]
      exact Real.sqrt_le_iff.mpr ⟨hR.le, hz⟩
    unfold realValue
    rw [he, if_neg fun h => hs h.2]
    simp
  have hmeas : MeasurableSet {z : ℝ × ℝ | z.1 ^ 2 + z.2 ^ 2 ≤ R ^ 2} := measurableSet_le (by fun_prop) (by fun_prop)
  rw [setIntegral_congr_fun hmeas (g := fun z => (Spec.zernikeNorm n m * Spec.zernikeNorm n' m') *
    (Spec.zernikeMode n m R z.1 z.2 * Spec.zernikeMode n' m' R z.1 z.2))
    (fun z hz => by simp only [val hv hr z hz, val hv' hr' z hz]; ring), integral_const_mul, disc_orth hv hv' hR]
  split_ifs with hc
  · obtain ⟨rfl, rfl⟩ := hc
    have hn : (0 : ℝ) ≤ n := by exact_mod_cast (abs_nonneg m).trans hv.1
    have hN : Spec.zernikeNorm n m ≠ 0 := by
      unfold Spec.zernikeNorm
      split_ifs
      · exact (Real.sqrt_pos.mpr (by linarith)).ne'
      · exact (Real.sqrt_pos.mpr (by linarith)).ne'
    have hpi := Real.pi_pos
    field_simp
  · simp

/-- C61: astigmatism and defocus. -/
example (h : Heap) : Spec.ZernikeIndex 2 2 ∧ Spec.ZernikeIndex 2 0 ∧
    (∃ r, New.run h (.zernike 1 3 2 2 true false) = .ok r) ∧ ∃ r, New.run h (.zernike 1 3 2 0 true true) = .ok r := by
  have h1 : Spec.ZernikeIndex 2 2 := ⟨by norm_num, 0, by norm_num⟩
  have h2 : Spec.ZernikeIndex 2 0 := ⟨by norm_num, 1, by norm_num⟩
  refine ⟨h1, h2, ?_, ?_⟩
  · obtain ⟨r, hr, _⟩ := C60_formula h 1 3 true false h1 (by norm_num)
    exact ⟨r, hr⟩
  · obtain ⟨r, hr, _⟩ := C60_formula h 1 3 true true h2 (by norm_num)
    exact ⟨r, hr⟩

/-! ## C62 -/

/-- **C62 is false of the code**: `Zernike(a, radius, n, m)` accepts pairs with `m < -n`, e.g. `(0, -2)`. -/
theorem C62_refuted (h : Heap) (a R : ℝ) (nrm ex : Bool) :
    ¬ Spec.ZernikeIndex 0 (-2) ∧ ∃ r, New.run h (.zernike a R 0 (-2) nrm ex) = .ok r := by
  refine ⟨?_, ?_⟩
  · rintro ⟨h1, _⟩
    norm_num at h1
  · have hd : ∃ d, zernikeData 0 (-2) nrm = .ok d := by
      cases nrm
      · exact ⟨_, rfl⟩
      · simp only [zernikeData, mathSqrt]
        norm_num
        exact ⟨_, _, rfl⟩
    obtain ⟨d, hd⟩ := hd
    simp only [New.run, newZernike, hd]
    exact ⟨_, rfl⟩

/-- **C62 (partial).** Exactly which pairs are rejected with a `ValueError`: `m > n`, an odd difference, and, for
normalised profiles, `n < -1`.  Missing from the property: pairs with `m < -n` and even difference are accepted when
`n ≥ -1` (or the profile is not normalised).  Such a profile is zero everywhere. -/
theorem C62_partial (h : Heap) (a R : ℝ) (n m : ℤ) (nrm ex : Bool) :
    (New.run h (.zernike a R n m nrm ex) = .error .valueError ↔
      m > n ∨ Odd (n - m) ∨ (nrm = true ∧ n < -1)) ∧
    (∀ e, New.run h (.zernike a R n m nrm ex) = .error e → e = .valueError) ∧
    (∀ r, New.run h (.zernike a R n m nrm ex) = .ok r → ¬ Spec.ZernikeIndex n m → 0 < R →
      ∀ x y, eval r.1 r.2 x y = some 0) := by
  have hrun : ∀ e, New.run h (.zernike a R n m nrm ex) = .error e ↔ zernikeData n m nrm = .error e := by
    intro e
    simp only [New.run, newZernike]
    cases zernikeData n m nrm <;> simp
  have hodd : Odd (n - m) ↔ (n - m) % 2 ≠ 0 := by rw [Int.odd_iff]; omega
  have hbad : (m > n ∨ Odd (n - m) ∨ (nrm = true ∧ n < -1)) → zernikeData n m nrm = .error .valueError := by
    intro hc
    unfold zernikeData
    by_cases h1 : ¬ n ≥ m
    · rw [if_pos h1]
    rw [if_neg h1]
    by_cases h2 : (n - m) % 2 ≠ 0
    · rw [if_pos h2]
    rw [if_neg h2]
    rcases hc with hc | hc | ⟨rfl, hc⟩
    · exact absurd hc (by omega)
    · exact absurd (hodd.mp hc) h2
    · have hm : m ≠ 0 := by omega
      have hn : (n : ℝ) < -1 := by exact_mod_cast hc
      simp only [if_true, if_neg hm, mathSqrt]
      rw [if_pos (by linarith)]
      rfl
  have hgood : ¬ (m > n ∨ Odd (n - m) ∨ (nrm = true ∧ n < -1)) →
      ∃ q, zernikeData n m nrm = .ok ((zernikeCoef n m).reverse, q) := by
    intro hc
    unfold zernikeData
    rw [if_neg (fun h1 => hc (.inl (by omega))), if_neg (fun h2 => hc (.inr (.inl (hodd.mpr h2))))]
    cases nrm with
    | false => exact ⟨_, rfl⟩
    | true =>
      have hn : (-1 : ℝ) ≤ n := by
        have : -1 ≤ n := by
          by_contra hn
          exact hc (.inr (.inr ⟨rfl, by omega⟩))
        exact_mod_cast this
      simp only [if_true, mathSqrt]
      by_cases hm : m = 0
      · rw [if_pos hm, if_neg (by linarith)]
        exact ⟨_, rfl⟩
      · rw [if_neg hm, if_neg (by linarith)]
        exact ⟨_, rfl⟩
  have hiff : zernikeData n m nrm = .error .valueError ↔ m > n ∨ Odd (n - m) ∨ (nrm = true ∧ n < -1) := by
    refine ⟨fun h => ?_, hbad⟩
    by_contra hc
    obtain ⟨q, hq⟩ := hgood hc
    rw [hq] at h
    cases h
  have hchar : (∃ e, zernikeData n m nrm = .error e) → zernikeData n m nrm = .error .valueError := by
    rintro ⟨e, he⟩
    refine hbad ?_
    by_contra hc
    obtain ⟨q, hq⟩ := hgood hc
    rw [hq] at he
    cases he
  refine ⟨by rw [hrun, hiff], fun e he => ?_, fun r hr hnv hR x y => ?_⟩
  · have h1 := (hrun e).mp he
    have h2 := hchar ⟨e, h1⟩
    rw [h1] at h2
    injection h2
  · obtain ⟨d, hd, he⟩ := eval_newZernike hr x y
    have hacc : ¬ (m > n ∨ Odd (n - m) ∨ (nrm = true ∧ n < -1)) := fun hc => by
      rw [hiff.mpr hc] at hd; cases hd
    have hmn : n < |m| := by
      by_contra hc
      exact hnv ⟨not_lt.mp hc, by
        have : ¬ Odd (n - m) := fun ho => hacc (.inr (.inl ho))
        exact Int.not_odd_iff_even.mp this⟩
    have hd1 : d.1 = (List.replicate (n + 1).toNat (0 : ℝ)).reverse := by
      have hK : ((n - |m|) / 2 + 1).toNat = 0 := by
        have hpar : (n - m) % 2 = 0 := by
          by_contra hc
          exact hacc (.inr (.inl (by rw [Int.odd_iff]; omega)))
        rcases abs_cases m with ⟨ha, _⟩ | ⟨ha, _⟩ <;> rw [ha] at hmn ⊢ <;> omega
      have hcoef : zernikeCoef n m = List.replicate (n + 1).toNat 0 := by
        unfold zernikeCoef
        rw [hK]
        rfl
      obtain ⟨q, hq⟩ := hgood hacc
      rw [hd] at hq
      injection hq with hq
      rw [hq, hcoef]
    have hz : ∀ ρ, polyval d.1 ρ = 0 := by
      intro ρ
      rw [hd1, polyval_reverse]
      unfold listVal
      refine Finset.sum_eq_zero fun j _ => ?_
      have : (List.replicate (n + 1).toNat (0 : ℝ)).getD j 0 = 0 := by
        simp [List.getD_eq_getElem?_getD, List.getElem?_replicate]
        split_ifs <;> rfl
      rw [this, zero_mul]
    have hnz : ¬ (n = 0 ∧ m = 0) := by
      rintro ⟨rfl, rfl⟩
      simp at hmn
    rw [he]
    simp only [zernikeFunc, if_neg hR.ne', if_neg hnz, hz, mul_zero, zero_mul, ite_self]
    cases d.2 <;> simp

/-- C62: a pair that is rejected, and one that is accepted although it is not a mode. -/
example : (3 : ℤ) > 1 ∧ ¬ Spec.ZernikeIndex 1 3 ∧ ¬ Spec.ZernikeIndex 1 (-3) := by
  refine ⟨by norm_num, ?_, ?_⟩ <;> rintro ⟨h, _⟩ <;> norm_num at h

end PySLM2.Profile
