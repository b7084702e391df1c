import Verif.Lemmas.ZernikeBound
import Verif.Props.Zernike

/-!
# C133: the stroke of a Zernike mode
-/

noncomputable section

namespace PySLM2.Profile

/-- **C133.** Within the radius, and everywhere if it is not extrapolated, the values of a `Zernike` profile are real and
not larger than the amplitude times the normalisation factor. -/
theorem C133_bound (h : Heap) (a R : ℝ) {n m : ℤ} (nrm ex : Bool) (hv : Spec.ZernikeIndex n m) (hR : 0 < R)
    {r : Heap × Prof} (hr : New.run h (.zernike a R n m nrm ex) = .ok r) (x y : ℝ)
    (hx : ex = false ∨ x ^ 2 + y ^ 2 ≤ R ^ 2) :
    ∃ v : ℝ, eval r.1 r.2 x y = some (v : ℂ) ∧ |v| ≤ |a| * (if nrm then Spec.zernikeNorm n m else 1) := by
  obtain ⟨r', hr', hval⟩ := C60_formula h a R nrm ex hv hR
  rw [hr] at hr'
  injection hr' with hr'
  subst hr'
  refine ⟨_, hval x y, ?_⟩
  have hN : 0 ≤ (if nrm then Spec.zernikeNorm n m else 1) := by
    split_ifs
    · unfold Spec.zernikeNorm
      split_ifs <;> positivity
    · exact zero_le_one
  generalize (if nrm then Spec.zernikeNorm n m else 1) = N at hN ⊢
  by_cases hc : ex = false ∧ √(x ^ 2 + y ^ 2) > R
  · rw [if_pos hc, abs_zero]
    exact mul_nonneg (abs_nonneg a) hN
  rw [if_neg hc]
  have hd : √(x ^ 2 + y ^ 2) ≤ R := by
    rcases hx with hx | hx
    · by_contra hlt
      exact hc ⟨hx, not_le.mp hlt⟩
    · exact Real.sqrt_le_iff.mpr ⟨hR.le, hx⟩
  have hρ : |√(x ^ 2 + y ^ 2) / R| ≤ 1 := by
    rw [abs_of_nonneg (by positivity), div_le_one hR]
    exact hd
  obtain ⟨p, hp⟩ := index_form hv
  have hn : n.toNat = m.natAbs + 2 * p := by omega
  have h1 : |Spec.zernikeMode n m R x y| ≤ 1 := by
    unfold Spec.zernikeMode
    rw [abs_mul, hn]
    refine mul_le_one₀ (radial_le p m.natAbs hρ) (abs_nonneg _) ?_
    unfold Spec.angular
    split_ifs
    · exact Real.abs_cos_le_one _
    · exact Real.abs_sin_le_one _
  rw [abs_mul, abs_mul, abs_of_nonneg hN]
  exact mul_le_of_le_one_right (by positivity) h1

/-- **C133.** The bound is attained on the edge. -/
theorem C133_attained (h : Heap) (a R : ℝ) {n m : ℤ} (nrm ex : Bool) (hv : Spec.ZernikeIndex n m) (hR : 0 < R)
    {r : Heap × Prof} (hr : New.run h (.zernike a R n m nrm ex) = .ok r) :
    ∃ x y : ℝ, x ^ 2 + y ^ 2 = R ^ 2 ∧
      eval r.1 r.2 x y = some ((a * (if nrm then Spec.zernikeNorm n m else 1) : ℝ) : ℂ) := by
  obtain ⟨-, r', hr', he⟩ := C60_edge h a R nrm ex hv hR
  rw [hr] at hr'
  injection hr' with hr'
  subst hr'
  have key : ∃ t, Spec.angular m t = 1 := by
    unfold Spec.angular
    by_cases hm : 0 ≤ m
    · exact ⟨0, by rw [if_pos hm, mul_zero, Real.cos_zero]⟩
    · have : (m.natAbs : ℝ) ≠ 0 := by
        have : m.natAbs ≠ 0 := by omega
        exact_mod_cast this
      exact ⟨Real.pi / 2 / m.natAbs, by rw [if_neg hm, mul_div_cancel₀ _ this, Real.sin_pi_div_two]⟩
  obtain ⟨t, ht⟩ := key
  refine ⟨R * Real.cos t, R * Real.sin t, ?_, ?_⟩
  · have := Real.sin_sq_add_cos_sq t
    linear_combination R ^ 2 * this
  · rw [he t, ht, mul_one]

/-- C133: secondary spherical aberration and a trefoil, not normalised. -/
example (h : Heap) : (Spec.ZernikeIndex 6 0 ∧ ∃ r, New.run h (.zernike 2 3 6 0 true false) = .ok r) ∧
    Spec.ZernikeIndex 3 (-3) ∧ ∃ r, New.run h (.zernike 2 3 3 (-3) false true) = .ok r := by
  have h1 : Spec.ZernikeIndex 6 0 := ⟨by norm_num, by decide⟩
  have h2 : Spec.ZernikeIndex 3 (-3) := ⟨by norm_num, by decide⟩
  obtain ⟨r, hr, -⟩ := C60_formula h 2 3 true false h1 (by norm_num)
  obtain ⟨r', hr', -⟩ := C60_formula h 2 3 false true h2 (by norm_num)
  exact ⟨⟨h1, r, hr⟩, h2, r', hr'⟩

end PySLM2.Profile
