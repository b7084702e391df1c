import Verif.Lemmas.LaguerreFourier

/-!
# Sums over pixels of a polynomial times a Gaussian
-/

noncomputable section

open Complex Finset MeasureTheory

namespace PySLM2.Profile

/-- `x^k exp(-x²)` at `x = √2 (t - c)/w` -/
def bump (k : ℕ) (c w t : ℝ) : ℝ := (√2 / w * (t - c)) ^ k * Real.exp (-(√2 / w * (t - c)) ^ 2)

/-- The derivative of `bump`. -/
def bump' (k : ℕ) (c w t : ℝ) : ℝ :=
  √2 / w * ((k : ℝ) * (√2 / w * (t - c)) ^ (k - 1) * Real.exp (-(√2 / w * (t - c)) ^ 2) -
    2 * ((√2 / w * (t - c)) ^ (k + 1) * Real.exp (-(√2 / w * (t - c)) ^ 2)))

theorem bump_deriv (k : ℕ) (c w t : ℝ) : HasDerivAt (bump k c w) (bump' k c w t) t := by
  have h1 : HasDerivAt (fun t : ℝ => √2 / w * (t - c)) (√2 / w) t := by
    simpa using ((hasDerivAt_id t).sub_const c).const_mul (√2 / w)
  have h2 := h1.pow k
  have h3 := ((h1.pow 2).neg).exp
  refine (h2.mul h3).congr_deriv ?_
  unfold bump'
  simp only [Pi.pow_apply, Pi.neg_apply, Nat.cast_ofNat]
  ring

theorem integrable_monomial (k : ℕ) : Integrable fun t : ℝ => t ^ k * Real.exp (-t ^ 2) := by
  have := integrable_poly_gauss (Polynomial.X ^ k)
  simpa using this

theorem integrable_bump (k : ℕ) (c : ℝ) {w : ℝ} (hw : 0 < w) : Integrable (bump k c w) :=
  integrable_comp (integrable_monomial k) hw c

theorem integrable_bump' (k : ℕ) (c : ℝ) {w : ℝ} (hw : 0 < w) : Integrable (bump' k c w) := by
  have h := (integrable_comp (((integrable_monomial (k - 1)).const_mul (k : ℝ)).sub
    ((integrable_monomial (k + 1)).const_mul 2)) hw c).const_mul (√2 / w)
  refine h.congr (Filter.Eventually.of_forall fun t => ?_)
  simp only [bump', Pi.sub_apply]
  ring

theorem continuous_bump' (k : ℕ) (c w : ℝ) : Continuous (bump' k c w) := by
  unfold bump'
  fun_prop

/-- The function `q(x, y) exp(-(x² + y²))`. -/
def gaussFun (q : Poly2) (s t : ℝ) : ℂ := MvPolynomial.eval ![(s : ℂ), (t : ℂ)] q * cexp (-((s : ℂ) ^ 2 + t ^ 2))

/-- The function `gaussFun q` at the position `z` relative to the centre, in units of `w/√2`. -/
def gaussAt (x0 y0 w : ℝ) (q : Poly2) (z : ℝ × ℝ) : ℂ := gaussFun q (√2 / w * (z.1 - x0)) (√2 / w * (z.2 - y0))

/-- The sums over the pixels of a device approach the integral over the plane. -/
def Sampled (x0 y0 w : ℝ) (q : Poly2) : Prop :=
  Integrable (gaussAt x0 y0 w q) ∧
  ∀ ε > 0, ∃ δ > 0, ∃ T : ℝ, ∀ (ps : ℝ) (Nx Ny : ℕ) (xs ys : ℕ → ℝ), 0 ≤ ps → ps ≤ δ →
    (∀ k < Nx, xs k ∈ Set.Icc (-(Nx * ps / 2) + k * ps) (-(Nx * ps / 2) + (k + 1) * ps)) →
    (∀ k < Ny, ys k ∈ Set.Icc (-(Ny * ps / 2) + k * ps) (-(Ny * ps / 2) + (k + 1) * ps)) →
    T ≤ Nx * ps / 2 → T ≤ Ny * ps / 2 →
    ‖∑ j ∈ range Nx, ∑ i ∈ range Ny, (ps : ℂ) ^ 2 * gaussAt x0 y0 w q (xs j, ys i) - ∫ z, gaussAt x0 y0 w q z‖ ≤ ε

theorem Sampled.add {x0 y0 w : ℝ} {q q' : Poly2} (h : Sampled x0 y0 w q) (h' : Sampled x0 y0 w q') :
    Sampled x0 y0 w (q + q') := by
  have hm : ∀ z, gaussAt x0 y0 w (q + q') z = gaussAt x0 y0 w q z + gaussAt x0 y0 w q' z := fun z => by
    unfold gaussAt gaussFun; rw [map_add, add_mul]
  refine ⟨(h.1.add h'.1).congr (Filter.Eventually.of_forall fun z => (hm z).symm), fun ε hε => ?_⟩
  obtain ⟨δ, hδ, T, H⟩ := h.2 (ε / 2) (by positivity)
  obtain ⟨δ', hδ', T', H'⟩ := h'.2 (ε / 2) (by positivity)
  refine ⟨min δ δ', lt_min hδ hδ', max T T', fun ps Nx Ny xs ys a3 a4 a5 a6 a7 a8 => ?_⟩
  have e1 := H ps Nx Ny xs ys a3 (a4.trans (min_le_left _ _)) a5 a6 ((le_max_left _ _).trans a7) ((le_max_left _ _).trans a8)
  have e2 := H' ps Nx Ny xs ys a3 (a4.trans (min_le_right _ _)) a5 a6 ((le_max_right _ _).trans a7)
    ((le_max_right _ _).trans a8)
  simp only [hm, mul_add, sum_add_distrib]
  rw [integral_add h.1 h'.1]
  refine le_trans (le_of_eq ?_) ((norm_add_le _ _).trans ((add_le_add e1 e2).trans_eq (add_halves ε)))
  congr 1
  ring

theorem gaussAt_monomial (x0 y0 w : ℝ) (d : Fin 2 →₀ ℕ) (a : ℂ) (z : ℝ × ℝ) :
    gaussAt x0 y0 w (MvPolynomial.monomial d a) z = a * ((bump (d 0) x0 w z.1 : ℂ) * (bump (d 1) y0 w z.2 : ℂ)) := by
  unfold gaussAt gaussFun bump
  rw [MvPolynomial.eval_monomial, Finsupp.prod_fintype _ _ (by simp), Fin.prod_univ_two, neg_add, Complex.exp_add]
  push_cast
  ring

theorem Sampled.monomial (x0 y0 : ℝ) {w : ℝ} (hw : 0 < w) (d : Fin 2 →₀ ℕ) (a : ℂ) :
    Sampled x0 y0 w (MvPolynomial.monomial d a) := by
  set f : ℝ → ℂ := fun t => (bump (d 0) x0 w t : ℂ) with hf
  set g : ℝ → ℂ := fun t => (bump (d 1) y0 w t : ℂ) with hg
  have hfi : Integrable f := (integrable_bump (d 0) x0 hw).ofReal (𝕜 := ℂ)
  have hgi : Integrable g := (integrable_bump (d 1) y0 hw).ofReal (𝕜 := ℂ)
  have hz : gaussAt x0 y0 w (MvPolynomial.monomial d a) = fun z => a * (f z.1 * g z.2) :=
    funext fun z => gaussAt_monomial x0 y0 w d a z
  unfold Sampled
  rw [hz]
  refine ⟨(hfi.mul_prod hgi).const_mul a, fun ε hε => ?_⟩
  set M := max (∫ t : ℝ, ‖f t‖) (∫ t : ℝ, ‖g t‖) with hM
  have hM0 : 0 ≤ M := le_max_of_le_left (integral_nonneg fun _ => norm_nonneg _)
  set η := ε / (‖a‖ + 1) with hη
  have hηp : 0 < η := by positivity
  set ε₁ := min 1 (η / (2 * M + 1)) with hε₁
  have hpos : 0 < ε₁ := lt_min one_pos (by positivity)
  obtain ⟨δ₁, hδ₁, T₁, -, H₁⟩ := oscillating_sum (f := f) (K := 0)
    (fun t => (bump_deriv (d 0) x0 w t).ofReal_comp) (continuous_ofReal.comp (continuous_bump' (d 0) x0 w)) hfi
    ((integrable_bump' (d 0) x0 hw).ofReal (𝕜 := ℂ)) hpos
  obtain ⟨δ₂, hδ₂, T₂, -, H₂⟩ := oscillating_sum (f := g) (K := 0)
    (fun t => (bump_deriv (d 1) y0 w t).ofReal_comp) (continuous_ofReal.comp (continuous_bump' (d 1) y0 w)) hgi
    ((integrable_bump' (d 1) y0 hw).ofReal (𝕜 := ℂ)) hpos
  refine ⟨min δ₁ δ₂, lt_min hδ₁ hδ₂, max T₁ T₂, fun ps Nx Ny xs ys a3 a4 a5 a6 a7 a8 => ?_⟩
  have s1 := H₁ 0 (-(Nx * ps / 2)) ps Nx xs (by simp) a3 (a4.trans (min_le_left _ _)) a5 (by linarith [le_max_left T₁ T₂])
    (by linarith [le_max_left T₁ T₂])
  have s2 := H₂ 0 (-(Ny * ps / 2)) ps Ny ys (by simp) a3 (a4.trans (min_le_right _ _)) a6 (by linarith [le_max_right T₁ T₂])
    (by linarith [le_max_right T₁ T₂])
  simp only [ofReal_zero, mul_zero, zero_mul, Complex.exp_zero, mul_one] at s1 s2
  have hp := Riemann.prod_error hM0 s1 s2 ((norm_integral_le_integral_norm _).trans (le_max_left _ _))
    ((norm_integral_le_integral_norm _).trans (le_max_right _ _))
  have h5 : (M + ε₁) * (M + ε₁) - M ^ 2 ≤ η := by
    have h1 : ε₁ ≤ 1 := min_le_left _ _
    have h2 : ε₁ * (2 * M + 1) ≤ η := by
      rw [← le_div_iff₀ (by positivity)]
      exact min_le_right _ _
    nlinarith
  have hI : ∫ z : ℝ × ℝ, a * (f z.1 * g z.2) = a * ((∫ t, f t) * ∫ t, g t) := by
    rw [integral_const_mul, Measure.volume_eq_prod, integral_prod_mul]
  have hS : ∑ j ∈ range Nx, ∑ i ∈ range Ny, (ps : ℂ) ^ 2 * (a * (f (xs j) * g (ys i))) =
      a * ((∑ k ∈ range Nx, (ps : ℂ) * f (xs k)) * ∑ k ∈ range Ny, (ps : ℂ) * g (ys k)) := by
    rw [sum_mul_sum, mul_sum]
    refine sum_congr rfl fun j _ => ?_
    rw [mul_sum]
    refine sum_congr rfl fun i _ => ?_
    ring
  rw [hI]
  simp only
  rw [hS, ← mul_sub, norm_mul]
  refine (mul_le_mul_of_nonneg_left (hp.trans h5) (norm_nonneg a)).trans ?_
  rw [hη, mul_div_assoc', div_le_iff₀ (by positivity)]
  nlinarith [norm_nonneg a]

/-- Every polynomial times a Gaussian is sampled faithfully. -/
theorem sampled (x0 y0 : ℝ) {w : ℝ} (hw : 0 < w) (q : Poly2) : Sampled x0 y0 w q := by
  induction q using MvPolynomial.induction_on' with
  | monomial d a => exact Sampled.monomial x0 y0 hw d a
  | add p q hp hq => exact hp.add hq

theorem modeFun_conj (q : Poly2) (s t : ℝ) :
    (starRingEnd ℂ) (modeFun q s t) = modeFun (MvPolynomial.map (starRingEnd ℂ) q) s t := by
  unfold modeFun
  rw [map_mul, MvPolynomial.map_eval, ← Complex.exp_conj]
  congr 2
  · congr 1
    funext i
    fin_cases i <;> simp
  · simp [map_ofNat]

theorem modeFun_mul (q q' : Poly2) (s t : ℝ) : modeFun q s t * modeFun q' s t = gaussFun (q * q') s t := by
  unfold modeFun gaussFun
  rw [map_mul, mul_mul_mul_comm, ← Complex.exp_add]
  congr 2
  ring

end PySLM2.Profile
