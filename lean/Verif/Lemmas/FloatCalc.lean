import Verif.Spec.FloatCalc
import Verif.Lemmas.FloatGrating
import Verif.Lemmas.FloatSim
import Verif.Lemmas.ModeMatching2
import Mathlib.Analysis.Real.Pi.Bounds

/-!
# Rounding errors of mode matching
-/

noncomputable section

open Complex

namespace PySLM2

open Spec

namespace Spec

/-! ### Rounding to nearest keeps the order -/

theorem round_le_round {x y : ℝ} (h : x ≤ y) : round x ≤ round y := by
  rw [round_eq, round_eq]
  exact Int.floor_le_floor (by linarith)

/-- Rounding does not cross a multiple of the spacing. -/
theorem nearest_le {t : ℕ} {x : ℝ} {k : ℤ} (h : x ≤ k * (2 : ℝ) ^ (Int.log 2 |x| - t + 1)) :
    nearest t x ≤ k * (2 : ℝ) ^ (Int.log 2 |x| - t + 1) := by
  have hq : (0 : ℝ) < (2 : ℝ) ^ (Int.log 2 |x| - t + 1) := by positivity
  have h1 := round_le_round ((div_le_iff₀ hq).mpr h)
  rw [round_intCast] at h1
  rw [nearest]
  have : ((round (x / (2 : ℝ) ^ (Int.log 2 |x| - t + 1)) : ℤ) : ℝ) ≤ k := by exact_mod_cast h1
  gcongr

theorem le_nearest {t : ℕ} {x : ℝ} {k : ℤ} (h : k * (2 : ℝ) ^ (Int.log 2 |x| - t + 1) ≤ x) :
    k * (2 : ℝ) ^ (Int.log 2 |x| - t + 1) ≤ nearest t x := by
  have hq : (0 : ℝ) < (2 : ℝ) ^ (Int.log 2 |x| - t + 1) := by positivity
  have h1 := round_le_round ((le_div_iff₀ hq).mpr h)
  rw [round_intCast] at h1
  rw [nearest]
  have : (k : ℝ) ≤ ((round (x / (2 : ℝ) ^ (Int.log 2 |x| - t + 1)) : ℤ) : ℝ) := by exact_mod_cast h1
  gcongr

theorem pow_upper (t : ℕ) (l : ℤ) : (2 : ℝ) ^ (l + 1) = ((2 ^ t : ℤ) : ℝ) * (2 : ℝ) ^ (l - t + 1) := by
  push_cast
  rw [← zpow_natCast, ← zpow_add₀ (by norm_num)]
  congr 1
  ring

theorem pow_lower {t : ℕ} (ht : 1 ≤ t) (l : ℤ) : (2 : ℝ) ^ l = ((2 ^ (t - 1) : ℤ) : ℝ) * (2 : ℝ) ^ (l - t + 1) := by
  push_cast
  rw [← zpow_natCast, ← zpow_add₀ (by norm_num)]
  congr 1
  push_cast [ht]
  ring

theorem nearest_mono {t : ℕ} (ht : 1 ≤ t) : Monotone (nearest t) := by
  have two : (0 : ℝ) < 2 := by norm_num
  have zero : nearest t 0 = 0 := by simp [nearest]
  have lo : ∀ x : ℝ, 0 < |x| → (2 : ℝ) ^ Int.log 2 |x| ≤ |x| := fun x hx => by
    have := Int.zpow_log_le_self (b := 2) (r := |x|) (by norm_num) hx
    exact_mod_cast this
  have up : ∀ x : ℝ, |x| ≤ (2 : ℝ) ^ (Int.log 2 |x| + 1) := fun x => by
    have := (Int.lt_zpow_succ_log_self (b := 2) (by norm_num) |x|).le
    exact_mod_cast this
  have posle : ∀ x : ℝ, nearest t x ≤ (2 : ℝ) ^ (Int.log 2 |x| + 1) := fun x => by
    rw [pow_upper t]
    exact nearest_le (by rw [← pow_upper]; exact (le_abs_self x).trans (up x))
  have negle : ∀ x : ℝ, -(2 : ℝ) ^ (Int.log 2 |x| + 1) ≤ nearest t x := fun x => by
    rw [pow_upper t, ← neg_mul, ← Int.cast_neg]
    exact le_nearest (by rw [Int.cast_neg, neg_mul, ← pow_upper]; have := neg_abs_le x; have := up x; linarith)
  have poslo : ∀ x : ℝ, 0 < x → (2 : ℝ) ^ Int.log 2 |x| ≤ nearest t x := fun x hx => by
    rw [pow_lower ht]
    exact le_nearest (by rw [← pow_lower ht]; have := lo x (abs_pos.mpr hx.ne'); rwa [abs_of_pos hx] at this ⊢)
  have neglo : ∀ x : ℝ, x < 0 → nearest t x ≤ -(2 : ℝ) ^ Int.log 2 |x| := fun x hx => by
    rw [pow_lower ht, ← neg_mul, ← Int.cast_neg]
    refine nearest_le ?_
    rw [Int.cast_neg, neg_mul, ← pow_lower ht]
    have := lo x (abs_pos.mpr hx.ne)
    rw [abs_of_neg hx] at this ⊢
    linarith
  have same : ∀ x y : ℝ, x ≤ y → Int.log 2 |x| = Int.log 2 |y| → nearest t x ≤ nearest t y := fun x y h e => by
    rw [nearest, nearest, e]
    have : round (x / (2 : ℝ) ^ (Int.log 2 |y| - t + 1)) ≤ round (y / (2 : ℝ) ^ (Int.log 2 |y| - t + 1)) :=
      round_le_round (by gcongr)
    have : ((round (x / (2 : ℝ) ^ (Int.log 2 |y| - t + 1)) : ℤ) : ℝ) ≤ (round (y / (2 : ℝ) ^ (Int.log 2 |y| - t + 1)) : ℤ) := by
      exact_mod_cast this
    gcongr
  have nonneg : ∀ x : ℝ, 0 ≤ x → 0 ≤ nearest t x := fun x hx => by
    rcases hx.lt_or_eq with h | h
    · exact (by positivity : (0 : ℝ) ≤ (2 : ℝ) ^ Int.log 2 |x|).trans (poslo x h)
    · rw [← h, zero]
  have nonpos : ∀ x : ℝ, x ≤ 0 → nearest t x ≤ 0 := fun x hx => by
    rcases hx.lt_or_eq with h | h
    · have : (0 : ℝ) < (2 : ℝ) ^ Int.log 2 |x| := by positivity
      linarith [neglo x h]
    · rw [h, zero]
  intro x y h
  rcases le_or_gt x 0 with hx | hx
  · rcases le_or_gt 0 y with hy | hy
    · exact (nonpos x hx).trans (nonneg y hy)
    · have hle : Int.log 2 |y| ≤ Int.log 2 |x| :=
        Int.log_mono_right (abs_pos.mpr hy.ne) (by rw [abs_of_neg hy, abs_of_nonpos hx]; linarith)
      rcases hle.lt_or_eq with hl | hl
      · have h1 : (2 : ℝ) ^ (Int.log 2 |y| + 1) ≤ (2 : ℝ) ^ Int.log 2 |x| := zpow_le_zpow_right₀ (by norm_num) hl
        have := neglo x (by linarith)
        have := negle y
        linarith
      · exact same x y h hl.symm
  · have hy : 0 < y := hx.trans_le h
    have hle : Int.log 2 |x| ≤ Int.log 2 |y| :=
      Int.log_mono_right (abs_pos.mpr hx.ne') (by rw [abs_of_pos hy, abs_of_pos hx]; exact h)
    rcases hle.lt_or_eq with hl | hl
    · have h1 : (2 : ℝ) ^ (Int.log 2 |x| + 1) ≤ (2 : ℝ) ^ Int.log 2 |y| := zpow_le_zpow_right₀ (by norm_num) hl
      exact (posle x).trans (h1.trans (poslo y hy))
    · exact same x y h hl

end Spec

namespace FloatGrating

theorem u_le' {t : ℕ} (ht : 4 ≤ t) : (1 : ℝ) / 2 ^ t ≤ 1 / 16 := by
  refine one_div_le_one_div_of_le (by norm_num) ?_
  calc (16 : ℝ) = 2 ^ 4 := by norm_num
    _ ≤ 2 ^ t := pow_le_pow_right₀ (by norm_num) ht

theorem rnd_pos {t : ℕ} {rnd : ℝ → ℝ} (h : RoundsTo t rnd) (ht : 4 ≤ t) {x : ℝ} (hx : 0 < x) : 0 < rnd x := by
  obtain ⟨d, hd, e⟩ := h.rel x
  have := u_le' ht
  have := (abs_le.mp hd).1
  rw [e]
  exact mul_pos hx (by linarith)

end FloatGrating

namespace FloatCalc

theorem chord_le (x y : ℝ) : ‖cexp (x * I) - cexp (y * I)‖ ≤ |x - y| := by
  have e : cexp (x * I) - cexp (y * I) = cexp (y * I) * (cexp (I * ((x - y : ℝ) : ℂ)) - 1) := by
    rw [mul_sub, ← Complex.exp_add, mul_one]
    congr 2
    push_cast
    ring
  rw [e, norm_mul, Complex.norm_exp_ofReal_mul_I, one_mul]
  simpa using Real.norm_exp_I_mul_ofReal_sub_one_le (x := x - y)

theorem exp_two_pi (x : ℝ) (k : ℤ) : cexp ((x + k * (2 * Real.pi) : ℝ) * I) = cexp (x * I) := by
  have : ((x + k * (2 * Real.pi) : ℝ) : ℂ) * I = x * I + k * (2 * Real.pi * I) := by push_cast; ring
  rw [this, Complex.exp_add, Complex.exp_int_mul_two_pi_mul_I, mul_one]

/-- Folded phases differ by at most the arc over the chord. -/
theorem fold_le (x y : ℝ) :
    |Real.arccos (Real.cos x) - Real.arccos (Real.cos y)| ≤ Real.pi / 2 * ‖cexp (x * I) - cexp (y * I)‖ := by
  have hpi := Real.pi_pos
  set k : ℤ := round ((x - y) / (2 * Real.pi)) with hk
  set θ : ℝ := x - y - k * (2 * Real.pi) with hθ
  have hle : |θ| ≤ Real.pi := by
    have h := abs_sub_round ((x - y) / (2 * Real.pi))
    have e : θ = ((x - y) / (2 * Real.pi) - k) * (2 * Real.pi) := by rw [hθ]; field_simp
    rw [e, abs_mul, abs_of_pos (a := 2 * Real.pi) (by positivity)]
    nlinarith
  have h1 : |Real.arccos (Real.cos x) - Real.arccos (Real.cos y)| ≤ |θ| := by
    rw [← Real.cos_sub_int_mul_two_pi x k]
    refine (FloatGrating.arccos_cos_lipschitz _ _).trans (le_of_eq ?_)
    rw [hθ]; ring_nf
  have h2 : ‖cexp (x * I) - cexp (y * I)‖ = 2 * |Real.sin (θ / 2)| := by
    have e : cexp (x * I) - cexp (y * I) = cexp (y * I) * (cexp (I * (θ : ℂ)) - 1) := by
      have ex : x = (y + θ) + k * (2 * Real.pi) := by rw [hθ]; ring
      rw [mul_sub, ← Complex.exp_add, mul_one]
      conv_lhs => rw [ex, exp_two_pi]
      congr 2
      push_cast
      ring
    rw [e, norm_mul, Complex.norm_exp_ofReal_mul_I, one_mul, Complex.norm_exp_I_mul_ofReal_sub_one, Real.norm_eq_abs, abs_mul, abs_two]
  have h3 := Real.mul_abs_le_abs_sin (x := θ / 2) (by rw [abs_div, abs_two]; linarith)
  rw [h2]
  refine h1.trans ?_
  rw [abs_div, abs_two] at h3
  have e : |θ| = Real.pi / 2 * (2 * (2 / Real.pi * (|θ| / 2))) := by field_simp
  rw [e]
  gcongr

theorem arcsin_le {a : ℝ} (h0 : 0 ≤ a) (h1 : a ≤ 1) : Real.arcsin a ≤ Real.pi / 2 * a := by
  have hpi := Real.pi_pos
  have h := Real.mul_le_sin (Real.arcsin_nonneg.mpr h0) (Real.arcsin_le_pi_div_two a)
  rw [Real.sin_arcsin (by linarith) h1, div_mul_eq_mul_div, div_le_iff₀ hpi] at h
  linarith

/-- The second difference of `tanh`. -/
theorem tanh_pulse_close (r w x y : ℝ) :
    |(Real.tanh (r * (x + w)) - Real.tanh (r * (x - w))) - (Real.tanh (r * (y + w)) - Real.tanh (r * (y - w)))| ≤
      4 * r ^ 2 * |w| * |x - y| := by
  have hd : ∀ z : ℝ, HasDerivAt Real.tanh (1 - Real.tanh z ^ 2) z := by
    intro z
    have hc := (Real.cosh_pos z).ne'
    have h := (Real.hasDerivAt_sinh z).div (Real.hasDerivAt_cosh z) hc
    have e : (Real.sinh / Real.cosh : ℝ → ℝ) = Real.tanh := by
      funext w
      rw [Pi.div_apply, Real.tanh_eq_sinh_div_cosh]
    rw [e] at h
    refine h.congr_deriv ?_
    rw [Real.tanh_eq_sinh_div_cosh]
    field_simp
  set g : ℝ → ℝ := fun x => Real.tanh (r * (x + w)) - Real.tanh (r * (x - w)) with hg
  have hgd : ∀ z, HasDerivAt g (r * ((1 - Real.tanh (r * (z + w)) ^ 2) - (1 - Real.tanh (r * (z - w)) ^ 2))) z := by
    intro z
    have a1 : HasDerivAt (fun x => r * (x + w)) r z := by
      simpa using ((hasDerivAt_id z).add_const w).const_mul r
    have a2 : HasDerivAt (fun x => r * (x - w)) r z := by
      simpa using ((hasDerivAt_id z).sub_const w).const_mul r
    exact (((hd _).comp z a1).sub ((hd _).comp z a2)).congr_deriv (by ring)
  have hb : ∀ z ∈ (Set.univ : Set ℝ),
      ‖r * ((1 - Real.tanh (r * (z + w)) ^ 2) - (1 - Real.tanh (r * (z - w)) ^ 2))‖ ≤ 4 * r ^ 2 * |w| := by
    intro z _
    have e : r * ((1 - Real.tanh (r * (z + w)) ^ 2) - (1 - Real.tanh (r * (z - w)) ^ 2)) =
        -(r * ((Real.tanh (r * (z + w)) - Real.tanh (r * (z - w))) * (Real.tanh (r * (z + w)) + Real.tanh (r * (z - w))))) := by ring
    rw [e, norm_neg, Real.norm_eq_abs, abs_mul, abs_mul]
    have l1 := FloatGrating.tanh_lipschitz (r * (z + w)) (r * (z - w))
    have e1 : r * (z + w) - r * (z - w) = r * (2 * w) := by ring
    rw [e1, abs_mul, abs_mul, abs_two] at l1
    have l2 : |Real.tanh (r * (z + w)) + Real.tanh (r * (z - w))| ≤ 2 := by
      refine (abs_add_le _ _).trans ?_
      have := DMD.tanh_bounds (r * (z + w))
      have := DMD.tanh_bounds (r * (z - w))
      have b1 : |Real.tanh (r * (z + w))| ≤ 1 := abs_le.mpr ⟨by linarith, by linarith⟩
      have b2 : |Real.tanh (r * (z - w))| ≤ 1 := abs_le.mpr ⟨by linarith, by linarith⟩
      linarith
    calc |r| * (|Real.tanh (r * (z + w)) - Real.tanh (r * (z - w))| * |Real.tanh (r * (z + w)) + Real.tanh (r * (z - w))|)
        ≤ |r| * (|r| * (2 * |w|) * 2) := by gcongr
      _ = 4 * |r| ^ 2 * |w| := by ring
      _ = _ := by rw [sq_abs]
  have := convex_univ.norm_image_sub_le_of_norm_hasDerivWithin_le (f := g) (fun z _ => (hgd z).hasDerivWithinAt) hb
    (Set.mem_univ y) (Set.mem_univ x)
  simpa [Real.norm_eq_abs] using this

/-! ### One pixel -/

/-- A computed amplitude, in units of the exact normalisation: `a` exact, `x` that of the computed transform, `R` the computed ratio, `m` its
maximum. -/
theorem amp_close {a x R m a' β γ δ u : ℝ} (h0 : 0 ≤ a) (h1 : a ≤ 1) (hx : |x - a| ≤ δ) (hR : |R - x| ≤ β * x) (hβ : 0 ≤ β)
    (hR0 : 0 ≤ R) (hRm : R ≤ m) (hm : |m - 1| ≤ γ) (hγ : γ = δ + β * (1 + δ)) (hγ1 : γ ≤ 1 / 2) (ha : |a' - R / m| ≤ u) :
    |a' - a| ≤ 2 * γ + u ∧ |a' - x| ≤ u + γ + β * (1 + δ) := by
  have hδ : 0 ≤ δ := (abs_nonneg _).trans hx
  have hm0 : 0 < m := by have := (abs_le.mp hm).1; linarith
  have hx1 : x ≤ 1 + δ := by have := (abs_le.mp hx).2; linarith
  have hRx : |R - x| ≤ β * (1 + δ) := hR.trans (by gcongr)
  have hq : |R / m - R| ≤ γ := by
    have e : R / m - R = R / m * (1 - m) := by field_simp
    have h2 : |R / m| ≤ 1 := by
      rw [abs_of_nonneg (by positivity), div_le_one hm0]; exact hRm
    rw [e, abs_mul, abs_sub_comm 1 m]
    calc |R / m| * |m - 1| ≤ 1 * γ := by gcongr
      _ = γ := one_mul _
  have t1 : |a' - x| ≤ u + γ + β * (1 + δ) := by
    calc |a' - x| = |(a' - R / m) + (R / m - R) + (R - x)| := by ring_nf
      _ ≤ |a' - R / m| + |R / m - R| + |R - x| := abs_add_three _ _ _
      _ ≤ _ := by gcongr
  refine ⟨?_, t1⟩
  calc |a' - a| = |(a' - x) + (x - a)| := by ring_nf
    _ ≤ |a' - x| + |x - a| := abs_add_le _ _
    _ ≤ _ := by rw [hγ] at t1 ⊢; linarith

/-- Amplitude and phase of a pixel together. -/
theorem phasor_close {a' φ P Q v δ κ : ℝ} {z z' : ℂ} (ha0 : 0 ≤ a') (ha1 : a' ≤ 1) (hκ : 0 ≤ κ) (hv : 0 ≤ v)
    (hz : κ * ‖z' - z‖ ≤ δ) (hx : |a' - κ * ‖z'‖| ≤ P) (hφ : z' ≠ 0 → ∃ k : ℤ, |φ - (arg z' + k * (2 * Real.pi))| ≤ v)
    (h0 : z' = 0 → a' = 0) (hQ : v + P + δ ≤ Q) : ‖a' * cexp (φ * I) - κ * z‖ ≤ Q := by
  have hP : 0 ≤ P := (abs_nonneg _).trans hx
  by_cases h : z' = 0
  · rw [h0 h, ofReal_zero, zero_mul, zero_sub, norm_neg, norm_mul, Complex.norm_real, Real.norm_of_nonneg hκ]
    rw [h, zero_sub, norm_neg] at hz
    linarith
  · obtain ⟨k, hk⟩ := hφ h
    have hc : ‖cexp (φ * I) - cexp (arg z' * I)‖ ≤ v := by
      rw [← exp_two_pi (arg z') k]
      exact (chord_le _ _).trans hk
    have hz' : (‖z'‖ : ℂ) * cexp (arg z' * I) = z' := norm_mul_exp_arg_mul_I z'
    have e : (a' : ℂ) * cexp (φ * I) - κ * z = a' * (cexp (φ * I) - cexp (arg z' * I)) +
        ((a' - κ * ‖z'‖ : ℝ) : ℂ) * cexp (arg z' * I) + κ * (z' - z) := by
      conv_rhs => rw [mul_sub (κ : ℂ) z' z]; arg 2; arg 1; rw [← hz']
      push_cast
      ring
    rw [e]
    refine (norm_add₃_le).trans ?_
    rw [norm_mul, norm_mul, norm_mul, Complex.norm_real, Complex.norm_real, Complex.norm_real, Complex.norm_exp_ofReal_mul_I,
      Real.norm_of_nonneg ha0, Real.norm_of_nonneg hκ, Real.norm_eq_abs, mul_one]
    have : a' * ‖cexp (φ * I) - cexp (arg z' * I)‖ ≤ 1 * v := by gcongr
    linarith

/-- Turned phasors: errors of amplitude and output phase, and of the input phase. -/
theorem turn_close {a a' P v κ φi φi' φo φo' : ℝ} (ha0 : 0 ≤ a) (ha1 : a ≤ 1) (neg : Bool)
    (ho : ‖(a' : ℂ) * cexp (φo' * I) - a * cexp (φo * I)‖ ≤ P) (hi : ‖cexp (φi' * I) - cexp (φi * I)‖ ≤ v) :
    ‖(a' : ℂ) * cexp ((κ - (if neg then -(φo' - φi') else φo' - φi') : ℝ) * I) -
      a * cexp ((κ - (if neg then -(φo - φi) else φo - φi) : ℝ) * I)‖ ≤ P + v := by
  have key : ∀ (X X' Y Y' : ℂ), ‖X‖ ≤ 1 → ‖Y'‖ = 1 → ‖X' - X‖ ≤ P → ‖Y' - Y‖ ≤ v →
      ‖cexp (κ * I) * (X' * Y') - cexp (κ * I) * (X * Y)‖ ≤ P + v := by
    intro X X' Y Y' h1 h2 h3 h4
    rw [← mul_sub, norm_mul, Complex.norm_exp_ofReal_mul_I, one_mul]
    have e : X' * Y' - X * Y = (X' - X) * Y' + X * (Y' - Y) := by ring
    rw [e]
    refine (norm_add_le _ _).trans ?_
    rw [norm_mul, norm_mul, h2, mul_one]
    have : ‖X‖ * ‖Y' - Y‖ ≤ 1 * v := by gcongr
    linarith
  have hstar : ∀ (b φ : ℝ), (b : ℂ) * cexp ((-φ : ℝ) * I) = (starRingEnd ℂ) (b * cexp (φ * I)) := by
    intro b φ
    rw [map_mul, Complex.conj_ofReal, ← Complex.exp_conj, map_mul, Complex.conj_ofReal, Complex.conj_I]
    congr 2
    push_cast
    ring
  have hn : ∀ φ : ℝ, ‖(a : ℂ) * cexp (φ * I)‖ ≤ 1 := by
    intro φ
    rw [norm_mul, Complex.norm_exp_ofReal_mul_I, mul_one, Complex.norm_real, Real.norm_of_nonneg ha0]
    exact ha1
  cases neg
  · have e : ∀ b φi φo : ℝ, (b : ℂ) * cexp ((κ - (if false = true then -(φo - φi) else φo - φi) : ℝ) * I) =
        cexp (κ * I) * ((b * cexp ((-φo : ℝ) * I)) * cexp (φi * I)) := by
      intro b φi φo
      rw [if_neg (by decide)]
      rw [show ((κ - (φo - φi) : ℝ) : ℂ) * I = κ * I + ((-φo : ℝ) * I + φi * I) by push_cast; ring, Complex.exp_add, Complex.exp_add]
      ring
    rw [e, e]
    refine key _ _ _ _ (hn _) (Complex.norm_exp_ofReal_mul_I _) ?_ hi
    rw [hstar, hstar, ← map_sub, Complex.norm_conj]
    exact ho
  · have e : ∀ b φi φo : ℝ, (b : ℂ) * cexp ((κ - (if true = true then -(φo - φi) else φo - φi) : ℝ) * I) =
        cexp (κ * I) * ((b * cexp (φo * I)) * cexp ((-φi : ℝ) * I)) := by
      intro b φi φo
      rw [if_pos rfl]
      rw [show ((κ - -(φo - φi) : ℝ) : ℂ) * I = κ * I + (φo * I + (-φi : ℝ) * I) by push_cast; ring, Complex.exp_add, Complex.exp_add]
      ring
    rw [e, e]
    refine key _ _ _ _ (hn _) (Complex.norm_exp_ofReal_mul_I _) ho ?_
    have h1 := hstar 1 φi
    have h2 := hstar 1 φi'
    rw [ofReal_one, one_mul, one_mul] at h1 h2
    rw [h1, h2, ← map_sub, Complex.norm_conj]
    exact hi

theorem grey_of_turn {a a' ψ ψ' Q R : ℝ} (ha : |a' - a| ≤ Q) (h : ‖(a' : ℂ) * cexp (ψ' * I) - a * cexp (ψ * I)‖ ≤ R) :
    |a' * (Real.cos ψ' / 2 + 1 / 2) - a * (Real.cos ψ / 2 + 1 / 2)| ≤ (Q + R) / 2 := by
  have h1 : |a' * Real.cos ψ' - a * Real.cos ψ| ≤ R := by
    refine le_trans ?_ h
    refine le_trans (le_of_eq ?_) (Complex.abs_re_le_norm _)
    rw [Complex.sub_re, Complex.re_ofReal_mul, Complex.re_ofReal_mul, Complex.exp_ofReal_mul_I_re, Complex.exp_ofReal_mul_I_re]
  have e : a' * (Real.cos ψ' / 2 + 1 / 2) - a * (Real.cos ψ / 2 + 1 / 2) = ((a' - a) + (a' * Real.cos ψ' - a * Real.cos ψ)) / 2 := by ring
  rw [e, abs_div, abs_two]
  have := abs_add_le (a' - a) (a' * Real.cos ψ' - a * Real.cos ψ)
  linarith

theorem duty_of_turn {a a' ψ ψ' Q R : ℝ} (r : ℝ) (ha0 : 0 ≤ a) (ha1 : a ≤ 1) (ha0' : 0 ≤ a') (ha1' : a' ≤ 1) (ha : |a' - a| ≤ Q)
    (h : ‖(a' : ℂ) * cexp (ψ' * I) - a * cexp (ψ * I)‖ ≤ R) :
    |0.5 * (Real.tanh (r * (Real.arccos (Real.cos ψ') + Real.arcsin a')) - Real.tanh (r * (Real.arccos (Real.cos ψ') - Real.arcsin a'))) -
      0.5 * (Real.tanh (r * (Real.arccos (Real.cos ψ) + Real.arcsin a)) - Real.tanh (r * (Real.arccos (Real.cos ψ) - Real.arcsin a)))| ≤
    3 * |r| * √Q + 5 * r ^ 2 * (Q + R) := by
  have hpi := Real.pi_pos
  have hpi2 : Real.pi ^ 2 ≤ 10 := by nlinarith [Real.pi_lt_d2]
  set x' := Real.arccos (Real.cos ψ')
  set x := Real.arccos (Real.cos ψ)
  have hQ : 0 ≤ Q := (abs_nonneg _).trans ha
  have h1 : a' * ‖cexp (ψ' * I) - cexp (ψ * I)‖ ≤ Q + R := by
    have e : (a' : ℂ) * (cexp (ψ' * I) - cexp (ψ * I)) = (a' * cexp (ψ' * I) - a * cexp (ψ * I)) - ((a' - a : ℝ) : ℂ) * cexp (ψ * I) := by
      push_cast; ring
    have e2 : a' * ‖cexp (ψ' * I) - cexp (ψ * I)‖ = ‖(a' : ℂ) * (cexp (ψ' * I) - cexp (ψ * I))‖ := by
      rw [norm_mul, Complex.norm_real, Real.norm_of_nonneg ha0']
    rw [e2, e]
    refine (norm_sub_le _ _).trans ?_
    rw [norm_mul, Complex.norm_real, Complex.norm_exp_ofReal_mul_I, mul_one, Real.norm_eq_abs]
    linarith
  have h2 := tanh_pulse_close r (Real.arcsin a') x' x
  have h3 : |Real.arcsin a'| * |x' - x| ≤ Real.pi ^ 2 / 4 * (Q + R) := by
    rw [abs_of_nonneg (Real.arcsin_nonneg.mpr ha0')]
    calc Real.arcsin a' * |x' - x| ≤ (Real.pi / 2 * a') * (Real.pi / 2 * ‖cexp (ψ' * I) - cexp (ψ * I)‖) :=
          mul_le_mul (arcsin_le ha0' ha1') (fold_le ψ' ψ) (abs_nonneg _) (by positivity)
      _ = Real.pi ^ 2 / 4 * (a' * ‖cexp (ψ' * I) - cexp (ψ * I)‖) := by ring
      _ ≤ _ := by gcongr
  have hQR : 0 ≤ Q + R := le_trans (by positivity) h1
  have h4 : 4 * r ^ 2 * |Real.arcsin a'| * |x' - x| ≤ 10 * r ^ 2 * (Q + R) := by
    calc 4 * r ^ 2 * |Real.arcsin a'| * |x' - x| = 4 * r ^ 2 * (|Real.arcsin a'| * |x' - x|) := by ring
      _ ≤ 4 * r ^ 2 * (Real.pi ^ 2 / 4 * (Q + R)) := by gcongr
      _ = Real.pi ^ 2 * (r ^ 2 * (Q + R)) := by ring
      _ ≤ 10 * (r ^ 2 * (Q + R)) := by gcongr
      _ = _ := by ring
  have h5 : |Real.arcsin a' - Real.arcsin a| ≤ 3 * √Q := by
    have := FloatGrating.arccos_holder (abs_le.mpr ⟨by linarith, ha1'⟩) (abs_le.mpr ⟨by linarith, ha1⟩) ha
    rw [Real.arccos, Real.arccos] at this
    have e : Real.pi / 2 - Real.arcsin a' - (Real.pi / 2 - Real.arcsin a) = -(Real.arcsin a' - Real.arcsin a) := by ring
    rwa [e, abs_neg] at this
  have l1 := FloatGrating.tanh_lipschitz (r * (x + Real.arcsin a')) (r * (x + Real.arcsin a))
  have l2 := FloatGrating.tanh_lipschitz (r * (x - Real.arcsin a')) (r * (x - Real.arcsin a))
  have e1 : r * (x + Real.arcsin a') - r * (x + Real.arcsin a) = r * (Real.arcsin a' - Real.arcsin a) := by ring
  have e2 : r * (x - Real.arcsin a') - r * (x - Real.arcsin a) = -(r * (Real.arcsin a' - Real.arcsin a)) := by ring
  rw [e1, abs_mul] at l1
  rw [e2, abs_neg, abs_mul] at l2
  have h6 : |r| * |Real.arcsin a' - Real.arcsin a| ≤ |r| * (3 * √Q) := by gcongr
  have g1 := abs_le.mp l1
  have g2 := abs_le.mp l2
  have g3 := abs_le.mp (h2.trans h4)
  rw [abs_le]
  constructor <;> linarith [g1.1, g1.2, g2.1, g2.2, g3.1, g3.2]

end FloatCalc

/-! ### The computed amplitudes -/

section

open DMD Lib FloatCalc

variable {t : ℕ} {v : ℝ} {F : CalcArith}

theorem Spec.CalcPrecise.rnd_zero (H : CalcPrecise t v F) : F.rnd 0 = 0 := H.arith.rnd.exact 0 ⟨0, 0, by simp, by simp⟩

theorem Spec.CalcPrecise.rnd_one (H : CalcPrecise t v F) : F.rnd 1 = 1 := H.arith.rnd.exact 1 ⟨1, 0, by simpa using one_le_pow₀ (by norm_num : (1 : ℤ) ≤ 2), by simp⟩

theorem Spec.CalcPrecise.v_nonneg (H : CalcPrecise t v F) : 0 ≤ v := (abs_nonneg _).trans (H.arith.cos 0)

theorem Spec.CalcPrecise.abs_zero (H : CalcPrecise t v F) : F.abs 0 = 0 := by
  have := H.abs 0
  simpa using this

theorem Spec.CalcPrecise.abs_pos (H : CalcPrecise t v F) (hv : v ≤ 1 / 16) {z : ℂ} (hz : z ≠ 0) : 0 < F.abs z := by
  have h := (abs_le.mp (H.abs z)).1
  have hn := norm_pos_iff.mpr hz
  nlinarith

theorem Spec.CalcPrecise.abs_eq_zero (H : CalcPrecise t v F) (hv : v ≤ 1 / 16) {z : ℂ} : F.abs z = 0 ↔ z = 0 :=
  ⟨fun h => by_contra fun hz => (H.abs_pos hv hz).ne' h, fun h => by rw [h, H.abs_zero]⟩

theorem Spec.CalcPrecise.abs_nonneg (H : CalcPrecise t v F) (hv : v ≤ 1 / 16) (z : ℂ) : 0 ≤ F.abs z := by
  by_cases hz : z = 0
  · rw [hz, H.abs_zero]
  · exact (H.abs_pos hv hz).le

/-- The computed ratio at one pixel, as a number. -/
def ratioVal (F : CalcArith) (inp tfp : ℂ) : ℝ := F.rnd (F.abs tfp / F.abs inp)

theorem ratioR_eq (H : CalcPrecise t v F) (hv : v ≤ 1 / 16) {inp tfp : ℂ} (h : tfp ≠ 0 → inp ≠ 0) :
    ratioR F inp tfp = .fin (ratioVal F inp tfp) := by
  unfold ratioR ratioVal
  by_cases h0 : tfp = 0
  · rw [if_pos ((H.abs_eq_zero hv).mpr h0), (H.abs_eq_zero hv).mpr h0, zero_div, H.rnd_zero]
  · rw [if_neg fun hc => h0 ((H.abs_eq_zero hv).mp hc), XR.divFin, if_neg fun hc => h h0 ((H.abs_eq_zero hv).mp hc)]
    rfl

theorem ratioVal_nonneg (H : CalcPrecise t v F) (hv : v ≤ 1 / 16) (inp tfp : ℂ) : 0 ≤ ratioVal F inp tfp := by
  have h := H.mono (div_nonneg (H.abs_nonneg hv tfp) (H.abs_nonneg hv inp))
  rwa [H.rnd_zero] at h

theorem ratioVal_pos (H : CalcPrecise t v F) (ht : 4 ≤ t) (hv : v ≤ 1 / 16) {inp tfp : ℂ} (hi : inp ≠ 0) (hz : tfp ≠ 0) :
    0 < ratioVal F inp tfp :=
  FloatGrating.rnd_pos H.arith.rnd ht (div_pos (H.abs_pos hv hz) (H.abs_pos hv hi))

/-- Relative error of the ratio. -/
theorem ratioVal_close (H : CalcPrecise t v F) (ht : 4 ≤ t) (hv : v ≤ 1 / 16) {inp : ℂ} (tfp : ℂ) (hi : inp ≠ 0) :
    |ratioVal F inp tfp - ‖tfp‖ / ‖inp‖| ≤ 3 * (v + 1 / 2 ^ t) * (‖tfp‖ / ‖inp‖) := by
  have hv0 := H.v_nonneg
  set u : ℝ := 1 / 2 ^ t with hu
  have hu0 : 0 ≤ u := by rw [hu]; positivity
  have hu1 : u ≤ 1 / 16 := FloatGrating.u_le' ht
  have hn := norm_pos_iff.mpr hi
  have hb := H.abs_pos hv hi
  obtain ⟨d, hd, hr⟩ := H.arith.rnd.rel (F.abs tfp / F.abs inp)
  have ha := H.abs tfp
  have hb' := H.abs inp
  have hz := norm_nonneg tfp
  rw [ratioVal, hr, div_mul_eq_mul_div, div_sub_div _ _ hb.ne' hn.ne', abs_div, abs_of_pos (mul_pos hb hn), div_le_iff₀ (mul_pos hb hn)]
  have e : 3 * (v + u) * (‖tfp‖ / ‖inp‖) * (F.abs inp * ‖inp‖) = 3 * (v + u) * (‖tfp‖ * F.abs inp) := by field_simp
  rw [e]
  have e2 : F.abs tfp * (1 + d) * ‖inp‖ - F.abs inp * ‖tfp‖ =
      (F.abs tfp - ‖tfp‖) * (1 + d) * ‖inp‖ + ‖tfp‖ * d * ‖inp‖ - (F.abs inp - ‖inp‖) * ‖tfp‖ := by ring
  rw [e2]
  have hd1 : |1 + d| ≤ 1 + u := (abs_add_le _ _).trans (by rw [abs_one]; gcongr)
  have b1 : |(F.abs tfp - ‖tfp‖) * (1 + d) * ‖inp‖| ≤ v * ‖tfp‖ * (1 + u) * ‖inp‖ := by
    rw [abs_mul, abs_mul, abs_of_pos hn]; gcongr
  have b2 : |‖tfp‖ * d * ‖inp‖| ≤ ‖tfp‖ * u * ‖inp‖ := by
    rw [abs_mul, abs_mul, abs_of_pos hn, abs_of_nonneg hz]; gcongr
  have b3 : |(F.abs inp - ‖inp‖) * ‖tfp‖| ≤ v * ‖inp‖ * ‖tfp‖ := by
    rw [abs_mul, abs_of_nonneg hz]; gcongr
  have b4 : |(F.abs tfp - ‖tfp‖) * (1 + d) * ‖inp‖ + ‖tfp‖ * d * ‖inp‖ - (F.abs inp - ‖inp‖) * ‖tfp‖| ≤
      v * ‖tfp‖ * (1 + u) * ‖inp‖ + ‖tfp‖ * u * ‖inp‖ + v * ‖inp‖ * ‖tfp‖ :=
    (abs_sub _ _).trans (add_le_add ((abs_add_le _ _).trans (add_le_add b1 b2)) b3)
  refine b4.trans ?_
  have hlow : 15 / 16 * ‖inp‖ ≤ F.abs inp := by
    have := (abs_le.mp hb').1
    nlinarith
  have p0 : 0 ≤ ‖tfp‖ * ‖inp‖ := by positivity
  calc v * ‖tfp‖ * (1 + u) * ‖inp‖ + ‖tfp‖ * u * ‖inp‖ + v * ‖inp‖ * ‖tfp‖ = (v * (2 + u) + u) * (‖tfp‖ * ‖inp‖) := by ring
    _ ≤ (3 * (v + u) * (15 / 16)) * (‖tfp‖ * ‖inp‖) := by
        refine mul_le_mul_of_nonneg_right ?_ p0
        nlinarith [mul_nonneg hv0 hu0]
    _ = 3 * (v + u) * (‖tfp‖ * (15 / 16 * ‖inp‖)) := by ring
    _ ≤ _ := by gcongr

/-- The maximum and the amplitudes, if the input is lit where the computed transform is not zero. -/
theorem ampScaledR_eq (H : CalcPrecise t v F) (ht : 4 ≤ t) (hv : v ≤ 1 / 16) {s : SLM} (hNx : 0 < s.Nx) (hNy : 0 < s.Ny)
    {u T : ℕ → ℕ → ℂ} {W : Option (ℕ → ℕ → ℂ)}
    (hlit : ∀ i < s.Ny, ∀ j < s.Nx, targetFpR F s.Ny s.Nx T W i j ≠ 0 → u i j ≠ 0)
    (hne : ∃ i < s.Ny, ∃ j < s.Nx, targetFpR F s.Ny s.Nx T W i j ≠ 0) :
    ∃ m : ℝ, 0 < m ∧ oneOverEtaR F s u T W = .fin m ∧
      (∀ i < s.Ny, ∀ j < s.Nx, ratioVal F (u i j) (targetFpR F s.Ny s.Nx T W i j) ≤ m ∧
        ampScaledR F s u T W i j = .fin (F.rnd (ratioVal F (u i j) (targetFpR F s.Ny s.Nx T W i j) / m))) ∧
      ∃ i < s.Ny, ∃ j < s.Nx, ratioVal F (u i j) (targetFpR F s.Ny s.Nx T W i j) = m := by
  obtain ⟨m, hm, hle, hex⟩ := reduceMax_fin hNy hNx
    (f := fun i j => ratioR F (u i j) (targetFpR F s.Ny s.Nx T W i j))
    (g := fun i j => ratioVal F (u i j) (targetFpR F s.Ny s.Nx T W i j))
    (fun i hi j hj => ratioR_eq H hv (hlit i hi j hj))
  obtain ⟨i, hi, j, hj, hz⟩ := hne
  have hm0 : 0 < m := (ratioVal_pos H ht hv (hlit i hi j hj hz) hz).trans_le (hle i hi j hj)
  refine ⟨m, hm0, hm, fun i hi j hj => ⟨hle i hi j hj, ?_⟩, hex⟩
  rw [ampScaledR, ratioR_eq H hv (hlit i hi j hj), oneOverEtaR, hm]
  show (XR.divFin _ _).round F.rnd = _
  rw [XR.divFin, if_neg hm0.ne']
  rfl

theorem ratioVal_zero (H : CalcPrecise t v F) (inp : ℂ) : ratioVal F inp 0 = 0 := by
  rw [ratioVal, H.abs_zero, zero_div, H.rnd_zero]

/-- All pixels together: the maximum, the amplitudes and the phasors, `c` being the exact normalisation. -/
theorem calc_close (H : CalcPrecise t v F) (ht : 4 ≤ t) (hv : v ≤ 1 / 16) {s : SLM} (hNx : 0 < s.Nx) (hNy : 0 < s.Ny)
    {u T z : ℕ → ℕ → ℂ} {W : Option (ℕ → ℕ → ℂ)} {A : ℕ → ℕ → ℝ} {c δ γ : ℝ} (hc : 0 < c) (hδ0 : 0 ≤ δ)
    (hA : ∀ i < s.Ny, ∀ j < s.Nx, 0 ≤ A i j ∧ A i j ≤ 1 ∧ (A i j = 0 ↔ z i j = 0) ∧ A i j * ‖u i j‖ = c * ‖z i j‖)
    (h1 : ∃ i < s.Ny, ∃ j < s.Nx, A i j = 1)
    (hlit : ∀ i < s.Ny, ∀ j < s.Nx, z i j ≠ 0 → u i j ≠ 0)
    (hδ : Resolved s.Ny s.Nx u z (targetFpR F s.Ny s.Nx T W) δ)
    (hγ : γ = δ + 3 * (v + 1 / 2 ^ t) * (1 + δ)) (hγ1 : γ ≤ 1 / 2) :
    ∃ m : ℝ, 0 < m ∧ oneOverEtaR F s u T W = .fin m ∧ |c * m - 1| ≤ γ ∧
      ∀ i < s.Ny, ∀ j < s.Nx, ∃ a : ℝ, ampScaledR F s u T W i j = .fin a ∧ 0 ≤ a ∧ a ≤ 1 ∧ |a - A i j| ≤ 2 * γ + 1 / 2 ^ t ∧
        ∀ (κ : ℝ) (neg : Bool), ‖(a : ℂ) * cexp ((κ - (if neg then -(phaseOutR F (targetFpR F s.Ny s.Nx T W i j) - F.angle (u i j))
            else phaseOutR F (targetFpR F s.Ny s.Nx T W i j) - F.angle (u i j)) : ℝ) * I) -
          A i j * cexp ((κ - (if neg then -(arg (z i j) - arg (u i j)) else arg (z i j) - arg (u i j)) : ℝ) * I)‖ ≤
          (v + 1 / 2 ^ t + 2 * γ) + v := by
  have hv0 := H.v_nonneg
  set u₀ : ℝ := 1 / 2 ^ t with hu₀
  have hu0 : 0 ≤ u₀ := by rw [hu₀]; positivity
  set z' := targetFpR F s.Ny s.Nx T W with hz'
  set β := 3 * (v + u₀) with hβ
  have hβ0 : 0 ≤ β := by rw [hβ]; positivity
  have hγ0 : 0 ≤ γ := by rw [hγ]; positivity
  -- the error of the transform
  obtain ⟨i₀, hi₀, j₀, hj₀, hz₀, hu₀', hres⟩ := hδ
  have hn₀ := norm_pos_iff.mpr hu₀'
  have hc₀ : c * (‖z i₀ j₀‖ / ‖u i₀ j₀‖) ≤ 1 := by
    obtain ⟨-, b, -, e⟩ := hA i₀ hi₀ j₀ hj₀
    rw [← mul_div_assoc, ← e, mul_div_cancel_right₀ _ hn₀.ne']
    exact b
  have herr : ∀ i < s.Ny, ∀ j < s.Nx, c * ‖z' i j - z i j‖ ≤ δ * ‖u i j‖ := by
    intro i hi j hj
    calc c * ‖z' i j - z i j‖ ≤ c * (δ * (‖z i₀ j₀‖ / ‖u i₀ j₀‖) * ‖u i j‖) := by
          have := hres i hi j hj
          gcongr
      _ = (c * (‖z i₀ j₀‖ / ‖u i₀ j₀‖)) * (δ * ‖u i j‖) := by ring
      _ ≤ 1 * (δ * ‖u i j‖) := by gcongr
      _ = _ := one_mul _
  have hdark : ∀ i < s.Ny, ∀ j < s.Nx, u i j = 0 → z i j = 0 ∧ z' i j = 0 ∧ A i j = 0 := by
    intro i hi j hj hu
    have hz : z i j = 0 := by_contra fun h => hlit i hi j hj h hu
    refine ⟨hz, ?_, ((hA i hi j hj).2.2.1).mpr hz⟩
    have := herr i hi j hj
    rw [hu, hz, norm_zero, mul_zero, sub_zero] at this
    have h2 : ‖z' i j‖ ≤ 0 := by
      by_contra h
      push Not at h
      have := mul_pos hc h
      linarith
    exact norm_le_zero_iff.mp h2
  -- ratios in units of the exact maximum
  have hx : ∀ i < s.Ny, ∀ j < s.Nx, u i j ≠ 0 → |c * (‖z' i j‖ / ‖u i j‖) - A i j| ≤ δ ∧
      |c * ratioVal F (u i j) (z' i j) - c * (‖z' i j‖ / ‖u i j‖)| ≤ β * (c * (‖z' i j‖ / ‖u i j‖)) := by
    intro i hi j hj hu
    have hn := norm_pos_iff.mpr hu
    obtain ⟨-, -, -, e⟩ := hA i hi j hj
    constructor
    · have e1 : A i j = c * (‖z i j‖ / ‖u i j‖) := by
        rw [← mul_div_assoc, ← e, mul_div_cancel_right₀ _ hn.ne']
      rw [e1, ← mul_sub, ← sub_div, abs_mul, abs_div, abs_of_pos hc, abs_of_pos hn, ← mul_div_assoc, div_le_iff₀ hn]
      refine le_trans ?_ (herr i hi j hj)
      have := abs_norm_sub_norm_le (z' i j) (z i j)
      gcongr
    · rw [← mul_sub, abs_mul, abs_of_pos hc]
      have := ratioVal_close H ht hv (z' i j) hu
      calc c * |ratioVal F (u i j) (z' i j) - ‖z' i j‖ / ‖u i j‖| ≤ c * (β * (‖z' i j‖ / ‖u i j‖)) := by gcongr
        _ = _ := by ring
  have hR : ∀ i < s.Ny, ∀ j < s.Nx, |c * ratioVal F (u i j) (z' i j) - A i j| ≤ γ := by
    intro i hi j hj
    by_cases hu : u i j = 0
    · obtain ⟨-, e1, e2⟩ := hdark i hi j hj hu
      rw [e1, e2, ratioVal_zero H, mul_zero, sub_zero, abs_zero]
      exact hγ0
    · obtain ⟨b1, b2⟩ := hx i hi j hj hu
      have hle : c * (‖z' i j‖ / ‖u i j‖) ≤ 1 + δ := by
        have := (abs_le.mp b1).2
        have := (hA i hi j hj).2.1
        linarith
      have b3 : β * (c * (‖z' i j‖ / ‖u i j‖)) ≤ β * (1 + δ) := by gcongr
      have b4 := abs_add_le (c * ratioVal F (u i j) (z' i j) - c * (‖z' i j‖ / ‖u i j‖)) (c * (‖z' i j‖ / ‖u i j‖) - A i j)
      rw [sub_add_sub_cancel] at b4
      rw [hγ]
      linarith
  obtain ⟨i₁, hi₁, j₁, hj₁, hA1⟩ := h1
  have hR1 := hR i₁ hi₁ j₁ hj₁
  rw [hA1] at hR1
  have hlit' : ∀ i < s.Ny, ∀ j < s.Nx, z' i j ≠ 0 → u i j ≠ 0 := fun i hi j hj h hu => h (hdark i hi j hj hu).2.1
  have hne' : ∃ i < s.Ny, ∃ j < s.Nx, z' i j ≠ 0 := by
    refine ⟨i₁, hi₁, j₁, hj₁, fun h => ?_⟩
    rw [h, ratioVal_zero H, mul_zero, zero_sub, abs_neg, abs_one] at hR1
    linarith
  obtain ⟨m, hm0, hm, hall, i₂, hi₂, j₂, hj₂, hmax⟩ := ampScaledR_eq H ht hv hNx hNy hlit' hne'
  have hcm : |c * m - 1| ≤ γ := by
    have l1 := (hall i₁ hi₁ j₁ hj₁).1
    have l2 := hR i₂ hi₂ j₂ hj₂
    change ratioVal F (u i₂ j₂) (z' i₂ j₂) = m at hmax
    rw [hmax] at l2
    have l3 := (hA i₂ hi₂ j₂ hj₂).2.1
    have l4 := mul_le_mul_of_nonneg_left l1 hc.le
    rw [abs_le] at hR1 l2 ⊢
    constructor <;> linarith [hR1.1, l2.2]
  refine ⟨m, hm0, hm, hcm, fun i hi j hj => ?_⟩
  obtain ⟨hle, ha⟩ := hall i hi j hj
  change ratioVal F (u i j) (z' i j) ≤ m at hle
  change ampScaledR F s u T W i j = .fin (F.rnd (ratioVal F (u i j) (z' i j) / m)) at ha
  have hr0 := ratioVal_nonneg H hv (u i j) (z' i j)
  have hq0 : 0 ≤ ratioVal F (u i j) (z' i j) / m := by positivity
  have hq1 : ratioVal F (u i j) (z' i j) / m ≤ 1 := (div_le_one hm0).mpr hle
  have ha0 : 0 ≤ F.rnd (ratioVal F (u i j) (z' i j) / m) := by
    have := H.mono hq0
    rwa [H.rnd_zero] at this
  have ha1 : F.rnd (ratioVal F (u i j) (z' i j) / m) ≤ 1 := by
    have := H.mono hq1
    rwa [H.rnd_one] at this
  refine ⟨_, ha, ha0, ha1, ?_⟩
  obtain ⟨A0, A1, -, Ae⟩ := hA i hi j hj
  by_cases hu : u i j = 0
  · obtain ⟨-, e1, e2⟩ := hdark i hi j hj hu
    have e3 : F.rnd (ratioVal F (u i j) (z' i j) / m) = 0 := by rw [e1, ratioVal_zero H, zero_div, H.rnd_zero]
    rw [e2, e3]
    refine ⟨by rw [sub_zero, abs_zero]; positivity, fun κ neg => ?_⟩
    rw [ofReal_zero, zero_mul, zero_mul, sub_zero, norm_zero]
    positivity
  · obtain ⟨b1, b2⟩ := hx i hi j hj hu
    have hn := norm_pos_iff.mpr hu
    have hrnd : |F.rnd (ratioVal F (u i j) (z' i j) / m) - c * ratioVal F (u i j) (z' i j) / (c * m)| ≤ u₀ := by
      rw [mul_div_mul_left _ _ hc.ne']
      refine (H.arith.rnd.err _).trans ?_
      rw [abs_of_nonneg hq0, hu₀]
      gcongr
    obtain ⟨r1, r2⟩ := amp_close A0 A1 b1 b2 hβ0 (by positivity) (mul_le_mul_of_nonneg_left hle hc.le) hcm hγ hγ1 hrnd
    refine ⟨r1, fun κ neg => ?_⟩
    have hangle : ‖cexp (F.angle (u i j) * I) - cexp (arg (u i j) * I)‖ ≤ v := by
      obtain ⟨k, hk⟩ := H.angle _ hu
      rw [← exp_two_pi (arg (u i j)) k]
      exact (chord_le _ _).trans hk
    refine turn_close A0 A1 neg ?_ hangle
    have hz : ((A i j : ℝ) : ℂ) * cexp (arg (z i j) * I) = ((c / ‖u i j‖ : ℝ) : ℂ) * z i j := by
      have e1 : A i j = c / ‖u i j‖ * ‖z i j‖ := by
        rw [div_mul_eq_mul_div, ← Ae, mul_div_cancel_right₀ _ hn.ne']
      rw [e1, ofReal_mul, mul_assoc, norm_mul_exp_arg_mul_I]
    rw [hz]
    refine phasor_close (z' := z' i j) (δ := δ) (P := u₀ + γ + β * (1 + δ)) (v := v) ha0 ha1 (by positivity) hv0 ?_ ?_ ?_ ?_ ?_
    · rw [div_mul_eq_mul_div, div_le_iff₀ hn]
      exact herr i hi j hj
    · rw [div_mul_eq_mul_div, mul_div_assoc]
      exact r2
    · intro h
      rw [phaseOutR, if_neg h]
      exact H.angle _ h
    · intro h
      rw [h, ratioVal_zero H, zero_div, H.rnd_zero]
    · rw [hγ]; linarith

end

end PySLM2
