import Verif.Spec.FloatSuper
import Verif.Props.FloatRange
import Verif.Props.VortexTarget

/-!
# C191: super-Gaussian beams with the range of floating point numbers
-/

noncomputable section

open Complex

namespace PySLM2.Profile

open Spec

variable {u s v Ω₁ Ω₂ E₁ E₂ : ℝ} {F : RangeArith} {pw : ℝ → ℝ → XR}

theorem add_nonneg_at (H : Ranged u s v Ω₁ Ω₂ E₁ E₂ F) {p q : XR} (hp : AtLeast 0 p) (hq : AtLeast 0 q) : AtLeast 0 (F.add p q) := by
  rcases hp with h | ⟨z, h, hz⟩ <;> rcases hq with h' | ⟨z', h', hz'⟩ <;> rw [h, h']
  · exact .inl rfl
  · exact .inl rfl
  · exact .inl rfl
  · show AtLeast 0 (F.rnd (z + z'))
    rcases H.total (z + z') with ⟨y, e⟩ | ⟨e, -⟩ | ⟨-, e⟩
    · exact .inr ⟨y, e, H.nonneg _ _ e (by linarith)⟩
    · exact .inl e
    · linarith

theorem rpow_nonneg_at (P : PowRanged s v Ω₁ pw) {p : ℝ} (hp : 0 < p) {q : XR} (hq : AtLeast 0 q) : AtLeast 0 (RangeArith.rpowX pw p q) := by
  rcases hq with h | ⟨z, h, hz⟩ <;> rw [h]
  · refine .inl ?_
    simp only [RangeArith.rpowX, if_neg hp.ne', if_pos hp]
  · rcases P.total z p hz hp with ⟨e, -⟩ | ⟨y, e, hy, -⟩
    · exact .inl e
    · exact .inr ⟨y, e, hy⟩

theorem rpow_atLeast (P : PowRanged s v Ω₁ pw) (hv : v ≤ 1) {p c : ℝ} (hp : 1 ≤ p) (hc : 1 ≤ c) {q : XR} (hq : AtLeast c q) :
    AtLeast ((1 - v) * c - s) (RangeArith.rpowX pw p q) := by
  have hp0 : 0 < p := by linarith
  rcases hq with h | ⟨z, h, hz⟩ <;> rw [h]
  · refine .inl ?_
    simp only [RangeArith.rpowX, if_neg hp0.ne', if_pos hp0]
  · rcases P.total z p (by linarith) hp0 with ⟨e, -⟩ | ⟨y, e, -, hy⟩
    · exact .inl e
    · refine .inr ⟨y, e, ?_⟩
      have h1 : z ≤ z ^ p := Real.self_le_rpow_of_one_le (hc.trans hz) hp
      have h2 := (abs_le.mp hy).1
      have h3 : (1 - v) * c ≤ (1 - v) * z ^ p := mul_le_mul_of_nonneg_left (hz.trans h1) (by linarith)
      linarith

theorem exp_unit (H : Ranged u s v Ω₁ Ω₂ E₁ E₂ F) {q : XR} (hq : AtLeast 0 q) : ∃ e, F.expX (RangeArith.neg q) = .fin e ∧ 0 ≤ e ∧ e ≤ 1 := by
  rcases hq with h | ⟨z, h, hz⟩ <;> rw [h]
  · exact ⟨0, rfl, le_rfl, zero_le_one⟩
  · exact H.exp_range (-z) (by linarith)

/-- The squared distance from the centre in units of the waist, 11 waists or more from the centre -/
theorem base_far (H : Ranged u s v Ω₁ Ω₂ E₁ E₂ F) (hu0 : 0 ≤ u) (hu : u ≤ 1 / 100) (hs0 : 0 ≤ s) (hs : s ≤ 1 / 100) {d d' w : ℝ}
    (hw : w ≠ 0) (hsw : s ≤ |w| / 100) (hd : 11 * |w| ≤ |d| ∨ 11 * |w| ≤ |d'|) :
    AtLeast 111 (F.add (F.mul (F.div (F.rnd d) (.fin w)) (F.div (F.rnd d) (.fin w))) (F.mul (F.div (F.rnd d') (.fin w)) (F.div (F.rnd d') (.fin w)))) := by
  have hw0 := abs_pos.mpr hw
  have far : ∀ {d : ℝ}, 11 * |w| ≤ |d| → AtLeast 113 (F.mul (F.div (F.rnd d) (.fin w)) (F.div (F.rnd d) (.fin w))) := by
    intro d hd
    have h1 := div_beyond H (by linarith) hw hd (c' := 10.88) (by nlinarith)
    have h2 : Beyond 10.75 _ := beyond_of_le (by nlinarith) h1
    rcases sq_atLeast H hu0 (by linarith) (by norm_num) h2 with h3 | ⟨y, h3, hy⟩
    · exact .inl h3
    · exact .inr ⟨y, h3, by nlinarith⟩
  have fin : ∀ {q : XR}, AtLeast ((1 - u) * 113 - s) q → AtLeast 111 q := by
    rintro q (h | ⟨y, h, hy⟩)
    · exact .inl h
    · exact .inr ⟨y, h, by linarith⟩
  rcases hd with hd | hd
  · refine fin ?_
    have := add_atLeast H hu0 (by linarith) (by norm_num) (far hd) (sq_nonneg_at H (d := d') hw)
    rwa [add_zero] at this
  · refine fin ?_
    have := add_atLeast H hu0 (by linarith) (by norm_num) (sq_nonneg_at H (d := d) hw) (far hd)
    rwa [zero_add] at this

/-- **C191.** A computed super-Gaussian beam of any order is a finite number at every point, of the sign of its amplitude or 0, and not larger than
its amplitude by more than the rounding of one product. -/
theorem C191_finite (H : Ranged u s v Ω₁ Ω₂ E₁ E₂ F) (P : PowRanged s v Ω₁ pw) (hu0 : 0 ≤ u) {x0 y0 a w p : ℝ} (hw : w ≠ 0) (hp : 0 < p) (haΩ : |a| < Ω₁)
    (x y : ℝ) : ∃ z, sgFuncX F pw x0 y0 a w p x y = .fin z ∧ |z| ≤ (1 + u) * |a| + s ∧ 0 ≤ a * z := by
  obtain ⟨e, he, he0, he1⟩ := exp_unit H (rpow_nonneg_at P hp (add_nonneg_at H (sq_nonneg_at H (d := x - x0) hw) (sq_nonneg_at H (d := y - y0) hw)))
  have hae : |a * e| ≤ |a| := by
    rw [abs_mul, abs_of_nonneg he0]
    exact mul_le_of_le_one_right (abs_nonneg a) he1
  obtain ⟨z, hz⟩ := H.finite (a * e) (lt_of_le_of_lt hae haΩ)
  refine ⟨z, ?_, ?_, ?_⟩
  · simp only [sgFuncX]
    rw [he]
    exact hz
  · have h1 := H.near _ _ hz
    have h2 := abs_sub_abs_le_abs_sub z (a * e)
    have h3 : u * |a * e| ≤ u * |a| := mul_le_mul_of_nonneg_left hae hu0
    linarith
  · rcases le_total 0 a with ha | ha
    · exact mul_nonneg ha (H.nonneg _ _ hz (mul_nonneg ha he0))
    · exact mul_nonneg_of_nonpos_of_nonpos ha (H.sign _ _ hz (mul_nonpos_of_nonpos_of_nonneg ha he0))

/-- **C191.** A computed super-Gaussian beam of order 1 or more is exactly 0 at every point that is 11 waists or more from the centre in x or in y. -/
theorem C191_zero (H : Ranged u s v Ω₁ Ω₂ E₁ E₂ F) (P : PowRanged s v Ω₁ pw) (hu0 : 0 ≤ u) (hu : u ≤ 1 / 100) (hs0 : 0 ≤ s) (hs : s ≤ 1 / 100)
    (hv : v ≤ 1 / 1000) (hE : E₂ ≤ 110) {x0 y0 a w p x y : ℝ} (hw : w ≠ 0) (hsw : s ≤ |w| / 100) (hp : 1 ≤ p)
    (hd : 11 * |w| ≤ |x - x0| ∨ 11 * |w| ≤ |y - y0|) : sgFuncX F pw x0 y0 a w p x y = .fin 0 := by
  have h := exp_far H (c := (1 - v) * 111 - s) (by linarith)
    (rpow_atLeast P (by linarith) hp (by norm_num) (base_far H hu0 hu hs0 hs hw hsw hd))
  simp only [sgFuncX]
  rw [h]
  simp only [RangeArith.mul, mul_zero, H.zero]

/-- The squared distance from the centre in units of the waist, within `w / √2` of the centre -/
theorem base_near (H : Ranged u s v Ω₁ Ω₂ E₁ E₂ F) (hu0 : 0 ≤ u) (hu : u ≤ 1 / 4096) (hs0 : 0 ≤ s) (hs : s ≤ 1 / 4096)
    (hΩ : 1000 ≤ Ω₁) {d d' w : ℝ} (hw : w ≠ 0) (hsw : s ≤ |w| / 4096) (hwΩ : 10 * |w| ≤ Ω₁) (hR : d ^ 2 + d' ^ 2 ≤ w ^ 2 / 2) :
    ∃ ρ, F.add (F.mul (F.div (F.rnd d) (.fin w)) (F.div (F.rnd d) (.fin w))) (F.mul (F.div (F.rnd d') (.fin w)) (F.div (F.rnd d') (.fin w))) = .fin ρ ∧
      0 ≤ ρ ∧ ρ ≤ 9 / 10 := by
  have hw2 : 0 < w ^ 2 := by positivity
  have hR' : (d / w) ^ 2 + (d' / w) ^ 2 ≤ 1 / 2 := by
    rw [div_pow, div_pow, ← add_div, div_le_iff₀ hw2]
    linarith
  have b1 : |d / w| ≤ 9 := abs_le_of_sq_le_sq (by nlinarith [sq_nonneg (d' / w)]) (by norm_num)
  have b2 : |d' / w| ≤ 9 := abs_le_of_sq_le_sq (by nlinarith [sq_nonneg (d / w)]) (by norm_num)
  obtain ⟨z, hz, hz0, hz1⟩ := sq_near H hu0 hu hs0 hs hΩ hw hsw hwΩ b1
  obtain ⟨z', hz', hz0', hz1'⟩ := sq_near H hu0 hu hs0 hs hΩ hw hsw hwΩ b2
  have c1 := (abs_le.mp hz1).2
  have c2 := (abs_le.mp hz1').2
  norm_num at c1 c2
  have c3 : z + z' ≤ 83 / 100 := by linarith
  obtain ⟨ρ, hρ⟩ := H.finite (z + z') (by rw [abs_of_nonneg (by linarith)]; linarith)
  have hρ1 := (abs_le.mp (H.near _ _ hρ)).2
  rw [abs_of_nonneg (by linarith : 0 ≤ z + z')] at hρ1
  have hρ2 : u * (z + z') ≤ 1 / 4096 * (83 / 100) := mul_le_mul hu c3 (by linarith) (by norm_num)
  rw [hz, hz']
  exact ⟨ρ, hρ, H.nonneg _ _ hρ (by linarith), by linarith⟩

theorem factor_near (H : Ranged u s v Ω₁ Ω₂ E₁ E₂ F) (P : PowRanged s v Ω₁ pw) (hs : s ≤ 1 / 4096)
    (hΩ : 1000 ≤ Ω₁) (hv : v ≤ 1 / 1000) (hE : 1 ≤ E₁) {p ρ : ℝ} (hp : 1 ≤ p) (hρ0 : 0 ≤ ρ) (hρ2 : ρ ≤ 9 / 10) :
    ∃ e, F.expX (RangeArith.neg (RangeArith.rpowX pw p (.fin ρ))) = .fin e ∧ 7 / 20 ≤ e ∧ e ≤ 1 ∧ 1 - (9 / 10) ^ p - 1 / 400 ≤ e := by
  have hpow : ρ ^ p ≤ 9 / 10 := by
    have h1 : ρ ^ p ≤ ρ ^ (1 : ℝ) := by
      rcases hρ0.eq_or_lt with h | h
      · rw [← h, Real.zero_rpow (by linarith), Real.zero_rpow (by norm_num)]
      · exact Real.rpow_le_rpow_of_exponent_ge h (by linarith) hp
    rw [Real.rpow_one] at h1
    exact h1.trans hρ2
  have hpow0 : 0 ≤ ρ ^ p := Real.rpow_nonneg hρ0 p
  rcases P.total ρ p hρ0 (by linarith) with ⟨-, h⟩ | ⟨q, hq, hq0, hq1⟩
  · linarith
  have hq2 : q ≤ 1 := by
    have := (abs_le.mp hq1).2
    have h2 : v * ρ ^ p ≤ 1 / 1000 * ρ ^ p := mul_le_mul_of_nonneg_right hv hpow0
    linarith
  obtain ⟨e, he, he1⟩ := H.exp_near (-q) (by linarith) (by linarith)
  obtain ⟨e', he', he0, he2⟩ := H.exp_range (-q) (by linarith)
  obtain rfl : e = e' := by rw [he] at he'; injection he'
  have hexp : 36 / 100 ≤ Real.exp (-q) := by
    have h1 : Real.exp (-1) ≤ Real.exp (-q) := Real.exp_le_exp.mpr (by linarith)
    have h2 := Real.exp_neg_one_gt_d9
    norm_num at h2
    linarith
  refine ⟨e, ?_, ?_, he2, ?_⟩
  · simp only [RangeArith.rpowX, hq, RangeArith.neg, RangeArith.expX, he]
  · have h1 := (abs_le.mp he1).1
    have h2 : v * Real.exp (-q) ≤ 1 / 1000 * Real.exp (-q) := mul_le_mul_of_nonneg_right hv (by linarith)
    linarith
  · have h1 := (abs_le.mp he1).1
    have h2 : v * Real.exp (-q) ≤ 1 / 1000 * 1 :=
      mul_le_mul hv (Real.exp_le_one_iff.mpr (by linarith)) (Real.exp_pos _).le (by norm_num)
    have h3 := Real.add_one_le_exp (-q)
    have h4 := (abs_le.mp hq1).2
    have h5 : v * ρ ^ p ≤ 1 / 1000 * ρ ^ p := mul_le_mul_of_nonneg_right hv hpow0
    have h6 : ρ ^ p ≤ (9 / 10) ^ p := Real.rpow_le_rpow hρ0 hρ2 (by linarith)
    linarith

/-- **C191.** A computed super-Gaussian beam of order 1 or more has at least a third of its amplitude at every point within `w / √2` of its centre,
and there it is the flatter the higher the order: the part of the amplitude that is missing is at most `0.9 ^ p`, up to 1/300. -/
theorem C191_bright (H : Ranged u s v Ω₁ Ω₂ E₁ E₂ F) (P : PowRanged s v Ω₁ pw) (hu0 : 0 ≤ u) (hu : u ≤ 1 / 4096) (hs0 : 0 ≤ s) (hs : s ≤ 1 / 4096)
    (hΩ : 1000 ≤ Ω₁) (hv : v ≤ 1 / 1000) (hE : 1 ≤ E₁) {x0 y0 a w p x y : ℝ} (hw : w ≠ 0) (hsw : s ≤ |w| / 4096) (hwΩ : 10 * |w| ≤ Ω₁)
    (ha0 : 0 < a) (haΩ : a < Ω₁) (has : s ≤ a / 4000) (hp : 1 ≤ p) (hR : (x - x0) ^ 2 + (y - y0) ^ 2 ≤ w ^ 2 / 2) :
    ∃ z, sgFuncX F pw x0 y0 a w p x y = .fin z ∧ a / 3 ≤ z ∧ a * (1 - (9 / 10) ^ p - 1 / 300) ≤ z := by
  obtain ⟨ρ, hρ, hρ0, hρ1⟩ := base_near H hu0 hu hs0 hs hΩ hw hsw hwΩ hR
  obtain ⟨e, he, he0, he1, he2⟩ := factor_near H P hs hΩ hv hE hp hρ0 hρ1
  have h2 : a * (7 / 20) ≤ a * e := mul_le_mul_of_nonneg_left he0 ha0.le
  have h4 : a * e ≤ a * 1 := mul_le_mul_of_nonneg_left he1 ha0.le
  have hae : 0 ≤ a * e := by linarith
  obtain ⟨f, hf⟩ := H.finite (a * e) (by rw [abs_of_nonneg hae]; linarith)
  have h1 := (abs_le.mp (H.near _ _ hf)).1
  rw [abs_of_nonneg hae] at h1
  have h3 : u * (a * e) ≤ 1 / 4096 * (a * e) := mul_le_mul_of_nonneg_right hu hae
  refine ⟨f, ?_, by linarith, ?_⟩
  · simp only [sgFuncX]
    rw [hρ, he]
    exact hf
  · have h5 : a * (1 - (9 / 10) ^ p - 1 / 400) ≤ a * e := mul_le_mul_of_nonneg_left he2 ha0.le
    linarith

end PySLM2.Profile

namespace PySLM2.DMD

open Spec Profile

/-- **C191.** A super-Gaussian target of any order is free of NaN, and the efficiency that `calculate_dmd_state` returns for it is NaN only if the window or the
input is NaN somewhere. -/
theorem C191_target {u s v Ω₁ Ω₂ E₁ E₂ : ℝ} {F : RangeArith} {pw : ℝ → ℝ → XR} (H : Ranged u s v Ω₁ Ω₂ E₁ E₂ F) (P : PowRanged s v Ω₁ pw) (hu0 : 0 ≤ u)
    (d : DMD) {x0 y0 a w p : ℝ} (hw : w ≠ 0) (hp : 0 < p) (haΩ : |a| < Ω₁) (X Y : ℕ → ℕ → ℝ) :
    ¬ HasNan d.slm.Ny d.slm.Nx (superN F pw x0 y0 a w p X Y) ∧
    ∀ (inp : ℕ → ℕ → Option ℂ) (window : Option (ℕ → ℕ → Option ℂ)) (red : (ℕ → ℕ → XR) → XR), Maximum d.slm.Ny d.slm.Nx red →
      Propagates d.slm.Ny d.slm.Nx red → 0 < d.slm.Nx → 0 < d.slm.Ny → d.slm.wavelength * d.slm.focal ≠ 0 →
      (∀ i < d.slm.Ny, ∀ j < d.slm.Nx, inp i j ≠ none ∧ ¬ WindowNan window i j) →
      calcEtaN red d inp (superN F pw x0 y0 a w p X Y) window ≠ .ok .nan := by
  have hno : ¬ HasNan d.slm.Ny d.slm.Nx (superN F pw x0 y0 a w p X Y) := by
    rintro ⟨i, hi, j, hj, h⟩
    obtain ⟨z, e, -⟩ := C191_finite H P hu0 hw hp haΩ (x0 := x0) (y0 := y0) (X i j) (Y i j)
    unfold superN at h
    rw [e] at h
    cases h
  refine ⟨hno, fun inp window red hm hp hNx hNy hsc hin h => ?_⟩
  rcases ((C174_eta hm hp hNx hNy hsc _ _ _).1).mp h with h | ⟨i, hi, j, hj, h | h⟩
  · exact hno h
  · exact (hin i hi j hj).2 h
  · exact (hin i hi j hj).1 h.1

/-- **C191.** For an LCOS SLM: the hologram of a super-Gaussian target of any order is free of NaN, for both methods, if the input (and the signal window) are. -/
theorem C191_hologram {u s v Ω₁ Ω₂ E₁ E₂ : ℝ} {F : RangeArith} {pw : ℝ → ℝ → XR} (H : Ranged u s v Ω₁ Ω₂ E₁ E₂ F) (P : PowRanged s v Ω₁ pw) (hu0 : 0 ≤ u)
    (slm : SLM) {x0 y0 a w p : ℝ} (hw : w ≠ 0) (hp : 0 < p) (haΩ : |a| < Ω₁) (X Y : ℕ → ℕ → ℝ) (inp window : ℕ → ℕ → Option ℂ) (m : ℝ)
    (draw : ℕ → ℕ → ℝ) {steps : ℕ} (hs : steps ≠ 0) (hinp : ¬ HasNan slm.Ny slm.Nx inp) (i j : ℕ) :
    LCOS.gsN slm inp (superRealN F pw x0 y0 a w p X Y) draw steps i j ≠ none ∧
    (¬ HasNan slm.Ny slm.Nx window → LCOS.mrafN slm inp (superRealN F pw x0 y0 a w p X Y) window m draw steps i j ≠ none) := by
  have hT : ¬ HasNan slm.Ny slm.Nx (superRealN F pw x0 y0 a w p X Y) := by
    rintro ⟨i, hi, j, hj, h⟩
    obtain ⟨z, e, -⟩ := C191_finite H P hu0 hw hp haΩ (x0 := x0) (y0 := y0) (X i j) (Y i j)
    unfold superRealN superN at h
    rw [e] at h
    cases h
  refine ⟨?_, fun hwin => ?_⟩
  · rw [(LCOS.C175_gs slm inp _ draw hs).2 (by rintro (h | h); exacts [hinp h, hT h])]
    exact Option.some_ne_none _
  · rw [(LCOS.C175_mraf slm inp _ window m draw hs).2 (by rintro (h | h | h); exacts [hinp h, hT h, hwin h])]
    exact Option.some_ne_none _

/-- Powers that are exact below 2^128 and infinite from there on -/
def clipPow (x p : ℝ) : XR := if (2 : ℝ) ^ 128 ≤ x ^ p then .pinf else .fin (x ^ p)

theorem clipPow_ranged : PowRanged (1 / 2 ^ 126) 0 (2 ^ 127) clipPow where
  total x p hx _ := by
    by_cases h : (2 : ℝ) ^ 128 ≤ x ^ p
    · refine .inl ⟨if_pos h, le_trans ?_ h⟩
      norm_num
    · refine .inr ⟨_, if_neg h, Real.rpow_nonneg hx p, ?_⟩
      rw [sub_self, abs_zero]
      positivity

/-- A beam of order 50 and a waist of 0.1 mm, 12 waists from the centre, where the power 144^50 is infinite in `float32`: 0 -/
example : sgFuncX clip clipPow 0 0 1 (1 / 10000) 50 (12 / 10000) 0 = .fin 0 :=
  C191_zero (clip_ranged le_rfl) clipPow_ranged (by norm_num) (by norm_num) (by norm_num) (by norm_num) (by norm_num) (by norm_num) (by norm_num)
    (by norm_num [abs_of_pos]) (by norm_num) (.inl (by norm_num [abs_of_pos]))

/-- The same beam at half its waist -/
example : ∃ z, sgFuncX clip clipPow 0 0 1 (1 / 10000) 50 (1 / 20000) 0 = .fin z ∧ 0.99 ≤ z := by
  obtain ⟨z, h, -, h2⟩ := C191_bright (clip_ranged le_rfl) clipPow_ranged (by norm_num) (by norm_num) (by norm_num) (by norm_num) (by norm_num) (by norm_num) (by norm_num)
    (by norm_num) (by norm_num [abs_of_pos]) (by norm_num [abs_of_pos]) one_pos (by norm_num)
    (by norm_num) (p := 50) (x0 := 0) (y0 := 0) (x := 1 / 20000) (y := 0) (w := 1 / 10000) (by norm_num) (by norm_num)
  refine ⟨z, h, le_trans ?_ h2⟩
  rw [show (50 : ℝ) = (50 : ℕ) by norm_num, Real.rpow_natCast]
  norm_num

/-- The same beam as a target of a `DLP9500` -/
example (p theta : ℝ) (neg : Bool) (X Y : ℕ → ℕ → ℝ) : ¬ HasNan 1080 1920 (superN clip clipPow 0 0 1 (1 / 10000) 50 X Y) :=
  (C191_target (clip_ranged le_rfl) clipPow_ranged (by norm_num) ⟨Model.DLP9500.slm 370e-9 0.2, p, theta, neg⟩ (by norm_num) (by norm_num) (by norm_num)
    X Y).1

end PySLM2.DMD
