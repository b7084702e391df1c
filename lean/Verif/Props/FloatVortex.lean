import Verif.Props.FloatRange

/-!
# C173: vortex beams and the range of floating point numbers
-/

noncomputable section

open Complex

namespace PySLM2.Profile

open Spec

variable {u s v Ω₁ Ω₂ E₁ E₂ : ℝ} {F : RangeArith}

theorem atLeast_of_le {c c' : ℝ} (h : c ≤ c') {q : XR} (hq : AtLeast c' q) : AtLeast c q := by
  rcases hq with h' | ⟨y, h', hy⟩
  · exact .inl h'
  · exact .inr ⟨y, h', h.trans hy⟩

/-- The square of a rounded difference is not negative -/
theorem sq_rnd_nonneg (H : Ranged u s v Ω₁ Ω₂ E₁ E₂ F) (d : ℝ) : AtLeast 0 (F.mul (F.rnd d) (F.rnd d)) := by
  rcases H.total d with ⟨y, h⟩ | ⟨h, -⟩ | ⟨h, -⟩ <;> rw [h]
  · show AtLeast 0 (F.rnd (y * y))
    rcases H.total (y * y) with ⟨z, hz⟩ | ⟨hz, -⟩ | ⟨-, hz⟩
    · exact .inr ⟨z, hz, H.nonneg _ _ hz (mul_self_nonneg y)⟩
    · exact .inl hz
    · exact absurd hz (not_lt.mpr (mul_self_nonneg y))
  · exact .inl rfl
  · exact .inl rfl

/-- The computed square of the distance, far from the centre -/
theorem r2_atLeast (H : Ranged u s v Ω₁ Ω₂ E₁ E₂ F) (hu0 : 0 ≤ u) (hu : u ≤ 1 / 1000) (hs0 : 0 ≤ s) {w d d' D : ℝ}
    (hw : 0 < w) (hsw : s ≤ w / 1000) (hsw2 : s ≤ w ^ 2 / 1000) (hD : 11 * w ≤ D) (hd : D ≤ |d| ∨ D ≤ |d'|) :
    AtLeast (0.995 * D ^ 2) (F.add (F.mul (F.rnd d) (F.rnd d)) (F.mul (F.rnd d') (F.rnd d'))) := by
  have hD0 : 0 < D := by linarith
  have hDw : w ^ 2 ≤ D ^ 2 / 121 := by nlinarith
  have far : ∀ {d : ℝ}, D ≤ |d| → AtLeast (0.9965 * D ^ 2) (F.mul (F.rnd d) (F.rnd d)) := by
    intro d hd
    have h1 : Beyond (0.9989 * D) (F.rnd d) := beyond_of_le (by nlinarith) (rnd_beyond H (by linarith) hd)
    refine atLeast_of_le ?_ (sq_atLeast H hu0 (by linarith) (by positivity) h1)
    nlinarith [sq_nonneg D]
  have fin : ∀ {p q : XR} {c c' : ℝ}, c + c' = 0.9965 * D ^ 2 → AtLeast c p → AtLeast c' q → AtLeast (0.995 * D ^ 2) (F.add p q) := by
    intro p q c c' hc hp hq
    refine atLeast_of_le ?_ (add_atLeast H hu0 (by linarith) (by rw [hc]; positivity) hp hq)
    rw [hc]
    nlinarith [sq_nonneg D]
  rcases hd with hd | hd
  · exact fin (add_zero _) (far hd) (sq_rnd_nonneg H d')
  · exact fin (zero_add _) (sq_rnd_nonneg H d) (far hd)

/-- The rounded square of the waist -/
theorem w2_near (H : Ranged u s v Ω₁ Ω₂ E₁ E₂ F) (hu : u ≤ 1 / 1000) {w : ℝ} (hsw2 : s ≤ w ^ 2 / 1000)
    (hwΩ : w ^ 2 < Ω₁) : ∃ W, F.rnd (w ^ 2) = .fin W ∧ 0.998 * w ^ 2 ≤ W ∧ W ≤ 1.002 * w ^ 2 := by
  obtain ⟨W, hW⟩ := H.finite (w ^ 2) (by rwa [abs_of_nonneg (sq_nonneg w)])
  have h := abs_le.mp (H.near _ _ hW)
  rw [abs_of_nonneg (sq_nonneg w)] at h
  exact ⟨W, hW, by nlinarith [sq_nonneg w], by nlinarith [sq_nonneg w]⟩

/-- The exponential factor of a vortex beam, far from the centre -/
theorem lg_factor_zero (H : Ranged u s v Ω₁ Ω₂ E₁ E₂ F) (hu0 : 0 ≤ u) (hu : u ≤ 1 / 1000) (hs : s ≤ 1 / 1000) (hE : E₂ ≤ 110)
    {w D W : ℝ} (hw : 0 < w) (hD : 11 * w ≤ D) {q : XR} (hq : AtLeast (0.995 * D ^ 2) q) (hW : 0.998 * w ^ 2 ≤ W) (hW' : W ≤ 1.002 * w ^ 2) :
    F.expX (F.div (RangeArith.neg q) (.fin W)) = .fin 0 := by
  have hW0 : 0 < W := lt_of_lt_of_le (by positivity) hW
  rcases hq with h | ⟨y, h, hy⟩ <;> rw [h]
  · show F.expX (if 0 ≤ W then XR.ninf else XR.pinf) = _
    rw [if_pos hW0.le]
    rfl
  · show F.expX (if W = 0 then XR.divFin (-y) W else F.rnd (-y / W)) = _
    rw [if_neg hW0.ne']
    have hDw : 121 * w ^ 2 ≤ D ^ 2 := by nlinarith
    have h1 : -y / W ≤ -115 := by
      rw [div_le_iff₀ hW0]
      nlinarith
    rcases H.total (-y / W) with ⟨z, hz⟩ | ⟨-, hz⟩ | ⟨hz, -⟩
    · rw [hz]
      refine H.exp_zero z ?_
      have h2 := (abs_le.mp (H.near _ _ hz)).2
      rw [abs_of_nonpos (by linarith)] at h2
      nlinarith
    · linarith
    · rw [hz]
      rfl

/-- The rounded root of two -/
theorem root_two_near (H : Ranged u s v Ω₁ Ω₂ E₁ E₂ F) (hu0 : 0 ≤ u) (hu : u ≤ 1 / 1000) (hs : s ≤ 1 / 1000) (hΩ : 1000 ≤ Ω₁) :
    ∃ z, F.rnd (F.py (√2)) = .fin z ∧ 1.41 ≤ z ∧ z ≤ 1.42 := by
  have r1 : (1.4142 : ℝ) ≤ √2 := Real.le_sqrt_of_sq_le (by norm_num)
  have r2 : √2 ≤ (1.4143 : ℝ) := Real.sqrt_le_iff.mpr ⟨by norm_num, by norm_num⟩
  have h1 := abs_le.mp H.py
  have b1 : 1.412 ≤ F.py (√2) := by nlinarith
  have b2 : F.py (√2) ≤ 1.416 := by nlinarith
  obtain ⟨z, hz⟩ := H.finite (F.py (√2)) (by rw [abs_of_pos (by linarith)]; linarith)
  have h2 := abs_le.mp (H.near _ _ hz)
  rw [abs_of_pos (by linarith)] at h2
  refine ⟨z, hz, ?_, ?_⟩
  · nlinarith
  · nlinarith

/-- The power of the radius, where it is too large -/
theorem lg_power_infinite (H : Ranged u s v Ω₁ Ω₂ E₁ E₂ F) (hu0 : 0 ≤ u) (hu : u ≤ 1 / 1000) (hs0 : 0 ≤ s) (hs : s ≤ 1 / 1000) (hv0 : 0 ≤ v)
    (hv : v ≤ 1 / 1000) (hΩ : 1000 ≤ Ω₁) (hΩ₂ : 1 < Ω₂) {w D : ℝ} (hw : 0 < w) (hsw : s ≤ w / 1000) (hD : 11 * w ≤ D) {q : XR}
    (hq : AtLeast (0.995 * D ^ 2) q) {n : ℕ} (hn : (1 + v) * Ω₂ ≤ (1.38 * D / w) ^ n) :
    F.powX n (F.div (F.mul (F.rnd (F.py (√2))) (F.sqrtX q)) (.fin w)) = .pinf := by
  have hD0 : 0 < D := by linarith
  have hn0 : n ≠ 0 := by
    rintro rfl
    rw [pow_zero] at hn
    nlinarith
  obtain ⟨z, hz, hz0, -⟩ := root_two_near H hu0 hu hs hΩ
  rw [hz]
  have inf : F.powX n (F.div .pinf (.fin w)) = .pinf := by
    show F.powX n (if 0 ≤ w then XR.pinf else XR.ninf) = _
    rw [if_pos hw.le]
    exact if_neg hn0
  have pinf : F.mul (.fin z) .pinf = .pinf := by
    show (if z = 0 then XR.nan else if 0 < z then XR.pinf else XR.ninf) = _
    rw [if_neg (by linarith), if_pos (by linarith)]
  have step : ∀ {r : XR}, AtLeast (0.996 * D) r → F.powX n (F.div (F.mul (.fin z) r) (.fin w)) = .pinf := by
    intro r hr
    have h1 : AtLeast (1.4 * D) (F.mul (.fin z) r) := by
      rcases hr with h | ⟨y, h, hy⟩ <;> rw [h]
      · exact .inl pinf
      · exact atLeast_of_le (by nlinarith) (rnd_atLeast H hu0 (by linarith) (c := 1.404 * D) (by positivity)
          (show 1.404 * D ≤ z * y by nlinarith))
    rcases h1 with h | ⟨y, h, hy⟩ <;> rw [h]
    · exact inf
    · have h2 : AtLeast (1.38 * D / w) (F.div (.fin y) (.fin w)) := by
        show AtLeast _ (if w = 0 then XR.divFin y w else F.rnd (y / w))
        rw [if_neg hw.ne']
        have h3 : 1.4 * (D / w) ≤ y / w := by
          rw [← mul_div_assoc]
          exact div_le_div_of_nonneg_right hy hw.le
        have h4 : 11 ≤ D / w := by rwa [le_div_iff₀ hw]
        refine atLeast_of_le ?_ (rnd_atLeast H hu0 (by linarith) (by positivity) h3)
        rw [mul_div_assoc]
        nlinarith
      rcases h2 with h2 | ⟨b, h2, hb⟩ <;> rw [h2]
      · exact if_neg hn0
      · have h0 : 0 ≤ 1.38 * D / w := by positivity
        exact H.pow_infinite b n (h0.trans hb) (hn.trans (pow_le_pow_left₀ h0 hb n))
  refine step ?_
  rcases hq with h | ⟨y, h, hy⟩ <;> rw [h]
  · exact .inl rfl
  · refine .inr ⟨_, rfl, ?_⟩
    have h1 : 0.9974 * D ≤ √y := Real.le_sqrt_of_sq_le (by nlinarith [sq_nonneg D])
    have h2 := (abs_le.mp (H.sqrt_near y (le_trans (by positivity) hy))).1
    nlinarith

/-- **C173.** A computed vortex beam is NaN where the power of the radius overflows and the exponential factor underflows: at a distance `D ≥ 11 w`
in x or in y with `(1.38 D / w)^|l|` beyond the range, whatever its amplitude and its radial index. -/
theorem C173_nan (H : Ranged u s v Ω₁ Ω₂ E₁ E₂ F) (hu0 : 0 ≤ u) (hu : u ≤ 1 / 1000) (hs0 : 0 ≤ s) (hs : s ≤ 1 / 1000) (hv0 : 0 ≤ v)
    (hv : v ≤ 1 / 1000) (hΩ : 1000 ≤ Ω₁) (hΩ₂ : 1 < Ω₂) (hE : E₂ ≤ 110) {x0 y0 a w D : ℝ} (hw : 0 < w) (hsw : s ≤ w / 1000) (hsw2 : s ≤ w ^ 2 / 1000)
    (hwΩ : w ^ 2 < Ω₁) (hD : 11 * w ≤ D) {l : ℤ} (hl : (1 + v) * Ω₂ ≤ (1.38 * D / w) ^ l.natAbs) (cl : List ℝ) {x y : ℝ}
    (hd : D ≤ |x - x0| ∨ D ≤ |y - y0|) :
    lgFuncX F x0 y0 a w l cl x y = (.nan, .nan) := by
  have hq := r2_atLeast H hu0 hu hs0 hw hsw hsw2 hD hd
  obtain ⟨W, hW, hW1, hW2⟩ := w2_near H hu hsw2 hwΩ
  have h1 := lg_factor_zero H hu0 hu hs hE hw hD hq hW1 hW2
  have h2 := lg_power_infinite H hu0 hu hs0 hs hv0 hv hΩ hΩ₂ hw hsw hD hq hl
  have h3 : lgAmplitudeX F x0 y0 a w l cl x y = .nan := by
    simp only [lgAmplitudeX]
    rw [hW, h1, h2]
    have h4 : F.mul (F.mul (.fin a) .pinf) (.fin 0) = .nan := by
      show F.mul (if a = 0 then XR.nan else if 0 < a then XR.pinf else XR.ninf) (.fin 0) = _
      split
      · rfl
      · split <;> exact if_pos rfl
    rw [h4]
    rfl
  simp only [lgFuncX, h3]
  rfl

/-- **C173**, negation: in single precision (the default) on a DLP9500, a vortex beam with `|l| ≥ 33` and a waist of 0.9 mm or less anywhere on the
device is NaN at every pixel of the first or of the last column, whatever its amplitude and its radial index. -/
theorem C173_refuted (H : Ranged (1 / 2 ^ 24) (1 / 2 ^ 126) v (2 ^ 127) (2 ^ 128) 87 104 F) (hv0 : 0 ≤ v) (hv : v ≤ 1 / 1000) {x0 y0 a w lam foc : ℝ}
    (hw : 1e-9 ≤ w) (hw' : w ≤ 0.9e-3) {l : ℤ} (hl : 33 ≤ |l|) (cl : List ℝ) {X Y : ℕ → ℕ → ℝ}
    (hX : ∀ i j, |X i j - (Model.DLP9500.slm lam foc).fourierGrid.1.get i j| ≤ 1e-5) :
    ∃ j₀ < (Model.DLP9500.slm lam foc).Nx, ∀ i, lgFuncX F x0 y0 a w l cl (X i j₀) (Y i j₀) = (.nan, .nan) := by
  have hw0 : 0 < w := by norm_num at hw; linarith
  have ex : ∀ i j, (Model.DLP9500.slm lam foc).fourierGrid.1.get i j = (j - 960) * (10.8 * 1e-6) := by
    intro i j
    simp only [SLM.fourierGrid, fourierX_eq]
    show ((j : ℝ) - ((1920 : ℕ) : ℝ) / 2) * (10.8 * 1e-6) = _
    push_cast
    ring
  refine ⟨if 0 ≤ x0 then 0 else 1919, by show _ < 1920; split <;> omega, fun i => ?_⟩
  have hfar : 11 * w ≤ |X i (if 0 ≤ x0 then 0 else 1919) - x0| := by
    have h1 := abs_le.mp (hX i (if 0 ≤ x0 then 0 else 1919))
    rw [ex] at h1
    split at h1
    · rename_i h
      rw [if_pos h]
      refine le_trans ?_ (neg_le_abs _)
      norm_num at h1 hw'
      linarith
    · rename_i h
      rw [if_neg h]
      refine le_trans ?_ (le_abs_self _)
      norm_num at h1 hw'
      linarith
  have hn : 33 ≤ l.natAbs := by rw [Int.abs_eq_natAbs] at hl; omega
  have hb : (1 + v) * 2 ^ 128 ≤ (1.38 * (11 * w) / w) ^ l.natAbs := by
    have e : 1.38 * (11 * w) / w = 15.18 := by field_simp; norm_num
    rw [e]
    calc (1 + v) * 2 ^ 128 ≤ (1 + 1 / 1000) * 2 ^ 128 := by gcongr
      _ ≤ (15.18 : ℝ) ^ 33 := by norm_num
      _ ≤ _ := pow_le_pow_right₀ (by norm_num) hn
  have hw2 : (1e-9 : ℝ) ^ 2 ≤ w ^ 2 := pow_le_pow_left₀ (by norm_num) hw 2
  have hw3 : w ^ 2 ≤ (0.9e-3 : ℝ) ^ 2 := pow_le_pow_left₀ hw0.le hw' 2
  refine C173_nan H (by norm_num) (by norm_num) (by norm_num) (by norm_num) hv0 hv (by norm_num) (by norm_num) (by norm_num) hw0 ?_ ?_ ?_ le_rfl hb cl
    (.inl hfar)
  · refine le_trans ?_ (div_le_div_of_nonneg_right hw (by norm_num)); norm_num
  · refine le_trans ?_ (div_le_div_of_nonneg_right hw2 (by norm_num)); norm_num
  · refine lt_of_le_of_lt hw3 ?_; norm_num

/-- A rounded number is at most a little larger -/
theorem rnd_le (H : Ranged u s v Ω₁ Ω₂ E₁ E₂ F) (hu0 : 0 ≤ u) {x c : ℝ} (hx : |x| ≤ c) (hc : c < Ω₁) :
    ∃ y, F.rnd x = .fin y ∧ |y| ≤ (1 + u) * c + s := by
  obtain ⟨y, hy⟩ := H.finite x (lt_of_le_of_lt hx hc)
  refine ⟨y, hy, ?_⟩
  have h1 := H.near x y hy
  have h2 := abs_sub_abs_le_abs_sub y x
  nlinarith

/-- The computed square of the distance is finite, not negative and at most a little larger -/
theorem r2_le (H : Ranged u s v Ω₁ Ω₂ E₁ E₂ F) (hu0 : 0 ≤ u) (hu : u ≤ 1 / 1000) (hs0 : 0 ≤ s) {w d d' R : ℝ} (hw : 0 < w) (hsw : s ≤ w / 1000)
    (hsw2 : s ≤ w ^ 2 / 1000) (hwR : w ≤ R) (hR : d ^ 2 + d' ^ 2 ≤ R ^ 2) (hRΩ : 2 * R < Ω₁) (hRΩ2 : 2 * R ^ 2 < Ω₁) :
    ∃ q, F.add (F.mul (F.rnd d) (F.rnd d)) (F.mul (F.rnd d') (F.rnd d')) = .fin q ∧ 0 ≤ q ∧ q ≤ 1.02 * R ^ 2 := by
  have hR0 : 0 < R := hw.trans_le hwR
  have hw2 : w ^ 2 ≤ R ^ 2 := pow_le_pow_left₀ hw.le hwR 2
  have one : ∀ {d : ℝ}, d ^ 2 ≤ R ^ 2 → ∃ z, F.mul (F.rnd d) (F.rnd d) = .fin z ∧ 0 ≤ z ∧ z ≤ 1.004 * d ^ 2 + 0.005 * R ^ 2 := by
    intro d hd
    have hdR : |d| ≤ R := abs_le_of_sq_le_sq hd hR0.le
    obtain ⟨y, hy, hyb⟩ := rnd_le H hu0 (le_refl |d|) (by linarith)
    have y1 : |y| ≤ 1.001 * |d| + 0.001 * R := by nlinarith [abs_nonneg d]
    have y2 : y ^ 2 ≤ (1.001 * |d| + 0.001 * R) ^ 2 := by rw [← sq_abs y]; exact pow_le_pow_left₀ (abs_nonneg y) y1 2
    have y3 : y ^ 2 ≤ 1.0021 * d ^ 2 + 0.0021 * R ^ 2 := by
      have e : |d| ^ 2 = d ^ 2 := sq_abs d
      nlinarith [abs_nonneg d]
    obtain ⟨z, hz, hzb⟩ := rnd_le H hu0 (x := y * y) (c := 1.0021 * d ^ 2 + 0.0021 * R ^ 2) (by rw [abs_of_nonneg (mul_self_nonneg y)]; nlinarith)
      (by nlinarith)
    refine ⟨z, ?_, H.nonneg _ _ hz (mul_self_nonneg y), ?_⟩
    · rw [hy]; exact hz
    · refine (le_abs_self z).trans (hzb.trans ?_)
      nlinarith [sq_nonneg d, sq_nonneg R]
  obtain ⟨z, hz, hz0, hzb⟩ := one (d := d) (by nlinarith [sq_nonneg d'])
  obtain ⟨z', hz', hz0', hzb'⟩ := one (d := d') (by nlinarith [sq_nonneg d])
  rw [hz, hz']
  obtain ⟨q, hq, hqb⟩ := rnd_le H hu0 (x := z + z') (c := 1.014 * R ^ 2) (by rw [abs_of_nonneg (by linarith)]; nlinarith) (by nlinarith)
  refine ⟨q, hq, H.nonneg _ _ hq (by linarith), (le_abs_self q).trans (hqb.trans ?_)⟩
  nlinarith [sq_nonneg R]

/-- The computed power of the radius is finite and of the expected size -/
theorem lg_power_le (H : Ranged u s v Ω₁ Ω₂ E₁ E₂ F) (hu0 : 0 ≤ u) (hu : u ≤ 1 / 1000) (hs0 : 0 ≤ s) (hs : s ≤ 1 / 1000) (hv0 : 0 ≤ v)
    (hv : v ≤ 1 / 1000) (hΩ : 1000 ≤ Ω₁) {w R q : ℝ} (hw : 0 < w) (hsw : s ≤ w / 1000) (hwR : w ≤ R) (hRΩ : 2 * R < Ω₁) (hq0 : 0 ≤ q) (hq : q ≤ 1.02 * R ^ 2)
    (hRw : 2 * R < Ω₁ * w) {n : ℕ} (hn : (1.5 * R / w) ^ n < Ω₁) :
    ∃ b, F.powX n (F.div (F.mul (F.rnd (F.py (√2))) (F.sqrtX (.fin q))) (.fin w)) = .fin b ∧ |b| ≤ 1.01 * (1.5 * R / w) ^ n := by
  have hR0 : 0 < R := hw.trans_le hwR
  obtain ⟨z, hz, hz0, hz1⟩ := root_two_near H hu0 hu hs hΩ
  have hsq : √q ≤ 1.01 * R := Real.sqrt_le_iff.mpr ⟨by positivity, by nlinarith [sq_nonneg R]⟩
  have hs1 := abs_le.mp (H.sqrt_near q hq0)
  have hr0 : 0 ≤ F.sqrt q := by nlinarith [Real.sqrt_nonneg q]
  have hr1 : F.sqrt q ≤ 1.0112 * R := by nlinarith [Real.sqrt_nonneg q]
  obtain ⟨y, hy, hyb⟩ := rnd_le H hu0 (x := z * F.sqrt q) (c := 1.436 * R) (by rw [abs_of_nonneg (by positivity)]; nlinarith) (by nlinarith)
  have hy0 : 0 ≤ y := H.nonneg _ _ hy (by positivity)
  have hy1 : y ≤ 1.44 * R := by
    refine (le_abs_self y).trans (hyb.trans ?_)
    nlinarith
  have hRw1 : 1 ≤ R / w := by rwa [le_div_iff₀ hw, one_mul]
  have hyw : y / w ≤ 1.44 * (R / w) := by
    rw [← mul_div_assoc]
    exact div_le_div_of_nonneg_right hy1 hw.le
  have hRw2 : 2 * (R / w) < Ω₁ := by
    rw [← mul_div_assoc, div_lt_iff₀ hw]
    exact hRw
  have hyw0 : 0 ≤ y / w := by positivity
  obtain ⟨t, ht, htb⟩ := rnd_le H hu0 (x := y / w) (c := 1.44 * (R / w)) (by rwa [abs_of_nonneg hyw0]) (by linarith)
  have ht0 : 0 ≤ t := H.nonneg _ _ ht hyw0
  have ht1 : t ≤ 1.5 * R / w := by
    rw [mul_div_assoc]
    refine (le_abs_self t).trans (htb.trans ?_)
    nlinarith
  have htn : t ^ n ≤ (1.5 * R / w) ^ n := pow_le_pow_left₀ ht0 ht1 n
  have h1n : 1 ≤ (1.5 * R / w) ^ n := one_le_pow₀ (by rw [mul_div_assoc]; linarith)
  obtain ⟨b, hb, hbb⟩ := H.pow_near t n ht0 (lt_of_le_of_lt htn hn)
  refine ⟨b, ?_, ?_⟩
  · rw [hz]
    show F.powX n (F.div (F.rnd (z * F.sqrt q)) (.fin w)) = _
    rw [hy]
    show F.powX n (if w = 0 then XR.divFin y w else F.rnd (y / w)) = _
    rw [if_neg hw.ne', ht]
    exact hb
  · have h2 := abs_sub_abs_le_abs_sub b (t ^ n)
    rw [abs_of_nonneg (pow_nonneg ht0 n)] at h2
    have h3 : v * t ^ n ≤ 1 / 1000 * (1.5 * R / w) ^ n := mul_le_mul hv htn (pow_nonneg ht0 n) (by norm_num)
    linarith

/-- The exponential factor is a finite number between 0 and 1 -/
theorem lg_factor_range (H : Ranged u s v Ω₁ Ω₂ E₁ E₂ F) {q W : ℝ} (hq : 0 ≤ q) (hW : 0 < W) :
    ∃ e, F.expX (F.div (RangeArith.neg (.fin q)) (.fin W)) = .fin e ∧ 0 ≤ e ∧ e ≤ 1 := by
  show ∃ e, F.expX (if W = 0 then XR.divFin (-q) W else F.rnd (-q / W)) = _ ∧ _
  rw [if_neg hW.ne']
  have hx : -q / W ≤ 0 := div_nonpos_of_nonpos_of_nonneg (by linarith) hW.le
  rcases H.total (-q / W) with ⟨z, hz⟩ | ⟨-, hz⟩ | ⟨hz, -⟩
  · rw [hz]
    refine H.exp_range z ?_
    by_contra hzp
    exact absurd (H.sign _ _ hz hx) hzp
  · exact absurd hz (not_lt.mpr hx)
  · rw [hz]
    exact ⟨0, rfl, le_rfl, zero_le_one⟩

theorem largestPoly_ge {cl : List ℝ} (hcl : cl ≠ []) {X : ℝ} (hX : 0 ≤ X) : 1 ≤ largestPoly cl X := by
  obtain ⟨cs, c, rfl⟩ := (List.eq_nil_or_concat' cl).resolve_left hcl
  have h0 : ∀ (cs : List ℝ) (Q : ℝ), 0 ≤ Q → 0 ≤ (cs.map fun c => max |c| 1).foldl (fun q c => q * X + c) Q := by
    intro cs
    induction cs with
    | nil => exact fun Q h => h
    | cons c cs ih => exact fun Q h => ih _ (add_nonneg (mul_nonneg h hX) (zero_le_one.trans (le_max_right _ _)))
  rw [largestPoly, List.map_append, List.foldl_append]
  have h1 := h0 cs 0 le_rfl
  have h2 : 1 ≤ max |c| 1 := le_max_right _ _
  simp only [List.map_cons, List.map_nil, List.foldl_cons, List.foldl_nil]
  nlinarith

/-- A step of Horner's rule -/
theorem horner_step (H : Ranged u s v Ω₁ Ω₂ E₁ E₂ F) (hu0 : 0 ≤ u) (hu : u ≤ 1 / 1000) (hs : s ≤ 1 / 1000) {p c x X Q : ℝ} (hx : |x| ≤ X)
    (hp : |p| ≤ 1.01 * Q) (hQ : 2 * (Q * (1.003 * X) + max |c| 1) < Ω₁) :
    ∃ z, F.add (.fin c) (F.mul (.fin p) (.fin x)) = .fin z ∧ |z| ≤ 1.01 * (Q * (1.003 * X) + max |c| 1) := by
  have hQ0 : 0 ≤ Q := by linarith [abs_nonneg p]
  have hX0 : 0 ≤ X := (abs_nonneg x).trans hx
  have hQX : 0 ≤ Q * X := mul_nonneg hQ0 hX0
  have hm1 : 1 ≤ max |c| 1 := le_max_right _ _
  have hmc : |c| ≤ max |c| 1 := le_max_left _ _
  generalize max |c| 1 = m at hQ hm1 hmc
  have h1 : |p * x| ≤ 1.01 * (Q * X) := by
    rw [abs_mul]
    nlinarith [abs_nonneg p, abs_nonneg x]
  obtain ⟨y, hy, hyb⟩ := rnd_le H hu0 h1 (by linarith)
  have hy1 : |y| ≤ 1.01101 * (Q * X) + 0.001 := by nlinarith
  have h2 : |c + y| ≤ m + 1.01101 * (Q * X) + 0.001 := (abs_add_le c y).trans (by linarith)
  obtain ⟨z, hz, hzb⟩ := rnd_le H hu0 h2 (by linarith)
  refine ⟨z, ?_, ?_⟩
  · show F.add (.fin c) (F.rnd (p * x)) = _
    rw [hy]
    exact hz
  · nlinarith

/-- Horner's rule -/
theorem polyval_le (H : Ranged u s v Ω₁ Ω₂ E₁ E₂ F) (hu0 : 0 ≤ u) (hu : u ≤ 1 / 1000) (hs : s ≤ 1 / 1000) {x X : ℝ} (hx : |x| ≤ X) (hX : 1 ≤ X)
    (cl : List ℝ) (hQ : 2 * largestPoly cl (1.003 * X) < Ω₁) :
    ∃ z, F.polyvalX cl (.fin x) = .fin z ∧ |z| ≤ 1.01 * largestPoly cl (1.003 * X) := by
  have mono : ∀ (cs : List ℝ) (Q : ℝ), 0 ≤ Q → Q ≤ (cs.map fun c => max |c| 1).foldl (fun q c => q * (1.003 * X) + c) Q := by
    intro cs
    induction cs with
    | nil => exact fun Q _ => le_rfl
    | cons c cs ih =>
      intro Q hQ0
      have h0 : 1 ≤ max |c| 1 := le_max_right _ _
      have h1 : Q ≤ Q * (1.003 * X) + max |c| 1 := by nlinarith
      exact h1.trans (ih _ (hQ0.trans h1))
  have key : ∀ (cs : List ℝ) (p Q : ℝ), |p| ≤ 1.01 * Q → 2 * (cs.map fun c => max |c| 1).foldl (fun q c => q * (1.003 * X) + c) Q < Ω₁ →
      ∃ z, cs.foldl (fun p c => F.add (.fin c) (F.mul p (.fin x))) (.fin p) = .fin z ∧
        |z| ≤ 1.01 * (cs.map fun c => max |c| 1).foldl (fun q c => q * (1.003 * X) + c) Q := by
    intro cs
    induction cs with
    | nil => exact fun p Q hp _ => ⟨p, rfl, hp⟩
    | cons c cs ih =>
      intro p Q hp hQ
      have hQ0 : 0 ≤ Q := by linarith [abs_nonneg p]
      have h0 : 1 ≤ max |c| 1 := le_max_right _ _
      have h1 : 0 ≤ Q * (1.003 * X) + max |c| 1 := by nlinarith
      have h2 := mono cs _ h1
      rw [List.map_cons, List.foldl_cons] at hQ
      obtain ⟨z, hz, hzb⟩ := horner_step H hu0 hu hs (c := c) hx hp (lt_of_le_of_lt (by linarith) hQ)
      rw [List.foldl_cons, List.map_cons, List.foldl_cons, hz]
      exact ih z _ hzb hQ
  cases cl with
  | nil => exact ⟨0, rfl, by simp [largestPoly]⟩
  | cons c cs =>
    have e : largestPoly (c :: cs) (1.003 * X) = (cs.map fun c => max |c| 1).foldl (fun q c => q * (1.003 * X) + c) (max |c| 1) := by
      rw [largestPoly, List.map_cons, List.foldl_cons, zero_mul, zero_add]
    rw [e] at hQ ⊢
    have h0 : 1 ≤ max |c| 1 := le_max_right _ _
    have h1 : |c| ≤ max |c| 1 := le_max_left _ _
    exact key cs c _ (by linarith) hQ

/-- The argument of the polynomial -/
theorem lg_argument (H : Ranged u s v Ω₁ Ω₂ E₁ E₂ F) (hu0 : 0 ≤ u) (hu : u ≤ 1 / 1000) (hs0 : 0 ≤ s) (hs : s ≤ 1 / 1000) {w R q W : ℝ} (hw : 0 < w)
    (hsw2 : s ≤ w ^ 2 / 1000) (hwR : w ≤ R) (hq0 : 0 ≤ q) (hq : q ≤ 1.02 * R ^ 2) (hW : 0.998 * w ^ 2 ≤ W) (hRΩ2 : 3 * R ^ 2 < Ω₁)
    (hRw : 3 * (R / w) ^ 2 < Ω₁) :
    ∃ x, F.div (F.mul (.fin 2) (.fin q)) (.fin W) = .fin x ∧ |x| ≤ 2.07 * (R / w) ^ 2 := by
  have hw2 : w ^ 2 ≤ R ^ 2 := pow_le_pow_left₀ hw.le hwR 2
  have hw0 : 0 < w ^ 2 := by positivity
  have hW0 : 0 < W := lt_of_lt_of_le (by positivity) hW
  have hR1 : 1 ≤ (R / w) ^ 2 := one_le_pow₀ (by rwa [le_div_iff₀ hw, one_mul])
  have h1 : |2 * q| ≤ 2.04 * R ^ 2 := by rw [abs_of_nonneg (by linarith)]; linarith
  obtain ⟨y, hy, hyb⟩ := rnd_le H hu0 h1 (by nlinarith)
  have hy0 : 0 ≤ y := H.nonneg _ _ hy (by linarith)
  have hy1 : y ≤ 2.0431 * R ^ 2 := (le_abs_self y).trans (hyb.trans (by nlinarith))
  have hyW : y / W ≤ 2.0475 * (R / w) ^ 2 := by
    rw [div_pow, ← mul_div_assoc, div_le_div_iff₀ hW0 hw0]
    nlinarith [sq_nonneg R]
  have hyW0 : 0 ≤ y / W := by positivity
  obtain ⟨x, hx, hxb⟩ := rnd_le H hu0 (x := y / W) (c := 2.0475 * (R / w) ^ 2) (by rw [abs_of_nonneg hyW0]; exact hyW) (by linarith)
  refine ⟨x, ?_, by nlinarith⟩
  show F.div (F.rnd (2 * q)) (.fin W) = _
  rw [hy]
  show (if W = 0 then XR.divFin y W else F.rnd (y / W)) = _
  rw [if_neg hW0.ne']
  exact hx

/-- The product of the factors of the amplitude -/
theorem lg_product (H : Ranged u s v Ω₁ Ω₂ E₁ E₂ F) (hu0 : 0 ≤ u) (hu : u ≤ 1 / 1000) (hs : s ≤ 1 / 1000) {a b e k M Q : ℝ} (hab : |a * b| ≤ 1.01 * M)
    (hM1 : 1 ≤ M) (hQ1 : 1 ≤ Q) (hk : |k| ≤ 1.01 * Q) (hM : 4 * (M * Q) < Ω₁) (he0 : 0 ≤ e) (he1 : e ≤ 1) :
    ∃ A, F.mul (F.mul (F.mul (.fin a) (.fin b)) (.fin e)) (.fin k) = .fin A ∧ |A| ≤ 1.05 * (M * Q) := by
  have hMQ : M ≤ M * Q := by nlinarith
  obtain ⟨c, hc, hcb⟩ := rnd_le H hu0 hab (by linarith)
  have hc1 : |c| ≤ 1.0121 * M := by nlinarith
  have hce : |c * e| ≤ 1.0121 * M := by
    rw [abs_mul, abs_of_nonneg he0]
    nlinarith [abs_nonneg c]
  obtain ⟨c', hc', hcb'⟩ := rnd_le H hu0 hce (by linarith)
  have hc1' : |c'| ≤ 1.0142 * M := by nlinarith
  have hck : |c' * k| ≤ 1.0244 * (M * Q) := by
    rw [abs_mul]
    nlinarith [abs_nonneg c', abs_nonneg k]
  obtain ⟨A, hA, hAb⟩ := rnd_le H hu0 hck (by linarith)
  refine ⟨A, ?_, by nlinarith⟩
  show F.mul (F.mul (F.rnd (a * b)) (.fin e)) (.fin k) = _
  rw [hc]
  show F.mul (F.rnd (c * e)) (.fin k) = _
  rw [hc']
  exact hA

/-- The product with the phase factor -/
theorem lg_phase (H : Ranged u s v Ω₁ Ω₂ E₁ E₂ F) (hu0 : 0 ≤ u) (hu : u ≤ 1 / 1000) (hs : s ≤ 1 / 1000) (hv : v ≤ 1 / 1000) {A M : ℝ} (hA : |A| ≤ 1.05 * M)
    (hM1 : 1 ≤ M) (hM : 4 * M < Ω₁) (l : ℤ) (θ : ℝ) :
    let phase := F.expC (-I * (l * θ))
    ∃ p q : ℝ, (F.add (F.mul (.fin A) (.fin phase.re)) (RangeArith.neg (F.mul (.fin 0) (.fin phase.im))),
      F.add (F.mul (.fin A) (.fin phase.im)) (F.mul (.fin 0) (.fin phase.re))) = (.fin p, .fin q) := by
  intro ph
  have hphase : ‖ph‖ ≤ 1.001 := by
    have h1 := H.expC_near (-(l * θ))
    have e1 : I * ((-(l * θ) : ℝ) : ℂ) = -I * (l * θ) := by push_cast; ring
    rw [e1] at h1
    have h2 : ‖cexp (-I * (l * θ))‖ = 1 := by
      rw [← e1, mul_comm]
      exact norm_exp_ofReal_mul_I _
    have h3 := norm_le_norm_add_norm_sub' (F.expC (-I * (l * θ))) (cexp (-I * (l * θ)))
    show ‖F.expC (-I * (l * θ))‖ ≤ 1.001
    linarith
  have hre : |ph.re| ≤ 1.001 := (abs_re_le_norm ph).trans hphase
  have him : |ph.im| ≤ 1.001 := (abs_im_le_norm ph).trans hphase
  clear_value ph
  have part : ∀ {f : ℝ}, |f| ≤ 1.001 → ∃ g, F.mul (.fin A) (.fin f) = .fin g ∧ |g| ≤ 2 * M := by
    intro f hf
    obtain ⟨g, hg, hgb⟩ := rnd_le H hu0 (x := A * f) (c := 1.06 * M) (by
      rw [abs_mul]
      nlinarith [abs_nonneg A, abs_nonneg f]) (by linarith)
    exact ⟨g, hg, by nlinarith⟩
  have zero : ∀ f, F.mul (.fin 0) (.fin f) = .fin 0 := fun f => by
    show F.rnd (0 * f) = _
    rw [zero_mul, H.zero]
  have sum : ∀ {g : ℝ}, |g| ≤ 2 * M → ∃ h, F.add (.fin g) (.fin 0) = .fin h := by
    intro g hg
    show ∃ h, F.rnd (g + 0) = _
    rw [add_zero]
    exact H.finite g (by linarith)
  obtain ⟨g, hg, hgb⟩ := part hre
  obtain ⟨g', hg', hgb'⟩ := part him
  rw [hg, hg', zero, zero]
  obtain ⟨h, hh⟩ := sum hgb
  obtain ⟨h', hh'⟩ := sum hgb'
  refine ⟨h, h', ?_⟩
  show (F.add (.fin g) (.fin (-0)), _) = _
  rw [neg_zero, hh, hh']

/-- **C173**, the part that holds: the computed values of a vortex beam are finite numbers at all points within `R ≥ w` of the centre, if
`4 max(|a|, 1) (1.5 R / w)^|l|` times the largest value of the radial polynomial at `2.1 (R / w)^2` (coefficients below 1 counted as 1), and three times
the squares of the lengths and of `R / w`, stay in the range. -/
theorem C173_partial (H : Ranged u s v Ω₁ Ω₂ E₁ E₂ F) (hu0 : 0 ≤ u) (hu : u ≤ 1 / 1000) (hs0 : 0 ≤ s) (hs : s ≤ 1 / 1000) (hv0 : 0 ≤ v)
    (hv : v ≤ 1 / 1000) (hΩ : 1000 ≤ Ω₁) {x0 y0 a w R : ℝ} (hw : 0 < w) (hsw : s ≤ w / 1000) (hsw2 : s ≤ w ^ 2 / 1000) (hwR : w ≤ R)
    (hRΩ : 2 * R < Ω₁) (hRΩ2 : 3 * R ^ 2 < Ω₁) (hRw : 3 * (R / w) ^ 2 < Ω₁) {l : ℤ} {cl : List ℝ} (hcl : cl ≠ [])
    (hl : 4 * max |a| 1 * (1.5 * R / w) ^ l.natAbs * largestPoly cl (2.1 * (R / w) ^ 2) < Ω₁)
    {x y : ℝ} (hd : (x - x0) ^ 2 + (y - y0) ^ 2 ≤ R ^ 2) :
    ∃ p q : ℝ, lgFuncX F x0 y0 a w l cl x y = (.fin p, .fin q) := by
  have hR0 : 0 < R := hw.trans_le hwR
  have hw2 : w ^ 2 ≤ R ^ 2 := pow_le_pow_left₀ hw.le hwR 2
  obtain ⟨q, hq, hq0, hq1⟩ := r2_le H hu0 hu hs0 hw hsw hsw2 hwR hd hRΩ (by nlinarith [sq_nonneg R])
  obtain ⟨W, hW, hW1, -⟩ := w2_near H hu hsw2 (by nlinarith [sq_nonneg R])
  have hW0 : 0 < W := lt_of_lt_of_le (by positivity) hW1
  have hB1 : 1 ≤ (1.5 * R / w) ^ l.natAbs := one_le_pow₀ (by
    rw [le_div_iff₀ hw]
    linarith)
  have hm1 : 1 ≤ max |a| 1 := le_max_right _ _
  have hma : |a| ≤ max |a| 1 := le_max_left _ _
  have hRw1 : 1 ≤ R / w := by rwa [le_div_iff₀ hw, one_mul]
  have hX1 : 1 ≤ (R / w) ^ 2 := one_le_pow₀ hRw1
  have hRw' : 2 * R < Ω₁ * w := by
    rw [← div_lt_iff₀ hw, mul_div_assoc]
    nlinarith
  have hQ1 : 1 ≤ largestPoly cl (1.003 * (2.1 / 1.003 * (R / w) ^ 2)) := largestPoly_ge hcl (by linarith)
  have hQe : 1.003 * (2.1 / 1.003 * (R / w) ^ 2) = 2.1 * (R / w) ^ 2 := by ring
  generalize hB : (1.5 * R / w) ^ l.natAbs = B at hl hB1
  generalize max |a| 1 = m at hl hm1 hma
  have hmB : 1 ≤ m * B := one_le_mul_of_one_le_of_one_le hm1 hB1
  have hmBQ : 4 * (m * B * largestPoly cl (1.003 * (2.1 / 1.003 * (R / w) ^ 2))) < Ω₁ := by rw [hQe]; linarith
  obtain ⟨k, hk, hk1⟩ := lg_argument H hu0 hu hs0 hs hw hsw2 hwR hq0 hq1 hW1 hRΩ2 hRw
  obtain ⟨z, hz, hzb⟩ := polyval_le H hu0 hu hs (x := k) (X := 2.1 / 1.003 * (R / w) ^ 2) (hk1.trans (by linarith)) (by linarith) cl
    (lt_of_le_of_lt (by linarith [le_mul_of_one_le_left (zero_le_one.trans hQ1) hmB]) hmBQ)
  generalize largestPoly cl (1.003 * (2.1 / 1.003 * (R / w) ^ 2)) = Q at hQ1 hmBQ hzb
  have hmBQ1 : m * B ≤ m * B * Q := le_mul_of_one_le_right (zero_le_one.trans hmB) hQ1
  have hBB : B ≤ m * B := le_mul_of_one_le_left (zero_le_one.trans hB1) hm1
  obtain ⟨b, hb, hbb⟩ := lg_power_le H hu0 hu hs0 hs hv0 hv hΩ hw hsw hwR hRΩ hq0 hq1 hRw' (n := l.natAbs) (by rw [hB]; linarith)
  rw [hB] at hbb
  obtain ⟨e, he, he0, he1⟩ := lg_factor_range H hq0 hW0
  have hab : |a * b| ≤ 1.01 * (m * B) := by
    rw [abs_mul]
    exact (mul_le_mul hma hbb (abs_nonneg b) (by linarith)).trans (by linarith)
  obtain ⟨A, hA, hA1⟩ := lg_product H hu0 hu hs hab hmB hQ1 hzb hmBQ he0 he1
  have hamp : lgAmplitudeX F x0 y0 a w l cl x y = .fin A := by
    simp only [lgAmplitudeX]
    rw [hq, hW, hb, he, hk, hz]
    exact hA
  simp only [lgFuncX, hamp]
  exact lg_phase H hu0 hu hs hv hA1 (by linarith) hmBQ l _

/-- A beam with `l = 40` on a DLP9500 -/
example (lam foc : ℝ) : ∃ j₀ < 1920, ∀ i, lgFuncX clip 0 0 1 0.5e-3 40 [1] ((Model.DLP9500.slm lam foc).fourierGrid.1.get i j₀)
    ((Model.DLP9500.slm lam foc).fourierGrid.2.get i j₀) = (.nan, .nan) :=
  C173_refuted (clip_ranged le_rfl) le_rfl (by norm_num) (lam := lam) (foc := foc) (by norm_num) (by norm_num) (by norm_num) [1]
    (X := (Model.DLP9500.slm lam foc).fourierGrid.1.get) (Y := (Model.DLP9500.slm lam foc).fourierGrid.2.get)
    (by intro i j; rw [sub_self, abs_zero]; norm_num)

/-- A beam with `l = 5`, `p = 1` (the radial polynomial is `6 - X`) and a waist of 1 mm, within 10 mm of its centre -/
example (x y : ℝ) (h : x ^ 2 + y ^ 2 ≤ (1 / 100) ^ 2) : ∃ p q : ℝ, lgFuncX clip 0 0 1 (1 / 1000) 5 [-1, 6] x y = (.fin p, .fin q) :=
  C173_partial (clip_ranged le_rfl) (by norm_num) (by norm_num) (by norm_num) (by norm_num) le_rfl (by norm_num) (by norm_num)
    (R := 1 / 100) (by norm_num) (by norm_num) (by norm_num) (by norm_num) (by norm_num) (by norm_num) (by norm_num) (by simp)
    (by rw [abs_one, max_self]; norm_num [Int.natAbs, largestPoly]) (by simpa using h)

end PySLM2.Profile
