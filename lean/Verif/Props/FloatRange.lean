import Verif.Spec.FloatRange
import Verif.Props.FloatCalc

/-!
# C172: Gaussian beams and the range of floating point numbers
-/

noncomputable section

open Complex

namespace PySLM2.Profile

open Spec

variable {u s v Ω₁ Ω₂ E₁ E₂ : ℝ} {F : RangeArith}

/-- A float that is infinite or at least `c` -/
def AtLeast (c : ℝ) (q : XR) : Prop := q = .pinf ∨ ∃ y, q = .fin y ∧ c ≤ y

/-- A float that is infinite (of either sign) or at least `c` in modulus -/
def Beyond (c : ℝ) (q : XR) : Prop := q = .pinf ∨ q = .ninf ∨ ∃ y, q = .fin y ∧ c ≤ |y|

theorem rnd_atLeast (H : Ranged u s v Ω₁ Ω₂ E₁ E₂ F) (hu0 : 0 ≤ u) (hu : u ≤ 1) {x c : ℝ} (hc : 0 ≤ c) (hx : c ≤ x) :
    AtLeast ((1 - u) * c - s) (F.rnd x) := by
  rcases H.total x with ⟨y, hy⟩ | ⟨h, -⟩ | ⟨-, h⟩
  · refine .inr ⟨y, hy, ?_⟩
    have h1 := H.near x y hy
    rw [abs_of_nonneg (hc.trans hx)] at h1
    have h2 := (abs_le.mp h1).1
    nlinarith
  · exact .inl h
  · linarith

theorem rnd_beyond (H : Ranged u s v Ω₁ Ω₂ E₁ E₂ F) (hu : u ≤ 1) {x c : ℝ} (hx : c ≤ |x|) : Beyond ((1 - u) * c - s) (F.rnd x) := by
  rcases H.total x with ⟨y, hy⟩ | ⟨h, -⟩ | ⟨h, -⟩
  · refine .inr (.inr ⟨y, hy, ?_⟩)
    have h1 := H.near x y hy
    have h2 := abs_sub_abs_le_abs_sub x y
    rw [abs_sub_comm] at h2
    nlinarith
  · exact .inl h
  · exact .inr (.inl h)

/-- The normalised coordinate -/
theorem div_beyond (H : Ranged u s v Ω₁ Ω₂ E₁ E₂ F) (hu : u ≤ 1) {d w c c' : ℝ} (hw : w ≠ 0) (hd : c ≤ |d|)
    (hc : c' * |w| ≤ (1 - u) * c - s) : Beyond ((1 - u) * c' - s) (F.div (F.rnd d) (.fin w)) := by
  rcases rnd_beyond H hu hd with h | h | ⟨y, h, hy⟩
  · rw [h]
    show Beyond _ (if 0 ≤ w then XR.pinf else XR.ninf)
    split
    · exact .inl rfl
    · exact .inr (.inl rfl)
  · rw [h]
    show Beyond _ (if 0 ≤ w then XR.ninf else XR.pinf)
    split
    · exact .inr (.inl rfl)
    · exact .inl rfl
  · rw [h]
    show Beyond _ (if w = 0 then XR.divFin y w else F.rnd (y / w))
    rw [if_neg hw]
    refine rnd_beyond H hu ?_
    rw [abs_div, le_div_iff₀ (abs_pos.mpr hw)]
    exact hc.trans hy

theorem sq_atLeast (H : Ranged u s v Ω₁ Ω₂ E₁ E₂ F) (hu0 : 0 ≤ u) (hu : u ≤ 1) {q : XR} {c : ℝ} (hc : 0 ≤ c) (hq : Beyond c q) :
    AtLeast ((1 - u) * c ^ 2 - s) (F.mul q q) := by
  rcases hq with h | h | ⟨y, h, hy⟩
  · rw [h]; exact .inl rfl
  · rw [h]; exact .inl rfl
  · rw [h]
    show AtLeast _ (F.rnd (y * y))
    refine rnd_atLeast H hu0 hu (by positivity) ?_
    rw [← abs_mul_abs_self y]
    nlinarith

theorem add_atLeast (H : Ranged u s v Ω₁ Ω₂ E₁ E₂ F) (hu0 : 0 ≤ u) (hu : u ≤ 1) {p q : XR} {c c' : ℝ} (hc : 0 ≤ c + c') (hp : AtLeast c p)
    (hq : AtLeast c' q) : AtLeast ((1 - u) * (c + c') - s) (F.add p q) := by
  rcases hp with h | ⟨y, h, hy⟩ <;> rcases hq with h' | ⟨y', h', hy'⟩ <;> rw [h, h']
  · exact .inl rfl
  · exact .inl rfl
  · exact .inl rfl
  · exact rnd_atLeast H hu0 hu hc (by linarith)

theorem exp_far (H : Ranged u s v Ω₁ Ω₂ E₁ E₂ F) {q : XR} {c : ℝ} (hc : E₂ ≤ c) (hq : AtLeast c q) : F.expX (RangeArith.neg q) = .fin 0 := by
  rcases hq with h | ⟨y, h, hy⟩ <;> rw [h]
  · rfl
  · exact H.exp_zero _ (by linarith)

theorem beyond_of_le {c c' : ℝ} (h : c ≤ c') {q : XR} (hq : Beyond c' q) : Beyond c q := by
  rcases hq with h' | h' | ⟨y, h', hy⟩
  · exact .inl h'
  · exact .inr (.inl h')
  · exact .inr (.inr ⟨y, h', h.trans hy⟩)

/-- The exponential factor of a Gaussian at a distance of 11 waists or more -/
theorem gauss_factor_zero (H : Ranged u s v Ω₁ Ω₂ E₁ E₂ F) (hu0 : 0 ≤ u) (hu : u ≤ 1 / 100) (hs0 : 0 ≤ s) (hs : s ≤ 1 / 100) (hE : E₂ ≤ 110) {d d' w : ℝ}
    (hw : w ≠ 0) (hsw : s ≤ |w| / 100) (hd : 11 * |w| ≤ |d| ∨ 11 * |w| ≤ |d'|) :
    let q := F.div (F.rnd d) (.fin w)
    let q' := F.div (F.rnd d') (.fin w)
    F.expX (RangeArith.neg (F.add (F.mul q q) (F.mul q' q'))) = .fin 0 := by
  have hw0 := abs_pos.mpr hw
  have far : ∀ {d : ℝ}, 11 * |w| ≤ |d| → AtLeast 113 (F.mul (F.div (F.rnd d) (.fin w)) (F.div (F.rnd d) (.fin w))) := by
    intro d hd
    have h1 := div_beyond H (by linarith) hw hd (c' := 10.88) (by nlinarith)
    have h2 : Beyond 10.75 _ := beyond_of_le (by nlinarith) h1
    rcases sq_atLeast H hu0 (by linarith) (by norm_num) h2 with h3 | ⟨y, h3, hy⟩
    · exact .inl h3
    · exact .inr ⟨y, h3, by nlinarith⟩
  have any : ∀ d : ℝ, AtLeast (-1) (F.mul (F.div (F.rnd d) (.fin w)) (F.div (F.rnd d) (.fin w))) := by
    intro d
    have h1 := div_beyond H (by linarith) hw (abs_nonneg d) (c' := -1 / 100) (by nlinarith)
    have h2 : Beyond 0 (F.div (F.rnd d) (.fin w)) := by
      rcases h1 with h | h | ⟨y, h, -⟩
      · exact .inl h
      · exact .inr (.inl h)
      · exact .inr (.inr ⟨y, h, abs_nonneg y⟩)
    rcases sq_atLeast H hu0 (by linarith) le_rfl h2 with h3 | ⟨y, h3, hy⟩
    · exact .inl h3
    · exact .inr ⟨y, h3, by nlinarith⟩
  show F.expX _ = _
  rcases hd with hd | hd
  · exact exp_far H (c := (1 - u) * (113 + -1) - s) (by nlinarith) (add_atLeast H hu0 (by linarith) (by norm_num) (far hd) (any d'))
  · exact exp_far H (c := (1 - u) * (-1 + 113) - s) (by nlinarith) (add_atLeast H hu0 (by linarith) (by norm_num) (any d) (far hd))

/-- **C172.** A computed Gaussian beam is exactly 0 at every point that is 11 waists or more from the centre in x or in y. -/
theorem C172_zero (H : Ranged u s v Ω₁ Ω₂ E₁ E₂ F) (hu0 : 0 ≤ u) (hu : u ≤ 1 / 100) (hs0 : 0 ≤ s) (hs : s ≤ 1 / 100) (hE : E₂ ≤ 110) {x0 y0 a w x y : ℝ}
    (hw : w ≠ 0) (hsw : s ≤ |w| / 100) (ha : F.rnd a = .fin a) (hd : 11 * |w| ≤ |x - x0| ∨ 11 * |w| ≤ |y - y0|) :
    hgFuncX F x0 y0 a w [1] [1] x y = .fin 0 := by
  have h := gauss_factor_zero H hu0 hu hs0 hs hE hw hsw hd
  simp only [hgFuncX, RangeArith.polyvalX, List.foldl_nil] at h ⊢
  rw [h]
  have h1 : F.mul (F.mul (.fin a) (.fin 1)) (.fin 1) = .fin a := by
    simp only [RangeArith.mul, mul_one, ha]
  rw [h1]
  simp only [RangeArith.mul, mul_zero, H.zero]

theorem sq_nonneg_at (H : Ranged u s v Ω₁ Ω₂ E₁ E₂ F) {d w : ℝ} (hw : w ≠ 0) :
    AtLeast 0 (F.mul (F.div (F.rnd d) (.fin w)) (F.div (F.rnd d) (.fin w))) := by
  have any : ∀ {q : XR}, (∃ y, q = .fin y) ∨ q = .pinf ∨ q = .ninf → AtLeast 0 (F.mul q q) := by
    rintro q (⟨y, h⟩ | h | h) <;> rw [h]
    · show AtLeast 0 (F.rnd (y * y))
      rcases H.total (y * y) with ⟨z, hz⟩ | ⟨hz, -⟩ | ⟨-, hz⟩
      · exact .inr ⟨z, hz, H.nonneg _ _ hz (mul_self_nonneg y)⟩
      · exact .inl hz
      · exact absurd hz (not_lt.mpr (mul_self_nonneg y))
    · exact .inl rfl
    · exact .inl rfl
  refine any ?_
  rcases H.total d with ⟨y, h⟩ | ⟨h, -⟩ | ⟨h, -⟩ <;> rw [h]
  · show (∃ z, (if w = 0 then XR.divFin y w else F.rnd (y / w)) = _) ∨ _
    rw [show F.div (.fin y) (.fin w) = F.rnd (y / w) from if_neg hw, if_neg hw]
    rcases H.total (y / w) with h | ⟨h, -⟩ | ⟨h, -⟩
    · exact .inl h
    · exact .inr (.inl h)
    · exact .inr (.inr h)
  · show (∃ z, (if 0 ≤ w then XR.pinf else XR.ninf) = _) ∨ (if 0 ≤ w then XR.pinf else XR.ninf) = _ ∨ (if 0 ≤ w then XR.pinf else XR.ninf) = _
    split <;> simp
  · show (∃ z, (if 0 ≤ w then XR.ninf else XR.pinf) = _) ∨ (if 0 ≤ w then XR.ninf else XR.pinf) = _ ∨ (if 0 ≤ w then XR.ninf else XR.pinf) = _
    split <;> simp

/-- **C172.** A computed Gaussian beam is a finite number at every point. -/
theorem C172_finite (H : Ranged u s v Ω₁ Ω₂ E₁ E₂ F) {x0 y0 a w : ℝ} (hw : w ≠ 0) (ha : F.rnd a = .fin a) (haΩ : |a| < Ω₁) (x y : ℝ) :
    ∃ z, hgFuncX F x0 y0 a w [1] [1] x y = .fin z := by
  have h1 := sq_nonneg_at H (d := x - x0) hw
  have h2 := sq_nonneg_at H (d := y - y0) hw
  have h3 : ∃ e, F.expX (RangeArith.neg (F.add (F.mul (F.div (F.rnd (x - x0)) (.fin w)) (F.div (F.rnd (x - x0)) (.fin w)))
      (F.mul (F.div (F.rnd (y - y0)) (.fin w)) (F.div (F.rnd (y - y0)) (.fin w))))) = .fin e ∧ 0 ≤ e ∧ e ≤ 1 := by
    have h4 : ∀ {p q : XR}, AtLeast 0 p → AtLeast 0 q → ∃ e, F.expX (RangeArith.neg (F.add p q)) = .fin e ∧ 0 ≤ e ∧ e ≤ 1 := by
      rintro p q (hp | ⟨z, hp, hz⟩) (hq | ⟨z', hq, hz'⟩) <;> rw [hp, hq]
      · exact ⟨0, rfl, le_rfl, zero_le_one⟩
      · exact ⟨0, rfl, le_rfl, zero_le_one⟩
      · exact ⟨0, rfl, le_rfl, zero_le_one⟩
      · show ∃ e, F.expX (RangeArith.neg (F.rnd (z + z'))) = _ ∧ _
        rcases H.total (z + z') with ⟨ρ, h⟩ | ⟨h, -⟩ | ⟨-, h⟩
        · rw [h]
          exact H.exp_range (-ρ) (by linarith [H.nonneg _ _ h (by linarith)])
        · rw [h]
          exact ⟨0, rfl, le_rfl, zero_le_one⟩
        · linarith
    exact h4 h1 h2
  obtain ⟨e, he, he0, he1⟩ := h3
  simp only [hgFuncX, RangeArith.polyvalX, List.foldl_nil]
  rw [he]
  simp only [RangeArith.mul, mul_one, ha]
  exact H.finite _ (by rw [abs_mul, abs_of_nonneg he0]; nlinarith [abs_nonneg a])

/-- One normalised coordinate and its square, near the centre -/
theorem sq_near (H : Ranged u s v Ω₁ Ω₂ E₁ E₂ F) (hu0 : 0 ≤ u) (hu : u ≤ 1 / 4096) (hs0 : 0 ≤ s) (hs : s ≤ 1 / 4096) (hΩ : 1000 ≤ Ω₁) {d w : ℝ}
    (hw : w ≠ 0) (hsw : s ≤ |w| / 4096) (hwΩ : 10 * |w| ≤ Ω₁) (hd : |d / w| ≤ 9) :
    ∃ z, F.mul (F.div (F.rnd d) (.fin w)) (F.div (F.rnd d) (.fin w)) = .fin z ∧ 0 ≤ z ∧ |z - (d / w) ^ 2| ≤ 0.16 := by
  have hw0 := abs_pos.mpr hw
  have hd' : |d| ≤ 9 * |w| := by rwa [abs_div, div_le_iff₀ hw0] at hd
  obtain ⟨y, hy⟩ := H.finite d (by nlinarith)
  have h1 := H.near _ _ hy
  have h2 : |y / w - d / w| ≤ 10 / 4096 := by
    rw [← sub_div, abs_div, div_le_iff₀ hw0]
    nlinarith
  set q := d / w with hq
  have h3 : |y / w| ≤ 9.01 := by
    have := abs_sub_abs_le_abs_sub (y / w) q
    norm_num at h2 ⊢
    linarith
  obtain ⟨z, hz⟩ := H.finite (y / w) (by linarith)
  have h4 := H.near _ _ hz
  have h5 : |z - q| ≤ 21 / 4096 := by
    have : |z - q| ≤ |z - y / w| + |y / w - q| := abs_sub_le _ _ _
    nlinarith
  have h6 : |z + q| ≤ 18.02 := by
    have a1 := abs_add_le (z - q) (2 * q)
    rw [show z - q + 2 * q = z + q by ring, abs_mul, abs_two] at a1
    norm_num at h5 ⊢
    linarith
  have h7 : |z * z - q ^ 2| ≤ 0.1 := by
    rw [show z * z - q ^ 2 = (z - q) * (z + q) by ring, abs_mul]
    refine (mul_le_mul h5 h6 (abs_nonneg _) (by norm_num)).trans (by norm_num)
  have hq2 : q ^ 2 ≤ 81 := by rw [← sq_abs]; nlinarith [abs_nonneg q]
  have h8 : z * z ≤ 82 := by
    have := (abs_le.mp h7).2
    norm_num at this
    linarith
  obtain ⟨y2, hy2⟩ := H.finite (z * z) (by rw [abs_of_nonneg (mul_self_nonneg z)]; linarith)
  have h9 := H.near _ _ hy2
  rw [abs_of_nonneg (mul_self_nonneg z)] at h9
  refine ⟨y2, ?_, H.nonneg _ _ hy2 (mul_self_nonneg z), ?_⟩
  · rw [hy]
    have e : F.div (.fin y) (.fin w) = .fin z := by
      show (if w = 0 then XR.divFin y w else F.rnd (y / w)) = _
      rw [if_neg hw, hz]
    rw [e]
    exact hy2
  · have : |y2 - q ^ 2| ≤ |y2 - z * z| + |z * z - q ^ 2| := abs_sub_le _ _ _
    have h10 : u * (z * z) ≤ 1 / 4096 * 82 := mul_le_mul hu h8 (mul_self_nonneg z) (by norm_num)
    norm_num at h7 h10 ⊢
    linarith

theorem exp_factor {v ρ P e : ℝ} (hv : v ≤ 1 / 8) (hρ2 : |ρ - P| ≤ 0.36) (he1 : |e - Real.exp (-ρ)| ≤ v * Real.exp (-ρ)) :
    11 / 20 * Real.exp (-P) ≤ e ∧ e ≤ 17 / 10 * Real.exp (-P) := by
  set t := Real.exp (-P) with ht
  have ht0 : 0 < t := Real.exp_pos _
  have hup : Real.exp (-ρ) ≤ 1.5 * t := by
    have : Real.exp (-ρ) ≤ Real.exp (0.36 + -P) := Real.exp_le_exp.mpr (by have := (abs_le.mp hρ2).1; norm_num at this ⊢; linarith)
    rw [Real.exp_add] at this
    refine this.trans (mul_le_mul_of_nonneg_right ?_ ht0.le)
    have h1 : Real.exp 0.36 ≤ 1 / (1 - 0.36) := by
      have := Real.exp_bound_div_one_sub_of_interval (x := 0.36) (by norm_num) (by norm_num)
      simpa using this
    have h2 := Real.exp_bound' (x := 0.36) (by norm_num) (by norm_num) (n := 3) (by norm_num)
    norm_num [Finset.sum_range_succ, Nat.factorial] at h2
    norm_num
    linarith
  have hlow : 0.64 * t ≤ Real.exp (-ρ) := by
    have : Real.exp (-0.36 + -P) ≤ Real.exp (-ρ) := Real.exp_le_exp.mpr (by have := (abs_le.mp hρ2).2; norm_num at this ⊢; linarith)
    rw [Real.exp_add] at this
    refine le_trans (mul_le_mul_of_nonneg_right ?_ ht0.le) this
    have := Real.add_one_le_exp (-0.36)
    norm_num at this ⊢
    linarith
  have heb := abs_le.mp he1
  have hx0 := Real.exp_pos (-ρ)
  have hve : v * Real.exp (-ρ) ≤ 1 / 8 * Real.exp (-ρ) := mul_le_mul_of_nonneg_right hv hx0.le
  norm_num at hlow hup
  exact ⟨by linarith, by linarith⟩

/-- **C172.** A computed Gaussian beam is right up to a factor of 2 at every point with `r² ≤ 80 w²`; in particular it is not 0 there. -/
theorem C172_near (H : Ranged u s v Ω₁ Ω₂ E₁ E₂ F) (hu0 : 0 ≤ u) (hu : u ≤ 1 / 4096) (hs0 : 0 ≤ s) (hs : s ≤ 1 / 4096) (hΩ : 1000 ≤ Ω₁) (hv : v ≤ 1 / 8)
    (hE : 82 ≤ E₁) {x0 y0 a w x y : ℝ} (hw : w ≠ 0) (hsw : s ≤ |w| / 4096) (hwΩ : 10 * |w| ≤ Ω₁) (ha : F.rnd a = .fin a) (ha0 : a ≠ 0) (haΩ : |a| < Ω₁)
    (has : 100 * s ≤ |a| * Real.exp (-80)) (hR : ((x - x0) ^ 2 + (y - y0) ^ 2) / w ^ 2 ≤ 80) :
    ∃ r, hgFuncX F x0 y0 a w [1] [1] x y = .fin (a * r) ∧ Real.exp (-(((x - x0) ^ 2 + (y - y0) ^ 2) / w ^ 2)) / 2 ≤ r ∧
      r ≤ 2 * Real.exp (-(((x - x0) ^ 2 + (y - y0) ^ 2) / w ^ 2)) := by
  set d := x - x0 with hd
  set d' := y - y0 with hd'
  have eR : (d ^ 2 + d' ^ 2) / w ^ 2 = (d / w) ^ 2 + (d' / w) ^ 2 := by rw [div_pow, div_pow, add_div]
  rw [eR] at hR ⊢
  have b1 : |d / w| ≤ 9 := abs_le_of_sq_le_sq (by nlinarith [sq_nonneg (d' / w)]) (by norm_num)
  have b2 : |d' / w| ≤ 9 := abs_le_of_sq_le_sq (by nlinarith [sq_nonneg (d / w)]) (by norm_num)
  obtain ⟨z, hz, hz0, hz1⟩ := sq_near H hu0 hu hs0 hs hΩ hw hsw hwΩ b1
  obtain ⟨z', hz', hz0', hz1'⟩ := sq_near H hu0 hu hs0 hs hΩ hw hsw hwΩ b2
  have hR0 : 0 ≤ (d / w) ^ 2 + (d' / w) ^ 2 := by positivity
  generalize (d / w) ^ 2 = p at hz1 hR hR0 ⊢
  generalize (d' / w) ^ 2 = p' at hz1' hR hR0 ⊢
  have hsum : |z + z' - (p + p')| ≤ 0.32 := by
    rw [show z + z' - (p + p') = (z - p) + (z' - p') by ring]
    refine (abs_add_le _ _).trans ?_
    norm_num at hz1 hz1' ⊢
    linarith
  have hle : z + z' ≤ 81 := by
    have := (abs_le.mp hsum).2
    norm_num at this
    linarith
  obtain ⟨ρ, hρ⟩ := H.finite (z + z') (by rw [abs_of_nonneg (by linarith)]; linarith)
  have hρ1 := H.near _ _ hρ
  have hρ0 := H.nonneg _ _ hρ (by linarith)
  rw [abs_of_nonneg (by linarith : 0 ≤ z + z')] at hρ1
  have hρ2 : |ρ - (p + p')| ≤ 0.36 := by
    have h1 : |ρ - (p + p')| ≤ |ρ - (z + z')| + |z + z' - (p + p')| := abs_sub_le _ _ _
    have h2 : u * (z + z') ≤ 1 / 4096 * 81 := mul_le_mul hu hle (by linarith) (by norm_num)
    norm_num at hsum h2 ⊢
    linarith
  have hρ3 : ρ ≤ 82 := by
    have := (abs_le.mp hρ2).2
    norm_num at this
    linarith
  obtain ⟨e, he, he1⟩ := H.exp_near (-ρ) (by linarith) (by linarith)
  obtain ⟨e', he', he0, he2⟩ := H.exp_range (-ρ) (by linarith)
  obtain rfl : e = e' := by rw [he] at he'; injection he'
  set t := Real.exp (-(p + p')) with ht
  have ht0 : 0 < t := Real.exp_pos _
  have ht80 : Real.exp (-80) ≤ t := Real.exp_le_exp.mpr (by linarith)
  obtain ⟨he3, he4⟩ := exp_factor hv hρ2 he1
  rw [← ht] at he3 he4
  obtain ⟨f, hf⟩ := H.finite (a * e) (by
    rw [abs_mul, abs_of_nonneg he0]
    nlinarith [abs_nonneg a])
  have hf1 := H.near _ _ hf
  have ha1 := abs_pos.mpr ha0
  refine ⟨f / a, ?_, ?_⟩
  · simp only [hgFuncX, RangeArith.polyvalX, List.foldl_nil]
    rw [hz, hz', mul_div_cancel₀ _ ha0]
    simp only [RangeArith.mul, RangeArith.add, RangeArith.neg, RangeArith.expX, mul_one, ha, hρ, he, hf]
  · have h1 : |f / a - e| ≤ 1 / 50 * t := by
      rw [show f / a - e = (f - a * e) / a by field_simp, abs_div, div_le_iff₀ ha1]
      refine hf1.trans ?_
      rw [abs_mul, abs_of_nonneg he0]
      have h2 : u * (|a| * e) ≤ 1 / 4096 * (|a| * (17 / 10 * t)) := by gcongr
      have h3 : 100 * s ≤ |a| * t := has.trans (mul_le_mul_of_nonneg_left ht80 ha1.le)
      have h4 : 0 < |a| * t := by positivity
      have h5 : 1 / 50 * t * |a| = 1 / 50 * (|a| * t) := by ring
      have h6 : 1 / 4096 * (|a| * (17 / 10 * t)) = 17 / 40960 * (|a| * t) := by ring
      rw [h5]
      rw [h6] at h2
      linarith
    have h2 := abs_le.mp h1
    exact ⟨by linarith [h2.1], by linarith [h2.2]⟩

/-- An arithmetic without rounding, but with the range of single precision: numbers from `2^128` on are infinite, and `exp` is 0 from `-104` down. -/
def clip : RangeArith where
  rnd x := if (2 : ℝ) ^ 128 ≤ x then .pinf else if x ≤ -2 ^ 128 then .ninf else .fin x
  py x := x
  exp x := if x ≤ -104 then .fin 0 else .fin (Real.exp x)
  pow x n := if (2 : ℝ) ^ 128 ≤ x ^ n then .pinf else .fin (x ^ n)
  sqrt := Real.sqrt
  atan2 _ _ := 0
  expC := cexp

theorem clip_rnd {x : ℝ} (h : |x| < 2 ^ 128) : clip.rnd x = .fin x := by
  have := abs_lt.mp h
  show (if (2 : ℝ) ^ 128 ≤ x then XR.pinf else if x ≤ -2 ^ 128 then .ninf else .fin x) = _
  rw [if_neg (by linarith), if_neg (by linarith)]

theorem clip_fin {x y : ℝ} (h : clip.rnd x = .fin y) : y = x := by
  change (if (2 : ℝ) ^ 128 ≤ x then XR.pinf else if x ≤ -2 ^ 128 then .ninf else .fin x) = _ at h
  split at h
  · cases h
  · split at h
    · cases h
    · injection h with h; exact h.symm

theorem clip_ranged (hv : 0 ≤ v) : Ranged (1 / 2 ^ 24) (1 / 2 ^ 126) v (2 ^ 127) (2 ^ 128) 87 104 clip where
  near := fun x y h => by rw [clip_fin h, sub_self, abs_zero]; positivity
  zero := clip_rnd (by norm_num)
  nonneg := fun x y h hx => by rw [clip_fin h]; exact hx
  sign := fun x y h hx => by rw [clip_fin h]; exact hx
  finite := fun x hx => ⟨x, clip_rnd (hx.trans (by norm_num))⟩
  infinite := fun x hx => if_pos hx
  infinite_neg := fun x hx => by
    show (if (2 : ℝ) ^ 128 ≤ x then XR.pinf else if x ≤ -2 ^ 128 then .ninf else .fin x) = _
    rw [if_neg (by intro h; norm_num at h hx; linarith), if_pos hx]
  total := fun x => by
    show (∃ y, (if (2 : ℝ) ^ 128 ≤ x then XR.pinf else if x ≤ -2 ^ 128 then .ninf else .fin x) = _) ∨
      (if (2 : ℝ) ^ 128 ≤ x then XR.pinf else if x ≤ -2 ^ 128 then .ninf else .fin x) = _ ∧ _ ∨
      (if (2 : ℝ) ^ 128 ≤ x then XR.pinf else if x ≤ -2 ^ 128 then .ninf else .fin x) = _ ∧ _
    split
    · rename_i h
      exact .inr (.inl ⟨rfl, lt_of_lt_of_le (by positivity) h⟩)
    · split
      · rename_i h
        exact .inr (.inr ⟨rfl, lt_of_le_of_lt h (by norm_num)⟩)
      · exact .inl ⟨x, rfl⟩
  py := by show |√2 - √2| ≤ _; rw [sub_self, abs_zero]; positivity
  exp_near := fun x h1 _ => ⟨Real.exp x, if_neg (by linarith), by rw [sub_self, abs_zero]; positivity⟩
  exp_range := fun x hx => by
    show ∃ y, (if x ≤ -104 then XR.fin 0 else .fin (Real.exp x)) = _ ∧ _
    split
    · exact ⟨0, rfl, le_rfl, zero_le_one⟩
    · exact ⟨_, rfl, (Real.exp_pos x).le, Real.exp_le_one_iff.mpr hx⟩
  exp_zero := fun x hx => if_pos hx
  pow_near := fun x n hx h => ⟨x ^ n, if_neg (by intro h'; norm_num at h h'; linarith), by rw [sub_self, abs_zero]; positivity⟩
  pow_infinite := fun x n hx h => if_pos (le_trans (by norm_num; linarith) h)
  sqrt_near := fun x _ => by show |√x - √x| ≤ _; rw [sub_self, abs_zero]; positivity
  expC_near := fun t => by show ‖cexp _ - cexp _‖ ≤ v; rw [sub_self, norm_zero]; exact hv

/-- A Gaussian beam of waist 1 mm, 12 mm from its centre -/
example : hgFuncX clip 0 0 1 (1 / 1000) [1] [1] (12 / 1000) 0 = .fin 0 :=
  C172_zero (clip_ranged le_rfl) (by norm_num) (by norm_num) (by norm_num) (by norm_num) (by norm_num) (by norm_num) (by norm_num)
    (clip_rnd (by norm_num)) (.inl (by norm_num [abs_of_pos]))

theorem exp_80 : (1 : ℝ) / 2 ^ 117 ≤ Real.exp (-80) := by
  have h1 : Real.exp 80 ≤ 2 ^ 117 := by
    have h2 : Real.exp 80 = Real.exp 1 ^ 80 := by rw [← Real.exp_nat_mul]; norm_num
    rw [h2]
    calc Real.exp 1 ^ 80 ≤ (2.7182818286 : ℝ) ^ 80 := by gcongr; exact Real.exp_one_lt_d9.le
      _ ≤ _ := by norm_num
  rw [Real.exp_neg, ← one_div]
  exact one_div_le_one_div_of_le (Real.exp_pos _) h1

/-- and 8 mm from its centre -/
example : ∃ r, hgFuncX clip 0 0 1 (1 / 1000) [1] [1] (8 / 1000) 0 = .fin (1 * r) ∧ Real.exp (-64) / 2 ≤ r ∧ r ≤ 2 * Real.exp (-64) := by
  have := C172_near (clip_ranged le_rfl) (by norm_num) (by norm_num) (by norm_num) (by norm_num) (by norm_num) (by norm_num) (by norm_num)
    (w := 1 / 1000) (x0 := 0) (y0 := 0) (a := 1) (x := 8 / 1000) (y := 0) (by norm_num) (by norm_num [abs_of_pos]) (by norm_num [abs_of_pos])
    (clip_rnd (by norm_num)) one_ne_zero (by norm_num) (by rw [abs_one, one_mul]; refine le_trans ?_ exp_80; norm_num) (by norm_num)
  norm_num at this ⊢
  exact this

end PySLM2.Profile

namespace PySLM2.DMD

open Spec Lib Profile

variable {u s v Ω₁ Ω₂ E₁ E₂ : ℝ} {F : RangeArith} {t : ℕ} {v' : ℝ} {G : CalcArith}

/-- **C172**, a pixel out of reach: if the device has a pixel 11 waists or more from the centre of the beam, in x or in y, then for every target whose
computed transform does not vanish at this pixel all mirrors are off, with methods simple and random, and `eta` (a number divided by infinity) is 0. -/
theorem C172_dark (H : Ranged u s v Ω₁ Ω₂ E₁ E₂ F) (hu0 : 0 ≤ u) (hu : u ≤ 1 / 100) (hs0 : 0 ≤ s) (hs : s ≤ 1 / 100) (hE : E₂ ≤ 110) {x0 y0 a w : ℝ}
    (hw : w ≠ 0) (hsw : s ≤ |w| / 100) (ha : F.rnd a = .fin a) (K : CalcPrecise t v' G) (hv' : v' ≤ 1 / 16) (hasin : G.asin 0 = 0) {d : DMD}
    {X Y U : ℕ → ℕ → ℝ} (hU : ∀ i < d.slm.Ny, ∀ j < d.slm.Nx, hgFuncX F x0 y0 a w [1] [1] (X i j) (Y i j) = .fin (U i j)) {i₀ j₀ : ℕ}
    (hi₀ : i₀ < d.slm.Ny) (hj₀ : j₀ < d.slm.Nx) (hfar : 11 * |w| ≤ |X i₀ j₀ - x0| ∨ 11 * |w| ≤ |Y i₀ j₀ - y0|) {T : ℕ → ℕ → ℂ}
    {W : Option (ℕ → ℕ → ℂ)} (hT : targetFpR G d.slm.Ny d.slm.Nx T W i₀ j₀ ≠ 0) :
    let beam : ℕ → ℕ → ℂ := fun i j => U i j
    oneOverEtaR G d.slm beam T W = .pinf ∧ (∀ c : ℝ, (XR.fin c).div (oneOverEtaR G d.slm beam T W) = .fin 0) ∧
      ∀ i j, d.calcSimpleR G beam T W i j = false ∧ ∀ r x, 0 ≤ x → d.calcRandomR G r beam T W x i j = false := by
  intro beam
  have h0 : U i₀ j₀ = 0 := by
    have h1 := C172_zero H hu0 hu hs0 hs hE hw hsw ha hfar
    rw [hU i₀ hi₀ j₀ hj₀] at h1
    injection h1
  obtain ⟨h1, h2⟩ := C144_dark K hv' (u := beam) hi₀ hj₀ (by simp [beam, h0]) hT
  refine ⟨h1, fun c => by rw [h1]; rfl, fun i j => ⟨h2 i j, fun r x hx => ?_⟩⟩
  have hcase : ampScaledR G d.slm beam T W i j = .nan ∨ ampScaledR G d.slm beam T W i j = .fin 0 := by
    unfold ampScaledR
    rw [h1]
    cases ratioR G (beam i j) (targetFpR G d.slm.Ny d.slm.Nx T W i j) with
    | fin x => exact .inr (by show XR.fin (G.rnd 0) = _; rw [K.rnd_zero])
    | pinf => exact .inl rfl
    | ninf => exact .inl rfl
    | nan => exact .inl rfl
  rcases hcase with h | h
  · rw [calcRandomR, h]
  · rw [calcRandomR, h]
    have : ∀ q, randomDutyR G.toArith d.p d.theta r d.neg 0 q = 0 := by
      intro q
      simp only [randomDutyR, hasin, add_zero, sub_zero, sub_self, K.rnd_zero, mul_zero]
    simp [randomPixelR, this, hx]

/-- **C172** (proved part): if all pixels are within `r² ≤ 80 w²` of the centre, mode matching succeeds for every target whose computed transform is
not zero everywhere: all amplitudes are in `[0, 1]`, and one is 1. -/
theorem C172_partial (H : Ranged u s v Ω₁ Ω₂ E₁ E₂ F) (hu0 : 0 ≤ u) (hu : u ≤ 1 / 4096) (hs0 : 0 ≤ s) (hs : s ≤ 1 / 4096) (hΩ : 1000 ≤ Ω₁) (hv : v ≤ 1 / 8)
    (hE : 82 ≤ E₁) {x0 y0 a w : ℝ} (hw : w ≠ 0) (hsw : s ≤ |w| / 4096) (hwΩ : 10 * |w| ≤ Ω₁) (ha : F.rnd a = .fin a) (ha0 : a ≠ 0) (haΩ : |a| < Ω₁)
    (has : 100 * s ≤ |a| * Real.exp (-80)) (K : CalcPrecise t v' G) (ht : 4 ≤ t) (hv' : v' ≤ 1 / 16) {d : DMD} (hNx : 0 < d.slm.Nx) (hNy : 0 < d.slm.Ny)
    {X Y : ℕ → ℕ → ℝ} (hR : ∀ i < d.slm.Ny, ∀ j < d.slm.Nx, ((X i j - x0) ^ 2 + (Y i j - y0) ^ 2) / w ^ 2 ≤ 80) :
    ∃ U : ℕ → ℕ → ℝ, (∀ i < d.slm.Ny, ∀ j < d.slm.Nx, hgFuncX F x0 y0 a w [1] [1] (X i j) (Y i j) = .fin (U i j)) ∧
      ∀ (T : ℕ → ℕ → ℂ) (W : Option (ℕ → ℕ → ℂ)), (∃ i < d.slm.Ny, ∃ j < d.slm.Nx, targetFpR G d.slm.Ny d.slm.Nx T W i j ≠ 0) →
        (∀ i < d.slm.Ny, ∀ j < d.slm.Nx, ∃ A : ℝ, ampScaledR G d.slm (fun i j => (U i j : ℂ)) T W i j = .fin A ∧ 0 ≤ A ∧ A ≤ 1) ∧
        ∃ i < d.slm.Ny, ∃ j < d.slm.Nx, ampScaledR G d.slm (fun i j => (U i j : ℂ)) T W i j = .fin 1 := by
  have h : ∀ i j, ∃ U : ℝ, i < d.slm.Ny → j < d.slm.Nx → hgFuncX F x0 y0 a w [1] [1] (X i j) (Y i j) = .fin U ∧ U ≠ 0 := by
    intro i j
    by_cases hij : i < d.slm.Ny ∧ j < d.slm.Nx
    · obtain ⟨r, h1, h2, -⟩ := C172_near H hu0 hu hs0 hs hΩ hv hE hw hsw hwΩ ha ha0 haΩ has (hR i hij.1 j hij.2)
      refine ⟨_, fun _ _ => ⟨h1, mul_ne_zero ha0 (ne_of_gt (lt_of_lt_of_le ?_ h2))⟩⟩
      positivity
    · exact ⟨0, fun h1 h2 => absurd ⟨h1, h2⟩ hij⟩
  choose U hU using h
  refine ⟨U, fun i hi j hj => (hU i j hi hj).1, fun T W hT => ?_⟩
  exact C144_range K ht hv' hNx hNy (fun i hi j hj _ => by exact_mod_cast (hU i j hi hj).2) hT

/-- **C172**, negation: in single precision (the default) on a DLP9500, with a Gaussian beam of waist 0.9 mm or less anywhere on the device, there is
a pixel where the beam is 0, and every target whose computed transform is not exactly 0 there gives a dark DMD and `eta = 0`. -/
theorem C172_refuted (H : Ranged (1 / 2 ^ 24) (1 / 2 ^ 126) v (2 ^ 127) (2 ^ 128) 87 104 F) {x0 y0 a w lam foc : ℝ} (hw : 1e-9 ≤ w) (hw' : w ≤ 0.9e-3)
    (ha : F.rnd a = .fin a) (haΩ : |a| < 2 ^ 127) (K : CalcPrecise t v' G) (hv' : v' ≤ 1 / 16) (hasin : G.asin 0 = 0) {d : DMD}
    (hdev : d.slm = Model.DLP9500.slm lam foc) {X Y : ℕ → ℕ → ℝ} (hX : ∀ i j, |X i j - d.slm.fourierGrid.1.get i j| ≤ 1e-5) :
    ∃ U : ℕ → ℕ → ℝ, (∀ i j, hgFuncX F x0 y0 a w [1] [1] (X i j) (Y i j) = .fin (U i j)) ∧
      ∃ i₀ < d.slm.Ny, ∃ j₀ < d.slm.Nx, U i₀ j₀ = 0 ∧
        ∀ (T : ℕ → ℕ → ℂ) (W : Option (ℕ → ℕ → ℂ)), targetFpR G d.slm.Ny d.slm.Nx T W i₀ j₀ ≠ 0 →
          (∀ c : ℝ, (XR.fin c).div (oneOverEtaR G d.slm (fun i j => (U i j : ℂ)) T W) = .fin 0) ∧
          ∀ i j, d.calcSimpleR G (fun i j => (U i j : ℂ)) T W i j = false ∧
            ∀ r x, 0 ≤ x → d.calcRandomR G r (fun i j => (U i j : ℂ)) T W x i j = false := by
  have hw0 : 0 < w := by norm_num at hw; linarith
  choose U hU using fun i j => C172_finite H (x0 := x0) (y0 := y0) hw0.ne' ha haΩ (X i j) (Y i j)
  have eN : d.slm.Nx = 1920 := by rw [hdev]; rfl
  have eM : d.slm.Ny = 1080 := by rw [hdev]; rfl
  have eps : d.slm.ps = 10.8 * 1e-6 := by rw [hdev]; rfl
  have ex : ∀ i j, d.slm.fourierGrid.1.get i j = (j - 960) * (10.8 * 1e-6) := by
    intro i j
    simp only [SLM.fourierGrid, fourierX_eq, eN, eps]
    push_cast
    ring
  have hsw : (1 : ℝ) / 2 ^ 126 ≤ |w| / 100 := by
    rw [abs_of_pos hw0]
    refine le_trans ?_ (div_le_div_of_nonneg_right hw (by norm_num))
    norm_num
  refine ⟨U, hU, 0, by omega, if 0 ≤ x0 then 0 else 1919, by split <;> omega, ?_⟩
  have hfar : 11 * |w| ≤ |X 0 (if 0 ≤ x0 then 0 else 1919) - x0| := by
    rw [abs_of_pos hw0]
    have h1 := abs_le.mp (hX 0 (if 0 ≤ x0 then 0 else 1919))
    rw [ex] at h1
    split at h1
    · rename_i h
      rw [if_pos h]
      refine le_trans ?_ (neg_le_abs _)
      norm_num at h1 hw'
      linarith
    · rename_i h
      rw [if_neg h]
      refine le_trans ?_ (le_abs_self _)
      norm_num at h1 hw'
      linarith
  refine ⟨?_, fun T W hT => (C172_dark H (by norm_num) (by norm_num) (by norm_num) (by norm_num) (by norm_num) hw0.ne' hsw ha K hv' hasin
    (fun i _ j _ => hU i j) (by omega) (by split <;> omega) (.inl hfar) hT).2⟩
  have h1 := C172_zero H (by norm_num) (by norm_num) (by norm_num) (by norm_num) (by norm_num) hw0.ne' hsw ha (y0 := y0)
    (y := Y 0 (if 0 ≤ x0 then 0 else 1919)) (.inl hfar)
  rw [hU] at h1
  injection h1

/-- A beam of waist 1 mm on a device with a width of some millimetres -/
example (t : ℕ) (ht : 4 ≤ t) (d : DMD) (hNx : 0 < d.slm.Nx) (hNy : 0 < d.slm.Ny) (X Y : ℕ → ℕ → ℝ) (hX : ∀ i j, |X i j| ≤ 6 / 1000)
    (hY : ∀ i j, |Y i j| ≤ 6 / 1000) :
    ∃ U : ℕ → ℕ → ℝ, ∀ (T : ℕ → ℕ → ℂ) (W : Option (ℕ → ℕ → ℂ)),
      (∃ i < d.slm.Ny, ∃ j < d.slm.Nx, targetFpR (leaky t 0) d.slm.Ny d.slm.Nx T W i j ≠ 0) →
        ∃ i < d.slm.Ny, ∃ j < d.slm.Nx, ampScaledR (leaky t 0) d.slm (fun i j => (U i j : ℂ)) T W i j = .fin 1 := by
  obtain ⟨U, -, h⟩ := C172_partial (clip_ranged le_rfl) (by norm_num) (by norm_num) (by norm_num) (by norm_num) (by norm_num) (by norm_num) (by norm_num)
    (w := 1 / 1000) (x0 := 0) (y0 := 0) (a := 1) (by norm_num) (by norm_num [abs_of_pos]) (by norm_num [abs_of_pos])
    (clip_rnd (by norm_num)) one_ne_zero (by norm_num) (by rw [abs_one, one_mul]; refine le_trans ?_ exp_80; norm_num)
    (leaky_precise (by omega) (v := 0) le_rfl 0) ht (by norm_num) hNx hNy (X := X) (Y := Y) (by
      intro i _ j _
      have h1 := sq_le_sq' (abs_le.mp (hX i j)).1 (abs_le.mp (hX i j)).2
      have h2 := sq_le_sq' (abs_le.mp (hY i j)).1 (abs_le.mp (hY i j)).2
      rw [sub_zero, sub_zero, div_le_iff₀ (by norm_num)]
      norm_num at h1 h2 ⊢
      linarith)
  exact ⟨U, fun T W hT => (h T W hT).2⟩

/-- A beam of waist 0.5 mm in the middle of a DLP9500 -/
example (t : ℕ) (ht : 1 ≤ t) (lam foc p theta : ℝ) (neg : Bool) :
    let d : DMD := ⟨Model.DLP9500.slm lam foc, p, theta, neg⟩
    ∃ U : ℕ → ℕ → ℝ, ∃ i₀ < 1080, ∃ j₀ < 1920, U i₀ j₀ = 0 ∧ ∀ T W, targetFpR (leaky t 0) 1080 1920 T W i₀ j₀ ≠ 0 →
      ∀ i j, d.calcSimpleR (leaky t 0) (fun i j => (U i j : ℂ)) T W i j = false := by
  intro d
  obtain ⟨U, -, i₀, h1, j₀, h2, h3, h4⟩ := C172_refuted (clip_ranged (v := 0) le_rfl) (x0 := 0) (y0 := 0) (a := 1) (w := 0.5e-3) (by norm_num) (by norm_num)
    (clip_rnd (by norm_num)) (by norm_num) (leaky_precise ht (v := 0) le_rfl 0) (by norm_num) Real.arcsin_zero (d := d) rfl
    (X := d.slm.fourierGrid.1.get) (Y := d.slm.fourierGrid.2.get) (by intro i j; rw [sub_self, abs_zero]; norm_num)
  exact ⟨U, i₀, h1, j₀, h2, h3, fun T W h i j => ((h4 T W h).2 i j).1⟩

end PySLM2.DMD
