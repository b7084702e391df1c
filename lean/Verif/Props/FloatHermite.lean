import Verif.Model.FloatHermite
import Verif.Props.FloatSuper

/-!
# C192: Hermite-Gaussian beams of high order and the range of floating point numbers
-/

noncomputable section

open Complex

namespace PySLM2.Profile

open Spec

variable {u s v Ω₁ Ω₂ E₁ E₂ : ℝ} {F : RangeArith}

/-! ## The coefficients -/

/-- The coefficients of the polynomials `n` and `n + 1`, lowest power first -/
def hermiteTable : ℕ → List ℤ × List ℤ
  | 0 => ([1], [0, 2])
  | n + 1 =>
    let t := hermiteTable n
    (t.2, (List.range (n + 3)).map fun k => 2 * (if k = 0 then 0 else t.2.getD (k - 1) 0) - 2 * ((n : ℤ) + 1) * t.1.getD k 0)

theorem hermiteTable_spec : ∀ n k, (physHermite n).coeff k = (hermiteTable n).1.getD k 0 ∧ (physHermite (n + 1)).coeff k = (hermiteTable n).2.getD k 0
  | 0, k => by
    constructor
    · rw [physHermite, Polynomial.coeff_one]
      rcases k with _ | k <;> simp [hermiteTable]
    · rw [physHermite, show (2 : Polynomial ℤ) = Polynomial.C 2 from rfl, Polynomial.coeff_C_mul, Polynomial.coeff_X]
      rcases k with _ | _ | k <;> simp [hermiteTable]
  | n + 1, k => by
    have ih := hermiteTable_spec n
    refine ⟨(ih k).2, ?_⟩
    have e : (2 : Polynomial ℤ) * ((n : Polynomial ℤ) + 1) = Polynomial.C (2 * ((n : ℤ) + 1)) := by
      simp
    have e2 : (2 : Polynomial ℤ) * Polynomial.X * physHermite (n + 1) = Polynomial.C 2 * (Polynomial.X * physHermite (n + 1)) := by
      rw [show (2 : Polynomial ℤ) = Polynomial.C 2 from rfl]; ring
    rw [physHermite, Polynomial.coeff_sub, e, e2, Polynomial.coeff_C_mul, Polynomial.coeff_C_mul]
    have key : (Polynomial.X * physHermite (n + 1)).coeff k = if k = 0 then 0 else (hermiteTable n).2.getD (k - 1) 0 := by
      rcases k with _ | k
      · simp
      · rw [Polynomial.coeff_X_mul, (ih k).2]; simp
    rw [key, (ih k).1]
    by_cases hk : k < n + 3
    · simp [hermiteTable, hk]
    · have h1 : (physHermite (n + 1)).coeff (k - 1) = 0 :=
        Polynomial.coeff_eq_zero_of_natDegree_lt (lt_of_le_of_lt (physHermite_natDegree (n + 1)) (by omega))
      have h2 : (physHermite n).coeff k = 0 := Polynomial.coeff_eq_zero_of_natDegree_lt (lt_of_le_of_lt (physHermite_natDegree n) (by omega))
      rw [(ih _).2] at h1
      rw [(ih _).1] at h2
      rw [h1, h2]
      simp [hermiteTable, hk]

/-- The coefficients of the polynomial of order 28 after the first one -/
def hermite28 : List ℤ :=
  [0, -50734301184, 0, 4122161971200, 0,
    -189619450675200, 0, 5475261638246400, 0, -104029971126681600, 0,
    1326382131865190400, 0, -11368989701701632000, 0, 64661128928428032000, 0,
    -237090806070902784000, 0, 533454313659531264000, 0, -678941853748494336000, 0,
    424338658592808960000, 0, -97924305829109760000, 0, 3497296636753920000]

theorem hermiteCoef_28 : hermiteCoef 28 = (268435456 :: hermite28).map (Int.cast : ℤ → ℝ) := by
  have h : (List.range 29).reverse.map (fun k => (hermiteTable 28).1.getD k 0) = 268435456 :: hermite28 := by rfl
  rw [← h, hermiteCoef, List.map_map]
  exact List.map_congr_left fun k _ => by rw [(hermiteTable_spec 28 k).1]; rfl

/-! ## Horner's rule far from the centre -/

theorem mul_atLeast (H : Ranged u s v Ω₁ Ω₂ E₁ E₂ F) (hu0 : 0 ≤ u) (hu : u ≤ 1) {p q : XR} {c c' : ℝ} (hc : 0 < c) (hc' : 0 < c') (hp : AtLeast c p)
    (hq : AtLeast c' q) : AtLeast ((1 - u) * (c * c') - s) (F.mul p q) := by
  rcases hp with h | ⟨y, h, hy⟩ <;> rcases hq with h' | ⟨y', h', hy'⟩ <;> rw [h, h']
  · exact .inl rfl
  · refine .inl ?_
    show (if y' = 0 then XR.nan else if 0 < y' then XR.pinf else XR.ninf) = _
    rw [if_neg (by intro h0; linarith), if_pos (by linarith)]
  · refine .inl ?_
    show (if y = 0 then XR.nan else if 0 < y then XR.pinf else XR.ninf) = _
    rw [if_neg (by intro h0; linarith), if_pos (by linarith)]
  · exact rnd_atLeast H hu0 hu (by positivity) (mul_le_mul hy hy' hc'.le (by linarith))

theorem coef_add_atLeast (H : Ranged u s v Ω₁ Ω₂ E₁ E₂ F) (hu0 : 0 ≤ u) (hu : u ≤ 1) {q : XR} {l b c : ℝ} (hl : l ≤ c) (h0 : 0 ≤ b + l) (hq : AtLeast b q) :
    AtLeast ((1 - u) * (b + l) - s) (F.add (.fin c) q) := by
  rcases hq with h | ⟨y, h, hy⟩ <;> rw [h]
  · exact .inl rfl
  · exact rnd_atLeast H hu0 hu h0 (by linarith)

/-- Rounded numbers are not far above the range. -/
theorem rnd_capped (H : Ranged u s v Ω₁ Ω₂ E₁ E₂ F) (hu0 : 0 ≤ u) {x y : ℝ} (h : F.rnd x = .fin y) : y ≤ (1 + u) * Ω₂ + s := by
  have h1 : x < Ω₂ := by
    by_contra hc
    rw [H.infinite x (not_lt.mp hc)] at h
    cases h
  have h2 : -Ω₂ < x := by
    by_contra hc
    rw [H.infinite_neg x (not_lt.mp hc)] at h
    cases h
  have h3 := (abs_le.mp (H.near _ _ h)).2
  have h4 : |x| ≤ Ω₂ := abs_le.mpr ⟨h2.le, h1.le⟩
  nlinarith

/-- Lower bounds `bs` of the partial sums of Horner's rule for the coefficients `es` from 15.4 on; the last is beyond the range. -/
def Steps : List ℤ → List ℝ → ℝ → Prop
  | [], [], b => 2 ^ 129 ≤ b
  | e :: es, b' :: bs, b => 0 < b' ∧ b' ≤ 0.999 * (0.999 * (b * 15.4) - 0.001 + (e - |(e : ℝ)| / 1000)) - 0.001 ∧ Steps es bs b'
  | _, _, _ => False

theorem steps_infinite (H : Ranged u s v Ω₁ Ω₂ E₁ E₂ F) (hu0 : 0 ≤ u) (hu : u ≤ 1 / 1000) (hs : s ≤ 1 / 1000) (hs0 : 0 ≤ s) (hΩ : Ω₂ ≤ 2 ^ 128) {X : XR}
    (hX : AtLeast 15.4 X) : ∀ (es : List ℤ) (bs cs : List ℝ) (b : ℝ) (q : XR), Steps es bs b →
      List.Forall₂ (fun (c : ℝ) (e : ℤ) => |c - e| ≤ |(e : ℝ)| / 1000) cs es → 0 < b → AtLeast b q → (∀ y, q = .fin y → y < 2 ^ 129) →
      cs.foldl (fun p c => F.add (.fin c) (F.mul p X)) q = .pinf
  | [], [], _, b, q, hb, hc, _, hq, hcap => by
    cases hc
    rcases hq with h | ⟨y, h, hy⟩
    · exact h
    · exact absurd (hcap y h) (not_lt.mpr (hb.trans hy))
  | e :: es, b' :: bs, _, b, q, hb, hc, hb0, hq, hcap => by
    obtain ⟨h1, h2, h3⟩ := hb
    cases hc with
    | cons hce hc =>
    rename_i c cs
    rw [List.foldl_cons]
    have m1 := mul_atLeast H hu0 (by linarith) hb0 (by norm_num) hq hX
    have hbX : 0 < b * 15.4 := by positivity
    have m2 : AtLeast (0.999 * (b * 15.4) - 0.001) (F.mul q X) := atLeast_of_le (by norm_num at hbX ⊢; nlinarith) m1
    have hl : e - |(e : ℝ)| / 1000 ≤ c := by linarith [(abs_le.mp hce).1]
    have h0 : 0 ≤ 0.999 * (b * 15.4) - 0.001 + (e - |(e : ℝ)| / 1000) := by norm_num at h2 ⊢; linarith
    have m3 := coef_add_atLeast H hu0 (by linarith) hl h0 m2
    refine steps_infinite H hu0 hu hs hs0 hΩ hX es bs cs b' _ h3 hc h1 (atLeast_of_le ?_ m3) fun y hy => ?_
    · refine h2.trans ?_
      generalize 0.999 * (b * 15.4) - 0.001 + (e - |(e : ℝ)| / 1000) = t at h0
      norm_num
      nlinarith
    · rcases m2 with hm | ⟨z, hm, -⟩
      · rw [hm] at hy
        cases hy
      · rw [hm] at hy
        refine lt_of_le_of_lt (rnd_capped H hu0 hy) ?_
        have : (1 + u) * Ω₂ ≤ (1 + 1 / 1000) * 2 ^ 128 := by
          rcases le_total 0 Ω₂ with h | h
          · exact mul_le_mul (by linarith) hΩ h (by norm_num)
          · nlinarith
        refine lt_of_le_of_lt (add_le_add this hs) ?_
        norm_num

theorem hermite28_steps : Steps hermite28 [4121510000, 12610100000, 193807000000, 7092580000000,
    109007000000000, 1485730000000000, 22834500000000000, 356412000000000000,
    5477770000000000000, 84084900000000000000, 1292310000000000000000, 19863100000000000000000,
    305280000000000000000000, 4691900000000000000000000, 72110800000000000000000000, 1108280000000000000000000000,
    17033300000000000000000000000, 261788000000000000000000000000, 4023470000000000000000000000000, 61837500000000000000000000000000,
    950393000000000000000000000000000, 14606700000000000000000000000000000, 224493000000000000000000000000000000, 3450280000000000000000000000000000000,
    53028000000000000000000000000000000000, 814998000000000000000000000000000000000, 12525800000000000000000000000000000000000,
    192511000000000000000000000000000000000000] 268167020 := by
  unfold hermite28
  iterate 28 refine ⟨by norm_num, by norm_num, ?_⟩
  show (2 : ℝ) ^ 129 ≤ _
  norm_num

/-- The argument of the polynomial, 11 waists or more to the right of the centre -/
theorem hermite_argument (H : Ranged u s v Ω₁ Ω₂ E₁ E₂ F) (hu0 : 0 ≤ u) (hu : u ≤ 1 / 1000) (hs : s ≤ 1 / 1000) (hΩ : 1000 ≤ Ω₁) {d w : ℝ}
    (hw : 0 < w) (hsw : s ≤ w / 1000) (hd : 11 * w ≤ d) :
    AtLeast 15.4 (F.mul (F.rnd (F.py (Real.sqrt 2))) (F.div (F.rnd d) (.fin w))) := by
  obtain ⟨z, hz, hz1, -⟩ := root_two_near H hu0 hu hs hΩ
  have h3 : AtLeast (10.988 * w) (F.rnd d) := atLeast_of_le (by norm_num; nlinarith) (rnd_atLeast H hu0 (by linarith) (by positivity) hd)
  have h4 : AtLeast 10.96 (F.div (F.rnd d) (.fin w)) := by
    rcases h3 with h | ⟨y, h, hy⟩ <;> rw [h]
    · refine .inl ?_
      show (if 0 ≤ w then XR.pinf else XR.ninf) = _
      rw [if_pos hw.le]
    · show AtLeast _ (if w = 0 then XR.divFin y w else F.rnd (y / w))
      rw [if_neg hw.ne']
      refine atLeast_of_le ?_ (rnd_atLeast H hu0 (by linarith) (c := 10.988) (by norm_num) ((le_div_iff₀ hw).mpr hy))
      norm_num
      linarith
  rw [hz]
  refine atLeast_of_le ?_ (mul_atLeast H hu0 (by linarith) (c := 1.41) (c' := 10.96) (by norm_num) (by norm_num) (.inr ⟨z, rfl, hz1⟩) h4)
  norm_num
  linarith

theorem mul_infinite (q : XR) : (F.mul .pinf q = .pinf ∨ F.mul .pinf q = .ninf ∨ F.mul .pinf q = .nan) ∧
    (F.mul .ninf q = .pinf ∨ F.mul .ninf q = .ninf ∨ F.mul .ninf q = .nan) := by
  cases q with
  | fin x =>
    constructor
    · show (if x = 0 then XR.nan else if 0 < x then XR.pinf else XR.ninf) = _ ∨ (if x = 0 then XR.nan else if 0 < x then XR.pinf else XR.ninf) = _ ∨
        (if x = 0 then XR.nan else if 0 < x then XR.pinf else XR.ninf) = _
      split_ifs <;> simp
    · show (if x = 0 then XR.nan else if 0 < x then XR.ninf else XR.pinf) = _ ∨ (if x = 0 then XR.nan else if 0 < x then XR.ninf else XR.pinf) = _ ∨
        (if x = 0 then XR.nan else if 0 < x then XR.ninf else XR.pinf) = _
      split_ifs <;> simp
  | pinf => exact ⟨.inl rfl, .inr (.inl rfl)⟩
  | ninf => exact ⟨.inr (.inl rfl), .inl rfl⟩
  | nan => exact ⟨.inr (.inr rfl), .inr (.inr rfl)⟩

/-- **C192 (refuted)**: a Hermite-Gaussian profile with `n = 28` and any `m`, in an arithmetic with the range of `float32` and coefficients that are right to
one part in 1000, is NaN at every point that is 11 waists or more to the right of its centre. -/
theorem C192_refuted (H : Ranged u s v Ω₁ Ω₂ E₁ E₂ F) (hu0 : 0 ≤ u) (hu : u ≤ 1 / 1000) (hs0 : 0 ≤ s) (hs : s ≤ 1 / 1000) (hΩ : 1000 ≤ Ω₁) (hΩ₂ : Ω₂ ≤ 2 ^ 128)
    (hE : E₂ ≤ 110) {x0 y0 a w x : ℝ} (ha : a ≠ 0) (hw : 0 < w) (hsw : s ≤ w / 1000) {cn : List ℝ}
    (hcn : List.Forall₂ (fun c e => |c - e| ≤ |e| / 1000) cn (hermiteCoef 28)) (cm : List ℝ) (hx : 11 * w ≤ x - x0) (y : ℝ) :
    hgFuncX F x0 y0 a w cn cm x y = .nan := by
  rw [hermiteCoef_28, List.forall₂_map_right_iff] at hcn
  cases hcn with
  | cons hc hcs =>
  rename_i c cs
  have hA := hermite_argument H hu0 hu hs hΩ hw hsw hx
  have hc' := abs_le.mp hc
  norm_num at hc'
  have hn : F.polyvalX (c :: cs) (F.mul (F.rnd (F.py (Real.sqrt 2))) (F.div (F.rnd (x - x0)) (.fin w))) = .pinf :=
    steps_infinite H hu0 hu hs hs0 hΩ₂ hA _ _ cs _ (.fin c) hermite28_steps hcs (by norm_num) (.inr ⟨c, rfl, by linarith⟩) fun y hy => by
      injection hy with hy
      rw [← hy]
      norm_num
      linarith
  have hexp := gauss_factor_zero H hu0 (by linarith) hs0 (by linarith) hE hw.ne' (by rw [abs_of_pos hw]; linarith) (d := x - x0) (d' := y - y0)
    (.inl (by rw [abs_of_pos hw]; exact hx.trans (le_abs_self _)))
  simp only at hexp
  simp only [hgFuncX]
  rw [hn, hexp]
  have z1 : F.mul .pinf (.fin 0) = .nan := if_pos rfl
  have z2 : F.mul .ninf (.fin 0) = .nan := if_pos rfl
  have fin : ∀ q : XR, (q = .pinf ∨ q = .ninf ∨ q = .nan) → F.mul q (.fin 0) = .nan := by
    rintro q (h | h | h) <;> rw [h]
    · exact z1
    · exact z2
    · rfl
  apply fin
  have e : F.mul (.fin a) .pinf = if a = 0 then XR.nan else if 0 < a then XR.pinf else XR.ninf := rfl
  rw [e, if_neg ha]
  split
  · exact (mul_infinite _).1
  · exact (mul_infinite _).2

/-- The argument of the polynomials is finite and not much larger than the distance in units of the waist. -/
theorem hermite_argument_le (H : Ranged u s v Ω₁ Ω₂ E₁ E₂ F) (hu0 : 0 ≤ u) (hu : u ≤ 1 / 1000) (hs0 : 0 ≤ s) (hs : s ≤ 1 / 1000) (hΩ : 1000 ≤ Ω₁)
    {d w R : ℝ} (hw : 0 < w) (hsw : s ≤ w / 1000) (hwR : w ≤ R) (hRΩ : 2 * R < Ω₁) (hRw : 3 * (R / w) < Ω₁) (hd : |d| ≤ R) :
    ∃ t, F.mul (F.rnd (F.py (Real.sqrt 2))) (F.div (F.rnd d) (.fin w)) = .fin t ∧ |t| ≤ 1.5 / 1.003 * (R / w) := by
  obtain ⟨z, hz, hz1, hz2⟩ := root_two_near H hu0 hu hs hΩ
  have hR0 : 0 < R := lt_of_lt_of_le hw hwR
  have hR1 : 1 ≤ R / w := by rwa [le_div_iff₀ hw, one_mul]
  obtain ⟨y, hy, hyb⟩ := rnd_le H hu0 hd (by linarith)
  have hy1 : |y| ≤ 1.002 * R := by norm_num; nlinarith
  have hyw : |y / w| ≤ 1.002 * (R / w) := by
    rw [abs_div, abs_of_pos hw, ← mul_div_assoc]
    exact div_le_div_of_nonneg_right hy1 hw.le
  obtain ⟨q, hq, hqb⟩ := rnd_le H hu0 hyw (by norm_num at hR1 ⊢; linarith)
  generalize R / w = r at *
  have hq1 : |q| ≤ 1.005 * r := by norm_num at hqb ⊢; nlinarith
  have hzq : |z * q| ≤ 1.4272 * r := by
    rw [abs_mul, abs_of_pos (by norm_num at hz1; linarith)]
    refine (mul_le_mul hz2 hq1 (abs_nonneg q) (by norm_num)).trans ?_
    norm_num
    linarith
  obtain ⟨t, ht, htb⟩ := rnd_le H hu0 hzq (by norm_num; linarith)
  refine ⟨t, ?_, by norm_num at htb ⊢; nlinarith⟩
  rw [hz, hy]
  show F.mul (.fin z) (if w = 0 then XR.divFin y w else F.rnd (y / w)) = _
  rw [if_neg hw.ne', hq]
  exact ht

/-- **C192 (partial)**: a Hermite-Gaussian profile is a finite number at every point within `R` of its centre in x and in y as long as
`4 max(|a|, 1)` times the two polynomials at `1.5 R / w`, with their coefficients made positive and at least 1, stays in the range.
What is missing: larger orders or distances, for which it is false. -/
theorem C192_partial (H : Ranged u s v Ω₁ Ω₂ E₁ E₂ F) (hu0 : 0 ≤ u) (hu : u ≤ 1 / 1000) (hs0 : 0 ≤ s) (hs : s ≤ 1 / 1000) (hΩ : 1000 ≤ Ω₁)
    {x0 y0 a w R : ℝ} (hw : 0 < w) (hsw : s ≤ w / 1000) (hwR : w ≤ R) (hRΩ : 2 * R < Ω₁) (hRw : 3 * (R / w) < Ω₁) {cn cm : List ℝ} (hcn : cn ≠ [])
    (hcm : cm ≠ []) (hl : 4 * (max |a| 1 * largestPoly cn (1.5 * (R / w)) * largestPoly cm (1.5 * (R / w))) < Ω₁) {x y : ℝ} (hx : |x - x0| ≤ R)
    (hy : |y - y0| ≤ R) : ∃ z, hgFuncX F x0 y0 a w cn cm x y = .fin z := by
  have hR1 : 1 ≤ R / w := by rwa [le_div_iff₀ hw, one_mul]
  obtain ⟨t, ht, htb⟩ := hermite_argument_le H hu0 hu hs0 hs hΩ hw hsw hwR hRΩ hRw hx
  obtain ⟨t', ht', htb'⟩ := hermite_argument_le H hu0 hu hs0 hs hΩ hw hsw hwR hRΩ hRw hy
  have hXe : 1.003 * (1.5 / 1.003 * (R / w)) = 1.5 * (R / w) := by ring
  have hX1 : 1 ≤ 1.5 / 1.003 * (R / w) := by norm_num; linarith
  have hP : 1 ≤ largestPoly cn (1.5 * (R / w)) := largestPoly_ge hcn (by positivity)
  have hQ : 1 ≤ largestPoly cm (1.5 * (R / w)) := largestPoly_ge hcm (by positivity)
  have hn := polyval_le H hu0 hu hs htb hX1 cn
  have hm := polyval_le H hu0 hu hs htb' hX1 cm
  rw [hXe] at hn hm
  generalize largestPoly cn (1.5 * (R / w)) = P at *
  generalize largestPoly cm (1.5 * (R / w)) = Q at *
  have hA1 : 1 ≤ max |a| 1 := le_max_right _ _
  have hAa : |a| ≤ max |a| 1 := le_max_left _ _
  generalize max |a| 1 = A at *
  have hAP : P ≤ A * P := le_mul_of_one_le_left (by linarith) hA1
  have hAPQ : A * P ≤ A * P * Q := le_mul_of_one_le_right (by linarith) hQ
  have hQQ : Q ≤ A * P * Q := le_mul_of_one_le_left (by linarith) (by linarith)
  obtain ⟨k, hk, hkb⟩ := hn (by linarith)
  obtain ⟨k', hk', hkb'⟩ := hm (by linarith)
  obtain ⟨e, he, he0, he1⟩ := exp_unit H (add_nonneg_at H (sq_nonneg_at H (d := x - x0) hw.ne') (sq_nonneg_at H (d := y - y0) hw.ne'))
  have b1 : |a * k| ≤ 1.01 * (A * P) := by
    rw [abs_mul]
    refine (mul_le_mul hAa hkb (abs_nonneg k) (by linarith)).trans (le_of_eq (by ring))
  obtain ⟨c, hc, hcb⟩ := rnd_le H hu0 b1 (by norm_num; linarith)
  have hc1 : |c| ≤ 1.02 * (A * P) := by norm_num at hcb ⊢; nlinarith
  have b2 : |c * k'| ≤ 1.04 * (A * P * Q) := by
    rw [abs_mul]
    refine (mul_le_mul hc1 hkb' (abs_nonneg k') (by linarith)).trans ?_
    rw [show (1.02 : ℝ) * (A * P) * (1.01 * Q) = 1.0302 * (A * P * Q) by ring]
    norm_num
    linarith
  obtain ⟨f, hf, hfb⟩ := rnd_le H hu0 b2 (by norm_num; linarith)
  have hf1 : |f| ≤ 1.1 * (A * P * Q) := by norm_num at hfb ⊢; nlinarith
  have b3 : |f * e| < Ω₁ := by
    rw [abs_mul, abs_of_nonneg he0]
    have : |f| * e ≤ |f| := mul_le_of_le_one_right (abs_nonneg f) he1
    norm_num at hf1
    linarith
  obtain ⟨z, hz⟩ := H.finite _ b3
  refine ⟨z, ?_⟩
  simp only [hgFuncX]
  rw [he, ht, ht', hk, hk']
  simp only [RangeArith.mul, hc, hf, hz]

/-- In `float32` arithmetic: a mode with `n = 28` and a waist of 0.1 mm, 1.2 mm from its centre -/
example : hgFuncX clip 0 0 1 (1 / 10000) (hermiteCoef 28) (hermiteCoef 3) (12 / 10000) 0 = .nan :=
  C192_refuted (clip_ranged le_rfl) (by norm_num) (by norm_num) (by norm_num) (by norm_num) (by norm_num) (by norm_num) (by norm_num) one_ne_zero (by norm_num)
    (by norm_num) (List.forall₂_same.mpr fun c _ => by rw [sub_self, abs_zero]; positivity) _ (by norm_num) 0

/-- A mode with `n = 2`, `m = 1` and a waist of 0.1 mm is finite within 10 mm of its centre. -/
example (x y : ℝ) (hx : |x| ≤ 1 / 100) (hy : |y| ≤ 1 / 100) : ∃ z, hgFuncX clip 0 0 1 (1 / 10000) [4, 0, -2] [2, 0] x y = .fin z :=
  C192_partial (clip_ranged le_rfl) (by norm_num) (by norm_num) (by norm_num) (by norm_num) (by norm_num) (R := 1 / 100) (by norm_num) (by norm_num)
    (by norm_num) (by norm_num) (by norm_num) (by simp) (by simp) (by norm_num [largestPoly]) (by rwa [sub_zero]) (by rwa [sub_zero])

end PySLM2.Profile

namespace PySLM2.DMD

open Spec Profile

/-- **C192 (refuted)** for a DMD: if one pixel of the image plane is 11 waists or more to the right of the centre of such a target, no mirror is turned on
(method `ideal`: every entry is NaN), whatever the input and the window, and the efficiency that is returned is NaN. -/
theorem C192_target {u s v Ω₁ Ω₂ E₁ E₂ : ℝ} {F : RangeArith} (H : Ranged u s v Ω₁ Ω₂ E₁ E₂ F) (hu0 : 0 ≤ u) (hu : u ≤ 1 / 1000) (hs0 : 0 ≤ s)
    (hs : s ≤ 1 / 1000) (hΩ : 1000 ≤ Ω₁) (hΩ₂ : Ω₂ ≤ 2 ^ 128) (hE : E₂ ≤ 110) (d : DMD) {x0 y0 a w : ℝ} (ha : a ≠ 0) (hw : 0 < w) (hsw : s ≤ w / 1000)
    {cn : List ℝ} (hcn : List.Forall₂ (fun c e => |c - e| ≤ |e| / 1000) cn (hermiteCoef 28)) (cm : List ℝ) {X Y : ℕ → ℕ → ℝ} {i₀ j₀ : ℕ}
    (hi : i₀ < d.slm.Ny) (hj : j₀ < d.slm.Nx) (hX : 11 * w ≤ X i₀ j₀ - x0) (inp : ℕ → ℕ → Option ℂ) (window : Option (ℕ → ℕ → Option ℂ))
    (red : (ℕ → ℕ → XR) → XR) :
    (∀ (r : ℝ) (draw : ℕ → ℕ → ℝ) (i j : ℕ), calcSimpleN red d inp (hermiteN F x0 y0 a w cn cm X Y) window i j = false ∧
      calcRandomN red d r draw inp (hermiteN F x0 y0 a w cn cm X Y) window i j = false ∧
      calcIdealN red d inp (hermiteN F x0 y0 a w cn cm X Y) window i j = .nan) ∧
    (Maximum d.slm.Ny d.slm.Nx red → Propagates d.slm.Ny d.slm.Nx red → d.slm.wavelength * d.slm.focal ≠ 0 →
      calcEtaN red d inp (hermiteN F x0 y0 a w cn cm X Y) window = .ok .nan) := by
  have hnan : HasNan d.slm.Ny d.slm.Nx (hermiteN F x0 y0 a w cn cm X Y) :=
    ⟨i₀, hi, j₀, hj, by unfold hermiteN; rw [C192_refuted H hu0 hu hs0 hs hΩ hΩ₂ hE ha hw hsw hcn cm hX]; rfl⟩
  refine ⟨fun r draw i k => C174_target red d inp _ window hnan r draw i k, fun hm hp hsc => ?_⟩
  exact ((C174_eta hm hp (by omega) (by omega) hsc _ _ _).1).mpr (.inl hnan)

/-- **C192 (refuted)** for an LCOS SLM: such a target makes the hologram NaN at every pixel, for both methods. -/
theorem C192_hologram {u s v Ω₁ Ω₂ E₁ E₂ : ℝ} {F : RangeArith} (H : Ranged u s v Ω₁ Ω₂ E₁ E₂ F) (hu0 : 0 ≤ u) (hu : u ≤ 1 / 1000) (hs0 : 0 ≤ s)
    (hs : s ≤ 1 / 1000) (hΩ : 1000 ≤ Ω₁) (hΩ₂ : Ω₂ ≤ 2 ^ 128) (hE : E₂ ≤ 110) (slm : SLM) {x0 y0 a w : ℝ} (ha : a ≠ 0) (hw : 0 < w) (hsw : s ≤ w / 1000)
    {cn : List ℝ} (hcn : List.Forall₂ (fun c e => |c - e| ≤ |e| / 1000) cn (hermiteCoef 28)) (cm : List ℝ) {X Y : ℕ → ℕ → ℝ} {i₀ j₀ : ℕ}
    (hi : i₀ < slm.Ny) (hj : j₀ < slm.Nx) (hX : 11 * w ≤ X i₀ j₀ - x0) (inp window : ℕ → ℕ → Option ℂ) (m : ℝ) (draw : ℕ → ℕ → ℝ) {steps : ℕ}
    (hst : steps ≠ 0) (i j : ℕ) :
    LCOS.gsN slm inp (hermiteRealN F x0 y0 a w cn cm X Y) draw steps i j = none ∧
    LCOS.mrafN slm inp (hermiteRealN F x0 y0 a w cn cm X Y) window m draw steps i j = none := by
  have hn : HasNan slm.Ny slm.Nx (hermiteRealN F x0 y0 a w cn cm X Y) :=
    ⟨i₀, hi, j₀, hj, by unfold hermiteRealN hermiteN; rw [C192_refuted H hu0 hu hs0 hs hΩ hΩ₂ hE ha hw hsw hcn cm hX]; rfl⟩
  exact ⟨(LCOS.C175_gs slm inp _ draw hst).1 (.inr hn) i j, (LCOS.C175_mraf slm inp _ window m draw hst).1 (.inr (.inl hn)) i j⟩

/-- A `DLP9500` whose image plane has a pixel at x = 1.2 mm -/
example (p theta : ℝ) (neg : Bool) (X Y : ℕ → ℕ → ℝ) (hX : X 0 1919 = 12 / 10000) (i j : ℕ) :
    calcSimpleN (nanMax 1080 1920) ⟨Model.DLP9500.slm 370e-9 0.2, p, theta, neg⟩ (fun _ _ => some 1)
      (hermiteN clip 0 0 1 (1 / 10000) (hermiteCoef 28) (hermiteCoef 3) X Y) none i j = false :=
  ((C192_target (clip_ranged le_rfl) (by norm_num) (by norm_num) (by norm_num) (by norm_num) (by norm_num) (by norm_num) (by norm_num)
    ⟨Model.DLP9500.slm 370e-9 0.2, p, theta, neg⟩ one_ne_zero (by norm_num) (by norm_num)
    (List.forall₂_same.mpr fun c _ => by rw [sub_self, abs_zero]; positivity) _ (i₀ := 0) (j₀ := 1919) (by show 0 < 1080; norm_num)
    (by show 1919 < 1920; norm_num) (by rw [hX]; norm_num) _ none _).1 0 (fun _ _ => 0) i j).1

end PySLM2.DMD
