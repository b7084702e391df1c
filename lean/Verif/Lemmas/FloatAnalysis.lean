import Verif.Spec.FloatAnalysis
import Verif.Lemmas.Analysis
import Verif.Props.FloatProfile

/-! Helper lemmas about rounding in `analysis.py`. -/

noncomputable section

open Finset

namespace PySLM2

open Spec Profile

/-! ## Sums -/

theorem Within.const {c : ℝ} (hc : 0 ≤ c) (p : ℝ) : Within c |p| p p := Within.of_near (Near.refl hc p)

theorem Within.zero {c q : ℝ} (hc : 0 ≤ c) (hq : 0 ≤ q) : Within c q (0 : ℝ) 0 := by
  refine ⟨by simpa using hq, ?_⟩
  have := Real.add_one_le_exp c
  simpa using mul_nonneg (by linarith : (0 : ℝ) ≤ Real.exp c - 1) hq

theorem Within.mono' {c q q' : ℝ} (hc : 0 ≤ c) {p p' : ℝ} (h : Within c q p p') (hq : q ≤ q') : Within c q' p p' := by
  have := Real.add_one_le_exp c
  exact ⟨h.1.trans hq, h.2.trans (mul_le_mul_of_nonneg_left hq (by linarith))⟩

theorem Within.neg {c q : ℝ} {p p' : ℝ} (h : Within c q p p') : Within c q (-p) (-p') := by
  refine ⟨by rw [norm_neg]; exact h.1, ?_⟩
  rw [show -p' - -p = -(p' - p) by ring, norm_neg]
  exact h.2

/-- The computed sum of computed terms. -/
theorem SumTree.eval_within {u c q : ℝ} {rnd : ℝ → ℝ} (h : RelErr u rnd) {f f' : ℕ → ℕ → ℝ} (t : SumTree)
    (hf : ∀ p ∈ t.leaves, Within c q (f p.1 p.2) (f' p.1 p.2)) :
    Within (c + t.depth * u) (t.leaves.card * q) (t.leaves.map fun p => f p.1 p.2).sum (t.eval rnd f') := by
  have hu := h.nonneg
  induction t with
  | leaf i j => simpa [SumTree.leaves, SumTree.depth, SumTree.eval] using hf (i, j) (by simp [SumTree.leaves])
  | node a b iha ihb =>
    have ha := iha fun p hp => hf p (by simp [SumTree.leaves, hp])
    have hb := ihb fun p hp => hf p (by simp [SumTree.leaves, hp])
    have hda : (a.depth : ℝ) * u ≤ (max a.depth b.depth : ℕ) * u :=
      mul_le_mul_of_nonneg_right (by exact_mod_cast le_max_left _ _) hu
    have hdb : (b.depth : ℝ) * u ≤ (max a.depth b.depth : ℕ) * u :=
      mul_le_mul_of_nonneg_right (by exact_mod_cast le_max_right _ _) hu
    have hs := ((ha.mono (b := c + (max a.depth b.depth : ℕ) * u) (by linarith)).add
      (hb.mono (b := c + (max a.depth b.depth : ℕ) * u) (by linarith))).rnd h
    simp only [SumTree.leaves, SumTree.depth, SumTree.eval, Multiset.map_add, Multiset.sum_add, Multiset.card_add]
    convert hs using 1 <;> push_cast <;> ring

namespace Analysis

theorem horner_le_sum {C : List ℝ} (hC : ∀ c ∈ C, 0 ≤ c) {x : ℝ} (h0 : 0 ≤ x) (h1 : x ≤ 1) : horner C x ≤ C.sum := by
  induction C with
  | nil => simp [horner]
  | cons c cs ih =>
    have hc := hC c (by simp)
    have := ih fun d hd => hC d (by simp [hd])
    have hp : x ^ cs.length ≤ 1 := pow_le_one₀ h0 h1
    simp only [horner, List.sum_cons]
    nlinarith

theorem horner_abs_zero (c : List ℝ) : horner (c.map (|·|)) 0 = |horner c 0| := by
  induction c with
  | nil => simp [horner]
  | cons d ds ih =>
    simp only [List.map_cons, horner, ih, List.length_map]
    cases ds with
    | nil => simp [horner]
    | cons e es => simp

theorem length_zernikeCoef (n m : ℤ) : (zernikeCoef n m).length = (n + 1).toNat := by
  unfold zernikeCoef
  have : ∀ (l : List ℕ) (c : List ℝ), (l.foldl (fun (c : List ℝ) (k : ℕ) => c.set (n - 2 * (k : ℤ)).toNat (zernikeEntry n |m| k)) c).length
      = c.length := by
    intro l
    induction l with
    | nil => intro c; rfl
    | cons a l ih => intro c; rw [List.foldl_cons, ih, List.length_set]
  rw [this, List.length_replicate]

theorem sum_reverse_abs (c : List ℝ) : (c.reverse.map (|·|)).sum = (c.map (|·|)).sum := by
  rw [List.map_reverse, List.sum_reverse]

theorem radial_zero {n m : ℤ} (h : ZernikeIndex n m) (hm : m ≠ 0) : radial n.toNat m.natAbs 0 = 0 := by
  obtain ⟨p, hp⟩ := index_form h
  have ht : n.toNat = m.natAbs + 2 * p := by omega
  unfold radial
  refine Finset.sum_eq_zero fun k hk => ?_
  have hk' := Finset.mem_range.mp hk
  rw [zero_pow (by omega), mul_zero]

variable {u v g : ℝ} {M N D : ℕ} {R : ℝ} {A : AnalysisArith}

/-! ## The grid -/

theorem half_X (N j : ℕ) : pixelX N j = ((2 * j - (N - 1) : ℤ) : ℝ) / 2 := by unfold pixelX; push_cast; ring
theorem half_Y (M i : ℕ) : pixelY M i = (((M - 1) - 2 * i : ℤ) : ℝ) / 2 := by unfold pixelY; push_cast; ring

theorem gridXR_eq (H : AnalysisPrecise u v g M N R D A) {j : ℕ} (hj : j < N) : gridXR A N j = pixelX N j := by
  have e1 : A.grid (((N : ℝ) - 1) / 2) = ((N : ℝ) - 1) / 2 := by
    have := H.grid_exact (2 * (N - 1)) (by rw [abs_of_nonneg (by omega)]; nlinarith [(by omega : (0:ℤ) ≤ M), (by omega : (0:ℤ) ≤ N)])
    push_cast at this
    rwa [show (2 * ((N : ℝ) - 1)) / 4 = ((N : ℝ) - 1) / 2 by ring] at this
  have hk : |2 * (2 * (j : ℤ) - (N - 1))| ≤ ((M : ℤ) + N + 1) ^ 2 := by
    rw [abs_le]
    constructor <;> nlinarith [(by omega : (0:ℤ) ≤ M), (by omega : (0:ℤ) ≤ N), (by omega : (j : ℤ) + 1 ≤ N), (by omega : (0:ℤ) ≤ j)]
  have := H.grid_exact _ hk
  unfold gridXR
  rw [e1]
  unfold pixelX
  push_cast at this
  rwa [show (2 * (2 * (j : ℝ) - (N - 1))) / 4 = (j : ℝ) - ((N : ℝ) - 1) / 2 by ring] at this

theorem gridYR_eq (H : AnalysisPrecise u v g M N R D A) {i : ℕ} (hi : i < M) : gridYR A M i = pixelY M i := by
  have e1 : A.grid (((M : ℝ) + 1) / 2) = ((M : ℝ) + 1) / 2 := by
    have := H.grid_exact (2 * (M + 1)) (by rw [abs_of_nonneg (by omega)]; nlinarith [(by omega : (0:ℤ) ≤ M), (by omega : (0:ℤ) ≤ N), (by omega : (1:ℤ) ≤ M)])
    push_cast at this
    rwa [show (2 * ((M : ℝ) + 1)) / 4 = ((M : ℝ) + 1) / 2 by ring] at this
  have hk : |2 * (((M : ℤ) - 1) - 2 * i)| ≤ ((M : ℤ) + N + 1) ^ 2 := by
    rw [abs_le]
    constructor <;> nlinarith [(by omega : (0:ℤ) ≤ M), (by omega : (0:ℤ) ≤ N), (by omega : (i : ℤ) + 1 ≤ M), (by omega : (0:ℤ) ≤ i)]
  have := H.grid_exact _ hk
  unfold gridYR
  rw [e1]
  unfold pixelY
  push_cast at this
  rw [show (2 * (((M : ℝ) - 1) - 2 * i)) / 4 = ((M : ℝ) - 1) / 2 - i by ring] at this
  rwa [show ((M : ℝ) - i) - (M + 1) / 2 = ((M : ℝ) - 1) / 2 - i by ring]

theorem profX_eq (H : AnalysisPrecise u v g M N R D A) {j : ℕ} (hj : j < N) : A.prof.rnd (pixelX N j) = pixelX N j := by
  rw [half_X]
  exact H.prof_exact _ (by rw [abs_le]; constructor <;> omega)

theorem profY_eq (H : AnalysisPrecise u v g M N R D A) {i : ℕ} (hi : i < M) : A.prof.rnd (pixelY M i) = pixelY M i := by
  rw [half_Y]
  exact H.prof_exact _ (by rw [abs_le]; constructor <;> omega)

/-- Four times the squared distance of a pixel is an integer of moderate size. -/
theorem quarter {i j : ℕ} (hi : i < M) (hj : j < N) :
    ∃ k l : ℤ, |k| ≤ (M + N + 1) ^ 2 ∧ |l| ≤ (M + N + 1) ^ 2 ∧ |k + l| ≤ (M + N + 1) ^ 2 ∧
      pixelX N j ^ 2 = k / 4 ∧ pixelY M i ^ 2 = l / 4 := by
  have ha : |(2 * j - (N - 1) : ℤ)| ≤ N := by rw [abs_le]; constructor <;> omega
  have hb : |((M - 1) - 2 * i : ℤ)| ≤ M := by rw [abs_le]; constructor <;> omega
  have ha2 := pow_le_pow_left₀ (abs_nonneg _) ha 2
  have hb2 := pow_le_pow_left₀ (abs_nonneg _) hb 2
  rw [sq_abs] at ha2 hb2
  refine ⟨(2 * j - (N - 1)) ^ 2, ((M - 1) - 2 * i) ^ 2, ?_, ?_, ?_, ?_, ?_⟩
  · rw [abs_of_nonneg (sq_nonneg _)]; nlinarith [(by omega : (0:ℤ) ≤ M), (by omega : (0:ℤ) ≤ N)]
  · rw [abs_of_nonneg (sq_nonneg _)]; nlinarith [(by omega : (0:ℤ) ≤ M), (by omega : (0:ℤ) ≤ N)]
  · rw [abs_of_nonneg (add_nonneg (sq_nonneg _) (sq_nonneg _))]; nlinarith [(by omega : (0:ℤ) ≤ M), (by omega : (0:ℤ) ≤ N)]
  · rw [half_X]; push_cast; ring
  · rw [half_Y]; push_cast; ring

/-- The computed comparison of the squared distance with the squared radius. -/
theorem inApertureR_iff (H : AnalysisPrecise u v g M N R D A) (huv : u + v ≤ 1 / 50) (hR : 0 < R) (hc : Clear (8 * (u + v)) M N R) {i j : ℕ}
    (hi : i < M) (hj : j < N) : inApertureR A M N R i j ↔ pixelX N j ^ 2 + pixelY M i ^ 2 < R ^ 2 := by
  obtain ⟨k, l, hk, hl, hkl, ek, el⟩ := quarter hi hj
  have hu := H.np.nonneg
  have hv := H.prof.v_nonneg
  unfold inApertureR
  rw [gridXR_eq H hj, gridYR_eq H hi, ek, el, H.grid_exact k hk, H.grid_exact l hl]
  have e : A.grid ((k : ℝ) / 4 + l / 4) = k / 4 + l / 4 := by
    have := H.grid_exact _ hkl
    push_cast at this
    rwa [add_div] at this
  rw [e]
  have hcl := hc i hi j hj
  rw [ek, el] at hcl
  have hq0 : 0 ≤ (k : ℝ) / 4 + l / 4 := by rw [← ek, ← el]; positivity
  rcases hcl with hcl | hcl
  · rw [← hcl, e]
  · set q := (k : ℝ) / 4 + l / 4 with hq
    have hg := H.grid (R ^ 2)
    rw [abs_of_nonneg (sq_nonneg R)] at hg
    have hg' := abs_le.mp hg
    set s := √q / R with hs
    have hs0 : 0 ≤ s := by positivity
    have hqs : q = s ^ 2 * R ^ 2 := by
      rw [hs, div_pow, Real.sq_sqrt hq0]
      field_simp
    have hR2 : 0 < R ^ 2 := by positivity
    have u1 : u ≤ 1 / 50 := by linarith
    have hw : 8 * u ≤ |s - 1| := by linarith
    constructor
    · intro h
      by_contra hcon
      push Not at hcon
      have : 1 ≤ s ^ 2 := by
        rw [hqs] at hcon
        exact le_of_mul_le_mul_right (by linarith) hR2
      have h1 : 1 ≤ s := by nlinarith
      rw [abs_of_nonneg (by linarith)] at hw
      have h2 : 1 + u ≤ s ^ 2 := by nlinarith
      have := mul_le_mul_of_nonneg_right h2 hR2.le
      rw [hqs] at h
      linarith
    · intro h
      have : s ^ 2 < 1 := by
        rw [hqs] at h
        exact lt_of_mul_lt_mul_right (by linarith) hR2.le
      have h1 : s < 1 := by nlinarith
      rcases hu.eq_or_lt with h0 | h0
      · rw [← h0] at hg'
        have : A.grid (R ^ 2) = R ^ 2 := by linarith
        rw [this]
        exact h
      · rw [abs_of_neg (by linarith)] at hw
        have h2 : s ^ 2 < 1 - u := by nlinarith
        have := mul_lt_mul_of_pos_right h2 hR2
        rw [hqs]
        linarith

/-- The computed aperture is the disc. -/
theorem apertureR_eq (H : AnalysisPrecise u v g M N R D A) (huv : u + v ≤ 1 / 50) (hR : 0 < R) (hc : Clear (8 * (u + v)) M N R) :
    apertureR A M N R = disc M N R := by
  ext ⟨i, j⟩
  simp only [apertureR, disc, mem_filter, mem_product, mem_range]
  exact and_congr_right fun h => inApertureR_iff H huv hR hc h.1 h.2

/-! ## The modes -/

/-- Relative error of a computed mode. -/
def modeErr (u v g : ℝ) (n m : ℤ) : ℝ := g + (5 * u + v) * n + |(m : ℝ)| * (4 * u + v) + 5 * u + v

theorem weight_nonneg (n m : ℤ) : 0 ≤ weight n m := by
  refine mul_nonneg ?_ (List.sum_nonneg fun x hx => ?_)
  · unfold zernikeNorm; split_ifs <;> positivity
  · obtain ⟨y, _, rfl⟩ := List.mem_map.mp hx
    exact abs_nonneg y

theorem modeErr_nonneg (hu : 0 ≤ u) (hv : 0 ≤ v) (hg : 0 ≤ g) {n m : ℤ} (h : ZernikeIndex n m) : 0 ≤ modeErr u v g n m := by
  have hn : (0 : ℝ) ≤ n := by exact_mod_cast (abs_nonneg m).trans h.1
  unfold modeErr
  positivity

/-- The computed radius of a pixel is beyond the edge exactly if the pixel is. -/
theorem rhoR_gt_iff (H : ProfPrecise u v A.prof) (huv : u + v ≤ 1 / 50) (hR : 0 < R) {x y : ℝ}
    (hedge : 8 * (u + v) ≤ |√(x ^ 2 + y ^ 2) / R - 1|) : zernikeRhoR A.prof R x y > 1 ↔ √(x ^ 2 + y ^ 2) / R > 1 := by
  have hu := H.rnd.nonneg
  have hv := H.v_nonneg
  obtain ⟨z, hz, hb⟩ := C160_zernike H huv le_rfl (n := 0) (m := 0) (C := []) (coef := []) (c := []) trivial (a := 1) hR none false
    (Or.inr rfl) (Or.inr hedge)
  have hz' : z = if √(x ^ 2 + y ^ 2) / R > 1 then 0 else 1 := by
    unfold zernikeFunc at hz
    rw [if_neg hR.ne'] at hz
    simpa using hz.symm
  have he : zernikeFuncR A.prof 1 R 0 0 [] (Option.map A.prof.py none) false x y = if zernikeRhoR A.prof R x y > 1 then 0 else 1 := by
    simp [zernikeFuncR]
  rw [he, hz'] at hb
  have hexp := exp_rel_le (c := 5 * u + v) (by linarith) (by linarith)
  have hb' : |(if zernikeRhoR A.prof R x y > 1 then (0 : ℝ) else 1) - if √(x ^ 2 + y ^ 2) / R > 1 then 0 else 1| < 1 := by
    refine hb.trans_lt ?_
    simp
    linarith
  by_cases h1 : zernikeRhoR A.prof R x y > 1 <;> by_cases h2 : √(x ^ 2 + y ^ 2) / R > 1
  · exact iff_of_true h1 h2
  · rw [if_pos h1, if_neg h2] at hb'
    norm_num at hb'
  · rw [if_neg h1, if_pos h2] at hb'
    norm_num at hb'
  · exact iff_of_false h1 h2

theorem rnd_zero {rnd : ℝ → ℝ} (h : RelErr u rnd) : rnd 0 = 0 := by
  have := h 0
  simpa using this

/-- At the origin a mode with `m ≠ 0` vanishes, also in floating point. -/
theorem zernikeR_origin (H : ProfPrecise u v A.prof) (hg : 0 ≤ g) {n m : ℤ} (h : ZernikeIndex n m) (hm : m ≠ 0) {c : List ℝ}
    (hc : CoefClose g ((zernikeCoef n m).reverse.map (|·|)) (zernikeCoef n m).reverse c) (norm : Option ℝ) (ex : Bool) :
    zernikeFuncR A.prof 1 R n m c norm ex 0 0 = 0 := by
  have hu := H.rnd.nonneg
  have r0 := rnd_zero H.rnd
  have hρ : zernikeRhoR A.prof R 0 0 = 0 := by
    have hs := H.sqrt 0 le_rfl
    rw [Real.sqrt_zero, mul_zero, sub_zero, abs_nonpos_iff] at hs
    unfold zernikeRhoR
    rw [zero_pow two_ne_zero, r0, add_zero, r0, hs, zero_div, r0]
  have hp := polyvalR_within H.rnd hg le_rfl (Near.refl le_rfl (0 : ℝ)) hc
  rw [abs_zero, horner_abs_zero, ← polyval_eq_horner, polyval_zernike h, radial_zero h hm, abs_zero] at hp
  have hp0 : polyvalR A.prof.rnd c 0 = 0 := by
    have := hp.2
    rw [mul_zero, sub_zero] at this
    exact norm_le_zero_iff.mp this
  have hn : ¬(n = 0 ∧ m = 0) := fun hh => hm hh.2
  unfold zernikeFuncR
  simp only [hρ, hp0, if_neg hn, if_neg hm, mul_zero, r0, zero_mul, ite_self]
  cases norm <;> simp [r0]

/-- A computed mode inside its disc. -/
theorem modeR_within (H : AnalysisPrecise u v g M N R D A) (huv : u + v ≤ 1 / 50) (hg : 0 ≤ g) (hR : 0 < R)
    (hc : Clear (8 * (u + v)) M N R) {n m : ℤ} (h : ZernikeIndex n m) (ex : Bool) {i j : ℕ} (hi : i < M) (hj : j < N)
    (hin : pixelX N j ^ 2 + pixelY M i ^ 2 < R ^ 2) :
    Within (modeErr u v g n m) (weight n m) (mode M N R n m ex i j) (modeR A M N R n m ex i j) := by
  have hu := H.np.nonneg
  have hv := H.prof.v_nonneg
  have hκ := modeErr_nonneg hu hv hg h
  have hw := weight_nonneg n m
  have hn0 : 0 ≤ n := (abs_nonneg m).trans h.1
  have hcl := (hc i hi j hj).resolve_left hin.ne
  have hmem : (i, j) ∈ disc M N R := mem_disc.mpr ⟨⟨hi, hj⟩, hin⟩
  have hme := mode_inside (M := M) (N := N) h hR ex hmem
  simp only at hme
  have hdata : zernikeData n m true = .ok ((zernikeCoef n m).reverse, some (zernikeNorm n m)) := by rw [zernikeData_valid h true, if_pos rfl]
  have hval : modeR A M N R n m ex i j =
      zernikeFuncR A.prof 1 R n m (A.coef n m) ((some (zernikeNorm n m)).map A.prof.py) ex (pixelX N j) (pixelY M i) := by
    unfold modeR
    rw [hdata]
    simp only
    rw [gridXR_eq H hj, gridYR_eq H hi, profX_eq H hj, profY_eq H hi, H.radius]
  set x := pixelX N j with hx
  set y := pixelY M i with hy
  have hρ0 : 0 ≤ √(x ^ 2 + y ^ 2) / R := by positivity
  have hρ1 : √(x ^ 2 + y ^ 2) / R ≤ 1 := by
    rw [div_le_one hR]
    exact Real.sqrt_le_iff.mpr ⟨hR.le, hin.le⟩
  have hnorm0 : 0 ≤ zernikeNorm n m := by unfold zernikeNorm; split_ifs <;> positivity
  have hnn : ∀ c ∈ (zernikeCoef n m).reverse.map (|·|), 0 ≤ c := by
    intro c hc
    obtain ⟨y, _, rfl⟩ := List.mem_map.mp hc
    exact abs_nonneg y
  have hsum := horner_le_sum hnn hρ0 hρ1
  rw [sum_reverse_abs] at hsum
  have habs : |mode M N R n m ex i j| ≤ weight n m := by
    rw [hme, sampledMode, abs_mul, abs_of_nonneg hnorm0, weight]
    refine mul_le_mul_of_nonneg_left ?_ hnorm0
    have hp := (polyvalR_within (rnd := id) (u := 0) (fun x => by simp) le_rfl le_rfl (Near.refl le_rfl (√(x ^ 2 + y ^ 2) / R))
      (C := (zernikeCoef n m).reverse.map (|·|)) (c := (zernikeCoef n m).reverse) (c' := (zernikeCoef n m).reverse) (g := 0) (by
        generalize (zernikeCoef n m).reverse = l
        induction l with
        | nil => trivial
        | cons d ds ih => exact ⟨le_rfl, by simp, ih⟩)).1
    rw [abs_of_nonneg hρ0, polyval_zernike h, Real.norm_eq_abs] at hp
    have hang : ∀ t, |angular m t| ≤ 1 := fun t => by
      unfold angular
      split_ifs
      · exact Real.abs_cos_le_one _
      · exact Real.abs_sin_le_one _
    unfold zernikeMode
    rw [abs_mul]
    calc _ ≤ |radial n.toNat m.natAbs (√(x ^ 2 + y ^ 2) / R)| * 1 := mul_le_mul_of_nonneg_left (hang _) (abs_nonneg _)
      _ ≤ _ := by rw [mul_one]; exact hp.trans hsum
  by_cases h0 : (x, y) ≠ (0, 0) ∨ m = 0
  · obtain ⟨z, hz, hb⟩ := C160_zernike H.prof huv hg (n := n) (m := m) (H.coef n m h) (a := 1) hR (some (zernikeNorm n m)) ex h0 (Or.inr hcl)
    have hzm : mode M N R n m ex i j = z := by
      unfold mode
      rw [hdata]
      simp only
      rw [gridX_eq, gridY_eq, ← hx, ← hy, hz, Option.getD_some]
    rw [← hzm] at hb
    rw [hval]
    refine ⟨habs, hb.trans ?_⟩
    rw [List.length_reverse, length_zernikeCoef, Option.getD_some, abs_of_nonneg hnorm0, abs_one, mul_one]
    have hnat : (((n + 1).toNat - 1 : ℕ) : ℝ) = n := by
      have : (((n + 1).toNat - 1 : ℕ) : ℤ) = n := by omega
      exact_mod_cast this
    rw [hnat]
    refine mul_le_mul_of_nonneg_left ?_ ?_
    · rw [weight]
      refine mul_le_mul_of_nonneg_left ?_ hnorm0
      split_ifs with h00
      · rw [h00.1, h00.2]
        have : zernikeCoef 0 0 = [1] := by norm_num [zernikeCoef, zernikeEntry]
        simp [this]
      · exact hsum
    · have := Real.add_one_le_exp (modeErr u v g n m)
      unfold modeErr at this hκ
      linarith
  · push Not at h0
    have hm := h0.2
    have hx0 : x = 0 := (Prod.mk.inj h0.1).1
    have hy0 : y = 0 := (Prod.mk.inj h0.1).2
    rw [hval, hme, sampledMode, ← hx, ← hy, hx0, hy0, zernikeR_origin H.prof hg h hm (H.coef n m h)]
    unfold zernikeMode
    rw [show √((0 : ℝ) ^ 2 + 0 ^ 2) / R = 0 by simp, radial_zero h hm, zero_mul, mul_zero]
    exact Within.zero hκ hw

/-- Outside its disc a mode that is not extrapolated vanishes, also in floating point. -/
theorem modeR_outside (H : AnalysisPrecise u v g M N R D A) (huv : u + v ≤ 1 / 50) (hR : 0 < R) (hc : Clear (8 * (u + v)) M N R) {n m : ℤ}
    (h : ZernikeIndex n m) {i j : ℕ} (hi : i < M) (hj : j < N) (hout : R ^ 2 < pixelX N j ^ 2 + pixelY M i ^ 2) :
    modeR A M N R n m false i j = 0 := by
  have hcl := (hc i hi j hj).resolve_left hout.ne'
  unfold modeR
  rw [zernikeData_valid h true]
  simp only
  rw [gridXR_eq H hj, gridYR_eq H hi, profX_eq H hj, profY_eq H hi, H.radius]
  have : zernikeRhoR A.prof R (pixelX N j) (pixelY M i) > 1 := by
    rw [rhoR_gt_iff H.prof huv hR hcl, gt_iff_lt, one_lt_div hR, Real.lt_sqrt hR.le]
    exact hout
  unfold zernikeFuncR
  simp [this]

/-! ## Means, and the loops -/

/-- The computed mean of the product with a mode. -/
theorem projectR_within (H : AnalysisPrecise u v g M N R D A) (huv : u + v ≤ 1 / 50) (hR : 0 < R) (hc : Clear (8 * (u + v)) M N R)
    (hne : disc M N R ≠ ∅) {e F κ B : ℝ} (hκ : 0 ≤ κ) {f f' z z' : ℕ → ℕ → ℝ}
    (hf : ∀ ij ∈ disc M N R, Within e F (f ij.1 ij.2) (f' ij.1 ij.2)) (hz : ∀ ij ∈ disc M N R, Within κ B (z ij.1 ij.2) (z' ij.1 ij.2)) :
    Within (e + κ + (D + 2) * u) (F * B) (project M N R f z) (projectR A M N R f' z') := by
  have hu := H.np.nonneg
  have hord := H.order _ hne
  have hdep := H.depth _ (filter_subset _ _) hne
  unfold projectR project
  rw [apertureR_eq H huv hR hc, aperture_eq]
  set t := A.order (disc M N R) with ht
  have hcard : ((disc M N R).card : ℝ) ≠ 0 := by
    exact_mod_cast Finset.card_ne_zero.mpr (Finset.nonempty_iff_ne_empty.mpr hne)
  have h1 := SumTree.eval_within H.np t (c := e + κ + u) (q := F * B) (f := fun i j => f i j * z i j)
    (f' := fun i j => A.np (f' i j * z' i j)) (fun p hp => by
      rw [hord] at hp
      exact ((hf p hp).mul (hz p hp) hκ).rnd H.np)
  have h2 := (h1.mul (Within.const le_rfl ((disc M N R).card : ℝ)⁻¹) le_rfl).rnd H.np
  rw [hord] at h2
  have hd : (t.depth : ℝ) * u ≤ D * u := mul_le_mul_of_nonneg_right (by exact_mod_cast hdep) hu
  have h3 := h2.mono (b := e + κ + (D + 2) * u) (by linarith)
  rw [← div_eq_mul_inv, ← div_eq_mul_inv] at h3
  have hs : ((disc M N R).val.map fun p => f p.1 p.2 * z p.1 p.2).sum = ∑ ij ∈ disc M N R, f ij.1 ij.2 * z ij.1 ij.2 := rfl
  rw [hs] at h3
  convert h3 using 1
  rw [abs_of_nonneg (by positivity)]
  simp only [Finset.card_val]
  field_simp

/-- One step of `remove_trivial_phase`. -/
theorem removeModeR_within (H : AnalysisPrecise u v g M N R D A) (huv : u + v ≤ 1 / 50) (hg : 0 ≤ g) (hR : 0 < R)
    (hc : Clear (8 * (u + v)) M N R) (hne : disc M N R ≠ ∅) {n m : ℤ} (h : ZernikeIndex n m) {e F : ℝ} (he : 0 ≤ e) {f f' : ℕ → ℕ → ℝ}
    (hf : ∀ i < M, ∀ j < N, pixelX N j ^ 2 + pixelY M i ^ 2 ≠ R ^ 2 → Within e F (f i j) (f' i j)) :
    ∀ i < M, ∀ j < N, pixelX N j ^ 2 + pixelY M i ^ 2 ≠ R ^ 2 →
      Within (e + (2 * modeErr u v g n m + (D + 4) * u)) (F * (1 + weight n m ^ 2)) (removeMode M N R (n, m) f i j)
        (removeModeR A M N R (n, m) f' i j) := by
  have hu := H.np.nonneg
  have hκ := modeErr_nonneg hu H.prof.v_nonneg hg h
  have hD : 0 ≤ (D : ℝ) * u := by positivity
  have hP := projectR_within H huv hR hc hne hκ (f := f) (f' := f') (z := mode M N R n m false) (z' := modeR A M N R n m false)
    (fun ij hij => by
      have hm := mem_disc.mp hij
      exact hf _ hm.1.1 _ hm.1.2 hm.2.ne)
    (fun ij hij => by
      have hm := mem_disc.mp hij
      exact modeR_within H huv hg hR hc h false hm.1.1 hm.1.2 hm.2)
  intro i hi j hj hij
  have hfi := hf i hi j hj hij
  have hF := hfi.nonneg
  unfold removeMode removeModeR
  simp only
  rcases lt_or_gt_of_ne hij with hlt | hgt
  · have hz := modeR_within H huv hg hR hc h false hi hj hlt
    have h1 := (hP.mul hz hκ).rnd H.np
    have h2 := ((hfi.mono (b := e + modeErr u v g n m + (D + 2) * u + modeErr u v g n m + u) (by linarith)).add h1.neg).rnd H.np
    rw [← sub_eq_add_neg, ← sub_eq_add_neg] at h2
    convert h2 using 1 <;> ring
  · rw [modeR_outside H huv hR hc h hi hj hgt, mode_outside h hR hgt, mul_zero, mul_zero, rnd_zero H.np, sub_zero, sub_zero]
    have h1 := (hfi.rnd H.np).mono (b := e + (2 * modeErr u v g n m + (D + 4) * u)) (by linarith)
    exact h1.mono' (by positivity) (le_mul_of_one_le_right hF (by nlinarith [sq_nonneg (weight n m)]))

end Analysis

end PySLM2
