import Verif.Lemmas.FloatAnalysis
import Verif.Props.Ansi
import Verif.Props.FloatSim

/-!
# C180: rounding in `remove_trivial_phase` and `zernike_decomposition`

`AnalysisPrecise u v g M N R D A` says that every operation of the arithmetic `A` has a relative error of at most `u`, every library function
an error of at most `v` and every coefficient of a Zernike polynomial a relative error of at most `g`, and that a mean is computed with
chains of at most `D` additions.  `Clear (8 * (u + v)) M N R` says that no pixel lies almost, but not exactly, on the edge of the aperture.
-/

noncomputable section

open Finset

namespace PySLM2.Analysis

open Spec Profile

variable {u v g : ℝ} {M N D : ℕ} {R : ℝ} {A : AnalysisArith}

/-- **C180.** The aperture computed in floating point consists of the pixels inside the circle. -/
theorem C180_aperture (H : AnalysisPrecise u v g M N R D A) (huv : u + v ≤ 1 / 50) (hR : 0 < R) (hc : Clear (8 * (u + v)) M N R) :
    apertureR A M N R = disc M N R := apertureR_eq H huv hR hc

/-- **C180.** If the diameter is a whole number of pixels, no pixel lies almost on the edge unless the radius is very large. -/
theorem C180_clear {k : ℕ} (hk : 0 < k) (hR : R = k / 2) {w : ℝ} (hw : 12 * R ^ 2 * w ≤ 1) (hw1 : w ≤ 1) : Clear w M N R := by
  intro i hi j hj
  obtain ⟨a, b, -, -, -, ha, hb⟩ := quarter hi hj
  rw [ha, hb]
  have hk' : (0 : ℝ) < k := by exact_mod_cast hk
  have hR0 : 0 < R := by rw [hR]; positivity
  have hRk : R ^ 2 = (k ^ 2 : ℤ) / 4 := by rw [hR]; push_cast; ring
  have hq0 : (0 : ℝ) ≤ a / 4 + b / 4 := by rw [← ha, ← hb]; positivity
  by_cases he : a + b = k ^ 2
  · left
    rw [hRk, ← he]
    push_cast
    ring
  · right
    have hdiff : (1 : ℝ) / 4 ≤ |((a : ℝ) / 4 + b / 4) - R ^ 2| := by
      have h1 : (1 : ℤ) ≤ |a + b - k ^ 2| := Int.one_le_abs (sub_ne_zero.mpr he)
      have h2 : (1 : ℝ) ≤ |((a + b - k ^ 2 : ℤ) : ℝ)| := by exact_mod_cast h1
      have e : ((a : ℝ) / 4 + b / 4) - R ^ 2 = ((a + b - k ^ 2 : ℤ) : ℝ) / 4 := by rw [hRk]; push_cast; ring
      rw [e, abs_div, abs_of_pos (by norm_num : (0 : ℝ) < 4)]
      linarith
    set q := (a : ℝ) / 4 + b / 4
    set s := √q / R with hs
    have hs0 : 0 ≤ s := by positivity
    have hqs : q = s ^ 2 * R ^ 2 := by
      rw [hs, div_pow, Real.sq_sqrt hq0]
      field_simp
    rcases le_total s 2 with h2 | h2
    · have e : q - R ^ 2 = (s - 1) * ((s + 1) * R ^ 2) := by rw [hqs]; ring
      have hR2 : 0 < R ^ 2 := by positivity
      rw [e, abs_mul, abs_of_nonneg (by positivity : 0 ≤ (s + 1) * R ^ 2)] at hdiff
      have h3 : |s - 1| * ((s + 1) * R ^ 2) ≤ |s - 1| * (3 * R ^ 2) :=
        mul_le_mul_of_nonneg_left (mul_le_mul_of_nonneg_right (by linarith) hR2.le) (abs_nonneg _)
      have h4 : w * (12 * R ^ 2) ≤ |s - 1| * (12 * R ^ 2) := by linarith
      exact le_of_mul_le_mul_right h4 (by positivity)
    · rw [abs_of_nonneg (by linarith)]
      linarith

theorem weight00 : weight 0 0 = 1 := by
  have : zernikeCoef 0 0 = [1] := by norm_num [zernikeCoef, zernikeEntry]
  simp [weight, zernikeNorm, this]

theorem weight1 (m : ℤ) (hm : m = 1 ∨ m = -1) : weight 1 m = 2 := by
  have hc : zernikeCoef 1 m = [0, 1] := by
    have e : (List.replicate (1 + 1 : ℤ).toNat (0 : ℝ)).set (1 - 2 * ((0 : ℕ) : ℤ)).toNat 1 = [0, 1] := rfl
    have e1 : (List.range (((1 : ℤ) - 1) / 2 + 1).toNat) = [0] := rfl
    have e2 : zernikeEntry 1 1 0 = 1 := by norm_num [zernikeEntry]
    have ha : |m| = 1 := by rcases hm with h | h <;> simp [h]
    rw [zernikeCoef, ha, e1, List.foldl_cons, List.foldl_nil, e2, e]
  have hn : zernikeNorm 1 m = 2 := by
    rw [zernikeNorm, if_neg (by omega)]
    norm_num
    rw [show (4 : ℝ) = 2 ^ 2 by norm_num, Real.sqrt_sq (by norm_num)]
  rw [weight, hn, hc]
  norm_num

theorem weight1m : weight 1 (-1) = 2 := weight1 _ (Or.inr rfl)
theorem weight1p : weight 1 1 = 2 := weight1 _ (Or.inl rfl)

theorem weight20 : weight 2 0 ^ 2 = 27 := by
  have hc : zernikeCoef 2 0 = [-1, 0, 2] := by
    have e : ((List.replicate (2 + 1 : ℤ).toNat (0 : ℝ)).set (2 - 2 * ((0 : ℕ) : ℤ)).toNat 2).set (2 - 2 * ((1 : ℕ) : ℤ)).toNat (-1) = [-1, 0, 2] := rfl
    have e1 : (List.range (((2 : ℤ) - 0) / 2 + 1).toNat) = [0, 1] := rfl
    have e2 : zernikeEntry 2 0 0 = 2 := by norm_num [zernikeEntry, show Int.toNat 2 = 2 from rfl, Nat.factorial]
    have e3 : zernikeEntry 2 0 1 = -1 := by norm_num [zernikeEntry]
    rw [zernikeCoef, abs_zero, e1, List.foldl_cons, List.foldl_cons, List.foldl_nil, e2, e3, e]
  rw [weight, zernikeNorm, if_pos rfl, hc, mul_pow, Real.sq_sqrt (by norm_num)]
  norm_num

/-- **C180.** `remove_trivial_phase` in floating point.  For a phase map of size at most `F` the result is right at every pixel that is
not exactly on the edge of the aperture. -/
theorem C180_remove (H : AnalysisPrecise u v g M N R D A) (huv : u + v ≤ 1 / 50) (hg : 0 ≤ g) (hR : 0 < R) (hc : Clear (8 * (u + v)) M N R)
    (hne : disc M N R ≠ ∅) (defocus : Bool) {F : ℝ} {f : ℕ → ℕ → ℝ} (hf : ∀ i < M, ∀ j < N, |f i j| ≤ F) :
    ∃ r r', removeTrivialPhase M N R defocus f = some r ∧ removeTrivialPhaseR A M N R defocus f = some r' ∧
      ∀ i < M, ∀ j < N, pixelX N j ^ 2 + pixelY M i ^ 2 ≠ R ^ 2 →
        |r' i j - r i j| ≤ (Real.exp (if defocus then 8 * g + 112 * u + 20 * v + 4 * D * u else 6 * g + 78 * u + 14 * v + 3 * D * u) - 1) *
          ((if defocus then 1400 else 50) * F) := by
  have hu := H.np.nonneg
  have hv := H.prof.v_nonneg
  have e1 : ¬(R = 0 ∨ aperture M N R = ∅) := by rw [aperture_eq]; exact not_or.mpr ⟨hR.ne', hne⟩
  have e2 : ¬(A.prof.rnd R = 0 ∨ apertureR A M N R = ∅) := by
    rw [apertureR_eq H huv hR hc, H.radius]; exact not_or.mpr ⟨hR.ne', hne⟩
  have hD : 0 ≤ (D : ℝ) * u := by positivity
  have k0 := modeErr_nonneg hu hv hg valid00
  have k1 := modeErr_nonneg hu hv hg valid1m
  have k2 := modeErr_nonneg hu hv hg valid1p
  have s0 : ∀ i < M, ∀ j < N, pixelX N j ^ 2 + pixelY M i ^ 2 ≠ R ^ 2 → Within 0 F (f i j) (f i j) := fun i hi j hj _ =>
    (Within.const le_rfl (f i j)).mono' le_rfl (hf i hi j hj)
  have s1 := removeModeR_within H huv hg hR hc hne valid00 le_rfl s0
  have s2 := removeModeR_within H huv hg hR hc hne valid1m (by positivity) s1
  have s3 := removeModeR_within H huv hg hR hc hne valid1p (by positivity) s2
  refine ⟨_, _, if_neg e1, if_neg e2, fun i hi j hj hij => ?_⟩
  cases defocus with
  | false =>
    have h := (s3 i hi j hj hij).2
    rw [weight00, weight1m, weight1p] at h
    simp only [modeErr] at h
    push_cast at h
    simp only [trivialTerms, Bool.false_eq_true, if_false, List.append_nil, List.foldl_cons, List.foldl_nil]
    refine h.trans (le_of_eq ?_)
    norm_num
    ring_nf
  | true =>
    have h := (removeModeR_within H huv hg hR hc hne valid20 (by positivity) s3 i hi j hj hij).2
    rw [weight00, weight1m, weight1p, weight20] at h
    simp only [modeErr] at h
    push_cast at h
    simp only [trivialTerms, if_true, List.cons_append, List.nil_append, List.foldl_cons, List.foldl_nil]
    refine h.trans (le_of_eq ?_)
    norm_num
    ring_nf

/-- **C180.** Outside the aperture, `remove_trivial_phase` in floating point returns the phase map as it was. -/
theorem C180_outside (H : AnalysisPrecise u v g M N R D A) (huv : u + v ≤ 1 / 50) (hR : 0 < R) (hc : Clear (8 * (u + v)) M N R)
    (defocus : Bool) {f r' : ℕ → ℕ → ℝ} (hr : removeTrivialPhaseR A M N R defocus f = some r') {i j : ℕ} (hi : i < M) (hj : j < N)
    (hout : R ^ 2 < pixelX N j ^ 2 + pixelY M i ^ 2) (hrep : A.np (f i j) = f i j) : r' i j = f i j := by
  have step : ∀ {n m : ℤ}, ZernikeIndex n m → ∀ f : ℕ → ℕ → ℝ, removeModeR A M N R (n, m) f i j = A.np (f i j) := by
    intro n m h f
    unfold removeModeR
    simp only
    rw [modeR_outside H huv hR hc h hi hj hout, mul_zero, rnd_zero H.np, sub_zero]
  unfold removeTrivialPhaseR at hr
  split_ifs at hr
  rw [← Option.some.inj hr]
  cases defocus with
  | false =>
    simp only [trivialTerms, Bool.false_eq_true, if_false, List.append_nil, List.foldl_cons, List.foldl_nil]
    rw [step valid1p, step valid1m, step valid00, hrep, hrep, hrep]
  | true =>
    simp only [trivialTerms, if_true, List.cons_append, List.nil_append, List.foldl_cons, List.foldl_nil]
    rw [step valid20, step valid1p, step valid1m, step valid00, hrep, hrep, hrep, hrep]

theorem coefficientR_within (H : AnalysisPrecise u v g M N R D A) (huv : u + v ≤ 1 / 50) (hg : 0 ≤ g) (hR : 0 < R)
    (hc : Clear (8 * (u + v)) M N R) (hne : disc M N R ≠ ∅) (ex : Bool) {F : ℝ} {f : ℕ → ℕ → ℝ} (hf : ∀ i < M, ∀ j < N, |f i j| ≤ F)
    (k : ℕ) : Within (modeErr u v g (ansi k).1 (ansi k).2 + (D + 2) * u) (F * weight (ansi k).1 (ansi k).2)
      (coefficient M N R ex f k) (coefficientR A M N R ex f k) := by
  have hval := C66_bijection.1 k
  have hκ := modeErr_nonneg H.np.nonneg H.prof.v_nonneg hg hval
  have h := projectR_within H huv hR hc hne hκ (e := 0) (F := F) (f := f) (f' := f)
    (z := mode M N R (ansi k).1 (ansi k).2 ex) (z' := modeR A M N R (ansi k).1 (ansi k).2 ex)
    (fun ij hij => by
      have hm := mem_disc.mp hij
      exact (Within.const le_rfl (f ij.1 ij.2)).mono' le_rfl (hf _ hm.1.1 _ hm.1.2))
    (fun ij hij => by
      have hm := mem_disc.mp hij
      exact modeR_within H huv hg hR hc hval ex hm.1.1 hm.1.2 hm.2)
  rwa [zero_add] at h

theorem decomposeLoopR_coef (A : AnalysisArith) (M N : ℕ) (R : ℝ) (ex : Bool) (f : ℕ → ℕ → ℝ) (T : ℕ) :
    (decomposeLoopR A M N R ex f T).1 = (List.range T).map (coefficientR A M N R ex f) := by
  induction T with
  | zero => rfl
  | succ T ih => rw [List.range_succ, List.map_append, ← ih]; rfl

theorem decomposeLoop_coef (M N : ℕ) (R : ℝ) (ex : Bool) (f : ℕ → ℕ → ℝ) (T : ℕ) :
    (decomposeLoop M N R ex f T).1 = (List.range T).map (coefficient M N R ex f) := by
  induction T with
  | zero => rfl
  | succ T ih => rw [List.range_succ, List.map_append, ← ih]; rfl

/-- **C180.** The coefficients of `zernike_decomposition` in floating point: as many as in exact arithmetic, and coefficient `k`, which belongs
to the mode `(n, m)`, is right up to a relative error with respect to the size of the phase map. -/
theorem C180_coefficients (H : AnalysisPrecise u v g M N R D A) (huv : u + v ≤ 1 / 50) (hg : 0 ≤ g) (hR : 0 < R)
    (hc : Clear (8 * (u + v)) M N R) (hne : disc M N R ≠ ∅) (ex : Bool) (numTerms : ℕ) {F : ℝ} {f : ℕ → ℕ → ℝ}
    (hf : ∀ i < M, ∀ j < N, |f i j| ≤ F) :
    ∃ r r', zernikeDecomposition M N R numTerms ex f = some r ∧ zernikeDecompositionR A M N R numTerms ex f = some r' ∧
      r.1.length = numTerms ∧ r'.1.length = numTerms ∧
      ∀ k < numTerms, ∀ n m : ℤ, ansi k = (n, m) →
        |r'.1.getD k 0 - r.1.getD k 0| ≤
          (Real.exp (g + (5 * u + v) * n + |(m : ℝ)| * (4 * u + v) + (7 + D) * u + v) - 1) * (F * weight n m) := by
  rcases Nat.eq_zero_or_pos numTerms with h0 | h0
  · subst h0
    exact ⟨_, _, if_pos rfl, if_pos rfl, rfl, rfl, fun k hk => absurd hk (Nat.not_lt_zero k)⟩
  have e1 : ¬(R = 0 ∨ aperture M N R = ∅) := by rw [aperture_eq]; exact not_or.mpr ⟨hR.ne', hne⟩
  have e2 : ¬(A.prof.rnd R = 0 ∨ apertureR A M N R = ∅) := by
    rw [apertureR_eq H huv hR hc, H.radius]; exact not_or.mpr ⟨hR.ne', hne⟩
  refine ⟨_, _, (if_neg h0.ne').trans (if_neg e1), (if_neg h0.ne').trans (if_neg e2), ?_, ?_, fun k hk n m hnm => ?_⟩
  · rw [decomposeLoop_coef]; simp
  · rw [decomposeLoopR_coef]; simp
  · rw [decomposeLoop_coef, decomposeLoopR_coef]
    have h := (coefficientR_within H huv hg hR hc hne ex hf k).2
    rw [hnm] at h
    simp only [List.getD_eq_getElem?_getD, List.getElem?_map, List.getElem?_range hk, Option.map_some, Option.getD_some]
    refine h.trans (le_of_eq ?_)
    simp only [modeErr]
    ring_nf

/-- **C180.** The reconstruction in floating point, with modes of radial degree at most `q`: right inside the aperture, and zero outside
unless it is extrapolated. -/
theorem C180_reconstruct (H : AnalysisPrecise u v g M N R D A) (huv : u + v ≤ 1 / 50) (hg : 0 ≤ g) (hR : 0 < R)
    (hc : Clear (8 * (u + v)) M N R) (hne : disc M N R ≠ ∅) (ex : Bool) (numTerms : ℕ) {q : ℕ} (hq : ∀ k < numTerms, (ansi k).1 ≤ q) {F : ℝ}
    {f : ℕ → ℕ → ℝ} (hf : ∀ i < M, ∀ j < N, |f i j| ≤ F) :
    ∃ r r', zernikeDecomposition M N R numTerms ex f = some r ∧ zernikeDecompositionR A M N R numTerms ex f = some r' ∧
      (∀ ij ∈ disc M N R, |r'.2 ij.1 ij.2 - r.2 ij.1 ij.2| ≤
        (Real.exp (2 * (g + (9 * u + 2 * v) * q + 5 * u + v) + (D + 3 + numTerms) * u) - 1) *
          (F * ∑ k ∈ range numTerms, weight (ansi k).1 (ansi k).2 ^ 2)) ∧
      (ex = false → ∀ i < M, ∀ j < N, R ^ 2 < pixelX N j ^ 2 + pixelY M i ^ 2 → r.2 i j = 0 ∧ r'.2 i j = 0) := by
  have hu := H.np.nonneg
  have hv := H.prof.v_nonneg
  set κ := g + (9 * u + 2 * v) * q + 5 * u + v with hκdef
  have hκ0 : 0 ≤ κ := by positivity
  have hD : 0 ≤ (D : ℝ) * u := by positivity
  have hle : ∀ k < numTerms, modeErr u v g (ansi k).1 (ansi k).2 ≤ κ := by
    intro k hk
    have h1 : ((ansi k).1 : ℝ) ≤ q := by exact_mod_cast hq k hk
    have h2 : |((ansi k).2 : ℝ)| ≤ q := by
      have := (C66_bijection.1 k).1.trans (hq k hk)
      exact_mod_cast this
    have a1 := mul_le_mul_of_nonneg_left h1 (by linarith : (0 : ℝ) ≤ 5 * u + v)
    have a2 := mul_le_mul_of_nonneg_right h2 (by linarith : (0 : ℝ) ≤ 4 * u + v)
    unfold modeErr
    linarith
  have main : ∀ T ≤ numTerms,
      (∀ ij ∈ disc M N R, Within (2 * κ + (D + 3 + T) * u) (F * ∑ k ∈ range T, weight (ansi k).1 (ansi k).2 ^ 2)
        ((decomposeLoop M N R ex f T).2 ij.1 ij.2) ((decomposeLoopR A M N R ex f T).2 ij.1 ij.2)) ∧
      (ex = false → ∀ i < M, ∀ j < N, R ^ 2 < pixelX N j ^ 2 + pixelY M i ^ 2 →
        (decomposeLoop M N R ex f T).2 i j = 0 ∧ (decomposeLoopR A M N R ex f T).2 i j = 0) := by
    intro T
    induction T with
    | zero =>
      intro _
      refine ⟨fun ij hij => ?_, fun _ _ _ _ _ _ => ⟨rfl, rfl⟩⟩
      refine Within.zero (by positivity) (by simp)
    | succ T ih =>
      intro hT
      obtain ⟨ih1, ih2⟩ := ih (by omega)
      have hval := C66_bijection.1 T
      have hC := coefficientR_within H huv hg hR hc hne ex hf T
      refine ⟨fun ij hij => ?_, fun hex i hi j hj hout => ?_⟩
      · have hm := mem_disc.mp hij
        have hz := modeR_within H huv hg hR hc hval ex hm.1.1 hm.1.2 hm.2
        have h1 := (hC.mul hz (modeErr_nonneg hu hv hg hval)).rnd H.np
        have hkT := hle T (by omega)
        have hTu : 0 ≤ (T : ℝ) * u := by positivity
        have h2 := ((ih1 ij hij).add (h1.mono (b := 2 * κ + (D + 3 + T) * u) (by linarith))).rnd H.np
        simp only [decomposeLoop, decomposeLoopR]
        convert h2 using 1
        · push_cast; ring
        · rw [sum_range_succ]; ring
      · obtain ⟨b1, b2⟩ := ih2 hex i hi j hj hout
        subst hex
        simp only [decomposeLoop, decomposeLoopR]
        rw [b1, b2, modeR_outside H huv hR hc hval hi hj hout, mode_outside hval hR hout, mul_zero, mul_zero, rnd_zero H.np, add_zero,
          rnd_zero H.np]
        exact ⟨rfl, rfl⟩
  rcases Nat.eq_zero_or_pos numTerms with h0 | h0
  · subst h0
    refine ⟨_, _, if_pos rfl, if_pos rfl, fun ij hij => ?_, fun _ _ _ _ _ _ => ⟨rfl, rfl⟩⟩
    simp
  have e1 : ¬(R = 0 ∨ aperture M N R = ∅) := by rw [aperture_eq]; exact not_or.mpr ⟨hR.ne', hne⟩
  have e2 : ¬(A.prof.rnd R = 0 ∨ apertureR A M N R = ∅) := by
    rw [apertureR_eq H huv hR hc, H.radius]; exact not_or.mpr ⟨hR.ne', hne⟩
  obtain ⟨m1, m2⟩ := main numTerms le_rfl
  exact ⟨_, _, (if_neg h0.ne').trans (if_neg e1), (if_neg h0.ne').trans (if_neg e2), fun ij hij => (m1 ij hij).2, m2⟩

/-! ## The hypotheses can be met -/

theorem disc_nonempty {M N : ℕ} {R : ℝ} {i j : ℕ} (hi : i < M) (hj : j < N) (h : pixelX N j ^ 2 + pixelY M i ^ 2 < R ^ 2) : disc M N R ≠ ∅ :=
  Finset.ne_empty_of_mem (mem_disc (ij := (i, j)).mpr ⟨⟨hi, hj⟩, h⟩)

/-- Sums in pairs. -/
theorem exists_pairwise (k : ℕ) : ∀ l : List (ℕ × ℕ), l ≠ [] → l.length ≤ 2 ^ k →
    ∃ t : SumTree, t.leaves = (l : Multiset (ℕ × ℕ)) ∧ t.depth ≤ k := by
  induction k with
  | zero =>
    intro l hl hk
    obtain ⟨p, l', rfl⟩ := List.exists_cons_of_ne_nil hl
    have : l' = [] := by simpa using hk
    subst this
    exact ⟨.leaf p.1 p.2, by simp [SumTree.leaves], by simp [SumTree.depth]⟩
  | succ k ih =>
    intro l hl hk
    rw [pow_succ] at hk
    rcases le_or_gt l.length (2 ^ k) with h | h
    · obtain ⟨t, h1, h2⟩ := ih l hl h
      exact ⟨t, h1, by omega⟩
    · obtain ⟨a, a1, a2⟩ := ih (l.take (2 ^ k)) (by
        rw [Ne, List.take_eq_nil_iff]; simp [hl]) (by simp)
      obtain ⟨b, b1, b2⟩ := ih (l.drop (2 ^ k)) (by
        rw [Ne, List.drop_eq_nil_iff]; omega) (by rw [List.length_drop]; omega)
      refine ⟨.node a b, ?_, by simp only [SumTree.depth]; omega⟩
      rw [SumTree.leaves, a1, b1, Multiset.coe_add, List.take_append_drop]

/-- Profiles in single precision with library functions off by `1e-6`, the phase map in double precision with sums in pairs, and exact coefficients
satisfy the assumptions for all arrays with less than 4000 rows and columns together and all radii that are numbers in single precision. -/
theorem exists_analysisPrecise {M N : ℕ} (hMN : M + N < 4000) {R : ℝ} (hR : IsFloat 24 R) {k : ℕ} (hk : M * N ≤ 2 ^ k) :
    ∃ A, AnalysisPrecise (1 / 2 ^ 24) (1 / 10 ^ 6) 0 M N R k A ∧ A.prof.rnd = nearest 24 ∧ A.np = nearest 53 := by
  obtain ⟨P, hP, hPr⟩ := exists_profPrecise
  have h53 := nearest_roundsTo (t := 53) (by norm_num)
  have h24 := nearest_roundsTo (t := 24) (by norm_num)
  have hnp : RelErr (1 / 2 ^ 24) (nearest 53) := fun x => by
    refine (h53.err x).trans ?_
    rw [div_eq_mul_one_div, mul_comm]
    exact mul_le_mul_of_nonneg_right (by norm_num) (abs_nonneg x)
  have hord : ∀ s : Finset (ℕ × ℕ), ∃ t : SumTree, s ≠ ∅ → t.leaves = s.val ∧ (s.card ≤ 2 ^ k → t.depth ≤ k) := by
    intro s
    by_cases hs : s = ∅
    · exact ⟨.leaf 0 0, fun h => absurd hs h⟩
    by_cases hk : s.card ≤ 2 ^ k
    · obtain ⟨t, h1, h2⟩ := exists_pairwise k s.toList (by simpa using hs) (by simpa using hk)
      exact ⟨t, fun _ => ⟨by rw [h1, Finset.coe_toList], fun _ => h2⟩⟩
    · obtain ⟨t, h1, -⟩ := Sim.exists_order s.toList (by simpa using hs)
      exact ⟨t, fun _ => ⟨by rw [h1, Finset.coe_toList], fun h => absurd h hk⟩⟩
  choose o ho using hord
  refine ⟨⟨P, nearest 53, nearest 53, fun n m => (zernikeCoef n m).reverse, o⟩, ⟨hP, hnp, hnp, ?_, ?_, ?_, ?_, fun s hs => (ho s hs).1, ?_⟩,
    hPr, rfl⟩
  · intro k hk
    refine h53.exact _ ⟨k, -2, ?_, ?_⟩
    · refine hk.trans ?_
      have : ((M : ℤ) + N + 1) ≤ 4000 := by omega
      calc ((M : ℤ) + N + 1) ^ 2 ≤ 4000 ^ 2 := pow_le_pow_left₀ (by omega) this 2
        _ ≤ 2 ^ 53 := by norm_num
    · norm_num [zpow_neg]
      ring
  · intro k hk
    show P.rnd _ = _
    rw [hPr]
    exact h24.half_int (by omega)
  · show P.rnd _ = _
    rw [hPr]
    exact h24.exact R hR
  · intro n m _
    show CoefClose 0 _ _ (zernikeCoef n m).reverse
    generalize (zernikeCoef n m).reverse = l
    induction l with
    | nil => trivial
    | cons d ds ih => exact ⟨le_rfl, by simp, ih⟩
  · intro s hs hne
    refine (ho s hne).2 ((card_le_card hs).trans ?_)
    simpa using hk

/-- C180: on a `200 x 300` phase map with an aperture of radius 90, pistons and tilts are removed in the default precision with an error of at most
`0.0016` times the largest phase. -/
example (f : ℕ → ℕ → ℝ) (F : ℝ) (hf : ∀ i < 200, ∀ j < 300, |f i j| ≤ F) :
    ∃ A : AnalysisArith, A.prof.rnd = nearest 24 ∧ A.np = nearest 53 ∧ apertureR A 200 300 90 = disc 200 300 90 ∧
      ∃ r r', removeTrivialPhase 200 300 90 false f = some r ∧ removeTrivialPhaseR A 200 300 90 false f = some r' ∧
        ∀ i < 200, ∀ j < 300, pixelX 300 j ^ 2 + pixelY 200 i ^ 2 ≠ 90 ^ 2 → |r' i j - r i j| ≤ 16 / 10 ^ 4 * F := by
  obtain ⟨A, H, h1, h2⟩ := exists_analysisPrecise (M := 200) (N := 300) (by norm_num) (R := 90) ⟨90, 0, by norm_num, by norm_num⟩ (k := 16)
    (by norm_num)
  have hc : Clear (8 * (1 / 2 ^ 24 + 1 / 10 ^ 6)) 200 300 90 := C180_clear (k := 180) (by norm_num) (by norm_num) (by norm_num) (by norm_num)
  have hne : disc 200 300 90 ≠ ∅ := disc_nonempty (i := 100) (j := 150) (by norm_num) (by norm_num) (by norm_num [pixelX, pixelY])
  obtain ⟨r, r', e1, e2, e3⟩ := C180_remove H (by norm_num) le_rfl (by norm_num) hc hne false hf
  refine ⟨A, h1, h2, C180_aperture H (by norm_num) (by norm_num) hc, r, r', e1, e2, fun i hi j hj hij => ?_⟩
  have := e3 i hi j hj hij
  simp only [Bool.false_eq_true, if_false] at this
  have hF := (abs_nonneg _).trans (hf 0 (by norm_num) 0 (by norm_num))
  have hexp := exp_rel_le (c := 6 * 0 + 78 * (1 / 2 ^ 24) + 14 * (1 / 10 ^ 6) + 3 * (16 : ℕ) * (1 / 2 ^ 24)) (by norm_num) (by norm_num)
  refine this.trans ?_
  norm_num at hexp ⊢
  nlinarith

end PySLM2.Analysis
