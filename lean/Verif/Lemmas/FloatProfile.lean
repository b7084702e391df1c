import Verif.Lemmas.FloatSim
import Mathlib.Analysis.SpecialFunctions.Trigonometric.Bounds
import Verif.Spec.FloatProfile

/-! Helper lemmas about rounding in profiles. -/

noncomputable section

open Complex

namespace PySLM2

open Spec Profile

/-- `p` is at most `q`, and `p'` is `p` up to `exp c - 1` times `q`. -/
def Within {E : Type*} [NormedField E] (c q : ℝ) (p p' : E) : Prop := ‖p‖ ≤ q ∧ ‖p' - p‖ ≤ (Real.exp c - 1) * q

namespace Within

variable {E : Type*} [NormedField E] {a b c q q1 q2 u : ℝ} {p p' p1 p1' p2 p2' : E}

theorem nonneg (h : Within c q p p') : 0 ≤ q := (norm_nonneg _).trans h.1

theorem of_near (h : Near c p p') : Within c ‖p‖ p p' := ⟨le_rfl, h⟩

theorem mono (h : Within a q p p') (hab : a ≤ b) : Within b q p p' :=
  ⟨h.1, h.2.trans (mul_le_mul_of_nonneg_right (sub_le_sub_right (Real.exp_le_exp.mpr hab) 1) h.nonneg)⟩

theorem norm_le (h : Within c q p p') : ‖p'‖ ≤ Real.exp c * q := by
  have h1 : ‖p'‖ ≤ ‖p' - p‖ + ‖p‖ := by simpa using norm_add_le (p' - p) p
  have := h.1
  have := h.2
  linarith

theorem mul (h1 : Within a q1 p1 p1') (h2 : Within b q2 p2 p2') (hb : 0 ≤ b) :
    Within (a + b) (q1 * q2) (p1 * p2) (p1' * p2') := by
  refine ⟨by rw [norm_mul]; exact mul_le_mul h1.1 h2.1 (norm_nonneg _) h1.nonneg, ?_⟩
  have e : p1' * p2' - p1 * p2 = p1' * (p2' - p2) + (p1' - p1) * p2 := by ring
  rw [e, Real.exp_add]
  have hb' := exp_sub_nonneg hb
  calc ‖p1' * (p2' - p2) + (p1' - p1) * p2‖ ≤ ‖p1'‖ * ‖p2' - p2‖ + ‖p1' - p1‖ * ‖p2‖ := by
        refine (norm_add_le _ _).trans ?_
        rw [norm_mul, norm_mul]
    _ ≤ (Real.exp a * q1) * ((Real.exp b - 1) * q2) + ((Real.exp a - 1) * q1) * q2 := by
        refine add_le_add (mul_le_mul h1.norm_le h2.2 (norm_nonneg _) ?_) (mul_le_mul h1.2 h2.1 (norm_nonneg _) ?_)
        · exact mul_nonneg (Real.exp_pos a).le h1.nonneg
        · exact (norm_nonneg _).trans h1.2
    _ = (Real.exp a * Real.exp b - 1) * (q1 * q2) := by ring

theorem add (h1 : Within c q1 p1 p1') (h2 : Within c q2 p2 p2') : Within c (q1 + q2) (p1 + p2) (p1' + p2') := by
  refine ⟨(norm_add_le _ _).trans (add_le_add h1.1 h2.1), ?_⟩
  rw [show p1' + p2' - (p1 + p2) = (p1' - p1) + (p2' - p2) by ring]
  refine (norm_add_le _ _).trans ?_
  have := h1.2
  have := h2.2
  linarith

/-- A value near the computed one. -/
theorem trans_near (h : Within c q p p') {p'' : E} (h' : Near u p' p'') (hu : 0 ≤ u) : Within (c + u) q p p'' := by
  refine ⟨h.1, ?_⟩
  have h2 : ‖p'' - p‖ ≤ ‖p'' - p'‖ + ‖p' - p‖ := by simpa using norm_add_le (p'' - p') (p' - p)
  have h4 : (Real.exp u - 1) * ‖p'‖ ≤ (Real.exp u - 1) * (Real.exp c * q) := mul_le_mul_of_nonneg_left h.norm_le (exp_sub_nonneg hu)
  have := h.2
  unfold Near at h'
  rw [Real.exp_add]
  linarith

theorem rnd {p p' : ℝ} {f : ℝ → ℝ} (hf : RelErr u f) (h : Within c q p p') : Within (c + u) q p (f p') :=
  h.trans_near (hf.near p') hf.nonneg

theorem ofReal {p p' : ℝ} (h : Within c q p p') : Within c q (p : ℂ) (p' : ℂ) :=
  ⟨by rw [norm_real]; exact h.1, by rw [← ofReal_sub, norm_real]; exact h.2⟩

end Within

theorem horner_eq_foldl (c : ℝ) (cs : List ℝ) (x : ℝ) :
    cs.foldl (fun p c => c + p * x) c = horner (c :: cs) x := by
  induction cs generalizing c with
  | nil => simp [horner]
  | cons d ds ih =>
    rw [List.foldl_cons, ih]
    simp only [horner, List.length_cons]
    ring

theorem polyval_eq_horner (cs : List ℝ) (x : ℝ) : polyval cs x = horner cs x := by
  cases cs with
  | nil => rfl
  | cons c cs => exact horner_eq_foldl c cs x

theorem CoefClose.length {g : ℝ} {C c c' : List ℝ} (h : CoefClose g C c c') : C.length = c.length ∧ c'.length = c.length := by
  induction C generalizing c c' with
  | nil => cases c <;> cases c' <;> simp_all [CoefClose]
  | cons D Ds ih =>
    cases c with
    | nil => simp [CoefClose] at h
    | cons d ds =>
      cases c' with
      | nil => simp [CoefClose] at h
      | cons d' ds' => have := ih h.2.2; simp [this.1, this.2]

/-- Horner's rule in floating point. -/
theorem polyvalR_within {rnd : ℝ → ℝ} {u g d x x' : ℝ} (hr : RelErr u rnd) (hg : 0 ≤ g) (hd : 0 ≤ d) (hx : Near d x x')
    {C c c' : List ℝ} (h : CoefClose g C c c') :
    Within (g + (d + 2 * u) * (c.length - 1 : ℕ)) (horner C |x|) (polyval c x) (polyvalR rnd c' x') := by
  have hu := hr.nonneg
  have hcoef : ∀ {D e e' : ℝ}, |e| ≤ D → |e' - e| ≤ g * D → Within g D e e' := by
    intro D e e' h1 h2
    refine ⟨h1, h2.trans (mul_le_mul_of_nonneg_right ?_ ((abs_nonneg _).trans h1))⟩
    have := Real.add_one_le_exp g
    linarith
  have main : ∀ (C c c' : List ℝ) (k Q P P' : ℝ), g ≤ k → CoefClose g C c c' → Within k Q P P' →
      Within (k + (d + 2 * u) * (c.length : ℕ)) (C.foldl (fun p c => c + p * |x|) Q) (c.foldl (fun p c => c + p * x) P)
        (c'.foldl (fun p c => rnd (c + rnd (p * x'))) P') := by
    intro C
    induction C with
    | nil =>
      intro c c' k Q P P' hk h hP
      cases c <;> cases c' <;> simp [CoefClose] at h
      simpa using hP
    | cons D Ds ih =>
      intro c c' k Q P P' hk h hP
      cases c with
      | nil => simp [CoefClose] at h
      | cons e es =>
        cases c' with
        | nil => simp [CoefClose] at h
        | cons e' es' =>
          obtain ⟨h1, h2, h3⟩ := h
          have hstep : Within (k + (d + 2 * u)) (D + Q * ‖x‖) (e + P * x) (rnd (e' + rnd (P' * x'))) := by
            have hm := (hP.mul (Within.of_near hx) hd).rnd hr
            exact (((hcoef h1 h2).mono (by linarith : g ≤ k + d + u)).add hm).rnd hr |>.mono (by linarith)
          have := ih es es' _ _ _ _ (by linarith) h3 hstep
          simp only [List.foldl_cons]
          refine this.mono (le_of_eq ?_)
          push_cast [List.length_cons]
          ring
  cases C with
  | nil =>
    cases c <;> cases c' <;> simp [CoefClose] at h
    simp only [horner, polyval, polyvalR]
    exact ⟨by simp, by simp⟩
  | cons D Ds =>
    cases c with
    | nil => simp [CoefClose] at h
    | cons e es =>
      cases c' with
      | nil => simp [CoefClose] at h
      | cons e' es' =>
        obtain ⟨h1, h2, h3⟩ := h
        have := main Ds es es' g D e e' le_rfl h3 (hcoef h1 h2)
        rw [horner_eq_foldl] at this
        simpa [polyval, polyvalR] using this

variable {u v : ℝ} {F : ProfArith}

theorem Spec.ProfPrecise.v_nonneg (H : ProfPrecise u v F) : 0 ≤ v := (abs_nonneg _).trans (H.cos 0)

/-- The normalised coordinate. -/
theorem norm_near (H : ProfPrecise u v F) (x x0 w : ℝ) : Near (2 * u) ((x - x0) / w) (F.rnd (F.rnd (x - x0) / w)) := by
  have hu := H.rnd.nonneg
  have h1 : Near u ((x - x0) / w) (F.rnd (x - x0) / w) := by
    have := (H.rnd.near (x - x0)).mul (Near.refl le_rfl w⁻¹) hu le_rfl
    rw [add_zero] at this
    simpa [div_eq_mul_inv] using this
  exact (H.rnd.near' h1).mono (by linarith)

theorem sqrt_two_near (H : ProfPrecise u v F) : Near (2 * u) (Real.sqrt 2) (F.rnd (F.py (Real.sqrt 2))) :=
  (H.rnd.near' (H.py.near _)).mono (by linarith)

/-- The rounded sum of the squares of two numbers known up to a relative error. -/
theorem sqsum_near (H : ProfPrecise u v F) {c x x' y y' : ℝ} (hc : 0 ≤ c) (hx : Near c x x') (hy : Near c y y') :
    Near (2 * c + 2 * u) (x ^ 2 + y ^ 2) (F.rnd (F.rnd (x' ^ 2) + F.rnd (y' ^ 2))) := by
  have hu := H.rnd.nonneg
  have sq : ∀ {z z' : ℝ}, Near c z z' → Near (2 * c + u) (z ^ 2) (F.rnd (z' ^ 2)) := by
    intro z z' hz
    refine H.rnd.near' ?_
    have := hz.mul hz hc hc
    rw [← two_mul] at this
    simpa [sq] using this
  exact (H.rnd.near' (near_add (sq hx) (sq hy) (sq_nonneg _) (sq_nonneg _))).mono (by linarith)

theorem exp_rel_le {c : ℝ} (h0 : 0 ≤ c) (h1 : c ≤ 1 / 5) : Real.exp c - 1 ≤ 7 / 6 * c := by
  have := Real.exp_bound' h0 (by linarith : c ≤ 1) (n := 2) (by norm_num)
  simp only [Finset.sum_range_succ, Finset.sum_range_zero] at this
  norm_num at this
  nlinarith

/-- `tf.exp` of the negative of a number known up to a relative error. -/
theorem exp_neg_near (H : ProfPrecise u v F) {c s s' : ℝ} (hs : 0 ≤ s) (h : Near c s s') :
    Near ((Real.exp c - 1) * s + v) (Real.exp (-s)) (F.exp (-s')) := by
  have h1 : Near ((Real.exp c - 1) * s) (Real.exp (-s)) (Real.exp (-s')) := by
    unfold Near at h ⊢
    rw [Real.norm_eq_abs, Real.norm_of_nonneg hs] at h
    rw [Real.norm_eq_abs, Real.norm_of_nonneg (Real.exp_pos _).le]
    have e : Real.exp (-s') - Real.exp (-s) = (Real.exp (-(s' - s)) - 1) * Real.exp (-s) := by
      rw [sub_mul, ← Real.exp_add]; ring_nf
    rw [e, abs_mul, abs_of_pos (Real.exp_pos _)]
    refine mul_le_mul_of_nonneg_right ?_ (Real.exp_pos _).le
    obtain ⟨h2, h3⟩ := abs_le.mp h
    set E := (Real.exp c - 1) * s
    rw [abs_le]
    constructor
    · have h4 : Real.exp (-E) ≤ Real.exp (-(s' - s)) := Real.exp_le_exp.mpr (by linarith)
      have h5 : 2 ≤ Real.exp E + Real.exp (-E) := by
        have hp := Real.exp_pos E
        have hm : Real.exp E * Real.exp (-E) = 1 := by rw [← Real.exp_add]; simp
        nlinarith [sq_nonneg (Real.exp E - Real.exp (-E)), Real.exp_pos (-E), sq_nonneg (Real.exp E + Real.exp (-E))]
      linarith
    · have : Real.exp (-(s' - s)) ≤ Real.exp E := Real.exp_le_exp.mpr (by linarith)
      linarith
  refine h1.trans (near_of_rel ?_) H.v_nonneg
  simpa [abs_of_pos (Real.exp_pos _)] using H.exp (-s')

/-- Square roots. -/
theorem sqrt_near {c s s' : ℝ} (hs : 0 ≤ s) (h : Near c s s') : Near c (Real.sqrt s) (Real.sqrt s') := by
  unfold Near at h ⊢
  rw [Real.norm_eq_abs, Real.norm_of_nonneg hs] at h
  rw [Real.norm_eq_abs, Real.norm_of_nonneg (Real.sqrt_nonneg _)]
  rcases hs.eq_or_lt with h0 | h0
  · subst h0
    rw [mul_zero, sub_zero] at h
    have : s' = 0 := abs_nonpos_iff.mp h
    simp [this]
  · have hq := Real.sqrt_pos.mpr h0
    rcases le_total s' 0 with h1 | h1
    · rw [Real.sqrt_eq_zero_of_nonpos h1, zero_sub, abs_neg, abs_of_pos hq]
      rw [abs_of_nonpos (by linarith)] at h
      have : (1 : ℝ) ≤ Real.exp c - 1 := by
        by_contra hc
        push Not at hc
        nlinarith
      nlinarith
    · have e : (Real.sqrt s' - Real.sqrt s) * (Real.sqrt s' + Real.sqrt s) = s' - s := by
        have h4 := Real.mul_self_sqrt h1
        have h5 := Real.mul_self_sqrt hs
        linear_combination h4 - h5
      have h2 : |Real.sqrt s' - Real.sqrt s| * Real.sqrt s ≤ |s' - s| := by
        rw [← e, abs_mul]
        refine mul_le_mul_of_nonneg_left ?_ (abs_nonneg _)
        rw [abs_of_nonneg (by positivity)]
        linarith [Real.sqrt_nonneg s']
      have h3 : |Real.sqrt s' - Real.sqrt s| * Real.sqrt s ≤ (Real.exp c - 1) * Real.sqrt s * Real.sqrt s := by
        rw [mul_assoc, Real.mul_self_sqrt hs]
        exact h2.trans h
      exact le_of_mul_le_mul_right h3 hq

/-- Powers with non-negative exponents. -/
theorem rpow_near {c s s' p : ℝ} (hc : 0 ≤ c) (hc' : c ≤ 1 / 4) (hs : 0 ≤ s) (hs' : 0 ≤ s') (hp : 0 ≤ p) (h : Near c s s') :
    Near (2 * c * p) (s ^ p) (s' ^ p) := by
  have h1 := h.norm_le
  have h2 := h.le_norm hc hc'
  rw [Real.norm_of_nonneg hs, Real.norm_of_nonneg hs'] at h1 h2
  have h3 : s' ^ p ≤ Real.exp (2 * c * p) * s ^ p := by
    refine (Real.rpow_le_rpow hs' h1 hp).trans ?_
    rw [Real.mul_rpow (Real.exp_pos _).le hs, ← Real.exp_mul]
    refine mul_le_mul_of_nonneg_right (Real.exp_le_exp.mpr ?_) (Real.rpow_nonneg hs _)
    nlinarith [mul_nonneg hc hp]
  have h4 : s ^ p ≤ Real.exp (2 * c * p) * s' ^ p := by
    refine (Real.rpow_le_rpow hs h2 hp).trans ?_
    rw [Real.mul_rpow (Real.exp_pos _).le hs', ← Real.exp_mul]
  have h5 := Real.rpow_nonneg hs p
  have h6 := Real.rpow_nonneg hs' p
  have h7 : 1 ≤ Real.exp (2 * c * p) := Real.one_le_exp (by positivity)
  unfold Near
  rw [Real.norm_eq_abs, Real.norm_of_nonneg h5, abs_le]
  constructor
  · have hpos := Real.exp_pos (2 * c * p)
    by_contra hcon
    push Not at hcon
    have : Real.exp (2 * c * p) * s' ^ p < Real.exp (2 * c * p) * (s ^ p - (Real.exp (2 * c * p) - 1) * s ^ p) :=
      mul_lt_mul_of_pos_left (by linarith) hpos
    nlinarith [mul_nonneg h5 (sq_nonneg (Real.exp (2 * c * p) - 1))]
  · linarith

theorem near_nonneg {c s s' : ℝ} (hc' : c ≤ 1 / 4) (hs : 0 ≤ s) (h : Near c s s') : 0 ≤ s' := by
  unfold Near at h
  rw [Real.norm_eq_abs, Real.norm_of_nonneg hs] at h
  have h1 := exp_quarter
  have h2 : Real.exp c ≤ Real.exp (1 / 4) := Real.exp_le_exp.mpr hc'
  have := (abs_le.mp h).1
  nlinarith

/-- Unit complex numbers whose angles are close. -/
theorem norm_exp_sub_le (a b : ℝ) : ‖cexp (-I * a) - cexp (-I * b)‖ ≤ |a - b| := by
  have e : cexp (-I * a) - cexp (-I * b) = cexp (-I * b) * (cexp (I * ((b - a : ℝ) : ℂ)) - 1) := by
    rw [mul_sub, ← Complex.exp_add]
    push_cast
    ring_nf
  rw [e, norm_mul, show -I * (b : ℂ) = ((-b : ℝ) : ℂ) * I by push_cast; ring, Complex.norm_exp_ofReal_mul_I, one_mul]
  have := Real.norm_exp_I_mul_ofReal_sub_one_le (x := b - a)
  rwa [Real.norm_eq_abs, abs_sub_comm] at this

/-- The powers of two unit numbers. -/
theorem norm_zpow_sub_le {z z' : ℂ} (hz : ‖z‖ = 1) (hz' : ‖z'‖ = 1) (n : ℕ) : ‖z' ^ n - z ^ n‖ ≤ n * ‖z' - z‖ := by
  induction n with
  | zero => simp
  | succ n ih =>
    have e : z' ^ (n + 1) - z ^ (n + 1) = z' ^ n * (z' - z) + (z' ^ n - z ^ n) * z := by ring
    rw [e]
    refine (norm_add_le _ _).trans ?_
    rw [norm_mul, norm_mul, norm_pow, hz, hz', one_pow, one_mul, mul_one]
    push_cast
    linarith

/-- The direction of a complex number. -/
theorem norm_exp_arg_sub_le {z z' : ℂ} (hz : z ≠ 0) (hz' : z' ≠ 0) :
    ‖cexp (I * arg z') - cexp (I * arg z)‖ * ‖z‖ ≤ 2 * ‖z' - z‖ := by
  have e : (‖z‖ : ℂ) * (cexp (I * arg z') - cexp (I * arg z)) = (z' - z) + ((‖z‖ - ‖z'‖ : ℝ) : ℂ) * cexp (I * arg z') := by
    have h1 := norm_mul_exp_arg_mul_I z
    have h2 := norm_mul_exp_arg_mul_I z'
    rw [mul_comm I, mul_comm I]
    push_cast
    linear_combination -h1 + h2
  have h3 : ‖cexp (I * arg z') - cexp (I * arg z)‖ * ‖z‖ = ‖(‖z‖ : ℂ) * (cexp (I * arg z') - cexp (I * arg z))‖ := by
    rw [norm_mul, norm_real, norm_norm, mul_comm]
  rw [h3, e]
  refine (norm_add_le _ _).trans ?_
  rw [norm_mul, norm_real, mul_comm I, norm_exp_ofReal_mul_I, mul_one, Real.norm_eq_abs, abs_sub_comm]
  have := abs_norm_sub_norm_le z' z
  linarith

theorem exp_phase (l : ℤ) (t : ℝ) : cexp (-I * l * t) = if 0 ≤ l then (starRingEnd ℂ) (cexp (I * t)) ^ l.natAbs else cexp (I * t) ^ l.natAbs := by
  have h : (starRingEnd ℂ) (cexp (I * t)) = cexp (-I * t) := by
    rw [← Complex.exp_conj]
    simp
  split
  · rename_i h0
    obtain ⟨n, rfl⟩ := Int.eq_ofNat_of_zero_le h0
    rw [h, ← Complex.exp_nat_mul]
    congr 1
    simp
    ring
  · rename_i h0
    obtain ⟨n, rfl⟩ := Int.eq_negSucc_of_lt_zero (not_le.mp h0)
    rw [← Complex.exp_nat_mul]
    congr 1
    rw [Int.natAbs_negSucc, Int.cast_negSucc]
    push_cast
    ring

/-- The phase `-l φ` of directions. -/
theorem norm_exp_phase_sub_le {z z' : ℂ} (l : ℤ) :
    ‖cexp (-I * l * arg z') - cexp (-I * l * arg z)‖ ≤ l.natAbs * ‖cexp (I * arg z') - cexp (I * arg z)‖ := by
  have n1 : ∀ z : ℂ, ‖cexp (I * arg z)‖ = 1 := fun z => by rw [mul_comm, norm_exp_ofReal_mul_I]
  rw [exp_phase, exp_phase]
  split
  · refine (norm_zpow_sub_le ?_ ?_ _).trans (le_of_eq ?_)
    · rw [Complex.norm_conj, n1]
    · rw [Complex.norm_conj, n1]
    · rw [← map_sub, Complex.norm_conj]
  · exact norm_zpow_sub_le (n1 _) (n1 _) _

/-- The azimuthal phase of a Laguerre-Gaussian profile. -/
theorem phase_near (H : ProfPrecise u v F) (hu : u ≤ 1 / 100) {dx dy : ℝ} (h0 : (dx, dy) ≠ (0, 0)) (l : ℤ) :
    Near (v + l.natAbs * (6 * u + v)) (cexp (-I * l * (atan2 dy dx : ℝ))) (F.expC (-I * F.rnd (l * F.atan2 (F.rnd dy) (F.rnd dx)))) := by
  have hu0 := H.rnd.nonneg
  have hv := H.v_nonneg
  set z : ℂ := ⟨dx, dy⟩ with hz
  set z' : ℂ := ⟨F.rnd dx, F.rnd dy⟩ with hz'
  have hzne : z ≠ 0 := by
    intro h
    exact h0 (by rw [Prod.mk.injEq]; exact ⟨congrArg Complex.re h, congrArg Complex.im h⟩)
  have hzpos : 0 < ‖z‖ := norm_pos_iff.mpr hzne
  have hd : ‖z' - z‖ ≤ u * ‖z‖ := by
    have h1 : ‖z' - z‖ ^ 2 ≤ (u * ‖z‖) ^ 2 := by
      rw [mul_pow, ← normSq_eq_norm_sq, ← normSq_eq_norm_sq, normSq_apply, normSq_apply]
      have hx := sq_le_sq' (by have := (abs_nonneg _).trans (H.rnd dx); have := neg_abs_le (F.rnd dx - dx); have := H.rnd dx; linarith)
        ((le_abs_self _).trans (H.rnd dx))
      have hy := sq_le_sq' (by have := (abs_nonneg _).trans (H.rnd dy); have := neg_abs_le (F.rnd dy - dy); have := H.rnd dy; linarith)
        ((le_abs_self _).trans (H.rnd dy))
      rw [mul_pow, sq_abs] at hx hy
      simp only [hz, hz', sub_re, sub_im]
      nlinarith
    exact (sq_le_sq₀ (norm_nonneg _) (by positivity)).mp h1
  have hz'ne : z' ≠ 0 := by
    intro h
    rw [h, zero_sub, norm_neg] at hd
    nlinarith
  have hpair : (F.rnd dx, F.rnd dy) ≠ (0, 0) := by
    intro h
    rw [Prod.mk.injEq] at h
    exact hz'ne (Complex.ext h.1 h.2)
  obtain ⟨k, hk⟩ := H.atan2 _ _ hpair
  have hdir : ‖cexp (I * arg z') - cexp (I * arg z)‖ ≤ 2 * u := by
    have h1 := norm_exp_arg_sub_le hzne hz'ne
    have h2 : ‖cexp (I * arg z') - cexp (I * arg z)‖ * ‖z‖ ≤ 2 * u * ‖z‖ := by linarith
    exact le_of_mul_le_mul_right h2 hzpos
  set φ := F.atan2 (F.rnd dy) (F.rnd dx) with hφ
  have hl : (0 : ℝ) ≤ l.natAbs := Nat.cast_nonneg _
  have habs : |(l : ℝ)| = l.natAbs := by rw [Nat.cast_natAbs, Int.cast_abs]
  -- the computed phase against the exact exponential of the computed angle
  have e1 := H.expC (F.rnd (l * φ))
  have e2 : ‖cexp (-I * (F.rnd (l * φ) : ℝ)) - cexp (-I * ((l * φ : ℝ) : ℂ))‖ ≤ l.natAbs * (4 * u) := by
    refine (norm_exp_sub_le _ _).trans ((H.rnd _).trans ?_)
    rw [abs_mul, habs]
    have := mul_le_mul_of_nonneg_left (H.atan2_le (F.rnd dx) (F.rnd dy)) (mul_nonneg hu0 hl)
    linarith
  have e3 : ‖cexp (-I * ((l * φ : ℝ) : ℂ)) - cexp (-I * l * arg z')‖ ≤ l.natAbs * v := by
    have per : cexp (-I * l * arg z') = cexp (-I * ((l * (arg z' + k * (2 * Real.pi)) : ℝ) : ℂ)) := by
      refine Complex.exp_eq_exp_iff_exists_int.mpr ⟨l * k, ?_⟩
      push_cast
      ring
    rw [per]
    refine (norm_exp_sub_le _ _).trans ?_
    rw [← mul_sub, abs_mul, habs]
    exact mul_le_mul_of_nonneg_left hk hl
  have e4 : ‖cexp (-I * l * arg z') - cexp (-I * l * arg z)‖ ≤ l.natAbs * (2 * u) :=
    (norm_exp_phase_sub_le l).trans (mul_le_mul_of_nonneg_left hdir hl)
  have hone : ‖cexp (-I * l * (atan2 dy dx : ℝ))‖ = 1 := by
    rw [show -I * (l : ℂ) * ((atan2 dy dx : ℝ) : ℂ) = ((-(l * atan2 dy dx) : ℝ) : ℂ) * I by push_cast; ring, norm_exp_ofReal_mul_I]
  refine near_of_rel ?_
  rw [hone, mul_one]
  have tri : ∀ a b c d e : ℂ, ‖a - e‖ ≤ ‖a - b‖ + ‖b - c‖ + ‖c - d‖ + ‖d - e‖ := by
    intro a b c d e
    have := norm_add_le (a - b) (b - e)
    have := norm_add_le (b - c) (c - e)
    have := norm_add_le (c - d) (d - e)
    simp only [sub_add_sub_cancel] at *
    linarith
  refine (tri _ _ _ _ _).trans ((add_le_add (add_le_add (add_le_add e1 e2) e3) e4).trans (le_of_eq ?_))
  ring

/-- `tf.cos(m * phi)` and `tf.sin(m * phi)`. -/
theorem trig_close (H : ProfPrecise u v F) {x y : ℝ} (h0 : (x, y) ≠ (0, 0)) (m : ℤ) :
    |F.cos (F.rnd (m * F.atan2 y x)) - Real.cos (m * atan2 y x)| ≤ v + |(m : ℝ)| * (4 * u + v) ∧
    |F.sin (F.rnd (m * F.atan2 y x)) - Real.sin (m * atan2 y x)| ≤ v + |(m : ℝ)| * (4 * u + v) := by
  have hu0 := H.rnd.nonneg
  obtain ⟨k, hk⟩ := H.atan2 _ _ h0
  have h1 : |F.rnd (m * F.atan2 y x) - (m * atan2 y x + (m * k : ℤ) * (2 * Real.pi))| ≤ |(m : ℝ)| * (4 * u + v) := by
    have a1 := H.rnd (m * F.atan2 y x)
    rw [abs_mul] at a1
    have a2 := mul_le_mul_of_nonneg_left (H.atan2_le x y) (mul_nonneg hu0 (abs_nonneg (m : ℝ)))
    have a3 : |(m : ℝ) * F.atan2 y x - (m * atan2 y x + (m * k : ℤ) * (2 * Real.pi))| ≤ |(m : ℝ)| * v := by
      rw [show (m : ℝ) * F.atan2 y x - (m * atan2 y x + (m * k : ℤ) * (2 * Real.pi)) =
        m * (F.atan2 y x - (Complex.arg ⟨x, y⟩ + k * (2 * Real.pi))) by unfold atan2; push_cast; ring, abs_mul]
      exact mul_le_mul_of_nonneg_left hk (abs_nonneg _)
    have a4 := abs_sub_le (F.rnd (m * F.atan2 y x)) (m * F.atan2 y x) (m * atan2 y x + (m * k : ℤ) * (2 * Real.pi))
    nlinarith
  constructor
  · have h2 := H.cos (F.rnd (m * F.atan2 y x))
    have h3 := Real.abs_cos_sub_cos_le (F.rnd (m * F.atan2 y x)) (m * atan2 y x + (m * k : ℤ) * (2 * Real.pi))
    rw [Real.cos_add_int_mul_two_pi] at h3
    have := abs_sub_le (F.cos (F.rnd (m * F.atan2 y x))) (Real.cos (F.rnd (m * F.atan2 y x))) (Real.cos (m * atan2 y x))
    linarith
  · have h2 := H.sin (F.rnd (m * F.atan2 y x))
    have h3 := Real.abs_sin_sub_sin_le (F.rnd (m * F.atan2 y x)) (m * atan2 y x + (m * k : ℤ) * (2 * Real.pi))
    rw [Real.sin_add_int_mul_two_pi] at h3
    have := abs_sub_le (F.sin (F.rnd (m * F.atan2 y x))) (Real.sin (F.rnd (m * F.atan2 y x))) (Real.sin (m * atan2 y x))
    linarith

end PySLM2
