import Verif.Lemmas.Float
import Mathlib.Analysis.SpecialFunctions.Trigonometric.Bounds
import Mathlib.Analysis.SpecialFunctions.Trigonometric.DerivHyp
import Mathlib.Analysis.Calculus.MeanValue

/-!
# Rounding errors of the gratings
-/

noncomputable section

namespace PySLM2

open Spec

namespace FloatGrating

theorem arccos_cos_le (y : ℝ) : Real.arccos (Real.cos y) ≤ |y| := by
  rcases le_total |y| Real.pi with h | h
  · rw [← Real.cos_abs, Real.arccos_cos (abs_nonneg _) h]
  · exact (Real.arccos_le_pi _).trans h

theorem arccos_cos_le_add (x y : ℝ) : Real.arccos (Real.cos y) ≤ Real.arccos (Real.cos x) + |x - y| := by
  have hpi := Real.pi_pos
  set k : ℤ := round (x / (2 * Real.pi))
  have hk : |x - k * (2 * Real.pi)| ≤ Real.pi := by
    have h := abs_sub_round (x / (2 * Real.pi))
    have e : x - k * (2 * Real.pi) = (x / (2 * Real.pi) - k) * (2 * Real.pi) := by field_simp
    rw [e, abs_mul, abs_of_pos (a := 2 * Real.pi) (by positivity)]
    nlinarith
  have hx : Real.arccos (Real.cos x) = |x - k * (2 * Real.pi)| := by
    rw [← Real.cos_sub_int_mul_two_pi x k, ← Real.cos_abs, Real.arccos_cos (abs_nonneg _) hk]
  rw [hx, ← Real.cos_sub_int_mul_two_pi y k]
  refine (arccos_cos_le _).trans ?_
  calc |y - k * (2 * Real.pi)| = |(x - k * (2 * Real.pi)) - (x - y)| := by ring_nf
    _ ≤ _ := abs_sub _ _

/-- Folding a phase into `[0, π]` does not increase distances. -/
theorem arccos_cos_lipschitz (x y : ℝ) : |Real.arccos (Real.cos x) - Real.arccos (Real.cos y)| ≤ |x - y| := by
  have h1 := arccos_cos_le_add x y
  have h2 := arccos_cos_le_add y x
  rw [abs_sub_comm y x] at h2
  exact abs_le.mpr ⟨by linarith, by linarith⟩

/-- `arccos` is Hölder continuous. -/
theorem arccos_holder {a b e : ℝ} (ha : |a| ≤ 1) (hb : |b| ≤ 1) (h : |a - b| ≤ e) :
    |Real.arccos a - Real.arccos b| ≤ 3 * √e := by
  have hpi := Real.pi_pos
  set α := Real.arccos a with hα
  set β := Real.arccos b with hβ
  have ea : a = Real.cos α := (Real.cos_arccos (abs_le.mp ha).1 (abs_le.mp ha).2).symm
  have eb : b = Real.cos β := (Real.cos_arccos (abs_le.mp hb).1 (abs_le.mp hb).2).symm
  have a0 := Real.arccos_nonneg a
  have a1 := Real.arccos_le_pi a
  have b0 := Real.arccos_nonneg b
  have b1 := Real.arccos_le_pi b
  rw [← hα] at a0 a1
  rw [← hβ] at b0 b1
  clear_value α β
  -- the sine of half the distance
  set δ := |α - β| / 2 with hδ
  have hδ0 : 0 ≤ δ := by positivity
  have hδ1 : δ ≤ Real.pi / 2 := by
    rw [hδ]
    have : |α - β| ≤ Real.pi := abs_le.mpr ⟨by linarith, by linarith⟩
    linarith
  have hs : 2 / Real.pi * δ ≤ Real.sin δ := Real.mul_le_sin hδ0 hδ1
  have hs0 : 0 ≤ Real.sin δ := Real.sin_nonneg_of_nonneg_of_le_pi hδ0 (by linarith)
  have hsum : Real.sin δ ≤ Real.sin ((α + β) / 2) := by
    have l1 : δ ≤ (α + β) / 2 := by
      rw [hδ]
      have : |α - β| ≤ α + β := abs_le.mpr ⟨by linarith, by linarith⟩
      linarith
    have l2 : (α + β) / 2 ≤ Real.pi - δ := by
      rw [hδ]
      have : |α - β| ≤ 2 * Real.pi - (α + β) := abs_le.mpr ⟨by linarith, by linarith⟩
      linarith
    rcases le_total ((α + β) / 2) (Real.pi / 2) with hm | hm
    · exact Real.sin_le_sin_of_le_of_le_pi_div_two (by linarith) hm l1
    · rw [← Real.sin_pi_sub ((α + β) / 2)]
      exact Real.sin_le_sin_of_le_of_le_pi_div_two (by linarith) (by linarith) (by linarith)
  have hab : |a - b| = 2 * Real.sin ((α + β) / 2) * Real.sin δ := by
    rw [ea, eb, Real.cos_sub_cos, abs_mul, abs_mul, abs_neg, abs_two,
      abs_of_nonneg (a := Real.sin ((α + β) / 2)) (hs0.trans hsum)]
    congr 1
    rw [hδ]
    rcases le_total α β with hm | hm
    · rw [abs_of_nonpos (a := α - β) (by linarith), show (α - β) / 2 = -(-(α - β) / 2) by ring, Real.sin_neg, abs_neg,
        abs_of_nonneg]
      exact Real.sin_nonneg_of_nonneg_of_le_pi (by linarith) (by linarith)
    · rw [abs_of_nonneg (a := α - β) (by linarith), abs_of_nonneg]
      exact Real.sin_nonneg_of_nonneg_of_le_pi (by linarith) (by linarith)
  have hsq : 2 * Real.sin δ ^ 2 ≤ e := by
    have : 2 * Real.sin δ * Real.sin δ ≤ 2 * Real.sin ((α + β) / 2) * Real.sin δ := by gcongr
    nlinarith
  have hfin : |α - β| ≤ Real.pi * Real.sin δ := by
    have : |α - β| = Real.pi * (2 / Real.pi * δ) := by rw [hδ]; field_simp
    rw [this]
    gcongr
  have hq : Real.sin δ ≤ √(e / 2) := Real.le_sqrt_of_sq_le (by linarith)
  have hconst : Real.pi * √(e / 2) ≤ 3 * √e := by
    have he : 0 ≤ e := by nlinarith [sq_nonneg (Real.sin δ)]
    have : √(e / 2) = √e * √(1 / 2) := by rw [← Real.sqrt_mul he]; ring_nf
    rw [this]
    have h9 : √(1 / 2 : ℝ) ≤ 3 / 4 := Real.sqrt_le_iff.mpr ⟨by norm_num, by norm_num⟩
    have h4 : Real.pi ≤ 4 := Real.pi_le_four
    calc Real.pi * (√e * √(1 / 2)) ≤ 4 * (√e * (3 / 4)) := by gcongr
      _ = 3 * √e := by ring
  calc |α - β| ≤ Real.pi * Real.sin δ := hfin
    _ ≤ Real.pi * √(e / 2) := by gcongr
    _ ≤ 3 * √e := hconst

theorem tanh_lipschitz (x y : ℝ) : |Real.tanh x - Real.tanh y| ≤ |x - y| := by
  have hd : ∀ z : ℝ, HasDerivAt Real.tanh (1 / Real.cosh z ^ 2) z := by
    intro z
    have hc := (Real.cosh_pos z).ne'
    have h := (Real.hasDerivAt_sinh z).div (Real.hasDerivAt_cosh z) hc
    have e : (Real.sinh / Real.cosh : ℝ → ℝ) = Real.tanh := by
      funext w
      rw [Pi.div_apply, Real.tanh_eq_sinh_div_cosh]
    rw [e] at h
    convert! h using 1
    have := Real.cosh_sq z
    rw [show Real.cosh z * Real.cosh z - Real.sinh z * Real.sinh z = 1 by nlinarith]
  have := Convex.norm_image_sub_le_of_norm_hasDerivWithin_le (f := Real.tanh) (f' := fun z => 1 / Real.cosh z ^ 2) (s := Set.univ)
    (C := 1) (x := y) (y := x) (fun z _ => (hd z).hasDerivWithinAt) (fun z _ => by
      rw [Real.norm_eq_abs, abs_of_nonneg (by positivity)]
      rw [div_le_one (by have := Real.cosh_pos z; positivity)]
      have := Real.one_le_cosh z
      nlinarith) convex_univ (Set.mem_univ _) (Set.mem_univ _)
  simpa [Real.norm_eq_abs] using this

variable {t : ℕ} {v : ℝ} {F : Arith}

/-- `close` with a bound on the exact value; `u` is `2 ^ -t`. -/
theorem rnd_close (h : RoundsTo t F.rnd) {a b E M u : ℝ} (hu : u = 1 / 2 ^ t) (hab : |a - b| ≤ E) (hM : |b| ≤ M) :
    |F.rnd a - b| ≤ E + u * (M + E) := by
  refine (h.close hab).trans ?_
  rw [hu, div_eq_mul_one_div (|b| + E), mul_comm _ (1 / (2 : ℝ) ^ t)]
  gcongr

theorem mul_close {a b a' b' E E' : ℝ} (h1 : |a' - a| ≤ E) (h2 : |b' - b| ≤ E') :
    |a' * b' - a * b| ≤ E * (|b| + E') + |a| * E' := by
  have hE : 0 ≤ E := (abs_nonneg _).trans h1
  have hb : |b'| ≤ |b| + E' := by
    calc |b'| = |b + (b' - b)| := by ring_nf
      _ ≤ |b| + |b' - b| := abs_add_le _ _
      _ ≤ _ := by linarith
  calc |a' * b' - a * b| = |(a' - a) * b' + a * (b' - b)| := by ring_nf
    _ ≤ |a' - a| * |b'| + |a| * |b' - b| := by rw [← abs_mul, ← abs_mul]; exact abs_add_le _ _
    _ ≤ _ := by gcongr

theorem add_close {a b a' b' E E' : ℝ} (h1 : |a' - a| ≤ E) (h2 : |b' - b| ≤ E') : |a' + b' - (a + b)| ≤ E + E' := by
  calc |a' + b' - (a + b)| = |(a' - a) + (b' - b)| := by ring_nf
    _ ≤ _ := (abs_add_le _ _).trans (add_le_add h1 h2)

theorem sub_close {a b a' b' E E' : ℝ} (h1 : |a' - a| ≤ E) (h2 : |b' - b| ≤ E') : |a' - b' - (a - b)| ≤ E + E' := by
  calc |a' - b' - (a - b)| = |(a' - a) - (b' - b)| := by ring_nf
    _ ≤ _ := (abs_sub _ _).trans (add_le_add h1 h2)

/-- One term `cos(theta) * x` of the grating phase. -/
theorem term_close (h : RoundsTo t F.rnd) {u : ℝ} (hu : u = 1 / 2 ^ t) (hu1 : u ≤ 1 / 16) (hv1 : v ≤ 1 / 16)
    {c c' x x' : ℝ} (hc1 : |c| ≤ 1) (hc : |c' - c| ≤ v) (hx : |x' - x| ≤ 3 * u * |x|) :
    |F.rnd (c' * x') - c * x| ≤ (2 * v + 5 * u) * |x| := by
  have hu0 : 0 ≤ u := by rw [hu]; positivity
  have hv0 : 0 ≤ v := (abs_nonneg _).trans hc
  have hX := abs_nonneg x
  have h1 := mul_close hc hx
  have hcx : |c * x| ≤ |x| := by rw [abs_mul]; nlinarith
  have h2 : v * (|x| + 3 * u * |x|) + |c| * (3 * u * |x|) ≤ (2 * v + 3 * u) * |x| := by
    have a1 : |c| * (3 * u * |x|) ≤ 1 * (3 * u * |x|) := by gcongr
    have a2 : v * (3 * u * |x|) ≤ v * (1 * |x|) := by gcongr; linarith
    linarith
  refine (rnd_close h hu (h1.trans h2) hcx).trans ?_
  have a3 : u * ((2 * v + 3 * u) * |x|) ≤ u * (1 * |x|) := by gcongr; linarith
  linarith

/-- The bound on the error of the phase. -/
def phaseError (u v K D : ℝ) : ℝ := (2 * v + 16 * u) * K + 3 * u * D

theorem detuning_close (H : Precise t v F) {u : ℝ} (hu : u = 1 / 2 ^ t) (hu1 : u ≤ 1 / 16) (hv1 : v ≤ 1 / 16)
    (p theta : ℝ) (neg : Bool) (q q' : Lib.Pix) (hx : |q'.x - q.x| ≤ 3 * u * |q.x|) (hy : |q'.y - q.y| ≤ 3 * u * |q.y|)
    (hi : q'.phaseIn = q.phaseIn) (ho : q'.phaseOut = q.phaseOut) :
    |Lib.detuningR F p theta neg q' -
      (Lib.gratingPhase q.x q.y theta p - ((Lib.signedPhases neg q).2 - (Lib.signedPhases neg q).1))| ≤
    phaseError u v (|2 * Real.pi / p| * (|q.x| + |q.y|)) |q.phaseOut - q.phaseIn| := by
  have h := H.rnd
  have hu0 : 0 ≤ u := by rw [hu]; positivity
  have hv0 : 0 ≤ v := (abs_nonneg _).trans (H.cos 0)
  have t1 := term_close h hu hu1 hv1 (Real.abs_cos_le_one theta) (H.cos theta) hx
  have t2 := term_close h hu hu1 hv1 (Real.abs_sin_le_one theta) (H.sin theta) hy
  set R := |q.x| + |q.y| with hR
  have hR0 : 0 ≤ R := by positivity
  set S := Real.cos theta * q.x + Real.sin theta * q.y with hS
  have hSR : |S| ≤ R := by
    refine (abs_add_le _ _).trans (add_le_add ?_ ?_)
    · rw [abs_mul]; have := Real.abs_cos_le_one theta; nlinarith [abs_nonneg q.x]
    · rw [abs_mul]; have := Real.abs_sin_le_one theta; nlinarith [abs_nonneg q.y]
  have s1 : |F.rnd (F.cos theta * q'.x) + F.rnd (F.sin theta * q'.y) - S| ≤ (2 * v + 5 * u) * R := by
    refine (add_close t1 t2).trans (le_of_eq ?_)
    rw [hR]; ring
  have s2 : |F.rnd (F.rnd (F.cos theta * q'.x) + F.rnd (F.sin theta * q'.y)) - S| ≤ (2 * v + 7 * u) * R := by
    refine (rnd_close h hu s1 hSR).trans ?_
    have : u * ((2 * v + 5 * u) * R) ≤ u * (1 * R) := by gcongr; linarith
    linarith
  -- the prefactor
  set K := 2 * Real.pi / p with hK
  have k1 : |F.rnd (F.rnd (2 * Real.pi) / p) - K| ≤ 3 * u * |K| := by
    have := SLM.coordR_rel h (1 / p) (2 * Real.pi)
    rw [show 1 / p * F.rnd (2 * Real.pi) = F.rnd (2 * Real.pi) / p by ring,
      show 1 / p * (2 * Real.pi) = K by rw [hK]; ring, show (3 : ℝ) / 2 ^ t = 3 * u by rw [hu]; ring] at this
    exact this
  have g1 := mul_close k1 s2
  have hKa := abs_nonneg K
  have hKR : 0 ≤ |K| * R := by positivity
  have g2 : 3 * u * |K| * (|S| + (2 * v + 7 * u) * R) + |K| * ((2 * v + 7 * u) * R) ≤ (2 * v + 12 * u) * (|K| * R) := by
    have a1 : 3 * u * |K| * (|S| + (2 * v + 7 * u) * R) ≤ 3 * u * |K| * (R + (9 / 16) * R) := by
      gcongr; linarith
    nlinarith
  have hKS : |K * S| ≤ |K| * R := by rw [abs_mul]; gcongr
  have g3 := rnd_close h hu (g1.trans g2) hKS
  have g4 : |Lib.gratingPhaseR F q'.x q'.y theta p - Lib.gratingPhase q.x q.y theta p| ≤ (2 * v + 14 * u) * (|K| * R) := by
    refine g3.trans ?_
    have : u * ((2 * v + 12 * u) * (|K| * R)) ≤ u * (1 * (|K| * R)) := by gcongr; linarith
    linarith
  -- the phases
  have sp : Lib.signedPhases neg q' = Lib.signedPhases neg q := by simp only [Lib.signedPhases, hi, ho]
  set D := (Lib.signedPhases neg q).2 - (Lib.signedPhases neg q).1 with hD
  have hDa : |D| = |q.phaseOut - q.phaseIn| := by
    rw [hD, Lib.signedPhases]
    cases neg
    · rfl
    · simp only [if_true]
      rw [← abs_neg]; congr 1; ring
  have d1 : |F.rnd D - D| ≤ u * |D| := by
    have := h.err D
    rw [hu]; rw [div_eq_mul_one_div, mul_comm] at this; exact this
  have d2 := sub_close g4 d1
  have hM : |Lib.gratingPhase q.x q.y theta p - D| ≤ |K| * R + |D| := (abs_sub _ _).trans (by gcongr; exact hKS)
  have d3 := rnd_close h hu d2 hM
  rw [Lib.detuningR]
  simp only [sp]
  rw [← hDa, phaseError]
  refine d3.trans ?_
  have b1 : u * ((2 * v + 14 * u) * (|K| * R)) ≤ u * (1 * (|K| * R)) := by gcongr; linarith
  have b2 : u * (u * |D|) ≤ u * (1 * |D|) := by gcongr; linarith
  linarith

/-- The bound on the error of the grey value, for amplitude 1. -/
theorem ideal_close (H : Precise t v F) {u : ℝ} (hu : u = 1 / 2 ^ t) (hu1 : u ≤ 1 / 16)
    (p theta : ℝ) (neg : Bool) (a : ℝ) (q : Lib.Pix) {φ E : ℝ} (hE : |Lib.detuningR F p theta neg q - φ| ≤ E) :
    |Lib.idealPixelR F p theta neg a q - a * (Real.cos φ / 2 + 0.5)| ≤ |a| * (v + 3 * u + E) := by
  have h := H.rnd
  have hu0 : 0 ≤ u := by rw [hu]; positivity
  have hv0 : 0 ≤ v := (abs_nonneg _).trans (H.cos 0)
  have hE0 : 0 ≤ E := (abs_nonneg _).trans hE
  have c1 : |F.cos (Lib.detuningR F p theta neg q) - Real.cos φ| ≤ v + E := by
    have a1 := H.cos (Lib.detuningR F p theta neg q)
    have a2 := (Real.abs_cos_sub_cos_le (Lib.detuningR F p theta neg q) φ).trans hE
    calc _ = |(F.cos (Lib.detuningR F p theta neg q) - Real.cos (Lib.detuningR F p theta neg q)) +
          (Real.cos (Lib.detuningR F p theta neg q) - Real.cos φ)| := by ring_nf
      _ ≤ _ := (abs_add_le _ _).trans (add_le_add a1 a2)
  set e := (v + E) / 2 with he
  have he0 : 0 ≤ e := by positivity
  have hcos := Real.abs_cos_le_one φ
  have c2 : |F.cos (Lib.detuningR F p theta neg q) / 2 - Real.cos φ / 2| ≤ e := by
    rw [← sub_div, abs_div, abs_two, he]
    linarith
  have c3 := rnd_close h hu c2 (M := 1 / 2) (by rw [abs_div, abs_two]; linarith)
  have c4 : |F.rnd (F.cos (Lib.detuningR F p theta neg q) / 2) + 0.5 - (Real.cos φ / 2 + 0.5)| ≤ e + u * (1 / 2 + e) := by
    refine le_trans (le_of_eq ?_) c3
    congr 1; ring
  have hg : |Real.cos φ / 2 + 0.5| ≤ 1 := by
    obtain ⟨h1, h2⟩ := abs_le.mp hcos
    exact abs_le.mpr ⟨by norm_num; linarith, by norm_num; linarith⟩
  have c5 := rnd_close h hu c4 hg
  have ha := abs_nonneg a
  have c6 : |a * F.rnd (F.rnd (F.cos (Lib.detuningR F p theta neg q) / 2) + 0.5) - a * (Real.cos φ / 2 + 0.5)| ≤
      |a| * (e + u * (1 / 2 + e) + u * (1 + (e + u * (1 / 2 + e)))) := by
    rw [← mul_sub, abs_mul]
    gcongr
  have c7 := rnd_close h hu c6 (M := |a|) (by rw [abs_mul]; nlinarith)
  rw [Lib.idealPixelR]
  refine c7.trans ?_
  set g := e + u * (1 / 2 + e) + u * (1 + (e + u * (1 / 2 + e))) with hgdef
  have : |a| * g + u * (|a| + |a| * g) = |a| * (g + u * (1 + g)) := by ring
  rw [this]
  refine mul_le_mul_of_nonneg_left ?_ ha
  have q1 : u * e ≤ 1 / 16 * e := by gcongr
  have q2 : u * u ≤ 1 / 16 * u := by gcongr
  have q3 : u * (u * e) ≤ 1 / 16 * (1 / 16 * e) := by
    have : 0 ≤ u * e := by positivity
    nlinarith
  have q4 : u * (u * u) ≤ 1 / 16 * (1 / 16 * u) := by
    have : 0 ≤ u * u := by positivity
    nlinarith
  have q5 : u * (u * (u * e)) ≤ 1 / 16 * (1 / 16 * (1 / 16 * e)) := by
    have : 0 ≤ u * (u * e) := by positivity
    nlinarith
  rw [hgdef]
  have e2 : v + E = 2 * e := by rw [he]; ring
  nlinarith

theorem duty_arith {B r u v : ℝ} (hB : 0 ≤ B) (hr : 0 ≤ r) (hu : 0 ≤ u) (hv : 0 ≤ v) :
    1.2 * (r * (1.2 * B + 13 * u) + v) + 3 * u ≤ r * (2 * B + 16 * u) + 2 * v + 3 * u := by
  have h1 : 0 ≤ r * B := by positivity
  have h2 : 0 ≤ r * u := by positivity
  linarith

theorem duty_arith2 {G u : ℝ} (hG : 0 ≤ G) (hu0 : 0 ≤ u) (hu1 : u ≤ 1 / 16) :
    0.5 * (G + G + u * (2 + (G + G))) + u * (1 + 0.5 * (G + G + u * (2 + (G + G)))) ≤ 1.2 * G + 3 * u := by
  have q1 : u * G ≤ 1 / 16 * G := by gcongr
  have q2 : u * u ≤ 1 / 16 * u := by gcongr
  have q3 : u * (u * G) ≤ u * G := by
    have : 0 ≤ u * G := by positivity
    nlinarith
  nlinarith

theorem duty_arith3 {B u : ℝ} (hB : 0 ≤ B) (hu0 : 0 ≤ u) (hu1 : u ≤ 1 / 16) :
    B + u * (6 + B) + u * (6 + (B + u * (6 + B))) ≤ 1.2 * B + 13 * u := by
  have q1 : u * B ≤ 1 / 16 * B := by gcongr
  have q2 : u * u ≤ 1 / 16 * u := by gcongr
  have q3 : u * (u * B) ≤ u * B := by
    have : 0 ≤ u * B := by positivity
    nlinarith
  nlinarith

theorem duty_close (H : Precise t v F) {u : ℝ} (hu : u = 1 / 2 ^ t) (hu1 : u ≤ 1 / 16)
    (p theta r : ℝ) (neg : Bool) {a : ℝ} (ha : |a| ≤ 1) (q : Lib.Pix) {φ E : ℝ}
    (hE : |Lib.detuningR F p theta neg q - φ| ≤ E) :
    |Lib.randomDutyR F p theta r neg a q - 0.5 * (Real.tanh (r * (Real.arccos (Real.cos φ) + Real.arcsin a)) -
      Real.tanh (r * (Real.arccos (Real.cos φ) - Real.arcsin a)))| ≤
    |r| * (2 * (E + 2 * v + 3 * √v) + 16 * u) + 2 * v + 3 * u := by
  have h := H.rnd
  have hu0 : 0 ≤ u := by rw [hu]; positivity
  have hv0 : 0 ≤ v := (abs_nonneg _).trans (H.cos 0)
  have hE0 : 0 ≤ E := (abs_nonneg _).trans hE
  have hr0 := abs_nonneg r
  set ψ := Lib.detuningR F p theta neg q with hψ
  set pp := Real.arccos (Real.cos φ) with hpp
  set w := Real.arcsin a with hw
  set A := E + v + 3 * √v with hA
  have hA0 : 0 ≤ A := by positivity
  -- the folded phase
  have c1 : |F.acos (F.cos ψ) - pp| ≤ A := by
    have a1 := H.acos (F.cos ψ) (H.cos_range ψ)
    have a2 := arccos_holder (H.cos_range ψ) (Real.abs_cos_le_one ψ) (H.cos ψ)
    have a3 := (arccos_cos_lipschitz ψ φ).trans hE
    rw [abs_le] at a1 a2 a3 ⊢
    rw [hA]
    constructor <;> linarith [a1.1, a2.1, a3.1, a1.2, a2.2, a3.2]
  have c2 := H.asin a ha
  have hp4 : Real.pi ≤ 4 := Real.pi_le_four
  have hpp0 : 0 ≤ pp := Real.arccos_nonneg _
  have hpp1 : pp ≤ Real.pi := Real.arccos_le_pi _
  have hw0 := Real.neg_pi_div_two_le_arcsin a
  have hw1 := Real.arcsin_le_pi_div_two a
  -- one of the two hyperbolic tangents
  have branch : ∀ z z' : ℝ, |z' - z| ≤ A + v → |z| ≤ 6 →
      |F.tanh (F.rnd (r * F.rnd z')) - Real.tanh (r * z)| ≤ |r| * (1.2 * (A + v) + 13 * u) + v := by
    intro z z' hz hz5
    have b1 := rnd_close h hu hz hz5
    have b2 : |r * F.rnd z' - r * z| ≤ |r| * (A + v + u * (6 + (A + v))) := by
      rw [← mul_sub, abs_mul]; gcongr
    have b3 := rnd_close h hu b2 (M := |r| * 6) (by rw [abs_mul]; gcongr)
    have b4 := H.tanh (F.rnd (r * F.rnd z'))
    have b5 := (tanh_lipschitz (F.rnd (r * F.rnd z')) (r * z)).trans b3
    have b6 : |r| * (A + v + u * (6 + (A + v))) + u * (|r| * 6 + |r| * (A + v + u * (6 + (A + v)))) ≤
        |r| * (1.2 * (A + v) + 13 * u) := by
      have : |r| * (A + v + u * (6 + (A + v))) + u * (|r| * 6 + |r| * (A + v + u * (6 + (A + v)))) =
          |r| * (A + v + u * (6 + (A + v)) + u * (6 + (A + v + u * (6 + (A + v))))) := by ring
      rw [this]
      refine mul_le_mul_of_nonneg_left ?_ hr0
      exact duty_arith3 (by positivity) hu0 hu1
    calc _ = |(F.tanh (F.rnd (r * F.rnd z')) - Real.tanh (F.rnd (r * F.rnd z'))) +
          (Real.tanh (F.rnd (r * F.rnd z')) - Real.tanh (r * z))| := by ring_nf
      _ ≤ v + |r| * (1.2 * (A + v) + 13 * u) := (abs_add_le _ _).trans (add_le_add b4 (b5.trans b6))
      _ = _ := by ring
  have t1 := branch (pp + w) (F.acos (F.cos ψ) + F.asin a) (add_close c1 c2) (abs_le.mpr ⟨by linarith, by linarith⟩)
  have t2 := branch (pp - w) (F.acos (F.cos ψ) - F.asin a) (sub_close c1 c2) (abs_le.mpr ⟨by linarith, by linarith⟩)
  have d1 := sub_close t1 t2
  set G := |r| * (1.2 * (A + v) + 13 * u) + v with hG
  have hG0 : 0 ≤ G := by positivity
  set T1 := Real.tanh (r * (pp + w)) with hT1
  set T2 := Real.tanh (r * (pp - w)) with hT2
  have hT : |T1 - T2| ≤ 2 := by
    have l1 := Real.tanh_lt_one (r * (pp + w))
    have l2 := Real.neg_one_lt_tanh (r * (pp + w))
    have l3 := Real.tanh_lt_one (r * (pp - w))
    have l4 := Real.neg_one_lt_tanh (r * (pp - w))
    rw [← hT1] at l1 l2
    rw [← hT2] at l3 l4
    exact abs_le.mpr ⟨by linarith, by linarith⟩
  have d2 := rnd_close h hu d1 hT
  have d3 : |0.5 * F.rnd (F.tanh (F.rnd (r * F.rnd (F.acos (F.cos ψ) + F.asin a))) -
      F.tanh (F.rnd (r * F.rnd (F.acos (F.cos ψ) - F.asin a)))) - 0.5 * (T1 - T2)| ≤ 0.5 * (G + G + u * (2 + (G + G))) := by
    rw [← mul_sub, abs_mul, abs_of_pos (a := (0.5 : ℝ)) (by norm_num)]
    gcongr
  have d4 := rnd_close h hu d3 (M := 1) (by
    rw [abs_mul, abs_of_pos (a := (0.5 : ℝ)) (by norm_num)]; norm_num; linarith)
  rw [Lib.randomDutyR]
  refine d4.trans ?_
  have step := duty_arith2 hG0 hu0 hu1
  refine step.trans ?_
  have hAv : A + v = E + 2 * v + 3 * √v := by rw [hA]; ring
  rw [hG, ← hAv]
  exact duty_arith (by positivity) hr0 hu0 hv0

end FloatGrating

end PySLM2
