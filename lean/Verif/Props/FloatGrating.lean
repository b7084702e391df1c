import Verif.Lemmas.FloatGrating
import Verif.Props.Float
import Mathlib.MeasureTheory.Measure.Lebesgue.Basic

/-!
# What rounding does to the gratings (C103, C104)
-/

noncomputable section

namespace PySLM2

open Spec Rounded FloatGrating Lib MeasureTheory

variable {t : ℕ} {v : ℝ} {F : Arith}

theorem detuning_eq (s : SLM) (p θ : ℝ) (neg : Bool) (a φin φout : ℝ) (i j : ℕ) :
    gratingPhase (pix s a φin φout i j).x (pix s a φin φout i j).y θ p -
      ((signedPhases neg (pix s a φin φout i j)).2 - (signedPhases neg (pix s a φin φout i j)).1) =
    detuning s p θ neg φin φout i j := by
  cases neg <;> simp only [gratingPhase, pix, signedPhases, detuning, if_true] <;> simp <;> ring

theorem u_le (ht : 4 ≤ t) : (1 : ℝ) / 2 ^ t ≤ 1 / 16 := by
  refine one_div_le_one_div_of_le (by norm_num) ?_
  calc (16 : ℝ) = 2 ^ 4 := by norm_num
    _ ≤ 2 ^ t := pow_le_pow_right₀ (by norm_num) ht

theorem detuningR_close (H : Precise t v F) (ht : 4 ≤ t) (hv : v ≤ 1 / 16) (s : SLM) (hx : s.Nx * 16 ≤ 2 ^ t)
    (hy : s.Ny * 16 ≤ 2 ^ t) (p θ : ℝ) (neg : Bool) (a φin φout : ℝ) {i j : ℕ} (hi : i ≤ s.Ny) (hj : j ≤ s.Nx) :
    |detuningR F p θ neg (pixR F s a φin φout i j) - detuning s p θ neg φin φout i j| ≤
      (2 * v + 16 * (1 / 2 ^ t)) * carrier s p i j + 3 * (1 / 2 ^ t) * |φout - φin| := by
  obtain ⟨ax, ay⟩ := SLM.C102_accuracy H.rnd s hx hy hi hj
  have e : (3 : ℝ) / 2 ^ t = 3 * (1 / 2 ^ t) := by ring
  rw [e] at ax ay
  have := detuning_close H rfl (u_le ht) hv p θ neg (pix s a φin φout i j) (pixR F s a φin φout i j) ax ay rfl rfl
  rw [detuning_eq] at this
  exact this

/-- The exact model computes the grey value. -/
theorem simplePixel_eq (s : SLM) {p : ℝ} (hp : p ≠ 0) (θ : ℝ) (neg : Bool) (a φin φout : ℝ) (i j : ℕ) :
    simplePixel p θ neg (pix s a φin φout i j) = true ↔ 1 / 2 < grey s p θ neg a φin φout i j := by
  have : grey s p θ neg a φin φout i j = a * (Real.cos (gratingPhase (pix s a φin φout i j).x (pix s a φin φout i j).y θ p -
      ((signedPhases neg (pix s a φin φout i j)).2 - (signedPhases neg (pix s a φin φout i j)).1)) / 2 + 0.5) := by
    rw [detuning_eq, grey]; norm_num
  classical
  rw [simplePixel, decide_eq_true_iff, idealPixel, if_neg hp, this, show (1 / 2 : ℝ) = 0.5 by norm_num]
  rfl

/-- **C103.** A mirror of the "simple" pattern computed with `t` significant bits is in the state the exact formula
gives, unless its grey value is this close to the threshold. -/
theorem C103_simple (H : Precise t v F) (ht : 4 ≤ t) (hv : v ≤ 1 / 16) (s : SLM) (hx : s.Nx * 16 ≤ 2 ^ t)
    (hy : s.Ny * 16 ≤ 2 ^ t) {p : ℝ} (hp : p ≠ 0) (θ : ℝ) (neg : Bool) (a φin φout : ℝ) {i j : ℕ} (hi : i < s.Ny)
    (hj : j < s.Nx)
    (hfar : |a| * (v + 3 / 2 ^ t + (2 * v + 16 / 2 ^ t) * carrier s p i j + 3 / 2 ^ t * |φout - φin|) <
      |grey s p θ neg a φin φout i j - 1 / 2|) :
    (simplePixelR F p θ neg a (pixR F s a φin φout i j) = true ↔ 1 / 2 < grey s p θ neg a φin φout i j) ∧
    simplePixelR F p θ neg a (pixR F s a φin φout i j) = simplePixel p θ neg (pix s a φin φout i j) := by
  have h1 := ideal_close H rfl (u_le ht) p θ neg a (pixR F s a φin φout i j)
    (detuningR_close H ht hv s hx hy p θ neg a φin φout hi.le hj.le)
  have hg : a * (Real.cos (detuning s p θ neg φin φout i j) / 2 + 0.5) = grey s p θ neg a φin φout i j := by
    rw [grey]; norm_num
  rw [hg] at h1
  have e : |a| * (v + 3 * (1 / 2 ^ t) + ((2 * v + 16 * (1 / 2 ^ t)) * carrier s p i j + 3 * (1 / 2 ^ t) * |φout - φin|)) =
      |a| * (v + 3 / 2 ^ t + (2 * v + 16 / 2 ^ t) * carrier s p i j + 3 / 2 ^ t * |φout - φin|) := by ring
  rw [e] at h1
  have key : simplePixelR F p θ neg a (pixR F s a φin φout i j) = true ↔ 1 / 2 < grey s p θ neg a φin φout i j := by
    rw [simplePixelR, decide_eq_true_iff, show (0.5 : ℝ) = 1 / 2 by norm_num]
    obtain ⟨l1, l2⟩ := abs_le.mp h1
    rcases lt_abs.mp hfar with h | h
    · constructor <;> intro <;> linarith
    · constructor <;> intro <;> linarith
  refine ⟨key, ?_⟩
  rw [Bool.eq_iff_iff, key, simplePixel_eq s hp]

theorem carrier_le {s : SLM} (hps : 0 < s.ps) (hN : s.Nx + s.Ny ≤ 4160) {p : ℝ} (hp : 2 * s.ps ≤ p) {i j : ℕ} (hi : i < s.Ny)
    (hj : j < s.Nx) : carrier s p i j ≤ 8320 := by
  have hppos : 0 < p := by linarith
  have o1 := (SLM.offset_le hj.le).1
  have o2 := (SLM.offset_le hi.le).2
  have hNr : (s.Nx : ℝ) + s.Ny ≤ 4160 := by exact_mod_cast hN
  rw [carrier, abs_mul, abs_mul, abs_of_pos hps, abs_of_pos (a := 2 * Real.pi / p) (by have := Real.pi_pos; positivity)]
  have h4 := Real.pi_le_four
  have k : 2 * Real.pi / p ≤ 4 / s.ps := by
    rw [div_le_div_iff₀ hppos hps]
    nlinarith [Real.pi_pos]
  calc 2 * Real.pi / p * (|(j : ℝ) - s.Nx / 2| * s.ps + |(s.Ny : ℝ) / 2 - i| * s.ps)
      ≤ 4 / s.ps * (2080 * s.ps) := by
        refine mul_le_mul k ?_ (by positivity) (by positivity)
        rw [← add_mul]
        refine mul_le_mul_of_nonneg_right (by linarith) hps.le
    _ = 8320 := by field_simp; norm_num

/-- **C103.** With the default `float32`, library functions good to two units in the last place, a device of at most
4160 pixels along its two sides, a period of at least two pixels and amplitudes up to 1: the pattern is right at every
mirror whose grey value is not within 0.01 of the threshold. -/
theorem C103_float32 (H : Precise 24 (1 / 2 ^ 23) F) (s : SLM) (hps : 0 < s.ps) (hN : s.Nx + s.Ny ≤ 4160)
    {p : ℝ} (hp : 2 * s.ps ≤ p) (θ : ℝ) (neg : Bool) {a φin φout : ℝ} (ha : |a| ≤ 1) (hφ : |φout - φin| ≤ 100) {i j : ℕ}
    (hi : i < s.Ny) (hj : j < s.Nx) (hfar : 0.01 < |grey s p θ neg a φin φout i j - 1 / 2|) :
    simplePixelR F p θ neg a (pixR F s a φin φout i j) = true ↔ 1 / 2 < grey s p θ neg a φin φout i j := by
  have hppos : 0 < p := by linarith
  refine (C103_simple H (by norm_num) (by norm_num) s (by omega) (by omega) hppos.ne' θ neg a φin φout hi hj
    (lt_of_le_of_lt ?_ hfar)).1
  have hc := carrier_le hps hN hp hi hj
  have hc0 : 0 ≤ carrier s p i j := by rw [carrier]; positivity
  refine le_trans (b := 1 * (1 / 2 ^ 23 + 3 / 2 ^ 24 + (2 * (1 / 2 ^ 23) + 16 / 2 ^ 24) * 8320 + 3 / 2 ^ 24 * 100)) ?_ (by norm_num)
  gcongr

/-- Exact library functions with rounded arithmetic are such an arithmetic. -/
def exactLib (t : ℕ) : Arith := ⟨nearest t, Real.cos, Real.sin, Real.arccos, Real.arcsin, Real.tanh⟩

theorem exactLib_precise (ht : 1 ≤ t) {v : ℝ} (hv : 0 ≤ v) : Precise t v (exactLib t) where
  rnd := nearest_roundsTo ht
  cos := fun x => by simpa [exactLib] using hv
  cos_range := Real.abs_cos_le_one
  sin := fun x => by simpa [exactLib] using hv
  acos := fun x _ => by simpa [exactLib] using hv
  asin := fun x _ => by simpa [exactLib] using hv
  tanh := fun x => by simpa [exactLib] using hv

/-- C103: at the centre of a 2 x 2 array the grey value of amplitude 1 is 1, far from the threshold. -/
example : let s : SLM := ⟨1, 1, 2, 2, 1⟩
    Precise 24 (1 / 2 ^ 23) (exactLib 24) ∧ (1 : ℕ) < s.Ny ∧ (1 : ℕ) < s.Nx ∧ s.Nx + s.Ny ≤ 4160 ∧
    (0.01 : ℝ) < |grey s 4 0 false 1 0 0 1 1 - 1 / 2| := by
  refine ⟨exactLib_precise (by norm_num) (by positivity), by norm_num, by norm_num, by norm_num, ?_⟩
  simp [grey, detuning]
  norm_num

/-- **C104.** The same for the "random" method: with the same draw, the mirror computed with `t` significant bits is in
the state the exact formula gives unless the draw is this close to the exact probability. -/
theorem C104_random (H : Precise t v F) (ht : 4 ≤ t) (hv : v ≤ 1 / 16) (s : SLM) (hx : s.Nx * 16 ≤ 2 ^ t)
    (hy : s.Ny * 16 ≤ 2 ^ t) {p : ℝ} (hp : p ≠ 0) (θ r : ℝ) (neg : Bool) {a : ℝ} (ha : |a| ≤ 1) (φin φout : ℝ) {i j : ℕ}
    (hi : i < s.Ny) (hj : j < s.Nx) :
    let E := |r| * (2 * ((2 * v + 16 / 2 ^ t) * carrier s p i j + 3 / 2 ^ t * |φout - φin| + 2 * v + 3 * √v) + 16 / 2 ^ t) +
      2 * v + 3 / 2 ^ t
    (∀ draw : ℝ, E < |duty s p θ r neg a φin φout i j - draw| →
      (randomPixelR F p θ r neg draw a (pixR F s a φin φout i j) = true ↔ draw < duty s p θ r neg a φin φout i j)) ∧
    volume {draw : ℝ | randomPixelR F p θ r neg draw a (pixR F s a φin φout i j) ≠
      randomPixel p θ r neg draw (pix s a φin φout i j)} ≤ ENNReal.ofReal E := by
  intro E
  have h1 := duty_close H rfl (u_le ht) p θ r neg ha (pixR F s a φin φout i j)
    (detuningR_close H ht hv s hx hy p θ neg a φin φout hi.le hj.le)
  have hd : 0.5 * (Real.tanh (r * (Real.arccos (Real.cos (detuning s p θ neg φin φout i j)) + Real.arcsin a)) -
      Real.tanh (r * (Real.arccos (Real.cos (detuning s p θ neg φin φout i j)) - Real.arcsin a))) =
      duty s p θ r neg a φin φout i j := by rw [duty]; ring
  have hE : |r| * (2 * ((2 * v + 16 * (1 / 2 ^ t)) * carrier s p i j + 3 * (1 / 2 ^ t) * |φout - φin| + 2 * v + 3 * √v) +
      16 * (1 / 2 ^ t)) + 2 * v + 3 * (1 / 2 ^ t) = E := by simp only [E]; ring
  rw [hd, hE] at h1
  set D := duty s p θ r neg a φin φout i j with hD
  set D' := randomDutyR F p θ r neg a (pixR F s a φin φout i j) with hD'
  refine ⟨fun draw hfar => ?_, ?_⟩
  · rw [randomPixelR, decide_eq_true_iff, ← hD']
    obtain ⟨l1, l2⟩ := abs_le.mp h1
    rcases lt_abs.mp hfar with h | h
    · constructor <;> intro <;> linarith
    · constructor <;> intro <;> linarith
  · have hex : ∀ draw : ℝ, randomPixel p θ r neg draw (pix s a φin φout i j) = true ↔ draw < D := by
      intro draw
      have hasin : asinX (pix s a φin φout i j).amp = .fin (Real.arcsin a) := by
        show asinX (.fin a) = _
        rw [asinX, if_pos (abs_le.mp ha)]
      have hdut : randomDuty p θ r neg (pix s a φin φout i j) = .fin D := by
        rw [randomDuty, if_neg hp]
        simp only [hasin, detuning_eq, hd]
      classical
      rw [randomPixel, decide_eq_true_iff, hdut]
      rfl
    have hsub : {draw : ℝ | randomPixelR F p θ r neg draw a (pixR F s a φin φout i j) ≠
        randomPixel p θ r neg draw (pix s a φin φout i j)} ⊆ Set.Icc (min D D') (max D D') := by
      intro draw hne
      rw [Set.mem_setOf_eq, ne_eq, Bool.eq_iff_iff, hex, randomPixelR, decide_eq_true_iff, ← hD'] at hne
      by_contra hout
      apply hne
      rw [Set.mem_Icc, not_and_or, not_le, not_le] at hout
      rcases hout with h | h
      · exact ⟨fun _ => h.trans_le (min_le_left _ _), fun _ => h.trans_le (min_le_right _ _)⟩
      · exact ⟨fun h' => absurd h' ((le_max_right _ _).trans h.le).not_gt, fun h' => absurd h' ((le_max_left _ _).trans h.le).not_gt⟩
    refine (measure_mono hsub).trans ?_
    rw [Real.volume_Icc, max_sub_min_eq_abs]
    exact ENNReal.ofReal_le_ofReal h1

/-- C104: with the default `r = 10`, in `float64`, one carrier period from the centre, the bound is far below one. -/
example : let s : SLM := ⟨1, 1, 8, 8, 1⟩
    Precise 53 (1 / 2 ^ 52) (exactLib 53) ∧ s.Nx * 16 ≤ 2 ^ 53 ∧ carrier s 4 4 8 = 2 * Real.pi := by
  refine ⟨exactLib_precise (by norm_num) (by positivity), by norm_num, ?_⟩
  have h : (0 : ℝ) < 2 * Real.pi / 4 := by have := Real.pi_pos; positivity
  simp only [carrier, abs_of_pos h]
  norm_num

end PySLM2
