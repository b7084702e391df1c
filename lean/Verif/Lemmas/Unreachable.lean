import Mathlib.Topology.MetricSpace.HausdorffDimension
import Mathlib.Analysis.SpecialFunctions.ExpDeriv
import Mathlib.LinearAlgebra.Complex.FiniteDimensional
import Verif.Lemmas.Lcos

/-!
# Phase patterns the iterations cannot produce
-/

noncomputable section

open Complex Finset

namespace PySLM2.LCOS

open Lib

variable {ι : Type} [Fintype ι] [DecidableEq ι]

/-- The field of given moduli, one of which is zero, and phases `θ`, mapped by a linear map and then scaled pixel by pixel. -/
def scaledField (K : ι → ι → ℂ) (B : ι → ℂ) (p0 : ι) (x : ({p : ι // p ≠ p0} → ℝ) × (ι → ℝ)) (q : ι) : ℂ :=
  (x.2 q : ℂ) * ∑ p : {p : ι // p ≠ p0}, B p * cexp (I * (x.1 p : ℂ)) * K p q

theorem scaledField_contDiff (K : ι → ι → ℂ) (B : ι → ℂ) (p0 : ι) : ContDiff ℝ 1 (scaledField K B p0) := by
  refine contDiff_pi.mpr fun q => ?_
  unfold scaledField
  refine ContDiff.mul ?_ (ContDiff.sum fun p _ => ContDiff.mul (ContDiff.mul contDiff_const ?_) contDiff_const)
  · exact ofRealCLM.contDiff.comp ((contDiff_apply ℝ ℝ q).comp contDiff_snd)
  · refine ContDiff.cexp (contDiff_const.mul ?_)
    exact ofRealCLM.contDiff.comp ((contDiff_apply ℝ ℝ p).comp contDiff_fst)

/-- Arbitrarily near to every field there is one whose phases no choice of `θ` gives. -/
theorem exists_unreachable (K : ι → ι → ℂ) (B : ι → ℂ) {p0 : ι} (hB : B p0 = 0) (z : ι → ℂ) {ε : ℝ} (hε : 0 < ε) :
    ∃ v : ι → ℂ, (∀ q, ‖v q - z q‖ < ε ∧ (v q).im ≠ 0) ∧
      ∀ (θ r : ι → ℝ), ¬ ∀ q, v q = r q * ∑ p, B p * cexp (I * θ p) * K p q := by
  have hd : Dense (Set.range (scaledField K B p0))ᶜ := by
    refine (scaledField_contDiff K B p0).dense_compl_range_of_finrank_lt_finrank ?_
    rw [Module.finrank_prod, Module.finrank_fintype_fun_eq_card, Module.finrank_fintype_fun_eq_card, Module.finrank_pi_fintype]
    simp only [Complex.finrank_real_complex, sum_const, card_univ, smul_eq_mul, Fintype.card_subtype_compl, Fintype.card_unique]
    have : 0 < Fintype.card ι := Fintype.card_pos_iff.mpr ⟨p0⟩
    omega
  let O : Set (ι → ℂ) := {v | ∀ q, ‖v q - z q‖ < ε ∧ (v q).im ≠ 0}
  have hO : IsOpen O := by
    have : O = ⋂ q, {v | ‖v q - z q‖ < ε} ∩ {v | (v q).im ≠ 0} := by ext v; simp [O]
    rw [this]
    refine isOpen_iInter_of_finite fun q => (isOpen_lt (by fun_prop) continuous_const).inter ?_
    exact isOpen_ne_fun (Complex.continuous_im.comp (continuous_apply q)) continuous_const
  have hne : O.Nonempty := by
    have : ∀ q, ∃ w : ℂ, ‖w - z q‖ < ε ∧ w.im ≠ 0 := by
      intro q
      by_cases h : (z q).im = 0
      · refine ⟨z q + (ε / 2 : ℝ) * I, ?_, ?_⟩
        · rw [add_sub_cancel_left, norm_mul, Complex.norm_I, mul_one, Complex.norm_real, Real.norm_eq_abs, abs_of_pos (by positivity)]
          linarith
        · simp [h, hε.ne']
      · exact ⟨z q, by simpa using hε, h⟩
    choose w hw using this
    exact ⟨w, hw⟩
  obtain ⟨v, hv, hvr⟩ := hd.inter_open_nonempty O hO hne
  refine ⟨v, hv, fun θ r h => hvr ⟨(fun p => θ p, r), funext fun q => ?_⟩⟩
  rw [h q, scaledField]
  congr 1
  rw [← Finset.sum_filter_of_ne (s := univ) (p := fun p => p ≠ p0) (f := fun p => B p * cexp (I * (θ p : ℂ)) * K p q)
    fun p _ hp hc => hp (by rw [hc, hB, zero_mul, zero_mul])]
  exact (Finset.sum_subtype _ (by simp) fun p => B p * cexp (I * (θ p : ℂ)) * K p q).symm

/-- The same for the discrete Fourier transform of a field given by its modulus, which vanishes at one pixel, and its phases. -/
theorem dft2_unreachable {M N : ℕ} (B : ℕ → ℕ → ℂ) {a0 b0 : ℕ} (ha : a0 < M) (hb : b0 < N) (hB : B a0 b0 = 0) (φ : ℕ → ℕ → ℝ)
    {ε : ℝ} (hε : 0 < ε) :
    ∃ ψ : ℕ → ℕ → ℝ, (∀ i < M, ∀ j < N, 0 ≤ ψ i j ∧ ψ i j < 2 * Real.pi ∧ ‖cexp (I * ψ i j) - cexp (I * φ i j)‖ < ε) ∧
      ∀ (B' : ℕ → ℕ → ℂ) (θ : ℕ → ℕ → ℝ), (∀ a < M, ∀ b < N, B' a b = B a b) →
        ¬ ∀ i < M, ∀ j < N, cexp (I * (arg (dft2 M N (fun a b => B' a b * cexp (I * θ a b)) i j) : ℂ)) = cexp (I * ψ i j) := by
  obtain ⟨v, hv, hr⟩ := exists_unreachable (ι := Fin M × Fin N) (fun p q => Em M q.1 p.1 * Em N q.2 p.2)
    (fun p => B p.1 p.2) (p0 := (⟨a0, ha⟩, ⟨b0, hb⟩)) hB (fun q => cexp (I * φ q.1 q.2)) (half_pos hε)
  have hv0 : ∀ q, v q ≠ 0 := fun q h0 => (hv q).2 (by rw [h0]; rfl)
  let w : ℕ → ℕ → ℂ := fun i j => if h : i < M ∧ j < N then v (⟨i, h.1⟩, ⟨j, h.2⟩) else 1
  have hw : ∀ i (hi : i < M) j (hj : j < N), w i j = v (⟨i, hi⟩, ⟨j, hj⟩) := fun i hi j hj => dif_pos ⟨hi, hj⟩
  have hψ : ∀ x : ℝ, ∃ y : ℝ, 0 ≤ y ∧ y < 2 * Real.pi ∧ cexp (I * y) = cexp (I * x) := by
    intro x
    refine ⟨toIcoMod Real.two_pi_pos 0 x, (toIcoMod_mem_Ico Real.two_pi_pos 0 x).1, by simpa using (toIcoMod_mem_Ico Real.two_pi_pos 0 x).2, ?_⟩
    rw [Complex.exp_eq_exp_iff_exists_int]
    refine ⟨-toIcoDiv Real.two_pi_pos 0 x, ?_⟩
    rw [← self_sub_toIcoDiv_zsmul]
    push_cast
    simp only [zsmul_eq_mul]
    push_cast
    ring
  choose red hred using hψ
  refine ⟨fun i j => red (arg (w i j)), fun i hi j hj => ⟨(hred _).1, (hred _).2.1, ?_⟩, fun B' θ hB' hall => ?_⟩
  · rw [(hred _).2.2, hw i hi j hj]
    set q : Fin M × Fin N := (⟨i, hi⟩, ⟨j, hj⟩) with hq
    have h1 : ‖cexp (I * (arg (v q) : ℂ)) - v q‖ ≤ ‖v q - cexp (I * φ i j)‖ := by
      have e : cexp (I * (arg (v q) : ℂ)) - v q = ((1 - ‖v q‖ : ℝ) : ℂ) * cexp (I * (arg (v q) : ℂ)) := by
        conv_lhs => rw [← mul_expI_arg (v q)]
        rw [mul_expI_arg]
        push_cast
        rw [sub_mul, one_mul, mul_expI_arg]
      rw [e, norm_mul, norm_expI, mul_one, Complex.norm_real, Real.norm_eq_abs, ← norm_expI (φ i j), abs_sub_comm]
      exact abs_norm_sub_norm_le _ _
    have h2 : ‖v q - cexp (I * φ i j)‖ < ε / 2 := (hv q).1
    calc _ = ‖(cexp (I * (arg (v q) : ℂ)) - v q) + (v q - cexp (I * φ i j))‖ := by rw [sub_add_sub_cancel]
      _ ≤ _ := norm_add_le _ _
      _ < ε := by linarith
  · refine hr (fun p => θ p.1 p.2) (fun q => ‖v q‖ / ‖dft2 M N (fun a b => B' a b * cexp (I * θ a b)) q.1 q.2‖) fun q => ?_
    have hF : dft2 M N (fun a b => B' a b * cexp (I * θ a b)) q.1 q.2 =
        ∑ p : Fin M × Fin N, B p.1 p.2 * cexp (I * θ p.1 p.2) * (Em M q.1 p.1 * Em N q.2 p.2) := by
      rw [dft2_eq, Fintype.sum_prod_type, Finset.sum_range]
      refine Finset.sum_congr rfl fun a _ => ?_
      rw [Finset.sum_range]
      exact Finset.sum_congr rfl fun b _ => by rw [hB' a a.2 b b.2]
    have h1 := hall q.1 q.1.2 q.2 q.2.2
    rw [(hred _).2.2, hw _ q.1.2 _ q.2.2] at h1
    rw [← hF]
    set F := dft2 M N (fun a b => B' a b * cexp (I * θ a b)) q.1 q.2
    have h2 := mul_expI_arg (v q)
    have h3 : cexp (I * (arg F : ℂ)) = cexp (I * (arg (v q) : ℂ)) := h1
    by_cases h0 : F = 0
    · exfalso
      rw [h0, arg_zero, ofReal_zero, mul_zero, Complex.exp_zero] at h3
      rw [← h3, mul_one] at h2
      exact (hv q).2 (by rw [← h2]; rfl)
    · have hn : (‖F‖ : ℂ) ≠ 0 := by exact_mod_cast (norm_pos_iff.mpr h0).ne'
      rw [← h3] at h2
      rw [ofReal_div, div_mul_eq_mul_div, eq_div_iff hn]
      calc v q * ‖F‖ = ‖v q‖ * cexp (I * (arg F : ℂ)) * ‖F‖ := by rw [h2]
        _ = ‖v q‖ * (‖F‖ * cexp (I * (arg F : ℂ))) := by ring
        _ = _ := by rw [mul_expI_arg]

end PySLM2.LCOS
