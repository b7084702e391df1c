import Verif.Lemmas.FloatCalc
import Verif.Props.FloatGrating
import Verif.Props.ModeMatching

/-!
# What rounding does to mode matching (C144)
-/

noncomputable section

open Complex Finset

namespace PySLM2.DMD

open Spec Rounded Lib FloatCalc

variable {t : ℕ} {v : ℝ} {F : CalcArith}

theorem pix_eq (d : DMD) (A φin φout : ℕ → ℕ → ℝ) (i j : ℕ) :
    pix d.slm (A i j) (φin i j) (φout i j) i j = d.pixel A φin φout i j := by
  unfold pix pixel
  rw [fourierX_eq, fourierY_eq]

/-- What `calculate_dmd_state` does with the elementwise methods, in terms of the amplitudes of C25. -/
theorem calc_elementwise {d : DMD} {h : Profile.Heap} {inp target : ProfArg} {window : Option ProfArg} {u T w : ℕ → ℕ → ℂ}
    (m : Matching d h inp target window u T w) (hsc : 0 < d.slm.wavelength * d.slm.focal) (hps : d.slm.ps ≠ 0) (hp : d.p ≠ 0)
    (hlit : ∀ i < d.slm.Ny, ∀ j < d.slm.Nx, spectrum d.slm T i j * w i j ≠ 0 → u i j ≠ 0)
    (hne : ∃ i < d.slm.Ny, ∃ j < d.slm.Nx, spectrum d.slm T i j * w i j ≠ 0) (kw : CalcKwargs) :
    ∃ (A : ℕ → ℕ → ℝ) (eta : ℝ), 0 < eta ∧
      (∀ i < d.slm.Ny, ∀ j < d.slm.Nx, 0 ≤ A i j ∧ A i j ≤ 1 ∧ (A i j = 0 ↔ spectrum d.slm T i j * w i j = 0) ∧
        A i j * ‖u i j‖ = eta * (d.slm.wavelength * d.slm.focal) / (d.slm.ps ^ 2 * d.slm.Nx * d.slm.Ny) *
          ‖spectrum d.slm T i j * w i j‖) ∧
      (∃ i < d.slm.Ny, ∃ j < d.slm.Nx, A i j = 1) ∧
      ∀ draw : ℕ → ℕ → ℝ,
        (∃ g : Tensor XR, d.calculateDmdState h inp target "ideal" window kw draw = ⟨.rebind (.float g), .ok (.fin eta)⟩ ∧
          ∀ i < d.slm.Ny, ∀ j < d.slm.Nx, g.get i j =
            .fin (grey d.slm d.p d.theta d.neg (A i j) (arg (u i j)) (arg (spectrum d.slm T i j * w i j)) i j)) ∧
        (∃ st : Tensor Bool, d.calculateDmdState h inp target "simple" window kw draw = ⟨.rebind (.bool st), .ok (.fin eta)⟩ ∧
          ∀ i < d.slm.Ny, ∀ j < d.slm.Nx, (st.get i j = true ↔
            1 / 2 < grey d.slm d.p d.theta d.neg (A i j) (arg (u i j)) (arg (spectrum d.slm T i j * w i j)) i j)) ∧
        ∃ st : Tensor Bool, d.calculateDmdState h inp target "random" window kw draw = ⟨.rebind (.bool st), .ok (.fin eta)⟩ ∧
          ∀ i < d.slm.Ny, ∀ j < d.slm.Nx, (st.get i j = true ↔ draw i j <
            Rounded.duty d.slm d.p d.theta (kw.r.getD 10) d.neg (A i j) (arg (u i j)) (arg (spectrum d.slm T i j * w i j)) i j) := by
  obtain ⟨A, eta, h0, h1, h2, h3⟩ := C25_normalised m hsc hps hlit hne
  refine ⟨A, eta, h0, h1, h2, fun draw => ?_⟩
  obtain ⟨⟨g, c1, s1, e1⟩, ⟨g2, c2, s2, e2⟩, ⟨g3, c3, s3, e3⟩⟩ := setGrating_eq (gratingArgs_realArray d h A (fun i j => arg (u i j))
    (fun i j => arg (spectrum d.slm T i j * w i j))) { r := kw.r, N := kw.N, s := kw.s } draw
  have hdet : ∀ i j, d.detuning (fun i j => arg (u i j)) (fun i j => arg (spectrum d.slm T i j * w i j)) i j =
      Rounded.detuning d.slm d.p d.theta d.neg (arg (u i j)) (arg (spectrum d.slm T i j * w i j)) i j := by
    intro i j
    rw [← detuning_eq (a := A i j), pix_eq d A (fun i j => arg (u i j)) (fun i j => arg (spectrum d.slm T i j * w i j)), signed_eq]
  have fwd : ∀ method : String, method ≠ "ifta" → Forwarded d h inp method kw { r := kw.r, N := kw.N, s := kw.s } :=
    fun method hm => ⟨rfl, rfl, rfl, fun hc => absurd hc hm⟩
  have get : ∀ {method : String} {st' : StateArr}, method ≠ "ifta" →
      d.setDmdGratingState h (realArray d.slm A) (realArray d.slm fun i j => arg (u i j))
        (realArray d.slm fun i j => arg (spectrum d.slm T i j * w i j)) method { r := kw.r, N := kw.N, s := kw.s } draw =
          ⟨.rebind st', .ok ()⟩ →
      ∃ st, d.calculateDmdState h inp target method window kw draw = ⟨.rebind st, .ok (.fin eta)⟩ ∧ st.Same st' := by
    intro method st' hm hset
    rcases h3 method kw _ draw (fwd method hm) with ⟨st, st'', a1, a2, a3⟩ | ⟨e, a1, a2⟩
    · rw [a2] at hset
      injection hset with hset _
      injection hset with hset
      exact ⟨st, a1, hset ▸ a3⟩
    · rw [hset] at a2
      injection a2 with a2 _
      cases a2
  refine ⟨?_, ?_, ?_⟩
  · obtain ⟨st, a1, a2⟩ := get (by decide) c1
    cases st with
    | bool b => exact absurd a2 (by simp [StateArr.Same])
    | float b =>
      refine ⟨b, a1, fun i hi j hj => ?_⟩
      have : b.get i j = g.get i j := by
        obtain ⟨q1, q2⟩ := a2
        rw [q1.trans s1] at q2
        exact q2 i hi j hj
      rw [this, e1 i hi j hj, idealPixel_eq d hp, hdet]
      rfl
  · obtain ⟨st, a1, a2⟩ := get (by decide) c2
    cases st with
    | float b => exact absurd a2 (by simp [StateArr.Same])
    | bool b =>
      refine ⟨b, a1, fun i hi j hj => ?_⟩
      have : b.get i j = g2.get i j := by
        obtain ⟨q1, q2⟩ := a2
        rw [q1.trans s2] at q2
        exact q2 i hi j hj
      rw [this, e2 i hi j hj, ← pix_eq, simplePixel_eq _ hp]
  · obtain ⟨st, a1, a2⟩ := get (by decide) c3
    cases st with
    | float b => exact absurd a2 (by simp [StateArr.Same])
    | bool b =>
      refine ⟨b, a1, fun i hi j hj => ?_⟩
      have : b.get i j = g3.get i j := by
        obtain ⟨q1, q2⟩ := a2
        rw [q1.trans s3] at q2
        exact q2 i hi j hj
      obtain ⟨A0, A1, -⟩ := h1 i hi j hj
      rw [this, e3 i hi j hj, randomPixel_iff d hp]
      have hd : d.duty (kw.r.getD 10) A (fun i j => arg (u i j)) (fun i j => arg (spectrum d.slm T i j * w i j)) i j =
          Rounded.duty d.slm d.p d.theta (kw.r.getD 10) d.neg (A i j) (arg (u i j)) (arg (spectrum d.slm T i j * w i j)) i j := by
        rw [DMD.duty, Rounded.duty, hdet]
      rw [hd]
      exact ⟨fun q => q.2.2, fun q => ⟨by linarith, A1, q⟩⟩

/-- **C144.** Whatever the FFT returns: if the input is lit wherever the computed transform is not zero, the computed amplitudes are numbers
between 0 and 1 (so that their arcsine exists), and some amplitude is exactly 1. -/
theorem C144_range (H : CalcPrecise t v F) (ht : 4 ≤ t) (hv : v ≤ 1 / 16) {s : SLM} (hNx : 0 < s.Nx) (hNy : 0 < s.Ny)
    {u T : ℕ → ℕ → ℂ} {W : Option (ℕ → ℕ → ℂ)}
    (hlit : ∀ i < s.Ny, ∀ j < s.Nx, targetFpR F s.Ny s.Nx T W i j ≠ 0 → u i j ≠ 0)
    (hne : ∃ i < s.Ny, ∃ j < s.Nx, targetFpR F s.Ny s.Nx T W i j ≠ 0) :
    (∀ i < s.Ny, ∀ j < s.Nx, ∃ a : ℝ, ampScaledR F s u T W i j = .fin a ∧ 0 ≤ a ∧ a ≤ 1) ∧
    ∃ i < s.Ny, ∃ j < s.Nx, ampScaledR F s u T W i j = .fin 1 := by
  obtain ⟨m, hm0, hm, hall, i, hi, j, hj, hmax⟩ := ampScaledR_eq H ht hv hNx hNy hlit hne
  refine ⟨fun i hi j hj => ⟨_, (hall i hi j hj).2, ?_, ?_⟩, i, hi, j, hj, ?_⟩
  · have := H.mono (div_nonneg (ratioVal_nonneg H hv (u i j) (targetFpR F s.Ny s.Nx T W i j)) hm0.le)
    rwa [H.rnd_zero] at this
  · have := H.mono ((div_le_one hm0).mpr (hall i hi j hj).1)
    rwa [H.rnd_one] at this
  · rw [(hall i hi j hj).2, hmax, div_self hm0.ne', H.rnd_one]

/-- **C144.** Mode matching with method "simple", every operation rounded to `t` significant bits: with a computed transform that is within
`δ` of the exact one, a mirror is in the state the exact computation gives unless its grey value (the one of method "ideal") is this close
to the threshold. -/
theorem C144_simple (H : CalcPrecise t v F) (ht : 4 ≤ t) (hv : v ≤ 1 / 16)
    {d : DMD} {h : Profile.Heap} {inp target : ProfArg} {window : Option ProfArg} {u T w : ℕ → ℕ → ℂ}
    (m : Matching d h inp target window u T w) (hx : d.slm.Nx * 16 ≤ 2 ^ t) (hy : d.slm.Ny * 16 ≤ 2 ^ t)
    (hsc : 0 < d.slm.wavelength * d.slm.focal) (hps : d.slm.ps ≠ 0) (hp : d.p ≠ 0)
    (hlit : ∀ i < d.slm.Ny, ∀ j < d.slm.Nx, spectrum d.slm T i j * w i j ≠ 0 → u i j ≠ 0)
    {δ γ : ℝ} (hδ0 : 0 ≤ δ)
    (hδ : Resolved d.slm.Ny d.slm.Nx u (fun i j => spectrum d.slm T i j * w i j)
      (targetFpR F d.slm.Ny d.slm.Nx T (window.map fun _ => w)) δ)
    (hγ : γ = δ + 3 * (v + 1 / 2 ^ t) * (1 + δ)) (hγ1 : γ ≤ 1 / 2) (kw : CalcKwargs) (draw : ℕ → ℕ → ℝ) :
    ∃ (g : Tensor XR) (st : Tensor Bool) (eta : ℝ),
      d.calculateDmdState h inp target "ideal" window kw draw = ⟨.rebind (.float g), .ok (.fin eta)⟩ ∧
      d.calculateDmdState h inp target "simple" window kw draw = ⟨.rebind (.bool st), .ok (.fin eta)⟩ ∧
      ∀ i < d.slm.Ny, ∀ j < d.slm.Nx, ∃ x : ℝ, g.get i j = .fin x ∧
        (2 * γ + 2 * v + 28 / 2 ^ t + (2 * v + 16 / 2 ^ t) * Rounded.carrier d.slm d.p i j < |x - 1 / 2| →
          d.calcSimpleR F u T (window.map fun _ => w) i j = st.get i j) := by
  have hne : ∃ i < d.slm.Ny, ∃ j < d.slm.Nx, spectrum d.slm T i j * w i j ≠ 0 := by
    obtain ⟨i, hi, j, hj, hz, -⟩ := hδ
    exact ⟨i, hi, j, hj, hz⟩
  obtain ⟨A, eta, h0, h1, h2, h3⟩ := calc_elementwise m hsc hps hp hlit hne kw
  obtain ⟨⟨g, c1, e1⟩, ⟨st, c2, e2⟩, -⟩ := h3 draw
  refine ⟨g, st, eta, c1, c2, fun i hi j hj => ⟨_, e1 i hi j hj, fun hfar => ?_⟩⟩
  have hNx : (0 : ℝ) < d.slm.Nx := by exact_mod_cast m.hNx
  have hNy : (0 : ℝ) < d.slm.Ny := by exact_mod_cast m.hNy
  obtain ⟨M, hM0, hM, -, hall⟩ := calc_close H ht hv m.hNx m.hNy (c := eta * (d.slm.wavelength * d.slm.focal) /
    (d.slm.ps ^ 2 * d.slm.Nx * d.slm.Ny)) (by positivity) hδ0 h1 h2 hlit hδ hγ hγ1
  obtain ⟨a, ha, a0, a1, hAa, hturn⟩ := hall i hi j hj
  set W := window.map fun _ => w
  set φi := F.angle (u i j) with hφi
  set φo := phaseOutR F (targetFpR F d.slm.Ny d.slm.Nx T W i j) with hφo
  set G := grey d.slm d.p d.theta d.neg (A i j) (arg (u i j)) (arg (spectrum d.slm T i j * w i j)) i j with hG
  have hv0 := H.v_nonneg
  have hsimple : d.calcSimpleR F u T W i j = simplePixelR F.toArith d.p d.theta d.neg a (pixR F.toArith d.slm a φi φo i j) := by
    rw [calcSimpleR, ha]
    rfl
  have hphase : |φo - φi| ≤ 8 := by
    have b1 : |φo| ≤ 4 := by
      rw [hφo, phaseOutR]
      split
      · norm_num
      · exact H.angle_range _
    have b2 := H.angle_range (u i j)
    have := abs_sub φo φi
    linarith
  have hcar : 0 ≤ Rounded.carrier d.slm d.p i j := by rw [Rounded.carrier]; positivity
  have k1 := FloatGrating.ideal_close H.arith rfl (u_le ht) d.p d.theta d.neg a (pixR F.toArith d.slm a φi φo i j)
    (detuningR_close H.arith ht hv d.slm hx hy d.p d.theta d.neg a φi φo hi.le hj.le)
  have k2 := grey_of_turn hAa (hturn (2 * Real.pi / d.p * (Real.cos d.theta * ((j - (d.slm.Nx : ℝ) / 2) * d.slm.ps) +
    Real.sin d.theta * (((d.slm.Ny : ℝ) / 2 - i) * d.slm.ps))) d.neg)
  change |a * (Real.cos (Rounded.detuning d.slm d.p d.theta d.neg φi φo i j) / 2 + 1 / 2) - G| ≤ _ at k2
  have k3 : |a| * (v + 3 * (1 / 2 ^ t) + ((2 * v + 16 * (1 / 2 ^ t)) * Rounded.carrier d.slm d.p i j + 3 * (1 / 2 ^ t) * |φo - φi|)) ≤
      1 * (v + 3 * (1 / 2 ^ t) + ((2 * v + 16 * (1 / 2 ^ t)) * Rounded.carrier d.slm d.p i j + 3 * (1 / 2 ^ t) * 8)) := by
    rw [abs_of_nonneg a0]
    gcongr
  have k4 := k1.trans k3
  rw [show (0.5 : ℝ) = 1 / 2 by norm_num] at k4
  have k5 : |idealPixelR F.toArith d.p d.theta d.neg a (pixR F.toArith d.slm a φi φo i j) - G| < |G - 1 / 2| := by
    refine lt_of_le_of_lt ?_ hfar
    have := abs_add_le (idealPixelR F.toArith d.p d.theta d.neg a (pixR F.toArith d.slm a φi φo i j) -
      a * (Real.cos (Rounded.detuning d.slm d.p d.theta d.neg φi φo i j) / 2 + 1 / 2))
      (a * (Real.cos (Rounded.detuning d.slm d.p d.theta d.neg φi φo i j) / 2 + 1 / 2) - G)
    rw [sub_add_sub_cancel] at this
    refine this.trans ((add_le_add k4 k2).trans (le_of_eq ?_))
    ring
  rw [hsimple, Bool.eq_iff_iff, e2 i hi j hj, simplePixelR, decide_eq_true_iff, show (0.5 : ℝ) = 1 / 2 by norm_num]
  rw [abs_lt] at k5
  rcases le_total (1 / 2) G with hc | hc
  · rw [abs_of_nonneg (by linarith : 0 ≤ G - 1 / 2)] at k5
    constructor <;> intro <;> linarith [k5.1, k5.2]
  · rw [abs_of_nonpos (by linarith : G - 1 / 2 ≤ 0)] at k5
    constructor <;> intro <;> linarith [k5.1, k5.2]

/-- **C144.** The same with method "random": the exact and the computed probability with which a mirror is switched on differ by at most
this much. -/
theorem C144_random (H : CalcPrecise t v F) (ht : 4 ≤ t) (hv : v ≤ 1 / 16)
    {d : DMD} {h : Profile.Heap} {inp target : ProfArg} {window : Option ProfArg} {u T w : ℕ → ℕ → ℂ}
    (m : Matching d h inp target window u T w) (hx : d.slm.Nx * 16 ≤ 2 ^ t) (hy : d.slm.Ny * 16 ≤ 2 ^ t)
    (hsc : 0 < d.slm.wavelength * d.slm.focal) (hps : d.slm.ps ≠ 0) (hp : d.p ≠ 0)
    (hlit : ∀ i < d.slm.Ny, ∀ j < d.slm.Nx, spectrum d.slm T i j * w i j ≠ 0 → u i j ≠ 0)
    {δ γ r : ℝ} (hδ0 : 0 ≤ δ)
    (hδ : Resolved d.slm.Ny d.slm.Nx u (fun i j => spectrum d.slm T i j * w i j)
      (targetFpR F d.slm.Ny d.slm.Nx T (window.map fun _ => w)) δ)
    (hγ : γ = δ + 3 * (v + 1 / 2 ^ t) * (1 + δ)) (hγ1 : γ ≤ 1 / 2) (kw : CalcKwargs) (hr : kw.r.getD 10 = r) :
    ∃ (D D' : ℕ → ℕ → ℝ) (eta : ℝ),
      (∀ draw : ℕ → ℕ → ℝ, ∃ st : Tensor Bool,
        d.calculateDmdState h inp target "random" window kw draw = ⟨.rebind (.bool st), .ok (.fin eta)⟩ ∧
        ∀ i < d.slm.Ny, ∀ j < d.slm.Nx, (st.get i j = true ↔ draw i j < D i j)) ∧
      ∀ i < d.slm.Ny, ∀ j < d.slm.Nx,
        (∀ x : ℝ, d.calcRandomR F r u T (window.map fun _ => w) x i j = true ↔ x < D' i j) ∧
        |D' i j - D i j| ≤ 3 * |r| * √(2 * γ + 1 / 2 ^ t) + r ^ 2 * (20 * γ + 10 * v + 10 / 2 ^ t) +
          (|r| * (2 * ((2 * v + 16 / 2 ^ t) * Rounded.carrier d.slm d.p i j + 24 / 2 ^ t + 2 * v + 3 * √v) + 16 / 2 ^ t) +
            2 * v + 3 / 2 ^ t) := by
  have hne : ∃ i < d.slm.Ny, ∃ j < d.slm.Nx, spectrum d.slm T i j * w i j ≠ 0 := by
    obtain ⟨i, hi, j, hj, hz, -⟩ := hδ
    exact ⟨i, hi, j, hj, hz⟩
  obtain ⟨A, eta, h0, h1, h2, h3⟩ := calc_elementwise m hsc hps hp hlit hne kw
  set W := window.map fun _ => w with hW
  have hNx : (0 : ℝ) < d.slm.Nx := by exact_mod_cast m.hNx
  have hNy : (0 : ℝ) < d.slm.Ny := by exact_mod_cast m.hNy
  obtain ⟨M, hM0, hM, -, hall⟩ := calc_close H ht hv m.hNx m.hNy (c := eta * (d.slm.wavelength * d.slm.focal) /
    (d.slm.ps ^ 2 * d.slm.Nx * d.slm.Ny)) (by positivity) hδ0 h1 h2 hlit hδ hγ hγ1
  have hv0 := H.v_nonneg
  refine ⟨fun i j => Rounded.duty d.slm d.p d.theta r d.neg (A i j) (arg (u i j)) (arg (spectrum d.slm T i j * w i j)) i j,
    fun i j => randomDutyR F.toArith d.p d.theta r d.neg (XR.val (ampScaledR F d.slm u T W i j))
      (calcPixR F d u T W (XR.val (ampScaledR F d.slm u T W i j)) i j), eta, fun draw => ?_, fun i hi j hj => ?_⟩
  · obtain ⟨-, -, st, c3, e3⟩ := h3 draw
    rw [hr] at e3
    exact ⟨st, c3, e3⟩
  · obtain ⟨a, ha, a0, a1, hAa, hturn⟩ := hall i hi j hj
    obtain ⟨A0, A1, -⟩ := h1 i hi j hj
    have hval : (XR.val (ampScaledR F d.slm u T W i j)) = a := by rw [ha]; rfl
    simp only [hval]
    have habs : |a| ≤ 1 := abs_le.mpr ⟨by linarith, a1⟩
    constructor
    · intro x
      rw [calcRandomR, ha]
      simp only [randomPixelR, Bool.and_eq_true, decide_eq_true_iff]
      exact ⟨fun q => q.2, fun q => ⟨habs, q⟩⟩
    set φi := F.angle (u i j) with hφi
    set φo := phaseOutR F (targetFpR F d.slm.Ny d.slm.Nx T W i j) with hφo
    have hphase : |φo - φi| ≤ 8 := by
      have b1 : |φo| ≤ 4 := by
        rw [hφo, phaseOutR]
        split
        · norm_num
        · exact H.angle_range _
      have b2 := H.angle_range (u i j)
      have := abs_sub φo φi
      linarith
    have k1 := FloatGrating.duty_close H.arith rfl (u_le ht) d.p d.theta r d.neg habs (pixR F.toArith d.slm a φi φo i j)
      (detuningR_close H.arith ht hv d.slm hx hy d.p d.theta d.neg a φi φo hi.le hj.le)
    have k2 := duty_of_turn r A0 A1 a0 a1 hAa (hturn (2 * Real.pi / d.p * (Real.cos d.theta * ((j - (d.slm.Nx : ℝ) / 2) * d.slm.ps) +
      Real.sin d.theta * (((d.slm.Ny : ℝ) / 2 - i) * d.slm.ps))) d.neg)
    have k3 : |r| * (2 * ((2 * v + 16 * (1 / 2 ^ t)) * Rounded.carrier d.slm d.p i j + 3 * (1 / 2 ^ t) * |φo - φi| + 2 * v + 3 * √v) +
        16 * (1 / 2 ^ t)) ≤
        |r| * (2 * ((2 * v + 16 * (1 / 2 ^ t)) * Rounded.carrier d.slm d.p i j + 3 * (1 / 2 ^ t) * 8 + 2 * v + 3 * √v) +
        16 * (1 / 2 ^ t)) := by gcongr
    have hd : Rounded.duty d.slm d.p d.theta r d.neg (A i j) (arg (u i j)) (arg (spectrum d.slm T i j * w i j)) i j =
        0.5 * (Real.tanh (r * (Real.arccos (Real.cos (Rounded.detuning d.slm d.p d.theta d.neg (arg (u i j))
          (arg (spectrum d.slm T i j * w i j)) i j)) + Real.arcsin (A i j))) -
        Real.tanh (r * (Real.arccos (Real.cos (Rounded.detuning d.slm d.p d.theta d.neg (arg (u i j))
          (arg (spectrum d.slm T i j * w i j)) i j)) - Real.arcsin (A i j)))) := by
      rw [Rounded.duty]; ring
    change |0.5 * (Real.tanh (r * (Real.arccos (Real.cos (Rounded.detuning d.slm d.p d.theta d.neg φi φo i j)) + Real.arcsin a)) -
      Real.tanh (r * (Real.arccos (Real.cos (Rounded.detuning d.slm d.p d.theta d.neg φi φo i j)) - Real.arcsin a))) -
      0.5 * (Real.tanh (r * (Real.arccos (Real.cos (Rounded.detuning d.slm d.p d.theta d.neg (arg (u i j))
          (arg (spectrum d.slm T i j * w i j)) i j)) + Real.arcsin (A i j))) -
        Real.tanh (r * (Real.arccos (Real.cos (Rounded.detuning d.slm d.p d.theta d.neg (arg (u i j))
          (arg (spectrum d.slm T i j * w i j)) i j)) - Real.arcsin (A i j))))| ≤ _ at k2
    rw [← hd] at k2
    change |randomDutyR F.toArith d.p d.theta r d.neg a (pixR F.toArith d.slm a φi φo i j) - _| ≤ _
    refine (abs_sub_le _ _ _).trans ((add_le_add k1 k2).trans ?_)
    refine le_trans (b := 3 * |r| * √(2 * γ + 1 / 2 ^ t) + r ^ 2 * (20 * γ + 10 * v + 10 / 2 ^ t) +
      (|r| * (2 * ((2 * v + 16 * (1 / 2 ^ t)) * Rounded.carrier d.slm d.p i j + 3 * (1 / 2 ^ t) * 8 + 2 * v + 3 * √v) +
        16 * (1 / 2 ^ t)) + 2 * v + 3 * (1 / 2 ^ t))) ?_ (le_of_eq (by ring))
    have e : 5 * r ^ 2 * (2 * γ + 1 / 2 ^ t + ((v + 1 / 2 ^ t + 2 * γ) + v)) = r ^ 2 * (20 * γ + 10 * v + 10 / 2 ^ t) := by ring
    rw [e]
    linarith

/-- **C144.** With the default `float32`, library functions good to two units in the last place, a device of at most 4160 pixels along its
two sides, a period of at least two pixels and a transform computed to one part in a thousand: the pattern of method "simple" is right at
every mirror whose grey value is not within 0.0125 of the threshold. -/
theorem C144_float32 (H : CalcPrecise 24 (1 / 2 ^ 23) F)
    {d : DMD} {h : Profile.Heap} {inp target : ProfArg} {window : Option ProfArg} {u T w : ℕ → ℕ → ℂ}
    (m : Matching d h inp target window u T w) (hN : d.slm.Nx + d.slm.Ny ≤ 4160)
    (hsc : 0 < d.slm.wavelength * d.slm.focal) (hps : 0 < d.slm.ps) (hp : 2 * d.slm.ps ≤ d.p)
    (hlit : ∀ i < d.slm.Ny, ∀ j < d.slm.Nx, spectrum d.slm T i j * w i j ≠ 0 → u i j ≠ 0)
    (hδ : Resolved d.slm.Ny d.slm.Nx u (fun i j => spectrum d.slm T i j * w i j)
      (targetFpR F d.slm.Ny d.slm.Nx T (window.map fun _ => w)) (1 / 1000)) (kw : CalcKwargs) (draw : ℕ → ℕ → ℝ) :
    ∃ (g : Tensor XR) (st : Tensor Bool) (eta : ℝ),
      d.calculateDmdState h inp target "ideal" window kw draw = ⟨.rebind (.float g), .ok (.fin eta)⟩ ∧
      d.calculateDmdState h inp target "simple" window kw draw = ⟨.rebind (.bool st), .ok (.fin eta)⟩ ∧
      ∀ i < d.slm.Ny, ∀ j < d.slm.Nx, ∃ x : ℝ, g.get i j = .fin x ∧
        (0.0125 < |x - 1 / 2| → d.calcSimpleR F u T (window.map fun _ => w) i j = st.get i j) := by
  have hppos : 0 < d.p := by linarith
  obtain ⟨g, st, eta, c1, c2, hall⟩ := C144_simple H (by norm_num) (by norm_num) m (by omega) (by omega) hsc hps.ne' hppos.ne' hlit
    (by norm_num) hδ rfl (by norm_num) kw draw
  refine ⟨g, st, eta, c1, c2, fun i hi j hj => ?_⟩
  obtain ⟨x, hx, hfar⟩ := hall i hi j hj
  refine ⟨x, hx, fun hc => hfar (lt_of_le_of_lt ?_ hc)⟩
  have hc := carrier_le hps hN hp hi hj
  have hc0 : 0 ≤ Rounded.carrier d.slm d.p i j := by rw [Rounded.carrier]; positivity
  refine le_trans (b := 2 * (1 / 1000 + 3 * (1 / 2 ^ 23 + 1 / 2 ^ 24) * (1 + 1 / 1000)) + 2 * (1 / 2 ^ 23) + 28 / 2 ^ 24 +
    (2 * (1 / 2 ^ 23) + 16 / 2 ^ 24) * 8320) ?_ (by norm_num)
  gcongr

/-- **C144.** The returned `eta`, in python arithmetic with relative error at most `e` per operation. -/
theorem C144_eta (H : CalcPrecise t v F) (ht : 4 ≤ t) (hv : v ≤ 1 / 16) {e : ℝ} (hpy : RelErr e F.py) (he : e ≤ 1 / 100)
    {d : DMD} {h : Profile.Heap} {inp target : ProfArg} {window : Option ProfArg} {u T w : ℕ → ℕ → ℂ}
    (m : Matching d h inp target window u T w)
    (hsc : 0 < d.slm.wavelength * d.slm.focal) (hps : d.slm.ps ≠ 0) (hp : d.p ≠ 0)
    (hlit : ∀ i < d.slm.Ny, ∀ j < d.slm.Nx, spectrum d.slm T i j * w i j ≠ 0 → u i j ≠ 0)
    {δ γ : ℝ} (hδ0 : 0 ≤ δ)
    (hδ : Resolved d.slm.Ny d.slm.Nx u (fun i j => spectrum d.slm T i j * w i j)
      (targetFpR F d.slm.Ny d.slm.Nx T (window.map fun _ => w)) δ)
    (hγ : γ = δ + 3 * (v + 1 / 2 ^ t) * (1 + δ)) (hγ1 : γ ≤ 1 / 2) (kw : CalcKwargs) (draw : ℕ → ℕ → ℝ) :
    ∃ eta M : ℝ, 0 < eta ∧ (d.calculateDmdState h inp target "simple" window kw draw).result = .ok (.fin eta) ∧
      (d.calculateDmdState h inp target "random" window kw draw).result = .ok (.fin eta) ∧
      oneOverEtaR F d.slm u T (window.map fun _ => w) = .fin M ∧
      |etaR F d.slm M - eta| ≤ (Real.exp (2 * γ + 9 * e) - 1) * eta := by
  have hne : ∃ i < d.slm.Ny, ∃ j < d.slm.Nx, spectrum d.slm T i j * w i j ≠ 0 := by
    obtain ⟨i, hi, j, hj, hz, -⟩ := hδ
    exact ⟨i, hi, j, hj, hz⟩
  obtain ⟨A, eta, h0, h1, h2, h3⟩ := calc_elementwise m hsc hps hp hlit hne kw
  obtain ⟨-, ⟨st, c2, -⟩, st', c3, -⟩ := h3 draw
  have hNx : (0 : ℝ) < d.slm.Nx := by exact_mod_cast m.hNx
  have hNy : (0 : ℝ) < d.slm.Ny := by exact_mod_cast m.hNy
  obtain ⟨M, hM0, hM, hcM, -⟩ := calc_close H ht hv m.hNx m.hNy (c := eta * (d.slm.wavelength * d.slm.focal) /
    (d.slm.ps ^ 2 * d.slm.Nx * d.slm.Ny)) (by positivity) hδ0 h1 h2 hlit hδ hγ hγ1
  refine ⟨eta, M, h0, by rw [c2], by rw [c3], hM, ?_⟩
  have he0 := hpy.nonneg
  set E := d.slm.ps * d.slm.ps / (d.slm.wavelength * d.slm.focal) * d.slm.Nx * d.slm.Ny / M with hE
  have n1 : Near (4 * e) (d.slm.ps * d.slm.ps / (d.slm.wavelength * d.slm.focal))
      (F.py (F.py (d.slm.ps * d.slm.ps) / F.py (d.slm.wavelength * d.slm.focal))) :=
    (hpy.near' ((hpy.near _).div (hpy.near _) he0 he0 (by linarith))).mono (by linarith)
  have n2 := hpy.near' (n1.mul (hpy.near (d.slm.Nx : ℝ)) (by linarith) he0)
  have n3 := hpy.near' (n2.mul (hpy.near (d.slm.Ny : ℝ)) (by linarith) he0)
  have n4 := hpy.near' (n3.div (Near.refl le_rfl M) (by linarith) le_rfl (by norm_num))
  have n5 : Near (9 * e) E (etaR F d.slm M) := n4.mono (by linarith)
  have hC : E * (eta * (d.slm.wavelength * d.slm.focal) / (d.slm.ps ^ 2 * d.slm.Nx * d.slm.Ny) * M) = eta := by
    rw [hE]
    generalize d.slm.wavelength * d.slm.focal = L at hsc
    have := hsc.ne'
    field_simp
  have hE0 : 0 < E := by
    have : 0 < d.slm.ps * d.slm.ps := mul_self_pos.mpr hps
    rw [hE]; positivity
  have n6 : Near (2 * γ) eta E := by
    refine near_of_rel ?_
    rw [Real.norm_eq_abs, Real.norm_of_nonneg h0.le]
    set q := eta * (d.slm.wavelength * d.slm.focal) / (d.slm.ps ^ 2 * d.slm.Nx * d.slm.Ny) * M
    obtain ⟨q1, q2⟩ := abs_le.mp hcM
    rw [← hC, show E - E * q = E * (1 - q) by ring, abs_mul, abs_of_pos hE0, abs_sub_comm]
    have : γ ≤ 2 * γ * q := by nlinarith [(abs_nonneg _).trans hcM]
    calc E * |q - 1| ≤ E * (2 * γ * q) := by gcongr; exact hcM.trans this
      _ = _ := by ring
  have n7 := n6.trans n5 (by linarith)
  unfold Near at n7
  rwa [Real.norm_eq_abs, Real.norm_of_nonneg h0.le] at n7

theorem sum_ifftshift2 (M N : ℕ) (f : ℕ → ℕ → ℝ) :
    ∑ i ∈ range M, ∑ j ∈ range N, f (ifftshiftIdx M i) (ifftshiftIdx N j) = ∑ i ∈ range M, ∑ j ∈ range N, f i j := by
  rw [sum_ifftshift M (fun a _ => ∑ j ∈ range N, f a (ifftshiftIdx N j))]
  exact sum_congr rfl fun i _ => sum_ifftshift N (fun b _ => f i b)

/-- **C144.** An FFT that is accurate in the usual sense resolves the transform if the input is nowhere too dim: `τ` times the root of
the sum of squares of the transform (times the window) must be at most `δ` times the largest ratio, at `(i₀, j₀)`, times the input field. -/
theorem C144_fft (H : CalcPrecise t v F) (ht : 7 ≤ t) {τ : ℝ} (hτ : 0 ≤ τ) {d : DMD} (hF : FftPrecise τ d.slm.Ny d.slm.Nx F)
    {h : Profile.Heap} {inp target : ProfArg} {window : Option ProfArg} {u T w : ℕ → ℕ → ℂ}
    (m : Matching d h inp target window u T w) {δ : ℝ} {i₀ j₀ : ℕ} (hi₀ : i₀ < d.slm.Ny) (hj₀ : j₀ < d.slm.Nx)
    (hz₀ : spectrum d.slm T i₀ j₀ * w i₀ j₀ ≠ 0) (hu₀ : u i₀ j₀ ≠ 0)
    (hmax : ∀ i < d.slm.Ny, ∀ j < d.slm.Nx,
      ‖spectrum d.slm T i j * w i j‖ ≤ ‖spectrum d.slm T i₀ j₀ * w i₀ j₀‖ / ‖u i₀ j₀‖ * ‖u i j‖)
    (hdim : ∀ i < d.slm.Ny, ∀ j < d.slm.Nx,
      τ * √(d.slm.Ny * d.slm.Nx * ∑ k ∈ range d.slm.Ny, ∑ l ∈ range d.slm.Nx, ‖T k l‖ ^ 2) * ‖w i j‖ ≤
        δ * (‖spectrum d.slm T i₀ j₀ * w i₀ j₀‖ / ‖u i₀ j₀‖) * ‖u i j‖) :
    Resolved d.slm.Ny d.slm.Nx u (fun i j => spectrum d.slm T i j * w i j)
      (targetFpR F d.slm.Ny d.slm.Nx T (window.map fun _ => w)) ((Real.exp (3 / 2 ^ t) - 1) * (1 + δ) + δ) := by
  refine ⟨i₀, hi₀, j₀, hj₀, hz₀, hu₀, fun i hi j hj => ?_⟩
  set M := d.slm.Ny
  set N := d.slm.Nx
  set R := ‖spectrum d.slm T i₀ j₀ * w i₀ j₀‖ / ‖u i₀ j₀‖ with hR
  set E := τ * √(M * N * ∑ k ∈ range M, ∑ l ∈ range N, ‖T k l‖ ^ 2) with hE
  have hE0 : 0 ≤ E := by positivity
  have hR0 : 0 < R := div_pos (norm_pos_iff.mpr hz₀) (norm_pos_iff.mpr hu₀)
  have hδ0 : 0 ≤ δ := by
    have h1 := (mul_nonneg hE0 (norm_nonneg (w i₀ j₀))).trans (hdim i₀ hi₀ j₀ hj₀)
    have h2 : 0 < R * ‖u i₀ j₀‖ := mul_pos hR0 (norm_pos_iff.mpr hu₀)
    rw [mul_assoc] at h1
    exact nonneg_of_mul_nonneg_left h1 h2
  have hexp : 0 ≤ Real.exp (3 / 2 ^ t) - 1 := exp_sub_nonneg (by positivity)
  -- the transform before the window
  have hfp : ‖fftshift2 M N (F.fft M N (ifftshift2 M N T)) i j - spectrum d.slm T i j‖ ≤ E := by
    have h1 := hF (ifftshift2 M N T)
    rw [dft2_parseval] at h1
    have h2 : ∑ a ∈ range M, ∑ b ∈ range N, ‖ifftshift2 M N T a b‖ ^ 2 = ∑ k ∈ range M, ∑ l ∈ range N, ‖T k l‖ ^ 2 :=
      sum_ifftshift2 M N fun k l => ‖T k l‖ ^ 2
    rw [h2] at h1
    have ha : fftshiftIdx M i < M := Nat.mod_lt _ (by omega)
    have hb : fftshiftIdx N j < N := Nat.mod_lt _ (by omega)
    have h3 : ‖F.fft M N (ifftshift2 M N T) (fftshiftIdx M i) (fftshiftIdx N j) -
        dft2 M N (ifftshift2 M N T) (fftshiftIdx M i) (fftshiftIdx N j)‖ ^ 2 ≤ E ^ 2 := by
      rw [hE, mul_pow, Real.sq_sqrt (by positivity)]
      refine le_trans ?_ h1
      refine le_trans ?_ (single_le_sum (f := fun a => ∑ b ∈ range N, ‖F.fft M N (ifftshift2 M N T) a b -
        dft2 M N (ifftshift2 M N T) a b‖ ^ 2) (fun _ _ => sum_nonneg fun _ _ => by positivity) (mem_range.mpr ha))
      exact single_le_sum (f := fun b => ‖F.fft M N (ifftshift2 M N T) (fftshiftIdx M i) b -
        dft2 M N (ifftshift2 M N T) (fftshiftIdx M i) b‖ ^ 2) (fun _ _ => by positivity) (mem_range.mpr hb)
    have h4 := abs_le_of_sq_le_sq h3 hE0
    rw [← spectrum_eq d.slm T hi hj]
    exact (le_abs_self _).trans h4
  have hu := norm_nonneg (u i j)
  have hd := hdim i hi j hj
  cases window with
  | none =>
    have hw : w i j = 1 := m.window i j
    rw [hw, norm_one, mul_one] at hd
    show ‖fftshift2 M N (F.fft M N (ifftshift2 M N T)) i j - spectrum d.slm T i j * w i j‖ ≤ _
    rw [hw, mul_one]
    refine hfp.trans (hd.trans ?_)
    have : δ ≤ (Real.exp (3 / 2 ^ t) - 1) * (1 + δ) + δ := by
      have := mul_nonneg hexp (by linarith : 0 ≤ 1 + δ)
      linarith
    gcongr
  | some x =>
    set fp := fftshift2 M N (F.fft M N (ifftshift2 M N T)) i j
    show ‖cmulR F.rnd fp (w i j) - spectrum d.slm T i j * w i j‖ ≤ _
    have hrel : RelErr (1 / 2 ^ t) F.rnd := fun x => by
      have := H.arith.rnd.err x
      rwa [div_eq_mul_one_div, mul_comm] at this
    have hu1 : (1 : ℝ) / 2 ^ t ≤ 1 / 100 := by
      refine one_div_le_one_div_of_le (by norm_num) ?_
      calc (100 : ℝ) ≤ 2 ^ 7 := by norm_num
        _ ≤ 2 ^ t := pow_le_pow_right₀ (by norm_num) ht
    have hnear := cmulR_near hrel hu1 fp (w i j)
    rw [show 3 * (1 / 2 ^ t : ℝ) = 3 / 2 ^ t by ring] at hnear
    unfold Near at hnear
    have h1 : ‖fp * w i j - spectrum d.slm T i j * w i j‖ ≤ δ * R * ‖u i j‖ := by
      rw [← sub_mul, norm_mul]
      exact (mul_le_mul_of_nonneg_right hfp (norm_nonneg _)).trans hd
    have h2 : ‖fp * w i j‖ ≤ (1 + δ) * R * ‖u i j‖ := by
      have := norm_add_le (fp * w i j - spectrum d.slm T i j * w i j) (spectrum d.slm T i j * w i j)
      rw [sub_add_cancel] at this
      have := hmax i hi j hj
      linarith
    have h3 := norm_add_le (cmulR F.rnd fp (w i j) - fp * w i j) (fp * w i j - spectrum d.slm T i j * w i j)
    rw [sub_add_sub_cancel] at h3
    refine h3.trans ?_
    have h4 : (Real.exp (3 / 2 ^ t) - 1) * ‖fp * w i j‖ ≤ (Real.exp (3 / 2 ^ t) - 1) * ((1 + δ) * R * ‖u i j‖) := by gcongr
    calc _ ≤ (Real.exp (3 / 2 ^ t) - 1) * ((1 + δ) * R * ‖u i j‖) + δ * R * ‖u i j‖ := add_le_add (hnear.trans h4) h1
      _ = _ := by ring

/-- **C144.** If the input vanishes at a single pixel where the computed transform does not (however small it is there), the whole pattern of
method "simple" is dark, and the maximum the amplitudes are divided by is infinite. -/
theorem C144_dark (H : CalcPrecise t v F) (hv : v ≤ 1 / 16) {d : DMD} {u T : ℕ → ℕ → ℂ} {W : Option (ℕ → ℕ → ℂ)} {i₀ j₀ : ℕ}
    (hi₀ : i₀ < d.slm.Ny) (hj₀ : j₀ < d.slm.Nx) (hu : u i₀ j₀ = 0) (hz : targetFpR F d.slm.Ny d.slm.Nx T W i₀ j₀ ≠ 0) :
    oneOverEtaR F d.slm u T W = .pinf ∧ ∀ i j, d.calcSimpleR F u T W i j = false := by
  have cases' : ∀ i j, ratioR F (u i j) (targetFpR F d.slm.Ny d.slm.Nx T W i j) = .pinf ∨
      ∃ r : ℝ, ratioR F (u i j) (targetFpR F d.slm.Ny d.slm.Nx T W i j) = .fin r := by
    intro i j
    by_cases h : targetFpR F d.slm.Ny d.slm.Nx T W i j ≠ 0 → u i j ≠ 0
    · exact .inr ⟨_, ratioR_eq H hv h⟩
    · push Not at h
      refine .inl ?_
      rw [ratioR, h.2, H.abs_zero, if_neg fun hc => h.1 ((H.abs_eq_zero hv).mp hc), XR.divFin, if_pos rfl,
        if_neg fun hc => h.1 ((H.abs_eq_zero hv).mp hc), if_pos (H.abs_pos hv h.1)]
      rfl
  have h0 : ratioR F (u i₀ j₀) (targetFpR F d.slm.Ny d.slm.Nx T W i₀ j₀) = .pinf := by
    rw [ratioR, hu, H.abs_zero, if_neg fun hc => hz ((H.abs_eq_zero hv).mp hc), XR.divFin, if_pos rfl,
      if_neg fun hc => hz ((H.abs_eq_zero hv).mp hc), if_pos (H.abs_pos hv hz)]
    rfl
  have hmax : oneOverEtaR F d.slm u T W = .pinf := by
    refine foldr_max_pinf _ _ (fun ij _ => cases' ij.1 ij.2) ?_
    exact ⟨(i₀, j₀), List.pair_mem_product.mpr ⟨List.mem_range.mpr hi₀, List.mem_range.mpr hj₀⟩, h0⟩
  refine ⟨hmax, fun i j => ?_⟩
  rcases cases' i j with h | ⟨r, h⟩
  · have : ampScaledR F d.slm u T W i j = .nan := by
      rw [ampScaledR, hmax, h]
      rfl
    rw [calcSimpleR, this]
  · have : ampScaledR F d.slm u T W i j = .fin 0 := by
      rw [ampScaledR, hmax, h]
      show XR.fin (F.rnd 0) = _
      rw [H.rnd_zero]
    rw [calcSimpleR, this]
    simp only [simplePixelR, idealPixelR, zero_mul, H.rnd_zero]
    norm_num

/-! ### An arithmetic with an inaccurate FFT -/

/-- Exact library functions, rounded arithmetic, and an FFT in which a part `τ` of the first coefficient leaks into the second. -/
def leaky (t : ℕ) (τ : ℝ) : CalcArith where
  toArith := exactLib t
  py := nearest 53
  abs := fun z => ‖z‖
  angle := arg
  fft := fun M N f k l => dft2 M N f k l + if k = 0 then (if l = 1 then τ * dft2 M N f 0 0 else 0) else 0

theorem leaky_precise (ht : 1 ≤ t) {v : ℝ} (hv : 0 ≤ v) (τ : ℝ) : CalcPrecise t v (leaky t τ) where
  arith := exactLib_precise ht hv
  mono := nearest_mono ht
  abs := fun z => by
    show |‖z‖ - ‖z‖| ≤ _
    rw [sub_self, abs_zero]
    positivity
  angle := fun z _ => ⟨0, by
    show |arg z - (arg z + (0 : ℤ) * _)| ≤ v
    simpa using hv⟩
  angle_range := fun z => (abs_arg_le_pi z).trans Real.pi_le_four

theorem leaky_fft (t : ℕ) (τ : ℝ) (M N : ℕ) : FftPrecise τ M N (leaky t τ) := by
  intro f
  have e : ∀ i j, (leaky t τ).fft M N f i j - dft2 M N f i j = if i = 0 then (if j = 1 then τ * dft2 M N f 0 0 else 0) else 0 := by
    intro i j
    show dft2 M N f i j + _ - _ = _
    rw [add_sub_cancel_left]
  simp only [e]
  rcases Nat.eq_zero_or_pos M with rfl | hM
  · simp
  have e2 : ∀ i j : ℕ, ‖(if i = 0 then (if j = 1 then (τ : ℂ) * dft2 M N f 0 0 else 0) else 0)‖ ^ 2 =
      if i = 0 then (if j = 1 then τ ^ 2 * ‖dft2 M N f 0 0‖ ^ 2 else 0) else 0 := by
    intro i j
    split
    · split
      · rw [norm_mul, mul_pow, Complex.norm_real, Real.norm_eq_abs, sq_abs]
      · simp
    · simp
  simp only [e2]
  have e3 : ∀ i : ℕ, ∑ j ∈ range N, (if i = 0 then (if j = 1 then τ ^ 2 * ‖dft2 M N f 0 0‖ ^ 2 else 0) else 0) =
      if i = 0 then (if 1 ∈ range N then τ ^ 2 * ‖dft2 M N f 0 0‖ ^ 2 else 0) else 0 := by
    intro i
    by_cases h : i = 0
    · simp only [if_pos h, sum_ite_eq']
    · simp only [if_neg h, sum_const_zero]
  simp only [e3, sum_ite_eq', mem_range, if_pos hM]
  split
  · rename_i hN
    refine mul_le_mul_of_nonneg_left ?_ (by positivity)
    refine le_trans ?_ (single_le_sum (f := fun i => ∑ j ∈ range N, ‖dft2 M N f i j‖ ^ 2)
      (fun _ _ => sum_nonneg fun _ _ => by positivity) (mem_range.mpr hM))
    exact single_le_sum (f := fun j => ‖dft2 M N f 0 j‖ ^ 2) (fun _ _ => by positivity) (mem_range.mpr (by omega : 0 < N))
  · positivity

/-- A device of two pixels. -/
def twoPixels : DMD := ⟨⟨1, 1, 2, 1, 1⟩, 4, 0, false⟩

/-- The transform of a constant on two pixels. -/
theorem two_dft (l : ℕ) (hl : l < 2) : dft2 1 2 (fun _ _ => 1) 0 l = if l = 0 then 2 else 0 := by
  unfold dft2
  rw [sum_range_one, sum_range_succ, sum_range_one]
  have e : cexp (-(2 * Real.pi * I) * (1 / (2 : ℕ))) = -1 := by
    rw [show -(2 * (Real.pi : ℂ) * I) * (1 / (2 : ℕ)) = -(Real.pi * I) by push_cast; ring, Complex.exp_neg, Complex.exp_pi_mul_I]
    norm_num
  interval_cases l
  · norm_num
  · simp only [Nat.cast_zero, Nat.cast_one, zero_mul, zero_div, mul_zero, zero_add, Complex.exp_zero, one_mul]
    rw [e]
    norm_num

/-- **C144.** An accurate FFT alone is not enough.  However small its error `τ`, there are a target and an input field that vanishes nowhere
for which a mirror with the largest possible distance from the threshold is computed wrongly: the mirror that carries all the light of the
target is off, because a part of the target's transform that leaks to a dim pixel sets the normalisation. -/
theorem C144_dim (ht : 4 ≤ t) {τ : ℝ} (hτ : 0 < τ) :
    ∃ (F : CalcArith) (d : DMD) (inp target : ProfArg) (u T : ℕ → ℕ → ℂ),
      CalcPrecise t 0 F ∧ FftPrecise τ d.slm.Ny d.slm.Nx F ∧ d.p ≠ 0 ∧ 0 < d.slm.wavelength * d.slm.focal ∧ d.slm.ps ≠ 0 ∧
      (∀ i j, u i j ≠ 0) ∧ ∀ (h : Profile.Heap) (kw : CalcKwargs) (draw : ℕ → ℕ → ℝ),
      Matching d h inp target none u T (fun _ _ => 1) ∧
      ∃ (g : Tensor XR) (st : Tensor Bool) (eta : ℝ),
        d.calculateDmdState h inp target "ideal" none kw draw = ⟨.rebind (.float g), .ok (.fin eta)⟩ ∧
        d.calculateDmdState h inp target "simple" none kw draw = ⟨.rebind (.bool st), .ok (.fin eta)⟩ ∧
        ∃ i < d.slm.Ny, ∃ j < d.slm.Nx, g.get i j = .fin 1 ∧ st.get i j = true ∧ d.calcSimpleR F u T none i j = false := by
  set u : ℕ → ℕ → ℂ := fun _ j => if j = 0 then ((τ / 8 : ℝ) : ℂ) else 1 with hu
  set T : ℕ → ℕ → ℂ := fun _ _ => 1 with hT
  have H := leaky_precise (t := t) (by omega) le_rfl τ
  have hu0 : ∀ i j, u i j ≠ 0 := by
    intro i j
    rw [hu]
    simp only
    split
    · exact_mod_cast (by positivity : τ / 8 ≠ 0)
    · exact one_ne_zero
  refine ⟨leaky t τ, twoPixels, .ndarray .cplx ⟨.mat 1 2, u⟩, .ndarray .cplx ⟨.mat 1 2, T⟩, u, T, H, leaky_fft t τ _ _,
    by norm_num [twoPixels], by norm_num [twoPixels], by norm_num [twoPixels], hu0, fun h kw draw => ?_⟩
  have m : Matching twoPixels h (.ndarray .cplx ⟨.mat 1 2, u⟩) (.ndarray .cplx ⟨.mat 1 2, T⟩) none u T (fun _ _ => 1) :=
    ⟨by decide, by decide, ⟨_, rfl, Tensor.denotes_of_mat rfl fun _ _ _ _ => rfl⟩, ⟨_, rfl, rfl, fun _ _ _ _ => rfl⟩, fun _ _ => rfl⟩
  -- the exact transform
  have hshift : ifftshift2 1 2 T = fun _ _ => 1 := rfl
  have z0 : spectrum twoPixels.slm T 0 0 = 0 := by
    rw [← spectrum_eq _ _ (by decide) (by decide)]
    show dft2 1 2 (ifftshift2 1 2 T) 0 1 = 0
    rw [hshift, two_dft 1 (by norm_num)]
    norm_num
  have z1 : spectrum twoPixels.slm T 0 1 = 2 := by
    rw [← spectrum_eq _ _ (by decide) (by decide)]
    show dft2 1 2 (ifftshift2 1 2 T) 0 0 = 2
    rw [hshift, two_dft 0 (by norm_num)]
    norm_num
  obtain ⟨A, eta, h0, h1, ⟨i₁, hi₁, j₁, hj₁, hA⟩, h3⟩ := calc_elementwise m (by norm_num [twoPixels]) (by norm_num [twoPixels])
    (by norm_num [twoPixels]) (fun i _ j _ _ => hu0 i j) ⟨0, by decide, 1, by decide, by rw [z1]; norm_num⟩ kw
  obtain ⟨⟨g, c1, e1⟩, ⟨st, c2, e2⟩, -⟩ := h3 draw
  refine ⟨m, g, st, eta, c1, c2, 0, by decide, 1, by decide, ?_⟩
  have hA1 : A 0 1 = 1 := by
    have hi : i₁ = 0 := by
      have : i₁ < 1 := hi₁
      omega
    have hj : j₁ = 0 ∨ j₁ = 1 := by
      have : j₁ < 2 := hj₁
      omega
    rcases hj with hj | hj
    · rw [hi, hj] at hA
      have := (h1 0 (by decide) 0 (by decide)).2.2.1.mpr (by rw [z0, zero_mul])
      rw [this] at hA
      norm_num at hA
    · rwa [hi, hj] at hA
  have hgrey : grey twoPixels.slm twoPixels.p twoPixels.theta twoPixels.neg (A 0 1) (arg (u 0 1)) (arg (spectrum twoPixels.slm T 0 1 * 1)) 0 1 = 1 := by
    have a2 : arg (2 : ℂ) = 0 := by simp
    rw [hA1, z1, mul_one, a2]
    have : u 0 1 = 1 := rfl
    rw [this, arg_one]
    norm_num [grey, Rounded.detuning, twoPixels]
  refine ⟨?_, ?_, ?_⟩
  · rw [e1 0 (by decide) 1 (by decide), hgrey]
  · rw [e2 0 (by decide) 1 (by decide), hgrey]
    norm_num
  -- the computed pattern
  have t0 : targetFpR (leaky t τ) 1 2 T none 0 0 = ((2 * τ : ℝ) : ℂ) := by
    show dft2 1 2 (ifftshift2 1 2 T) 0 1 + τ * dft2 1 2 (ifftshift2 1 2 T) 0 0 = _
    rw [hshift, two_dft 1 (by norm_num), two_dft 0 (by norm_num)]
    push_cast
    norm_num
    ring
  have t1 : targetFpR (leaky t τ) 1 2 T none 0 1 = ((2 : ℝ) : ℂ) := by
    show dft2 1 2 (ifftshift2 1 2 T) 0 0 + 0 = _
    rw [hshift, two_dft 0 (by norm_num)]
    norm_num
  have ex : ∀ n : ℤ, (leaky t τ).rnd ((2 : ℝ) ^ n) = (2 : ℝ) ^ n := fun n =>
    H.arith.rnd.exact _ ⟨1, n, by simpa using one_le_pow₀ (by norm_num : (1 : ℤ) ≤ 2), by simp⟩
  have v0 : ratioVal (leaky t τ) (u 0 0) (targetFpR (leaky t τ) 1 2 T none 0 0) = 16 := by
    rw [t0, ratioVal]
    show (leaky t τ).rnd (‖((2 * τ : ℝ) : ℂ)‖ / ‖((τ / 8 : ℝ) : ℂ)‖) = 16
    rw [Complex.norm_real, Complex.norm_real, Real.norm_of_nonneg (by positivity), Real.norm_of_nonneg (by positivity),
      show 2 * τ / (τ / 8) = (2 : ℝ) ^ (4 : ℤ) by field_simp; norm_num, ex]
    norm_num
  have v1 : ratioVal (leaky t τ) (u 0 1) (targetFpR (leaky t τ) 1 2 T none 0 1) = 2 := by
    rw [t1, ratioVal]
    show (leaky t τ).rnd (‖((2 : ℝ) : ℂ)‖ / ‖(1 : ℂ)‖) = 2
    rw [Complex.norm_real, Real.norm_of_nonneg (by positivity), norm_one, show (2 : ℝ) / 1 = (2 : ℝ) ^ (1 : ℤ) by norm_num, ex]
    norm_num
  obtain ⟨M, hM0, hM, hall, i₂, hi₂, j₂, hj₂, hmax⟩ := ampScaledR_eq (s := twoPixels.slm) (T := T) (u := u) (W := none) H ht (by norm_num)
    (by decide) (by decide) (fun i _ j _ _ => hu0 i j) ⟨0, by decide, 1, by decide, by
      show targetFpR (leaky t τ) 1 2 T none 0 1 ≠ 0
      rw [t1]; norm_num⟩
  have hM16 : M = 16 := by
    have l0 := (hall 0 (by decide) 0 (by decide)).1
    change ratioVal (leaky t τ) (u 0 0) (targetFpR (leaky t τ) 1 2 T none 0 0) ≤ M at l0
    rw [v0] at l0
    have hi : i₂ = 0 := by
      have : i₂ < 1 := hi₂
      omega
    have hj : j₂ = 0 ∨ j₂ = 1 := by
      have : j₂ < 2 := hj₂
      omega
    change ratioVal (leaky t τ) (u i₂ j₂) (targetFpR (leaky t τ) 1 2 T none i₂ j₂) = M at hmax
    rcases hj with hj | hj
    · rw [hi, hj, v0] at hmax
      exact hmax.symm
    · rw [hi, hj, v1] at hmax
      linarith
  have ha := (hall 0 (by decide) 1 (by decide)).2
  change ampScaledR (leaky t τ) twoPixels.slm u T none 0 1 =
    .fin ((leaky t τ).rnd (ratioVal (leaky t τ) (u 0 1) (targetFpR (leaky t τ) 1 2 T none 0 1) / M)) at ha
  rw [v1, hM16, show (2 : ℝ) / 16 = (2 : ℝ) ^ (-3 : ℤ) by norm_num, ex] at ha
  rw [calcSimpleR, ha]
  simp only [simplePixelR, decide_eq_false_iff_not, not_lt]
  have b1 : ∀ y, (leaky t τ).rnd ((leaky t τ).rnd ((leaky t τ).cos y / 2) + 0.5) ≤ 1 := by
    intro y
    have c1 : (leaky t τ).rnd ((leaky t τ).cos y / 2) ≤ 1 / 2 := by
      have h1 : (leaky t τ).cos y / 2 ≤ (2 : ℝ) ^ (-1 : ℤ) := by
        have : (leaky t τ).cos y ≤ 1 := Real.cos_le_one y
        norm_num
        linarith
      have := H.mono h1
      rw [ex] at this
      norm_num at this ⊢
      exact this
    have h2 : (leaky t τ).rnd ((leaky t τ).cos y / 2) + 0.5 ≤ 1 := by
      norm_num at c1 ⊢
      linarith
    have := H.mono h2
    rwa [H.rnd_one] at this
  rw [idealPixelR]
  have h3 := H.mono (show (2 : ℝ) ^ (-3 : ℤ) * _ ≤ (2 : ℝ) ^ (-3 : ℤ) from
    mul_le_of_le_one_right (by positivity) (b1 (detuningR (leaky t τ).toArith twoPixels.p twoPixels.theta twoPixels.neg
      (calcPixR (leaky t τ) twoPixels u T none ((2 : ℝ) ^ (-3 : ℤ)) 0 1))))
  rw [ex] at h3
  refine h3.trans ?_
  norm_num

/-! ## The hypotheses can be met -/

theorem exSpot_norm (i j : ℕ) : ‖spectrum Sim.exDmd.slm exSpot i j‖ = 1 := by
  have h : spectrum Sim.exDmd.slm exSpot i j = cexp (((-(2 * Real.pi) *
      ((((i : ℝ) - (2 / 2 : ℕ)) * (((0 : ℕ) : ℝ) - (2 / 2 : ℕ)) / (2 : ℕ)) +
      ((j : ℝ) - (4 / 2 : ℕ)) * (((1 : ℕ) : ℝ) - (4 / 2 : ℕ)) / (4 : ℕ)) : ℝ) : ℂ) * I) := by
    show (∑ k ∈ range 2, ∑ l ∈ range 4, exSpot k l * _) = _
    simp [Finset.sum_range_succ, exSpot, Sim.exDmd]
    congr 1
    ring
  rw [h, Complex.norm_exp_ofReal_mul_I]

theorem Resolved.mono {M N : ℕ} {u z z' : ℕ → ℕ → ℂ} {δ δ' : ℝ} (h : Resolved M N u z z' δ) (hle : δ ≤ δ') :
    Resolved M N u z z' δ' := by
  obtain ⟨i, hi, j, hj, hz, hu, hall⟩ := h
  exact ⟨i, hi, j, hj, hz, hu, fun a ha b hb => (hall a ha b hb).trans (by gcongr)⟩

/-- C144: `float32`, an FFT with an error of one part in a million, an input field that is not constant, and a spot.  C144_fft applies, and what
it gives is good enough for C144_float32 (and so for C144_simple, C144_random, C144_eta, C144_range). -/
example (h : Profile.Heap) :
    let u : ℕ → ℕ → ℂ := fun i j => i + j * I + 1
    let F := leaky 24 (1 / 2 ^ 20)
    CalcPrecise 24 (1 / 2 ^ 23) F ∧ RelErr (1 / 2 ^ 53) F.py ∧ FftPrecise (1 / 2 ^ 20) Sim.exDmd.slm.Ny Sim.exDmd.slm.Nx F ∧
    Matching Sim.exDmd h (exArray u) (exArray exSpot) none u exSpot (fun _ _ => 1) ∧
    (∀ i j, u i j ≠ 0) ∧ Sim.exDmd.slm.Nx + Sim.exDmd.slm.Ny ≤ 4160 ∧ 2 * Sim.exDmd.slm.ps ≤ Sim.exDmd.p ∧
    Resolved Sim.exDmd.slm.Ny Sim.exDmd.slm.Nx u (fun i j => spectrum Sim.exDmd.slm exSpot i j * 1)
      (targetFpR F Sim.exDmd.slm.Ny Sim.exDmd.slm.Nx exSpot none) (1 / 1000) := by
  intro u F
  have H : CalcPrecise 24 (1 / 2 ^ 23) F := leaky_precise (by norm_num) (by positivity) _
  have hre : ∀ i j : ℕ, 1 ≤ ‖u i j‖ := by
    intro i j
    refine le_trans ?_ (Complex.re_le_norm _)
    simp [u]
  have hu : ∀ i j, u i j ≠ 0 := fun i j => norm_pos_iff.mp (by linarith [hre i j])
  have hF := leaky_fft 24 (1 / 2 ^ 20) Sim.exDmd.slm.Ny Sim.exDmd.slm.Nx
  have hu0 : ‖u 0 0‖ = 1 := by simp [u]
  refine ⟨H, fun x => ?_, hF, exMatching h u exSpot, hu, by decide, by norm_num [Sim.exDmd], ?_⟩
  · have := (nearest_roundsTo (t := 53) (by norm_num)).err x
    rwa [div_eq_mul_one_div, mul_comm] at this
  · have key := C144_fft H (by norm_num) (by positivity) hF (exMatching h u exSpot) (δ := 1 / 2 ^ 18) (i₀ := 0) (j₀ := 0)
      (by decide) (by decide) (by rw [mul_one]; exact exSpot_spectrum 0 0) (hu 0 0) ?_ ?_
    · refine Resolved.mono key ?_
      have := Real.abs_exp_sub_one_le (x := 3 / 2 ^ 24) (by norm_num)
      have := (abs_le.mp this).2
      rw [abs_of_pos (by positivity)] at this
      norm_num at this ⊢
      linarith
    · intro i _ j _
      simp only [mul_one, exSpot_norm, hu0, div_one, one_mul]
      exact hre i j
    · intro i _ j _
      simp only [mul_one, exSpot_norm, hu0, div_one, one_mul, norm_one]
      have hsum : ∑ k ∈ range Sim.exDmd.slm.Ny, ∑ l ∈ range Sim.exDmd.slm.Nx, ‖exSpot k l‖ ^ 2 = 1 := by
        show ∑ k ∈ range 2, ∑ l ∈ range 4, ‖exSpot k l‖ ^ 2 = 1
        simp [sum_range_succ, exSpot]
      rw [hsum]
      have h8 : √((Sim.exDmd.slm.Ny : ℝ) * Sim.exDmd.slm.Nx * 1) ≤ 4 := by
        rw [Real.sqrt_le_left (by norm_num)]
        norm_num [Sim.exDmd]
      have := hre i j
      nlinarith

/-- C144_dark: one dark pixel in the input, no error at all in the FFT. -/
example :
    let u : ℕ → ℕ → ℂ := fun i j => if (i, j) = (1, 2) then 0 else 1
    let F := leaky 24 0
    CalcPrecise 24 (1 / 2 ^ 23) F ∧ u 1 2 = 0 ∧ targetFpR F Sim.exDmd.slm.Ny Sim.exDmd.slm.Nx exSpot none 1 2 ≠ 0 := by
  refine ⟨leaky_precise (by norm_num) (by positivity) _, by simp, ?_⟩
  have e : targetFpR (leaky 24 0) Sim.exDmd.slm.Ny Sim.exDmd.slm.Nx exSpot none 1 2 = spectrum Sim.exDmd.slm exSpot 1 2 := by
    rw [← spectrum_eq Sim.exDmd.slm exSpot (i := 1) (j := 2) (by decide) (by decide)]
    simp [targetFpR, leaky, targetFp]
  rw [e]
  exact exSpot_spectrum 1 2

end PySLM2.DMD
