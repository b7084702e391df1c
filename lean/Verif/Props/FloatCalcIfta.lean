import Verif.Spec.FloatCalcIfta
import Verif.Props.FloatIfta

/-!
# C186: rounding in `calculate_dmd_state` with method `ifta`
-/

noncomputable section

open Complex Finset

namespace PySLM2.DMD

open Lib Spec Rounded FloatIfta FloatCalc
open LCOS (vec_norm_le vec_norm_le_add vec_congr)

theorem abs_grey_le {s : SLM} {p θ a φ φ' : ℝ} {neg : Bool} {i j : ℕ} (h0 : 0 ≤ a) (h1 : a ≤ 1) : |Rounded.grey s p θ neg a φ φ' i j| ≤ 1 := by
  rw [Rounded.grey, abs_mul, abs_of_nonneg h0]
  refine mul_le_one₀ h1 (abs_nonneg _) ?_
  obtain ⟨c1, c2⟩ := abs_le.mp (Real.abs_cos_le_one (Rounded.detuning s p θ neg φ φ' i j))
  rw [abs_le]
  constructor <;> linarith

section

variable {t : ℕ} {v : ℝ} {F : CalcArith} {d : DMD} {h : Profile.Heap} {inp target : ProfArg} {window : Option ProfArg} {u T w : ℕ → ℕ → ℂ}

/-- The grey values computed by rounded mode matching are close to those of method `ideal`. -/
theorem calc_grey_close (H : CalcPrecise t v F) (ht : 4 ≤ t) (hv : v ≤ 1 / 16)
    (m : Matching d h inp target window u T w) (hx : d.slm.Nx * 16 ≤ 2 ^ t) (hy : d.slm.Ny * 16 ≤ 2 ^ t)
    (hsc : 0 < d.slm.wavelength * d.slm.focal) (hps : d.slm.ps ≠ 0)
    (hlit : ∀ i < d.slm.Ny, ∀ j < d.slm.Nx, spectrum d.slm T i j * w i j ≠ 0 → u i j ≠ 0)
    {δ γ : ℝ} (hδ0 : 0 ≤ δ)
    (hδ : Resolved d.slm.Ny d.slm.Nx u (fun i j => spectrum d.slm T i j * w i j)
      (targetFpR F d.slm.Ny d.slm.Nx T (window.map fun _ => w)) δ)
    (hγ : γ = δ + 3 * (v + 1 / 2 ^ t) * (1 + δ)) (hγ1 : γ ≤ 1 / 2) {A : ℕ → ℕ → ℝ} {eta : ℝ} (h0 : 0 < eta)
    (h1 : ∀ i < d.slm.Ny, ∀ j < d.slm.Nx, 0 ≤ A i j ∧ A i j ≤ 1 ∧ (A i j = 0 ↔ spectrum d.slm T i j * w i j = 0) ∧
        A i j * ‖u i j‖ = eta * (d.slm.wavelength * d.slm.focal) / (d.slm.ps ^ 2 * d.slm.Nx * d.slm.Ny) *
          ‖spectrum d.slm T i j * w i j‖)
    (h2 : ∃ i < d.slm.Ny, ∃ j < d.slm.Nx, A i j = 1) {i j : ℕ} (hi : i < d.slm.Ny) (hj : j < d.slm.Nx) :
    |idealPixelR F.toArith d.p d.theta d.neg (calcAmpR F d.slm u T (window.map fun _ => w) i j)
        (pixR F.toArith d.slm (calcAmpR F d.slm u T (window.map fun _ => w) i j) (F.angle (u i j))
          (phaseOutR F (targetFpR F d.slm.Ny d.slm.Nx T (window.map fun _ => w) i j)) i j) -
      Rounded.grey d.slm d.p d.theta d.neg (A i j) (arg (u i j)) (arg (spectrum d.slm T i j * w i j)) i j| ≤
      2 * γ + 2 * v + 28 / 2 ^ t + (2 * v + 16 / 2 ^ t) * Rounded.carrier d.slm d.p i j := by
  have hNx : (0 : ℝ) < d.slm.Nx := by exact_mod_cast m.hNx
  have hNy : (0 : ℝ) < d.slm.Ny := by exact_mod_cast m.hNy
  obtain ⟨M, hM0, hM, -, hall⟩ := calc_close H ht hv m.hNx m.hNy (c := eta * (d.slm.wavelength * d.slm.focal) /
    (d.slm.ps ^ 2 * d.slm.Nx * d.slm.Ny)) (by positivity) hδ0 h1 h2 hlit hδ hγ hγ1
  obtain ⟨a, ha, a0, a1, hAa, hturn⟩ := hall i hi j hj
  have hamp : calcAmpR F d.slm u T (window.map fun _ => w) i j = a := by rw [calcAmpR, ha]
  rw [hamp]
  set W := window.map fun _ => w
  set φi := F.angle (u i j) with hφi
  set φo := phaseOutR F (targetFpR F d.slm.Ny d.slm.Nx T W i j) with hφo
  set G := Rounded.grey d.slm d.p d.theta d.neg (A i j) (arg (u i j)) (arg (spectrum d.slm T i j * w i j)) i j with hG
  have hv0 := H.v_nonneg
  have hphase : |φo - φi| ≤ 8 := by
    have b1 : |φo| ≤ 4 := by
      rw [hφo, phaseOutR]
      split
      · norm_num
      · exact H.angle_range _
    have b2 := H.angle_range (u i j)
    have := abs_sub φo φi
    linarith
  have hcar : 0 ≤ Rounded.carrier d.slm d.p i j := by rw [Rounded.carrier]; positivity
  have k1 := FloatGrating.ideal_close H.arith rfl (u_le ht) d.p d.theta d.neg a (pixR F.toArith d.slm a φi φo i j)
    (detuningR_close H.arith ht hv d.slm hx hy d.p d.theta d.neg a φi φo hi.le hj.le)
  have k2 := grey_of_turn hAa (hturn (2 * Real.pi / d.p * (Real.cos d.theta * ((j - (d.slm.Nx : ℝ) / 2) * d.slm.ps) +
    Real.sin d.theta * (((d.slm.Ny : ℝ) / 2 - i) * d.slm.ps))) d.neg)
  change |a * (Real.cos (Rounded.detuning d.slm d.p d.theta d.neg φi φo i j) / 2 + 1 / 2) - G| ≤ _ at k2
  have k3 : |a| * (v + 3 * (1 / 2 ^ t) + ((2 * v + 16 * (1 / 2 ^ t)) * Rounded.carrier d.slm d.p i j + 3 * (1 / 2 ^ t) * |φo - φi|)) ≤
      1 * (v + 3 * (1 / 2 ^ t) + ((2 * v + 16 * (1 / 2 ^ t)) * Rounded.carrier d.slm d.p i j + 3 * (1 / 2 ^ t) * 8)) := by
    rw [abs_of_nonneg a0]
    gcongr
  have k4 := k1.trans k3
  rw [show (0.5 : ℝ) = 1 / 2 by norm_num] at k4
  have := abs_add_le (idealPixelR F.toArith d.p d.theta d.neg a (pixR F.toArith d.slm a φi φo i j) -
    a * (Real.cos (Rounded.detuning d.slm d.p d.theta d.neg φi φo i j) / 2 + 1 / 2))
    (a * (Real.cos (Rounded.detuning d.slm d.p d.theta d.neg φi φo i j) / 2 + 1 / 2) - G)
  rw [sub_add_sub_cancel] at this
  refine this.trans ((add_le_add k4 k2).trans (le_of_eq ?_))
  ring

end

variable {t : ℕ} {v τ : ℝ} {F : CalcIftaArith} {d : DMD} {h : Profile.Heap} {inp target sw : ProfArg} {window : Option ProfArg}
  {u T w W : ℕ → ℕ → ℂ} {s : ℝ} {N : ℕ} {g : ℕ → ℕ → ℕ → ℝ} {gr : Tensor XR} {r : Except PyErr XR}

/-- An exact run in terms of the amplitudes of C25. -/
theorem IftaRunFrom.run (m : Matching d h inp target window u T w) (hsc : 0 < d.slm.wavelength * d.slm.focal) (hps : d.slm.ps ≠ 0) (hp : d.p ≠ 0)
    (hlit : ∀ i < d.slm.Ny, ∀ j < d.slm.Nx, spectrum d.slm T i j * w i j ≠ 0 → u i j ≠ 0)
    (hne : ∃ i < d.slm.Ny, ∃ j < d.slm.Nx, spectrum d.slm T i j * w i j ≠ 0) {kw : CalcKwargs} {draw : ℕ → ℕ → ℝ}
    (hid : d.calculateDmdState h inp target "ideal" window kw draw = ⟨.rebind (.float gr), r⟩) (hg : IftaRunFrom d gr s u W N g) :
    ∃ (A : ℕ → ℕ → ℝ) (eta : ℝ), 0 < eta ∧
      (∀ i < d.slm.Ny, ∀ j < d.slm.Nx, 0 ≤ A i j ∧ A i j ≤ 1 ∧ (A i j = 0 ↔ spectrum d.slm T i j * w i j = 0) ∧
        A i j * ‖u i j‖ = eta * (d.slm.wavelength * d.slm.focal) / (d.slm.ps ^ 2 * d.slm.Nx * d.slm.Ny) *
          ‖spectrum d.slm T i j * w i j‖) ∧
      (∃ i < d.slm.Ny, ∃ j < d.slm.Nx, A i j = 1) ∧
      IftaRun d A (fun i j => arg (u i j)) (fun i j => arg (spectrum d.slm T i j * w i j)) s u W N g := by
  obtain ⟨A, eta, h0, h1, h2, h3⟩ := calc_elementwise m hsc hps hp hlit hne kw
  obtain ⟨⟨g', c1, e1⟩, -, -⟩ := h3 draw
  rw [c1] at hid
  injection hid with hid _
  injection hid with hid
  injection hid with hid
  refine ⟨A, eta, h0, h1, h2, fun i hi j hj => ?_, hg.step⟩
  obtain ⟨x, hx1, hx2⟩ := hg.start i hi j hj
  rw [← hid, e1 i hi j hj] at hx1
  injection hx1 with hx1
  rw [hx2, ← hx1]

/-- **C186**, what exact arithmetic does: `calculate_dmd_state(..., method='ifta', N, s)` returns the same `eta` as with method `ideal`, and switches on
the mirrors whose value exceeds 1/2 after `N` iterations that start from `s` times the grey values of method `ideal`. -/
theorem C186_exact (m : Matching d h inp target window u T w) (hsc : 0 < d.slm.wavelength * d.slm.focal) (hps : d.slm.ps ≠ 0) (hp : d.p ≠ 0)
    (hlit : ∀ i < d.slm.Ny, ∀ j < d.slm.Nx, spectrum d.slm T i j * w i j ≠ 0 → u i j ≠ 0)
    (hne : ∃ i < d.slm.Ny, ∃ j < d.slm.Nx, spectrum d.slm T i j * w i j ≠ 0) (kw : CalcKwargs) (hw : TargetArg d.slm h sw W)
    (hsw : kw.signalWindow = some sw) (draw : ℕ → ℕ → ℝ) :
    ∃ (gr : Tensor XR) (st : Tensor Bool) (eta : ℝ) (g : ℕ → ℕ → ℕ → ℝ),
      d.calculateDmdState h inp target "ideal" window kw draw = ⟨.rebind (.float gr), .ok (.fin eta)⟩ ∧
      d.calculateDmdState h inp target "ifta" window kw draw = ⟨.rebind (.bool st), .ok (.fin eta)⟩ ∧
      IftaRunFrom d gr (kw.s.getD 1) u W (kw.N.getD 200) g ∧
      ∀ i < d.slm.Ny, ∀ j < d.slm.Nx, (st.get i j = true ↔ 1 / 2 < g (kw.N.getD 200) i j) := by
  obtain ⟨A, eta, h0, h1, h2, hall⟩ := C25_normalised m hsc hps hlit hne
  obtain ⟨tin, i1, i2⟩ := m.input
  obtain ⟨tw, w1, w2, w3⟩ := hw
  have ga := gratingArgs_realArray d h A (fun i j => arg (u i j)) (fun i j => arg (spectrum d.slm T i j * w i j))
  set k1 : Kwargs := { r := kw.r, N := kw.N, s := kw.s, inputProfile := some tin, signalWindow := some tw } with hk1
  have hrun := exact_run d A (fun i j => arg (u i j)) (fun i j => arg (spectrum d.slm T i j * w i j)) (kw.s.getD 1) u W (kw.N.getD 200)
  obtain ⟨st, s1, s2, s3⟩ := C181_exact (kw := k1) (u := u) (W := W) ga ⟨⟨tin, rfl, i2⟩, tw, rfl, w2, w3⟩ m.hNx m.hNy hp draw hrun
  have f1 : Forwarded d h inp "ifta" kw k1 := ⟨rfl, rfl, rfl, fun _ => ⟨sw, tw, tin, hsw, w1, rfl, i1, rfl⟩⟩
  obtain ⟨⟨g, c1, s1', e1⟩, -, -⟩ := setGrating_eq ga { r := kw.r, N := kw.N, s := kw.s } draw
  have hideal : ∃ gr : Tensor XR, d.calculateDmdState h inp target "ideal" window kw draw = ⟨.rebind (.float gr), .ok (.fin eta)⟩ ∧
      ∀ i < d.slm.Ny, ∀ j < d.slm.Nx, gr.get i j =
        .fin (Rounded.grey d.slm d.p d.theta d.neg (A i j) (arg (u i j)) (arg (spectrum d.slm T i j * w i j)) i j) := by
    rcases hall "ideal" kw { r := kw.r, N := kw.N, s := kw.s } draw ⟨rfl, rfl, rfl, fun hc => absurd hc (by decide)⟩ with
      ⟨st', st'', a1, a2, a3⟩ | ⟨e, a1, a2⟩
    · rw [c1] at a2
      injection a2 with a2 _
      injection a2 with a2
      subst a2
      cases st' with
      | bool b => exact absurd a3 (by simp [StateArr.Same])
      | float b =>
        refine ⟨b, a1, fun i hi j hj => ?_⟩
        have : b.get i j = g.get i j := by
          obtain ⟨q1, q2⟩ := a3
          rw [q1.trans s1'] at q2
          exact q2 i hi j hj
        rw [this, e1 i hi j hj, idealPixel_eq d hp]
        have hdet : d.detuning (fun i j => arg (u i j)) (fun i j => arg (spectrum d.slm T i j * w i j)) i j =
            Rounded.detuning d.slm d.p d.theta d.neg (arg (u i j)) (arg (spectrum d.slm T i j * w i j)) i j := by
          rw [← detuning_eq (a := A i j), pix_eq d A (fun i j => arg (u i j)) (fun i j => arg (spectrum d.slm T i j * w i j)), signed_eq]
        rw [hdet]
        rfl
    · rw [c1] at a2
      injection a2 with a2 _
      cases a2
  obtain ⟨gr, b1, b2⟩ := hideal
  rcases hall "ifta" kw k1 draw f1 with ⟨st', st'', a1, a2, a3⟩ | ⟨e, a1, a2⟩
  · rw [s1] at a2
    injection a2 with a2 _
    injection a2 with a2
    subst a2
    cases st' with
    | float b => exact absurd a3 (by simp [StateArr.Same])
    | bool b =>
      refine ⟨gr, b, eta, _, b1, a1, ⟨fun i hi j hj => ⟨_, b2 i hi j hj, hrun.start i hi j hj⟩, hrun.step⟩, fun i hi j hj => ?_⟩
      have : b.get i j = st.get i j := by
        obtain ⟨q1, q2⟩ := a3
        rw [q1.trans s2] at q2
        exact q2 i hi j hj
      rw [this]
      exact (s3 i hi j hj).1
  · rw [s1] at a2
    injection a2 with a2 _
    cases a2

/-- **C186.** The error of the starting hologram: `s` times the grey values of rounded mode matching. -/
theorem C186_start (H : CalcPrecise t v F.toCalcArith) (ht : 10 ≤ t) (hv : v ≤ 1 / 16)
    (m : Matching d h inp target window u T w) (hx : d.slm.Nx * 16 ≤ 2 ^ t) (hy : d.slm.Ny * 16 ≤ 2 ^ t)
    (hsc : 0 < d.slm.wavelength * d.slm.focal) (hps : d.slm.ps ≠ 0) (hp : d.p ≠ 0)
    (hlit : ∀ i < d.slm.Ny, ∀ j < d.slm.Nx, spectrum d.slm T i j * w i j ≠ 0 → u i j ≠ 0)
    {δ γ K : ℝ} (hδ0 : 0 ≤ δ)
    (hδ : Resolved d.slm.Ny d.slm.Nx u (fun i j => spectrum d.slm T i j * w i j)
      (targetFpR F.toCalcArith d.slm.Ny d.slm.Nx T (window.map fun _ => w)) δ)
    (hγ : γ = δ + 3 * (v + 1 / 2 ^ t) * (1 + δ)) (hγ1 : γ ≤ 1 / 2)
    (hK : ∀ i < d.slm.Ny, ∀ j < d.slm.Nx, Rounded.carrier d.slm d.p i j ≤ K) {kw : CalcKwargs} {draw : ℕ → ℕ → ℝ}
    (hid : d.calculateDmdState h inp target "ideal" window kw draw = ⟨.rebind (.float gr), r⟩) (hg : IftaRunFrom d gr s u W N g) :
    beamError d.slm u (g 0) (d.calcIftaHologramR F u T (window.map fun _ => w) W s N 0) ≤
      |s| * (3 * γ + 3 * v + 30 / 2 ^ t + (3 * v + 17 / 2 ^ t) * K) * beam d.slm u := by
  have hne : ∃ i < d.slm.Ny, ∃ j < d.slm.Nx, spectrum d.slm T i j * w i j ≠ 0 := by
    obtain ⟨i, hi, j, hj, hz, -⟩ := hδ
    exact ⟨i, hi, j, hj, hz⟩
  obtain ⟨A, eta, h0, h1, h2, hrun⟩ := hg.run m hsc hps hp hlit hne hid
  have hv0 := H.v_nonneg
  set ε : ℝ := 1 / 2 ^ t with hε
  have hε0 : 0 < ε := by rw [hε]; positivity
  have hε1 : ε ≤ 1 / 1000 := by
    refine one_div_le_one_div_of_le (by norm_num) ?_
    calc (1000 : ℝ) ≤ 2 ^ 10 := by norm_num
      _ ≤ 2 ^ t := pow_le_pow_right₀ (by norm_num) ht
  have hγ0 : 0 ≤ γ := by rw [hγ]; positivity
  have hK0 : 0 ≤ K := le_trans (by rw [Rounded.carrier]; positivity) (hK 0 m.hNy 0 m.hNx)
  have e1 : 3 * γ + 3 * v + 30 / 2 ^ t + (3 * v + 17 / 2 ^ t) * K = 3 * γ + 3 * v + 30 * ε + (3 * v + 17 * ε) * K := by
    rw [hε]; ring
  rw [e1, beamError_eq, beam_eq]
  refine vec_le_mul (by positivity) fun i hi j hj => ?_
  rw [norm_mul, norm_real, mul_comm, Real.norm_eq_abs]
  refine mul_le_mul_of_nonneg_right ?_ (norm_nonneg _)
  rw [hrun.start i hi j hj]
  have k1 := calc_grey_close H (by omega) hv m hx hy hsc hps hlit hδ0 hδ hγ hγ1 h0 h1 h2 hi hj
  set a := calcAmpR F.toCalcArith d.slm u T (window.map fun _ => w) i j with ha
  set φo := phaseOutR F.toCalcArith (targetFpR F.toCalcArith d.slm.Ny d.slm.Nx T (window.map fun _ => w) i j) with hφo
  change |F.rnd (s * idealPixelR F.toArith d.p d.theta d.neg a (pixR F.toArith d.slm a (F.angle (u i j)) φo i j)) - _| ≤ _
  set y := idealPixelR F.toArith d.p d.theta d.neg a (pixR F.toArith d.slm a (F.angle (u i j)) φo i j) with hy'
  set G := Rounded.grey d.slm d.p d.theta d.neg (A i j) (arg (u i j)) (arg (spectrum d.slm T i j * w i j)) i j with hG
  set q := 2 * γ + 2 * v + 28 * ε + (2 * v + 16 * ε) * K with hq
  have hq0 : 0 ≤ q := by positivity
  have k2 : |y - G| ≤ q := by
    refine k1.trans ?_
    have c1 := mul_le_mul_of_nonneg_left (hK i hi j hj) (by positivity : 0 ≤ 2 * v + 16 * ε)
    have c2 : 2 * γ + 2 * v + 28 / 2 ^ t + (2 * v + 16 / 2 ^ t) * Rounded.carrier d.slm d.p i j =
      2 * γ + 2 * v + 28 * ε + (2 * v + 16 * ε) * Rounded.carrier d.slm d.p i j := by rw [hε]; ring
    rw [c2, hq]
    linarith
  have k3 : |G| ≤ 1 := abs_grey_le (h1 i hi j hj).1 (h1 i hi j hj).2.1
  have k4 : |s * y - s * G| ≤ |s| * q := by
    rw [← mul_sub, abs_mul]
    exact mul_le_mul_of_nonneg_left k2 (abs_nonneg _)
  have k5 := FloatGrating.rnd_close H.arith.rnd hε k4 (M := |s|) (by rw [abs_mul]; exact mul_le_of_le_one_right (abs_nonneg _) k3)
  refine k5.trans ?_
  have e2 : |s| * q + ε * (|s| + |s| * q) = |s| * (q + ε * (1 + q)) := by ring
  rw [e2]
  refine mul_le_mul_of_nonneg_left ?_ (by positivity)
  have c1 : ε * q ≤ 1 / 1000 * q := mul_le_mul_of_nonneg_right hε1 hq0
  have c2 : 0 ≤ v * K := by positivity
  have c3 : 0 ≤ ε * K := by positivity
  rw [hq] at c1 ⊢
  linarith

/-- **C186.** `calculate_dmd_state` with method `ifta` in floating point.  If `e 0` is the bound of `C186_start`, and each `e (n + 1)` is at least `e n`
plus `e 0`, plus `(18 / 2^t + 6 τ + 4 v)` times (`G` times the root of the power of the beam, plus `e 0`), `G` being the larger one of 1 and `|s|`, plus the root
of the power on the mirrors whose exact value an error `e n` may carry across a clipping level, then `e n` bounds the error after `n` iterations; and
every mirror whose exact final value, times the input field, is further than `e N` from 1/2 is in the state of the exact algorithm. -/
theorem C186_error (H : CalcPrecise t v F.toCalcArith) (HI : IftaPrecise t v τ d.slm.Ny d.slm.Nx ⟨F.toArith, F.div, F.fft, F.ifft⟩) (ht : 10 ≤ t) (hv : v ≤ 1 / 16)
    (hτ : 0 ≤ τ) (hτ1 : τ ≤ 1 / 1000)
    (m : Matching d h inp target window u T w) (hx : d.slm.Nx * 16 ≤ 2 ^ t) (hy : d.slm.Ny * 16 ≤ 2 ^ t)
    (hsc : 0 < d.slm.wavelength * d.slm.focal) (hps : d.slm.ps ≠ 0) (hp : d.p ≠ 0)
    (hlit : ∀ i < d.slm.Ny, ∀ j < d.slm.Nx, spectrum d.slm T i j * w i j ≠ 0 → u i j ≠ 0)
    {δ γ K : ℝ} (hδ0 : 0 ≤ δ)
    (hδ : Resolved d.slm.Ny d.slm.Nx u (fun i j => spectrum d.slm T i j * w i j)
      (targetFpR F.toCalcArith d.slm.Ny d.slm.Nx T (window.map fun _ => w)) δ)
    (hγ : γ = δ + 3 * (v + 1 / 2 ^ t) * (1 + δ)) (hγ1 : γ ≤ 1 / 2)
    (hK : ∀ i < d.slm.Ny, ∀ j < d.slm.Nx, Rounded.carrier d.slm d.p i j ≤ K) {kw : CalcKwargs} {draw : ℕ → ℕ → ℝ}
    (hid : d.calculateDmdState h inp target "ideal" window kw draw = ⟨.rebind (.float gr), r⟩) (hg : IftaRunFrom d gr s u W N g)
    (hN : N * 4 ≤ 2 ^ t) (hW : ∀ k < d.slm.Ny, ∀ l < d.slm.Nx, ‖W k l‖ ≤ 1 ∧ ‖1 - W k l‖ ≤ 1) {e : ℕ → ℝ}
    (he0 : e 0 = |s| * (3 * γ + 3 * v + 30 / 2 ^ t + (3 * v + 17 / 2 ^ t) * K) * beam d.slm u)
    (he : ∀ n < N, e n + e 0 + (18 / 2 ^ t + 6 * τ + 4 * v) * (max 1 |s| * beam d.slm u + e 0) +
      unsureBeam d.slm u ((n + 1) / (2 * N)) (e n) (3 / 2 ^ t) (g n) ≤ e (n + 1)) :
    (∀ n ≤ N, beamError d.slm u (g n) (d.calcIftaHologramR F u T (window.map fun _ => w) W s N n) ≤ e n) ∧
    ∀ i < d.slm.Ny, ∀ j < d.slm.Nx, e N < ‖u i j‖ * |g N i j - 1 / 2| →
      (d.calcIftaMirrorsR F u T (window.map fun _ => w) W s N i j = true ↔ 1 / 2 < g N i j) := by
  have hne : ∃ i < d.slm.Ny, ∃ j < d.slm.Nx, spectrum d.slm T i j * w i j ≠ 0 := by
    obtain ⟨i, hi, j, hj, hz, -⟩ := hδ
    exact ⟨i, hi, j, hj, hz⟩
  have hst := C186_start H ht hv m hx hy hsc hps hp hlit hδ0 hδ hγ hγ1 hK hid hg
  obtain ⟨A, eta, h0, h1, h2, hrun⟩ := hg.run m hsc hps hp hlit hne hid
  rw [← he0] at hst
  have hg0 : ∀ i < d.slm.Ny, ∀ j < d.slm.Nx, |g 0 i j| ≤ max 1 |s| := fun i hi j hj => by
    rw [hrun.start i hi j hj, abs_mul]
    exact (mul_le_of_le_one_right (abs_nonneg _) (abs_grey_le (h1 i hi j hj).1 (h1 i hi j hj).2.1)).trans (le_max_right _ _)
  exact ⟨fun n hn => C181_error HI ht hτ hτ1 hN hW hrun (le_max_left _ _) hg0 hst he hn,
    fun i hi j hj hfar => C181_mirrors HI ht hτ hτ1 hN hW hrun (le_max_left _ _) hg0 hst he hi hj hfar⟩

/-- **C186.** If the values of the exact algorithm at the illuminated mirrors stay away from the clipping levels and from 1/2 by more than the bound, the
pattern computed in floating point is, mirror for mirror, the one of exact arithmetic. -/
theorem C186_pattern (H : CalcPrecise t v F.toCalcArith) (HI : IftaPrecise t v τ d.slm.Ny d.slm.Nx ⟨F.toArith, F.div, F.fft, F.ifft⟩) (ht : 10 ≤ t) (hv : v ≤ 1 / 16)
    (hτ : 0 ≤ τ) (hτ1 : τ ≤ 1 / 1000)
    (m : Matching d h inp target window u T w) (hx : d.slm.Nx * 16 ≤ 2 ^ t) (hy : d.slm.Ny * 16 ≤ 2 ^ t)
    (hsc : 0 < d.slm.wavelength * d.slm.focal) (hps : d.slm.ps ≠ 0) (hp : d.p ≠ 0)
    (hlit : ∀ i < d.slm.Ny, ∀ j < d.slm.Nx, spectrum d.slm T i j * w i j ≠ 0 → u i j ≠ 0)
    {δ γ K E : ℝ} (hδ0 : 0 ≤ δ)
    (hδ : Resolved d.slm.Ny d.slm.Nx u (fun i j => spectrum d.slm T i j * w i j)
      (targetFpR F.toCalcArith d.slm.Ny d.slm.Nx T (window.map fun _ => w)) δ)
    (hγ : γ = δ + 3 * (v + 1 / 2 ^ t) * (1 + δ)) (hγ1 : γ ≤ 1 / 2)
    (hK : ∀ i < d.slm.Ny, ∀ j < d.slm.Nx, Rounded.carrier d.slm d.p i j ≤ K) {kw : CalcKwargs} {draw : ℕ → ℕ → ℝ}
    (hid : d.calculateDmdState h inp target "ideal" window kw draw = ⟨.rebind (.float gr), r⟩) (hg : IftaRunFrom d gr s u W N g)
    (hN1 : 1 ≤ N) (hN : N * 4 ≤ 2 ^ t) (hW : ∀ k < d.slm.Ny, ∀ l < d.slm.Nx, ‖W k l‖ ≤ 1 ∧ ‖1 - W k l‖ ≤ 1)
    (hE : E = |s| * (3 * γ + 3 * v + 30 / 2 ^ t + (3 * v + 17 / 2 ^ t) * K) * beam d.slm u)
    (hsure : ∀ n < N, ∀ i < d.slm.Ny, ∀ j < d.slm.Nx, u i j ≠ 0 → ∀ l ∈ [((n : ℝ) + 1) / (2 * N), 1 - (n + 1) / (2 * N)],
      ((n + 1) * E + n * ((18 / 2 ^ t + 6 * τ + 4 * v) * (max 1 |s| * beam d.slm u + E))) / ‖u i j‖ + 3 / 2 ^ t < |g n i j - l|)
    (hfinal : ∀ i < d.slm.Ny, ∀ j < d.slm.Nx, u i j ≠ 0 →
      ((N + 1) * E + N * ((18 / 2 ^ t + 6 * τ + 4 * v) * (max 1 |s| * beam d.slm u + E))) / ‖u i j‖ < |g N i j - 1 / 2|) :
    ∀ i < d.slm.Ny, ∀ j < d.slm.Nx,
      (d.calcIftaMirrorsR F u T (window.map fun _ => w) W s N i j = true ↔ 1 / 2 < g N i j) := by
  have hne : ∃ i < d.slm.Ny, ∃ j < d.slm.Nx, spectrum d.slm T i j * w i j ≠ 0 := by
    obtain ⟨i, hi, j, hj, hz, -⟩ := hδ
    exact ⟨i, hi, j, hj, hz⟩
  have hst := C186_start H ht hv m hx hy hsc hps hp hlit hδ0 hδ hγ hγ1 hK hid hg
  obtain ⟨A, eta, h0, h1, h2, hrun⟩ := hg.run m hsc hps hp hlit hne hid
  rw [← hE] at hst
  have hg0 : ∀ i < d.slm.Ny, ∀ j < d.slm.Nx, |g 0 i j| ≤ max 1 |s| := fun i hi j hj => by
    rw [hrun.start i hi j hj, abs_mul]
    exact (mul_le_of_le_one_right (abs_nonneg _) (abs_grey_le (h1 i hi j hj).1 (h1 i hi j hj).2.1)).trans (le_max_right _ _)
  intro i hi j hj
  by_cases hu : u i j = 0
  · obtain ⟨n, rfl⟩ : ∃ n, N = n + 1 := ⟨N - 1, by omega⟩
    have e1 : d.calcIftaMirrorsR F u T (window.map fun _ => w) W s (n + 1) i j = false := C181_dark _ _ _ _ _ _ _ (by omega) hu
    have e2 : g (n + 1) i j = 0 := (hg.step n (by omega) i hi j hj).1 hu
    rw [e1, e2]
    norm_num
  · exact (C181_pattern HI ht hτ hτ1 hN hW hrun (le_max_left _ _) hg0 hst hsure hfinal).2 i hi j hj hu

/-! ## The hypotheses can be met -/

theorem leaky_resolved (h : Profile.Heap) :
    Resolved Sim.exDmd.slm.Ny Sim.exDmd.slm.Nx (fun i j => i + j * I + 1) (fun i j => spectrum Sim.exDmd.slm exSpot i j * 1)
      (targetFpR (leaky 24 (1 / 2 ^ 20)) Sim.exDmd.slm.Ny Sim.exDmd.slm.Nx exSpot none) (1 / 1000) := by
  set u : ℕ → ℕ → ℂ := fun i j => i + j * I + 1 with hudef
  have H : CalcPrecise 24 (1 / 2 ^ 23) (leaky 24 (1 / 2 ^ 20)) := leaky_precise (by norm_num) (by positivity) _
  have hre : ∀ i j : ℕ, 1 ≤ ‖u i j‖ := by
    intro i j
    refine le_trans ?_ (Complex.re_le_norm _)
    simp [u]
  have hu : ∀ i j, u i j ≠ 0 := fun i j => norm_pos_iff.mp (by linarith [hre i j])
  have hF := leaky_fft 24 (1 / 2 ^ 20) Sim.exDmd.slm.Ny Sim.exDmd.slm.Nx
  have hu0 : ‖u 0 0‖ = 1 := by simp [u]
  have key := C144_fft H (by norm_num) (by positivity) hF (exMatching h u exSpot) (δ := 1 / 2 ^ 18) (i₀ := 0) (j₀ := 0)
    (by decide) (by decide) (by rw [mul_one]; exact exSpot_spectrum 0 0) (hu 0 0) ?_ ?_
  · refine Resolved.mono key ?_
    have := Real.abs_exp_sub_one_le (x := 3 / 2 ^ 24) (by norm_num)
    have := (abs_le.mp this).2
    rw [abs_of_pos (by positivity)] at this
    norm_num at this ⊢
    linarith
  · intro i _ j _
    simp only [mul_one, exSpot_norm, hu0, div_one, one_mul]
    exact hre i j
  · intro i _ j _
    simp only [mul_one, exSpot_norm, hu0, div_one, one_mul, norm_one]
    have hsum : ∑ k ∈ range Sim.exDmd.slm.Ny, ∑ l ∈ range Sim.exDmd.slm.Nx, ‖exSpot k l‖ ^ 2 = 1 := by
      show ∑ k ∈ range 2, ∑ l ∈ range 4, ‖exSpot k l‖ ^ 2 = 1
      simp [sum_range_succ, exSpot]
    rw [hsum]
    have h8 : √((Sim.exDmd.slm.Ny : ℝ) * Sim.exDmd.slm.Nx * 1) ≤ 4 := by
      rw [Real.sqrt_le_left (by norm_num)]
      norm_num [Sim.exDmd]
    have := hre i j
    nlinarith

/-- C186: `float32`, an FFT that leaks, an input field that is not constant, a spot, three iterations with half of the plane as signal window.  The
assumptions hold together, the exact run exists, and C186_error bounds its distance from the computed one. -/
example (h : Profile.Heap) (draw : ℕ → ℕ → ℝ) : ∃ (F : CalcIftaArith) (gr : Tensor XR) (g : ℕ → ℕ → ℕ → ℝ) (kw : CalcKwargs) (r : Except PyErr XR),
    let d := Sim.exDmd
    let u : ℕ → ℕ → ℂ := fun i j => i + j * I + 1
    let W : ℕ → ℕ → ℂ := fun _ j => if j < 2 then 1 else 0
    CalcPrecise 24 (1 / 2 ^ 23) F.toCalcArith ∧ IftaPrecise 24 (1 / 2 ^ 23) (1 / 2 ^ 20) d.slm.Ny d.slm.Nx F.toIfta ∧
    Matching d h (exArray u) (exArray exSpot) none u exSpot (fun _ _ => 1) ∧ kw.N = some 3 ∧
    d.calculateDmdState h (exArray u) (exArray exSpot) "ideal" none kw draw = ⟨.rebind (.float gr), r⟩ ∧
    IftaRunFrom d gr 1 u W 3 g ∧ (∀ k < d.slm.Ny, ∀ l < d.slm.Nx, ‖W k l‖ ≤ 1 ∧ ‖1 - W k l‖ ≤ 1) ∧
    ∀ K, (∀ i < d.slm.Ny, ∀ j < d.slm.Nx, Rounded.carrier d.slm d.p i j ≤ K) →
      beamError d.slm u (g 0) (d.calcIftaHologramR F u exSpot none W 1 3 0) ≤
        |1| * (3 * (1 / 1000 + 3 * (1 / 2 ^ 23 + 1 / 2 ^ 24) * (1 + 1 / 1000)) + 3 * (1 / 2 ^ 23) + 30 / 2 ^ 24 +
          (3 * (1 / 2 ^ 23) + 17 / 2 ^ 24) * K) * beam d.slm u := by
  set u : ℕ → ℕ → ℂ := fun i j => i + j * I + 1 with hudef
  set W : ℕ → ℕ → ℂ := fun _ j => if j < 2 then 1 else 0 with hWdef
  have hu : ∀ i j, u i j ≠ 0 := fun i j h0 => by
    have := congrArg Complex.re h0
    simp [u] at this
    have h1 : (0 : ℝ) ≤ i := by positivity
    linarith
  have hsp : ∀ i j, spectrum Sim.exDmd.slm exSpot i j * 1 ≠ 0 := fun i j => by rw [mul_one]; exact exSpot_spectrum i j
  set F : CalcIftaArith := ⟨leaky 24 (1 / 2 ^ 20), fun z w => z / w, fun M N f => idft2 M N f⟩ with hFdef
  have H : CalcPrecise 24 (1 / 2 ^ 23) F.toCalcArith := leaky_precise (by norm_num) (by positivity) _
  have m := exMatching h u exSpot
  obtain ⟨tw, w1, w2, w3⟩ := (exMatching h u W).target
  obtain ⟨gr, st, eta, g, c1, -, c3, -⟩ := C186_exact m (by norm_num [Sim.exDmd]) (by norm_num [Sim.exDmd]) (by norm_num [Sim.exDmd])
    (fun i _ j _ _ => hu i j) ⟨0, by decide, 0, by decide, hsp 0 0⟩ { N := some 3, signalWindow := some (exArray W) } ⟨tw, w1, w2, w3⟩ rfl draw
  refine ⟨F, gr, g, { N := some 3, signalWindow := some (exArray W) }, _, H, ⟨H.arith, fun z w _ => ?_, fun f => ?_, fun f => ?_⟩, m, rfl, c1, c3, ?_,
    fun K hK => ?_⟩
  · show ‖z / w - z / w‖ ≤ _
    rw [sub_self, norm_zero]
    positivity
  · exact leaky_fft 24 (1 / 2 ^ 20) _ _ f
  · show ∑ i ∈ range _, ∑ j ∈ range _, ‖idft2 _ _ f i j - idft2 _ _ f i j‖ ^ 2 ≤ _
    simp only [sub_self, norm_zero]
    simp only [ne_eq, OfNat.ofNat_ne_zero, not_false_eq_true, zero_pow, sum_const_zero]
    positivity
  · intro k _ l _
    simp only [hWdef]
    split_ifs <;> simp
  · exact C186_start H (by norm_num) (by norm_num) m (by norm_num [Sim.exDmd]) (by norm_num [Sim.exDmd]) (by norm_num [Sim.exDmd])
      (by norm_num [Sim.exDmd]) (by norm_num [Sim.exDmd]) (fun i _ j _ _ => hu i j) (by norm_num) (leaky_resolved h) rfl (by norm_num) hK c1 c3

end PySLM2.DMD
