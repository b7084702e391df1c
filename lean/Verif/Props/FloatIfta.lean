import Verif.Lemmas.FloatIfta
import Verif.Props.FloatCalc
import Verif.Props.IftaWindow

/-!
# C181: rounding in method `ifta`
-/

noncomputable section

open Complex Finset

namespace PySLM2.DMD

open Lib Spec Rounded FloatIfta
open LCOS (vec_norm_le vec_norm_le_add vec_congr)

variable {t : ℕ} {v τ : ℝ} {F : IftaArith} {d : DMD} {A φin φout A' φin' φout' : ℕ → ℕ → ℝ} {s : ℝ} {u W : ℕ → ℕ → ℂ} {N : ℕ} {g g' : ℕ → ℕ → ℕ → ℝ}

/-! ## The exact run -/

theorem threshold_eq {N n : ℕ} (hn : n < N) : iftaThreshold N n = ((n : ℝ) + 1) / (2 * (N : ℕ)) := by
  unfold iftaThreshold
  have : ((N : ℕ) : ℝ) ≠ 0 := by exact_mod_cast (by omega)
  field_simp
  norm_num

/-- An iteration of the specification is an iteration of the code. -/
theorem IftaStep.eq {s : SLM} {g₀ g g' : ℕ → ℕ → ℝ} {T : ℝ} (h : IftaStep s u W g₀ T g g') {i j : ℕ} (hi : i < s.Ny) (hj : j < s.Nx) :
    g' i j = iftaStep s.Ny s.Nx u (idft2 s.Ny s.Nx fun a b => u a b * (g₀ a b : ℂ)) (ifftshift2 s.Ny s.Nx W) T g i j := by
  have h1 := iftaStep_spec (s := s) (u := u) (u' := u) (W := W) (W' := W) (g₀ := g₀) (g := g) (t := T)
    (fun _ _ _ _ => rfl) (fun _ _ _ _ => rfl) i hi j hj
  have h2 := h i hi j hj
  by_cases hu : u i j = 0
  · rw [h1.1 hu, h2.1 hu]
  · rw [h1.2 hu, h2.2 hu]

theorem iftaStep_congr {M N : ℕ} {inp W : ℕ → ℕ → ℂ} {T : ℝ} {a a' b b' : ℕ → ℕ → ℝ} (ha : ∀ i < M, ∀ j < N, a i j = a' i j)
    (hb : ∀ i < M, ∀ j < N, b i j = b' i j) (i j : ℕ) :
    iftaStep M N inp (idft2 M N fun i j => inp i j * (a i j : ℂ)) W T b i j =
      iftaStep M N inp (idft2 M N fun i j => inp i j * (a' i j : ℂ)) W T b' i j := by
  have h1 : (idft2 M N fun i j => inp i j * (a i j : ℂ)) = idft2 M N fun i j => inp i j * (a' i j : ℂ) :=
    idft2_congr fun i hi j hj => by rw [ha i hi j hj]
  have h2 : (idft2 M N fun i j => inp i j * (iftaBinarize (b i j) T : ℂ)) = idft2 M N fun i j => inp i j * (iftaBinarize (b' i j) T : ℂ) :=
    idft2_congr fun i hi j hj => by rw [hb i hi j hj]
  unfold iftaStep
  rw [h1, h2]

/-- The run is determined by its start. -/
theorem IftaRun.unique (h : IftaRun d A φin φout s u W N g) (h' : IftaRun d A φin φout s u W N g') {n : ℕ} (hn : n ≤ N) :
    ∀ i < d.slm.Ny, ∀ j < d.slm.Nx, g n i j = g' n i j := by
  have h0 : ∀ i < d.slm.Ny, ∀ j < d.slm.Nx, g 0 i j = g' 0 i j := fun i hi j hj => by rw [h.start i hi j hj, h'.start i hi j hj]
  induction n with
  | zero => exact h0
  | succ n ih =>
    intro i hi j hj
    rw [(h.step n hn).eq hi hj, (h'.step n hn).eq hi hj]
    exact iftaStep_congr h0 (ih (by omega)) i j

theorem cmulR_id (a b : ℂ) : cmulR id a b = a * b := by
  apply Complex.ext <;> simp [cmulR]

theorem iftaCorrectR_exact (a b c : ℂ) : iftaCorrectR exactIfta a b c = iftaCorrect a b c := by
  unfold iftaCorrectR iftaCorrect
  change caddR id (cmulR id (csubR id b a) c) a = _
  rw [cmulR_id]
  have : csubR id b a = b - a := by apply Complex.ext <;> simp [csubR]
  rw [this]
  apply Complex.ext <;> simp [caddR]

theorem iftaStepR_exact (M N : ℕ) (inp ideal W : ℕ → ℕ → ℂ) (T : ℝ) (g : ℕ → ℕ → ℝ) :
    iftaStepR exactIfta M N inp ideal W T g = iftaStep M N inp ideal W T g := by
  unfold iftaStepR iftaStep
  funext a b
  simp only [iftaCorrectR_exact]
  change (if inp a b = 0 then 0 else (dft2 M N (fun a b => iftaCorrect (idft2 M N (fun a b => cmulR id (inp a b) (iftaBinarizeR id (g a b) T)) a b)
    (ideal a b) (W a b)) a b / inp a b).re) = _
  simp only [cmulR_id]
  rfl

theorem idealPixelR_exact (d : DMD) (A φin φout : ℕ → ℕ → ℝ) (i j : ℕ) :
    idealPixelR exactIfta.toArith d.p d.theta d.neg (A i j) (d.pixelsR exactIfta.toArith A φin φout i j) =
      Rounded.grey d.slm d.p d.theta d.neg (A i j) (φin i j) (φout i j) i j := by
  have hq : d.pixelsR exactIfta.toArith A φin φout i j = pix d.slm (A i j) (φin i j) (φout i j) i j := by
    unfold pixelsR pix
    simp only [SLM.indexToCoordR, exactIfta, id]
    congr 1
    ring
  rw [hq, Rounded.grey, ← detuning_eq (a := A i j)]
  unfold idealPixelR detuningR gratingPhaseR gratingPhase
  simp only [exactIfta, id]
  norm_num

/-- The model with exact arithmetic runs through the exact holograms. -/
theorem exact_run (d : DMD) (A φin φout : ℕ → ℕ → ℝ) (s : ℝ) (u W : ℕ → ℕ → ℂ) (N : ℕ) :
    IftaRun d A φin φout s u W N fun n => d.iftaHologramR exactIfta A φin φout s u W N n := by
  have h0 : iftaIdealR exactIfta d.slm.Ny d.slm.Nx u (iftaStartR exactIfta d.p d.theta d.neg s A (d.pixelsR exactIfta.toArith A φin φout)) =
      idft2 d.slm.Ny d.slm.Nx fun a b => u a b *
        (iftaStartR exactIfta d.p d.theta d.neg s A (d.pixelsR exactIfta.toArith A φin φout) a b : ℂ) := by
    unfold iftaIdealR
    change idft2 _ _ (fun a b => cmulR id _ _) = _
    simp only [cmulR_id]
  refine ⟨fun i _ j _ => ?_, fun n hn => ?_⟩
  · change s * idealPixelR exactIfta.toArith d.p d.theta d.neg (A i j) (d.pixelsR exactIfta.toArith A φin φout i j) = _
    rw [idealPixelR_exact]
  · rw [← threshold_eq hn]
    have h1 : d.iftaHologramR exactIfta A φin φout s u W N (n + 1) = iftaStep d.slm.Ny d.slm.Nx u
        (idft2 d.slm.Ny d.slm.Nx fun a b => u a b * (d.iftaHologramR exactIfta A φin φout s u W N 0 a b : ℂ))
        (ifftshift2 d.slm.Ny d.slm.Nx W) (iftaThreshold N n) (d.iftaHologramR exactIfta A φin φout s u W N n) := by
      unfold iftaHologramR
      rw [h0]
      exact iftaStepR_exact _ _ _ _ _ _ _
    rw [h1]
    exact iftaStep_spec (fun _ _ _ _ => rfl) fun _ _ _ _ => rfl

/-- **C181.** With exact arithmetic these are the holograms and the mirrors of `set_dmd_grating_state(..., method='ifta', N, s)`. -/
theorem C181_exact {h : Profile.Heap} {amp phaseIn phaseOut : ProfArg} {kw : Kwargs} (ga : GratingArgs d h amp phaseIn phaseOut A φin φout)
    (hk : IftaKwargs d.slm kw u W) (hNx : 0 < d.slm.Nx) (hNy : 0 < d.slm.Ny) (hp : d.p ≠ 0) (draw : ℕ → ℕ → ℝ)
    (hg : IftaRun d A φin φout (kw.s.getD 1) u W (kw.N.getD 200) g) :
    ∃ st : Tensor Bool, d.setDmdGratingState h amp phaseIn phaseOut "ifta" kw draw = ⟨.rebind (.bool st), .ok ()⟩ ∧
      st.shape = .mat d.slm.Ny d.slm.Nx ∧ ∀ i < d.slm.Ny, ∀ j < d.slm.Nx, (st.get i j = true ↔ 1 / 2 < g (kw.N.getD 200) i j) ∧
        st.get i j = d.iftaMirrorsR exactIfta A φin φout (kw.s.getD 1) u W (kw.N.getD 200) i j := by
  obtain ⟨st, tid, g₁, h1, h2, h3, h4, h5, h6⟩ := C87_ifta ga hk hNx hNy hp draw
  obtain ⟨⟨tid', c1, -, e1⟩, -, -⟩ := setGrating_eq ga kw draw
  have he : tid' = tid := by
    rw [h2] at c1
    injection c1 with c1 _
    injection c1 with c1
    injection c1 with c1
    exact c1.symm
  subst he
  have hdet : ∀ i j, d.detuning φin φout i j = Rounded.detuning d.slm d.p d.theta d.neg (φin i j) (φout i j) i j := by
    intro i j
    rw [← detuning_eq (a := A i j), pix_eq d A φin φout, signed_eq]
  have hr : IftaRun d A φin φout (kw.s.getD 1) u W (kw.N.getD 200) g₁ := by
    refine ⟨fun i hi j hj => ?_, h5⟩
    obtain ⟨x, hx, hgx⟩ := h4 i hi j hj
    rw [hgx, Rounded.grey, ← hdet]
    rw [e1 i hi j hj, idealPixel_eq d hp] at hx
    injection hx with hx
    rw [← hx]
  refine ⟨st, h1, h3, fun i hi j hj => ⟨?_, ?_⟩⟩
  · rw [h6 i hi j hj, hr.unique hg le_rfl i hi j hj]
  · rw [Bool.eq_iff_iff, h6 i hi j hj, hr.unique (exact_run d A φin φout _ u W _) le_rfl i hi j hj, iftaMirrorsR, decide_eq_true_iff,
      show (0.5 : ℝ) = 1 / 2 by norm_num]

/-! ## The computed run -/

theorem beam_eq (s : SLM) (u : ℕ → ℕ → ℂ) : beam s u = ‖vec s.Ny s.Nx u‖ := by
  rw [beam, ← vec_normSq, Real.sqrt_sq (norm_nonneg _)]

theorem beamError_eq (s : SLM) (u : ℕ → ℕ → ℂ) (a b : ℕ → ℕ → ℝ) :
    beamError s u a b = ‖vec s.Ny s.Nx fun i j => u i j * ((b i j - a i j : ℝ) : ℂ)‖ := by
  rw [beamError, ← Real.sqrt_sq (norm_nonneg (vec s.Ny s.Nx _)), vec_normSq]
  simp only [norm_mul, norm_real, Real.norm_eq_abs]

open Classical in
theorem unsureBeam_eq (s : SLM) (u : ℕ → ℕ → ℂ) (T e ε : ℝ) (a : ℕ → ℕ → ℝ) :
    unsureBeam s u T e ε a = ‖vec s.Ny s.Nx fun i j => if Unsure T e ε (a i j) (u i j) then u i j else 0‖ := by
  rw [unsureBeam, ← Real.sqrt_sq (norm_nonneg (vec s.Ny s.Nx _)), vec_normSq]
  congr 1
  refine sum_congr rfl fun i _ => sum_congr rfl fun j _ => ?_
  split_ifs <;> simp

/-- The error at one mirror. -/
theorem error_le_of_beam {s : SLM} {a b : ℕ → ℕ → ℝ} {e : ℝ} (h : beamError s u a b ≤ e) {i j : ℕ} (hi : i < s.Ny) (hj : j < s.Nx)
    (hu : u i j ≠ 0) : |b i j - a i j| ≤ e / ‖u i j‖ := by
  rw [le_div_iff₀ (norm_pos_iff.mpr hu), mul_comm]
  refine le_trans ?_ h
  refine Real.le_sqrt_of_sq_le ?_
  have h1 := single_le_sum (f := fun j => (‖u i j‖ * |b i j - a i j|) ^ 2) (fun j _ => sq_nonneg _) (mem_range.mpr hj)
  have h2 := single_le_sum (f := fun i => ∑ j ∈ range s.Nx, (‖u i j‖ * |b i j - a i j|) ^ 2)
    (fun i _ => sum_nonneg fun j _ => sq_nonneg _) (mem_range.mpr hi)
  exact h1.trans h2

/-- **C181.** Method `ifta` with `N` iterations in an arithmetic with `t` bits, library functions and quotients within `v`, transforms within
`τ` of the exact ones: let `g` be the exact holograms, `|g 0| ≤ G` with `G ≥ 1`.  If `e 0` bounds the error of the starting hologram, and each
`e (n + 1)` is at least `e n` plus `e 0`, plus `(18 / 2^t + 6 τ + 4 v)` times (`G` times the root of the power of the beam, plus `e 0`), plus the
root of the power on the mirrors whose exact value an error `e n` may carry across a clipping level, then `e n` bounds the error after
`n` iterations.  Errors are weighted with the input field.  The amplitudes and phases of the computation may
differ from the exact ones: it is the error of the starting hologram that counts. -/
theorem C181_error (H : IftaPrecise t v τ d.slm.Ny d.slm.Nx F) (ht : 10 ≤ t) (hτ : 0 ≤ τ) (hτ1 : τ ≤ 1 / 1000) (hN : N * 4 ≤ 2 ^ t)
    (hW : ∀ k < d.slm.Ny, ∀ l < d.slm.Nx, ‖W k l‖ ≤ 1 ∧ ‖1 - W k l‖ ≤ 1)
    (hg : IftaRun d A φin φout s u W N g) {G : ℝ} (hG : 1 ≤ G) (hg0 : ∀ i < d.slm.Ny, ∀ j < d.slm.Nx, |g 0 i j| ≤ G) {e : ℕ → ℝ}
    (h0 : beamError d.slm u (g 0) (d.iftaHologramR F A' φin' φout' s u W N 0) ≤ e 0)
    (he : ∀ n < N, e n + e 0 + (18 / 2 ^ t + 6 * τ + 4 * v) * (G * beam d.slm u + e 0) +
      unsureBeam d.slm u ((n + 1) / (2 * N)) (e n) (3 / 2 ^ t) (g n) ≤ e (n + 1)) {n : ℕ} (hn : n ≤ N) :
    beamError d.slm u (g n) (d.iftaHologramR F A' φin' φout' s u W N n) ≤ e n := by
  classical
  have hu : (1 : ℝ) / 2 ^ t ≤ 1 / 1000 := by
    refine one_div_le_one_div_of_le (by norm_num) ?_
    calc (1000 : ℝ) ≤ 2 ^ 10 := by norm_num
      _ ≤ 2 ^ t := pow_le_pow_right₀ (by norm_num) ht
  have hv0 : 0 ≤ v := (abs_nonneg _).trans (H.arith.cos 0)
  induction n with
  | zero => exact h0
  | succ n ih =>
    have ih := ih (by omega)
    have hnN : n < N := hn
    refine le_trans ?_ (he n hnN)
    set b : ℕ → ℕ → ℝ := fun i j => iftaBinarize (g n i j) ((n + 1) / (2 * N)) with hb
    set x := d.iftaHologramR F A' φin' φout' s u W N n with hx
    set x0 := d.iftaHologramR F A' φin' φout' s u W N 0 with hx0
    set b' : ℕ → ℕ → ℝ := fun i j => iftaBinarizeR F.rnd (x i j) (iftaThresholdR F.rnd N n) with hb'
    obtain ⟨l1, l2, l3, l4⟩ := threshold_close H.arith.rnd hu hnN hN
    have hT0 : (0 : ℝ) ≤ (n + 1) / (2 * N) := by positivity
    have hb01 : ∀ i j, 0 ≤ b' i j ∧ b' i j ≤ 1 := fun i j => by
      rw [hb']
      simp only [iftaBinarizeR_eq]
      exact clip_mem l3 l4
    have hbeam : 0 ≤ beam d.slm u := Real.sqrt_nonneg _
    have he0 : 0 ≤ e 0 := (Real.sqrt_nonneg _).trans h0
    have p1 : ‖vec d.slm.Ny d.slm.Nx fun i j => u i j * (b' i j : ℂ)‖ ≤ G * beam d.slm u + e 0 := by
      have : ‖vec d.slm.Ny d.slm.Nx fun i j => u i j * (b' i j : ℂ)‖ ≤ ‖vec d.slm.Ny d.slm.Nx u‖ := by
        refine vec_norm_le fun i _ j _ => ?_
        rw [norm_mul, norm_real, Real.norm_of_nonneg (hb01 i j).1]
        exact mul_le_of_le_one_right (norm_nonneg _) (hb01 i j).2
      rw [← beam_eq d.slm u] at this
      nlinarith
    have p2 : ‖vec d.slm.Ny d.slm.Nx fun i j => u i j * ((x0 i j - g 0 i j : ℝ) : ℂ)‖ ≤ e 0 := by
      rw [← beamError_eq]
      exact h0
    have p3 : ‖vec d.slm.Ny d.slm.Nx fun i j => u i j * (x0 i j : ℂ)‖ ≤ G * beam d.slm u + e 0 := by
      have q1 : ‖vec d.slm.Ny d.slm.Nx fun i j => u i j * (g 0 i j : ℂ)‖ ≤ G * beam d.slm u := by
        rw [beam_eq]
        refine vec_le_mul (by linarith) fun i hi j hj => ?_
        rw [norm_mul, norm_real, mul_comm]
        exact mul_le_mul_of_nonneg_right (hg0 i hi j hj) (norm_nonneg _)
      have q2 := LCOS.vec_add_le (M := d.slm.Ny) (N := d.slm.Nx) (fun i j => u i j * (g 0 i j : ℂ)) (fun i j => u i j * ((x0 i j - g 0 i j : ℝ) : ℂ))
      have q3 : (fun i j => u i j * (g 0 i j : ℂ) + u i j * ((x0 i j - g 0 i j : ℝ) : ℂ)) = fun i j => u i j * (x0 i j : ℂ) := by
        funext i j
        push_cast
        ring
      rw [q3] at q2
      linarith
    have p4 : ‖vec d.slm.Ny d.slm.Nx fun i j => u i j * ((b' i j - b i j : ℝ) : ℂ)‖ ≤
        e n + unsureBeam d.slm u ((n + 1) / (2 * N)) (e n) (3 / 2 ^ t) (g n) := by
      rw [unsureBeam_eq]
      refine le_trans ?_ (add_le_add ((beamError_eq d.slm u (g n) x).symm.le.trans ih) le_rfl)
      refine vec_norm_le_add fun i hi j hj => ?_
      by_cases hz : u i j = 0
      · rw [hz, zero_mul, norm_zero]
        positivity
      · have hd := error_le_of_beam ih hi hj hz
        obtain ⟨c1, c2⟩ := clip_close (x := g n i j) (x' := x i j) (δ := e n / ‖u i j‖) hT0 (by linarith) l3 l4 l1 l2 hd
        rw [norm_mul, norm_mul, norm_real, norm_real, hb, hb', Real.norm_eq_abs, Real.norm_eq_abs]
        simp only [iftaBinarizeR_eq, iftaBinarize_eq]
        by_cases hun : Unsure ((n + 1) / (2 * N)) (e n) (3 / 2 ^ t) (g n i j) (u i j)
        · rw [if_pos hun]
          have := mul_le_mul_of_nonneg_left c1 (norm_nonneg (u i j))
          have h3 : 0 ≤ ‖u i j‖ * |x i j - g n i j| := by positivity
          linarith
        · rw [if_neg hun, norm_zero, add_zero]
          have hun' : ¬ (|g n i j - (n + 1) / (2 * N)| ≤ e n / ‖u i j‖ + 3 / 2 ^ t ∨
              |g n i j - (1 - (n + 1) / (2 * N))| ≤ e n / ‖u i j‖ + 3 / 2 ^ t) := fun hc => hun ⟨hz, hc⟩
          push Not at hun'
          exact mul_le_mul_of_nonneg_left (c2 hun'.1 hun'.2) (norm_nonneg _)
    have key := step_err H hu hv0 hτ hτ1 (W := ifftshift2 d.slm.Ny d.slm.Nx W)
      (fun a ha b hb => hW _ (ifftshiftIdx_lt ha) _ (ifftshiftIdx_lt hb)) p1 p3 p4 p2
    rw [beamError_eq]
    refine le_trans (le_of_eq ?_) (key.trans (le_of_eq ?_))
    · refine congrArg norm (vec_congr fun i hi j hj => ?_)
      rw [(hg.step n hnN).eq hi hj]
      rfl
    · ring

/-- **C181.** Whatever the arithmetic: mirrors without light are off (after at least one iteration). -/
theorem C181_dark (F : IftaArith) (d : DMD) (A φin φout : ℕ → ℕ → ℝ) (s : ℝ) {u : ℕ → ℕ → ℂ} (W : ℕ → ℕ → ℂ) {N : ℕ} (hN : 1 ≤ N) {i j : ℕ}
    (hu : u i j = 0) : d.iftaMirrorsR F A φin φout s u W N i j = false := by
  obtain ⟨n, rfl⟩ : ∃ n, N = n + 1 := ⟨N - 1, by omega⟩
  refine decide_eq_false ?_
  have : d.iftaHologramR F A φin φout s u W (n + 1) (n + 1) i j = 0 := by
    show (if u i j = 0 then _ else _) = _
    exact if_pos hu
  rw [this]
  norm_num

/-- **C181.** A mirror is in the state of the exact algorithm, unless its exact final value times the input field is within the bound of
`C181_error` of the final threshold 1/2. -/
theorem C181_mirrors (H : IftaPrecise t v τ d.slm.Ny d.slm.Nx F) (ht : 10 ≤ t) (hτ : 0 ≤ τ) (hτ1 : τ ≤ 1 / 1000) (hN : N * 4 ≤ 2 ^ t)
    (hW : ∀ k < d.slm.Ny, ∀ l < d.slm.Nx, ‖W k l‖ ≤ 1 ∧ ‖1 - W k l‖ ≤ 1)
    (hg : IftaRun d A φin φout s u W N g) {G : ℝ} (hG : 1 ≤ G) (hg0 : ∀ i < d.slm.Ny, ∀ j < d.slm.Nx, |g 0 i j| ≤ G) {e : ℕ → ℝ}
    (h0 : beamError d.slm u (g 0) (d.iftaHologramR F A' φin' φout' s u W N 0) ≤ e 0)
    (he : ∀ n < N, e n + e 0 + (18 / 2 ^ t + 6 * τ + 4 * v) * (G * beam d.slm u + e 0) +
      unsureBeam d.slm u ((n + 1) / (2 * N)) (e n) (3 / 2 ^ t) (g n) ≤ e (n + 1)) {i j : ℕ} (hi : i < d.slm.Ny) (hj : j < d.slm.Nx)
    (hfar : e N < ‖u i j‖ * |g N i j - 1 / 2|) :
    d.iftaMirrorsR F A' φin' φout' s u W N i j = true ↔ 1 / 2 < g N i j := by
  have h1 := C181_error H ht hτ hτ1 hN hW hg hG hg0 h0 he le_rfl
  have hz : u i j ≠ 0 := by
    rintro hz
    rw [hz, norm_zero, zero_mul] at hfar
    exact absurd ((Real.sqrt_nonneg _).trans h1) (not_le.mpr hfar)
  have h2 := error_le_of_beam h1 hi hj hz
  have h3 : e N / ‖u i j‖ < |g N i j - 1 / 2| := by
    rw [div_lt_iff₀ (norm_pos_iff.mpr hz), mul_comm]
    exact hfar
  rw [iftaMirrorsR, decide_eq_true_iff, show (0.5 : ℝ) = 1 / 2 by norm_num]
  obtain ⟨a1, a2⟩ := abs_le.mp h2
  rcases lt_abs.mp h3 with h | h <;> constructor <;> intro <;> linarith

/-- **C181.** Rounding errors grow at most linearly with the number of iterations as long as no mirror is near a clipping level: if in each
iteration the exact values of the illuminated mirrors stay away from the two levels, and the final ones from 1/2, by more than
`(n + 1) E + n (18 / 2^t + 6 τ + 4 v) (G B + E)` over the modulus of the input field, `E` bounding the error of the starting hologram and `B` being the
root of the power of the beam (plus `3 / 2^t` for the levels), the computed pattern is the exact one. -/
theorem C181_pattern (H : IftaPrecise t v τ d.slm.Ny d.slm.Nx F) (ht : 10 ≤ t) (hτ : 0 ≤ τ) (hτ1 : τ ≤ 1 / 1000) (hN : N * 4 ≤ 2 ^ t)
    (hW : ∀ k < d.slm.Ny, ∀ l < d.slm.Nx, ‖W k l‖ ≤ 1 ∧ ‖1 - W k l‖ ≤ 1)
    (hg : IftaRun d A φin φout s u W N g) {G : ℝ} (hG : 1 ≤ G) (hg0 : ∀ i < d.slm.Ny, ∀ j < d.slm.Nx, |g 0 i j| ≤ G) {E : ℝ}
    (h0 : beamError d.slm u (g 0) (d.iftaHologramR F A' φin' φout' s u W N 0) ≤ E)
    (hsure : ∀ n < N, ∀ i < d.slm.Ny, ∀ j < d.slm.Nx, u i j ≠ 0 → ∀ l ∈ [((n : ℝ) + 1) / (2 * N), 1 - (n + 1) / (2 * N)],
      ((n + 1) * E + n * ((18 / 2 ^ t + 6 * τ + 4 * v) * (G * beam d.slm u + E))) / ‖u i j‖ + 3 / 2 ^ t < |g n i j - l|)
    (hfinal : ∀ i < d.slm.Ny, ∀ j < d.slm.Nx, u i j ≠ 0 →
      ((N + 1) * E + N * ((18 / 2 ^ t + 6 * τ + 4 * v) * (G * beam d.slm u + E))) / ‖u i j‖ < |g N i j - 1 / 2|) :
    (∀ n ≤ N, beamError d.slm u (g n) (d.iftaHologramR F A' φin' φout' s u W N n) ≤
      (n + 1) * E + n * ((18 / 2 ^ t + 6 * τ + 4 * v) * (G * beam d.slm u + E))) ∧
    ∀ i < d.slm.Ny, ∀ j < d.slm.Nx, u i j ≠ 0 → (d.iftaMirrorsR F A' φin' φout' s u W N i j = true ↔ 1 / 2 < g N i j) := by
  classical
  set κ := (18 / 2 ^ t + 6 * τ + 4 * v) * (G * beam d.slm u + E) with hκ
  set e : ℕ → ℝ := fun n => (n + 1) * E + n * κ with he
  have e0 : e 0 = E := by simp [he]
  have h0' : beamError d.slm u (g 0) (d.iftaHologramR F A' φin' φout' s u W N 0) ≤ e 0 := by rw [e0]; exact h0
  have hstep : ∀ n < N, e n + e 0 + (18 / 2 ^ t + 6 * τ + 4 * v) * (G * beam d.slm u + e 0) +
      unsureBeam d.slm u ((n + 1) / (2 * N)) (e n) (3 / 2 ^ t) (g n) ≤ e (n + 1) := by
    intro n hn
    have hz : unsureBeam d.slm u ((n + 1) / (2 * N)) (e n) (3 / 2 ^ t) (g n) = 0 := by
      unfold unsureBeam
      rw [sum_eq_zero fun i hi => sum_eq_zero fun j hj => ?_, Real.sqrt_zero]
      refine if_neg ?_
      rintro ⟨hu, hc⟩
      have h1 := hsure n hn i (mem_range.mp hi) j (mem_range.mp hj) hu
      rcases hc with hc | hc
      · exact absurd hc (not_le.mpr (h1 _ (by simp)))
      · exact absurd hc (not_le.mpr (h1 _ (by simp)))
    rw [hz, e0, ← hκ, he]
    push_cast
    exact le_of_eq (by ring)
  refine ⟨fun n hn => C181_error H ht hτ hτ1 hN hW hg hG hg0 h0' hstep hn, fun i hi j hj hu => ?_⟩
  refine C181_mirrors H ht hτ hτ1 hN hW hg hG hg0 h0' hstep hi hj ?_
  have := hfinal i hi j hj hu
  rw [div_lt_iff₀ (norm_pos_iff.mpr hu)] at this
  rw [mul_comm ‖u i j‖]
  exact this

/-- **C181.** The error of the starting hologram `s` times the ideal grating: for amplitudes up to `a`, phase differences up to `D` and at most
`K` radians of carrier between the centre and a mirror. -/
theorem C181_start (H : IftaPrecise t v τ d.slm.Ny d.slm.Nx F) (ht : 10 ≤ t) (hv : v ≤ 1 / 16) (hx : d.slm.Nx * 16 ≤ 2 ^ t)
    (hy : d.slm.Ny * 16 ≤ 2 ^ t) (hg : IftaRun d A φin φout s u W N g) {a K D : ℝ}
    (hA : ∀ i < d.slm.Ny, ∀ j < d.slm.Nx, |A i j| ≤ a) (hK : ∀ i < d.slm.Ny, ∀ j < d.slm.Nx, Rounded.carrier d.slm d.p i j ≤ K)
    (hD : ∀ i < d.slm.Ny, ∀ j < d.slm.Nx, |φout i j - φin i j| ≤ D) (W' : ℕ → ℕ → ℂ) :
    beamError d.slm u (g 0) (d.iftaHologramR F A φin φout s u W' N 0) ≤
      |s| * a * (2 * v + 5 / 2 ^ t + (3 * v + 17 / 2 ^ t) * K + 4 / 2 ^ t * D) * beam d.slm u := by
  rw [beamError_eq, beam_eq]
  rcases Nat.eq_zero_or_pos d.slm.Ny with h0 | hNy
  · have : ∀ f, vec d.slm.Ny d.slm.Nx f = 0 := fun f => by
      rw [← norm_eq_zero, ← sq_eq_zero_iff, vec_normSq, h0, range_zero, sum_empty]
    rw [this, this, norm_zero, mul_zero]
  rcases Nat.eq_zero_or_pos d.slm.Nx with h0 | hNx
  · have : ∀ f, vec d.slm.Ny d.slm.Nx f = 0 := fun f => by
      rw [← norm_eq_zero, ← sq_eq_zero_iff, vec_normSq, h0]
      simp
    rw [this, this, norm_zero, mul_zero]
  set ε : ℝ := 1 / 2 ^ t with hε
  have hε0 : 0 < ε := by rw [hε]; positivity
  have hε1 : ε ≤ 1 / 1000 := by
    refine one_div_le_one_div_of_le (by norm_num) ?_
    calc (1000 : ℝ) ≤ 2 ^ 10 := by norm_num
      _ ≤ 2 ^ t := pow_le_pow_right₀ (by norm_num) ht
  have hv0 : 0 ≤ v := (abs_nonneg _).trans (H.arith.cos 0)
  have ha0 : 0 ≤ a := (abs_nonneg _).trans (hA 0 hNy 0 hNx)
  have hD0 : 0 ≤ D := (abs_nonneg _).trans (hD 0 hNy 0 hNx)
  have hK0 : 0 ≤ K := le_trans (by rw [Rounded.carrier]; positivity) (hK 0 hNy 0 hNx)
  have e1 : 2 * v + 5 / 2 ^ t + (3 * v + 17 / 2 ^ t) * K + 4 / 2 ^ t * D = 2 * v + 5 * ε + (3 * v + 17 * ε) * K + 4 * ε * D := by
    rw [hε]; ring
  rw [e1]
  refine vec_le_mul (by positivity) fun i hi j hj => ?_
  rw [norm_mul, norm_real, mul_comm, Real.norm_eq_abs]
  refine mul_le_mul_of_nonneg_right ?_ (norm_nonneg _)
  rw [hg.start i hi j hj]
  change |F.rnd (s * idealPixelR F.toArith d.p d.theta d.neg (A i j) (pixR F.toArith d.slm (A i j) (φin i j) (φout i j) i j)) - _| ≤ _
  have k1 := FloatGrating.ideal_close H.arith rfl (u_le (by omega)) d.p d.theta d.neg (A i j) (pixR F.toArith d.slm (A i j) (φin i j) (φout i j) i j)
    (detuningR_close H.arith (by omega) hv d.slm hx hy d.p d.theta d.neg (A i j) (φin i j) (φout i j) hi.le hj.le)
  have hgr : A i j * (Real.cos (Rounded.detuning d.slm d.p d.theta d.neg (φin i j) (φout i j) i j) / 2 + 0.5) =
      Rounded.grey d.slm d.p d.theta d.neg (A i j) (φin i j) (φout i j) i j := by
    rw [Rounded.grey]; norm_num
  rw [hgr, ← hε] at k1
  set y := idealPixelR F.toArith d.p d.theta d.neg (A i j) (pixR F.toArith d.slm (A i j) (φin i j) (φout i j) i j) with hy'
  set γ := Rounded.grey d.slm d.p d.theta d.neg (A i j) (φin i j) (φout i j) i j with hγ
  set q := v + 3 * ε + ((2 * v + 16 * ε) * K + 3 * ε * D) with hq
  have hq0 : 0 ≤ q := by positivity
  have k2 : |y - γ| ≤ a * q := by
    refine k1.trans (mul_le_mul (hA i hi j hj) ?_ (by
      have := (by rw [Rounded.carrier]; positivity : 0 ≤ Rounded.carrier d.slm d.p i j)
      positivity) ha0)
    have c1 := mul_le_mul_of_nonneg_left (hK i hi j hj) (by positivity : 0 ≤ 2 * v + 16 * ε)
    have c2 := mul_le_mul_of_nonneg_left (hD i hi j hj) (by positivity : 0 ≤ 3 * ε)
    linarith
  have k3 : |γ| ≤ a := by
    rw [← hgr, abs_mul]
    refine (mul_le_of_le_one_right (abs_nonneg _) ?_).trans (hA i hi j hj)
    obtain ⟨c1, c2⟩ := abs_le.mp (Real.abs_cos_le_one (Rounded.detuning d.slm d.p d.theta d.neg (φin i j) (φout i j) i j))
    rw [abs_le]
    constructor <;> norm_num <;> linarith
  have k4 : |s * y - s * γ| ≤ |s| * (a * q) := by
    rw [← mul_sub, abs_mul]
    exact mul_le_mul_of_nonneg_left k2 (abs_nonneg _)
  have k5 := FloatGrating.rnd_close H.arith.rnd hε k4 (M := |s| * a) (by rw [abs_mul]; exact mul_le_mul_of_nonneg_left k3 (abs_nonneg _))
  refine k5.trans ?_
  have e2 : |s| * (a * q) + ε * (|s| * a + |s| * (a * q)) = |s| * a * (q + ε * (1 + q)) := by ring
  rw [e2]
  refine mul_le_mul_of_nonneg_left ?_ (by positivity)
  have c1 : ε * q ≤ 1 / 1000 * q := mul_le_mul_of_nonneg_right hε1 hq0
  have c2 : 0 ≤ v * K := by positivity
  have c3 : 0 ≤ ε * K := by positivity
  have c4 : 0 ≤ ε * D := by positivity
  rw [hq] at c1 ⊢
  linarith

/-- An exact run that starts from a binary hologram stays there, on the illuminated mirrors. -/
theorem IftaRun.binary (hg : IftaRun d A φin φout s u W N g) (hb : ∀ i < d.slm.Ny, ∀ j < d.slm.Nx, u i j ≠ 0 → g 0 i j = 0 ∨ g 0 i j = 1) :
    ∀ n ≤ N, ∀ i < d.slm.Ny, ∀ j < d.slm.Nx, u i j ≠ 0 → g n i j = g 0 i j := by
  intro n
  induction n with
  | zero => intro _ i _ j _ _; rfl
  | succ n ih =>
    intro hn i hi j hj hu
    have ih := ih (by omega)
    have ht := threshold_le (show n < N by omega)
    have hc : ∀ i < d.slm.Ny, ∀ j < d.slm.Nx, u i j ≠ 0 → clip (((n : ℕ) + 1) / (2 * (N : ℕ))) (g n i j) = g 0 i j := by
      intro i hi j hj hu
      rw [ih i hi j hj hu]
      rcases hb i hi j hj hu with hb | hb <;> rw [hb]
      · exact clip_zero (by linarith)
      · exact clip_one (by linarith)
    rw [(hg.step n (by omega)).value hi hj hu, hc i hi j hj hu, backPropagated_congr (G := fun _ _ => 0) fun k _ l _ => ?_]
    · simp [LCOS.backPropagated]
    · rw [predicted_congr (V := fun _ _ => 0) fun i hi j hj => ?_]
      · simp [LCOS.predicted]
      · rcases eq_or_ne (u i j) 0 with h0 | h0
        · rw [h0, zero_mul]
        · rw [hc i hi j hj h0, sub_self, ofReal_zero, mul_zero]

/-- **C181.** For instance a hologram that is binary to begin with: if `s` times the ideal grating is 0 or 1 at every illuminated mirror, and
the bound of `C181_pattern` over the modulus of the input field plus `3 / 2^t` is below `1 / (2 N)`, the computed pattern has exactly those of the
illuminated mirrors on at which it is 1. -/
theorem C181_binary (H : IftaPrecise t v τ d.slm.Ny d.slm.Nx F) (ht : 10 ≤ t) (hτ : 0 ≤ τ) (hτ1 : τ ≤ 1 / 1000) (hN0 : 1 ≤ N) (hN : N * 4 ≤ 2 ^ t)
    (hW : ∀ k < d.slm.Ny, ∀ l < d.slm.Nx, ‖W k l‖ ≤ 1 ∧ ‖1 - W k l‖ ≤ 1)
    (hg : IftaRun d A φin φout s u W N g) (hb : ∀ i < d.slm.Ny, ∀ j < d.slm.Nx, u i j ≠ 0 → g 0 i j = 0 ∨ g 0 i j = 1)
    {G : ℝ} (hG : 1 ≤ G) (hg0 : ∀ i < d.slm.Ny, ∀ j < d.slm.Nx, |g 0 i j| ≤ G) {E : ℝ}
    (h0 : beamError d.slm u (g 0) (d.iftaHologramR F A φin φout s u W N 0) ≤ E)
    (hbound : ∀ i < d.slm.Ny, ∀ j < d.slm.Nx, u i j ≠ 0 →
      ((N + 1) * E + N * ((18 / 2 ^ t + 6 * τ + 4 * v) * (G * beam d.slm u + E))) / ‖u i j‖ + 3 / 2 ^ t < 1 / (2 * N)) :
    ∀ i < d.slm.Ny, ∀ j < d.slm.Nx, u i j ≠ 0 → (d.iftaMirrorsR F A φin φout s u W N i j = true ↔ g 0 i j = 1) := by
  have hfix := hg.binary hb
  have hNr : (1 : ℝ) ≤ N := by exact_mod_cast hN0
  have hE : 0 ≤ E := (Real.sqrt_nonneg _).trans h0
  have hv0 : 0 ≤ v := (abs_nonneg _).trans (H.arith.cos 0)
  have hB : 0 ≤ beam d.slm u := Real.sqrt_nonneg _
  set κ := (18 / 2 ^ t + 6 * τ + 4 * v) * (G * beam d.slm u + E) with hκ
  have hκ0 : 0 ≤ κ := by positivity
  have hlev : (1 : ℝ) / (2 * N) ≤ 1 / 2 := by
    rw [div_le_div_iff₀ (by positivity) (by norm_num)]
    linarith
  have hp := C181_pattern H ht hτ hτ1 hN hW hg hG hg0 h0 (fun n hn i hi j hj hu l hl => ?_) fun i hi j hj hu => ?_
  · intro i hi j hj hu
    rw [hp.2 i hi j hj hu, hfix N le_rfl i hi j hj hu]
    rcases hb i hi j hj hu with h | h <;> rw [h] <;> norm_num
  · have hup : 0 < ‖u i j‖ := norm_pos_iff.mpr hu
    have hnN : (n : ℝ) + 1 ≤ N := by exact_mod_cast hn
    have c1 : ((n + 1) * E + n * κ) / ‖u i j‖ ≤ ((N + 1) * E + N * κ) / ‖u i j‖ := by
      refine div_le_div_of_nonneg_right ?_ hup.le
      have := mul_le_mul_of_nonneg_right hnN hE
      have := mul_le_mul_of_nonneg_right (by linarith : (n : ℝ) ≤ N) hκ0
      nlinarith
    have c2 := hbound i hi j hj hu
    have c3 : (1 : ℝ) / (2 * N) ≤ (n + 1) / (2 * N) := by
      refine div_le_div_of_nonneg_right ?_ (by positivity)
      have : (0 : ℝ) ≤ n := by positivity
      linarith
    have c4 : ((n : ℝ) + 1) / (2 * N) ≤ 1 / 2 := threshold_le hn
    refine lt_of_lt_of_le (lt_of_le_of_lt (add_le_add c1 le_rfl) c2) ?_
    rw [hfix n hn.le i hi j hj hu]
    simp only [List.mem_cons, List.not_mem_nil, or_false] at hl
    rcases hb i hi j hj hu with h | h <;> rw [h] <;> rcases hl with hl | hl <;> rw [hl, le_abs]
    · exact Or.inr (by linarith)
    · exact Or.inr (by linarith)
    · exact Or.inl (by linarith)
    · exact Or.inl (by linarith)
  · have c2 := hbound i hi j hj hu
    have c3 : (0 : ℝ) ≤ 3 / 2 ^ t := by positivity
    rw [hfix N le_rfl i hi j hj hu]
    have c4 : |g 0 i j - 1 / 2| = 1 / 2 := by
      rcases hb i hi j hj hu with h | h <;> rw [h] <;> norm_num [abs_of_neg, abs_of_pos]
    rw [c4]
    linarith

/-! ## The hypotheses can be met -/

/-- Double precision (rounding to nearest), quotients off by `1e-12` and transforms off by `1e-10` satisfy the assumptions. -/
theorem exists_iftaPrecise (M N : ℕ) : ∃ F, IftaPrecise 53 (1 / 10 ^ 12) (1 / 10 ^ 10) M N F ∧ F.rnd = Spec.nearest 53 := by
  have key : ∀ G : (ℕ → ℕ → ℂ) → ℕ → ℕ → ℂ, ∀ f : ℕ → ℕ → ℂ,
      ∑ i ∈ range M, ∑ j ∈ range N, ‖(1 + 1 / 10 ^ 10) * G f i j - G f i j‖ ^ 2 ≤
        (1 / 10 ^ 10 : ℝ) ^ 2 * ∑ i ∈ range M, ∑ j ∈ range N, ‖G f i j‖ ^ 2 := by
    intro G f
    rw [mul_sum]
    refine sum_le_sum fun i _ => ?_
    rw [mul_sum]
    refine sum_le_sum fun j _ => le_of_eq ?_
    rw [show (1 + 1 / 10 ^ 10) * G f i j - G f i j = ((1 / 10 ^ 10 : ℝ) : ℂ) * G f i j by push_cast; ring,
      norm_mul, mul_pow, norm_real, Real.norm_of_nonneg (by positivity)]
  refine ⟨⟨exactLib 53, fun z w => (1 + 1 / 10 ^ 12) * (z / w), fun M N f i j => (1 + 1 / 10 ^ 10) * dft2 M N f i j,
    fun M N f i j => (1 + 1 / 10 ^ 10) * idft2 M N f i j⟩,
    ⟨exactLib_precise (by norm_num) (by positivity), fun z w _ => le_of_eq ?_, fun f => key (dft2 M N) f, fun f => key (idft2 M N) f⟩, rfl⟩
  rw [show (1 + 1 / 10 ^ 12) * (z / w) - z / w = ((1 / 10 ^ 12 : ℝ) : ℂ) * (z / w) by push_cast; ring, norm_mul, norm_real,
    Real.norm_of_nonneg (by positivity)]

/-- C181: a grating with a period of two pixels on a uniformly lit device, three iterations in double precision: the computed pattern has every
other column on. -/
example (w f : ℝ) (W : ℕ → ℕ → ℂ) (hW : ∀ k < 2, ∀ l < 4, ‖W k l‖ ≤ 1 ∧ ‖1 - W k l‖ ≤ 1) : ∃ F : IftaArith, F.rnd = Spec.nearest 53 ∧
    let d : DMD := { slm := ⟨w, f, 4, 2, 1⟩, p := 2, theta := 0, neg := false }
    ∀ i < 2, ∀ j < 4, (d.iftaMirrorsR F (fun _ _ => 1) (fun _ _ => 0) (fun _ _ => 0) 1 (fun _ _ => 1) W 3 i j = true ↔ j = 0 ∨ j = 2) := by
  obtain ⟨F, H, hF⟩ := exists_iftaPrecise 2 4
  refine ⟨F, hF, ?_⟩
  intro d
  have hg := exact_run d (fun _ _ => 1) (fun _ _ => 0) (fun _ _ => 0) 1 (fun _ _ => 1) W 3
  have hval : ∀ i < 2, ∀ j < 4, d.iftaHologramR exactIfta (fun _ _ => 1) (fun _ _ => 0) (fun _ _ => 0) 1 (fun _ _ => 1) W 3 0 i j =
      if j = 0 ∨ j = 2 then 1 else 0 := by
    intro i hi j hj
    rw [hg.start i hi j hj, Rounded.grey, Rounded.detuning]
    have e : 2 * Real.pi / d.p * (Real.cos d.theta * ((j - (d.slm.Nx : ℝ) / 2) * d.slm.ps) +
        Real.sin d.theta * (((d.slm.Ny : ℝ) / 2 - i) * d.slm.ps)) - (if d.neg = true then -((0 : ℝ) - 0) else 0 - 0) = j * Real.pi - 2 * Real.pi := by
      simp [d]
      ring
    rw [e, Real.cos_sub_two_pi, Real.cos_nat_mul_pi]
    interval_cases j <;> norm_num
  have hb2 : beam d.slm (fun _ _ => (1 : ℂ)) ≤ 3 := by
    unfold beam
    refine Real.sqrt_le_iff.mpr ⟨by norm_num, ?_⟩
    rw [show d.slm.Ny = 2 from rfl, show d.slm.Nx = 4 from rfl]
    norm_num
  have hb0 : 0 ≤ beam d.slm (fun _ _ => (1 : ℂ)) := Real.sqrt_nonneg _
  have h0 := C181_start (u := fun _ _ => 1) H (by norm_num) (by norm_num) (by norm_num [d]) (by norm_num [d]) hg (a := 1) (K := 16) (D := 0)
    (fun i _ j _ => by norm_num) (fun i hi j hj => ?_) (fun i _ j _ => by norm_num) W
  · have h1 := C181_binary (d := d) (G := 1) (E := 1 / 10 ^ 9) H (by norm_num) (by norm_num) (by norm_num) (by norm_num) (by norm_num) hW hg
      (fun i hi j hj _ => by rw [hval i hi j hj]; split_ifs <;> simp) le_rfl
      (fun i hi j hj => by rw [hval i hi j hj]; split_ifs <;> simp) (h0.trans ?_) fun i hi j hj _ => ?_
    · intro i hi j hj
      rw [h1 i hi j hj one_ne_zero, hval i hi j hj]
      split_ifs with h <;> simp [h]
    · norm_num
      nlinarith
    · norm_num
      nlinarith
  · change i < 2 at hi
    change j < 4 at hj
    unfold Rounded.carrier
    have e : |2 * Real.pi / d.p| * (|(j - (d.slm.Nx : ℝ) / 2) * d.slm.ps| + |((d.slm.Ny : ℝ) / 2 - i) * d.slm.ps|) =
        Real.pi * (|(j : ℝ) - 2| + |1 - (i : ℝ)|) := by
      simp [d, abs_of_pos Real.pi_pos]
      norm_num
    rw [e]
    have hp := Real.pi_le_four
    have hp0 := Real.pi_pos
    interval_cases i <;> interval_cases j <;> norm_num <;> linarith

end PySLM2.DMD
