import Verif.Lemmas.Grating
import Mathlib.MeasureTheory.Measure.Lebesgue.Basic

/-!
# C22, C24 (second half), C29 - C33: the elementwise grating methods

`GratingArgs d h amp phase_in phase_out A φin φout` (in `Verif/Spec/Dmd.lean`) says that the three
arguments, whether numbers, arrays or profiles, denote the values `A`, `φin`, `φout` on the DMD pixels.
`detuning` is the carrier phase minus the requested phase difference.
-/

noncomputable section

open Complex Finset

namespace PySLM2.DMD

open Lib

variable {d : DMD} {h : Profile.Heap} {amp pin pout : ProfArg} {A φin φout : ℕ → ℕ → ℝ}

/-- **C22.** `set_dmd_grating_state(amp, phase_in, phase_out, method="ideal")`: every entry of the state
is a finite number between 0 and the requested amplitude (when that is not negative), and equals a
non-zero amplitude exactly where the carrier phase equals the requested phase difference modulo `2 pi`. -/
theorem C22_ideal_range (g : GratingArgs d h amp pin pout A φin φout) (hp : d.p ≠ 0) (kw : Kwargs)
    (draw : ℕ → ℕ → ℝ) :
    ∃ t : Tensor XR, d.setDmdGratingState h amp pin pout "ideal" kw draw = ⟨.rebind (.float t), .ok ()⟩ ∧
      t.shape = .mat d.slm.Ny d.slm.Nx ∧ ∀ i < d.slm.Ny, ∀ j < d.slm.Nx, ∃ v, t.get i j = .fin v ∧
        (0 ≤ A i j → 0 ≤ v ∧ v ≤ A i j) ∧
        (A i j ≠ 0 → (v = A i j ↔ ∃ n : ℤ, d.detuning φin φout i j = 2 * Real.pi * n)) := by
  obtain ⟨⟨t, h1, h2, h3⟩, -, -⟩ := setGrating_eq g kw draw
  refine ⟨t, h1, h2, fun i hi j hj => ⟨_, (h3 i hi j hj).trans (idealPixel_eq d hp _ _ _ _ _), ?_, ?_⟩⟩
  · intro hA
    exact ⟨mul_nonneg hA (cos_half_nonneg _), mul_le_of_le_one_right hA (cos_half_le_one _)⟩
  · intro hA
    rw [mul_eq_left₀ hA]
    constructor
    · intro h4
      have h5 : Real.cos (d.detuning φin φout i j) = 1 := by linarith
      obtain ⟨n, hn⟩ := (Real.cos_eq_one_iff _).mp h5
      exact ⟨n, by rw [← hn]; ring⟩
    · rintro ⟨n, hn⟩
      have h5 : Real.cos (d.detuning φin φout i j) = 1 :=
        (Real.cos_eq_one_iff _).mpr ⟨n, by rw [hn]; ring⟩
      rw [h5]; norm_num

/-- **C22**, range: for amplitudes in `[0, 1]` the ideal state is in `[0, 1]`. -/
theorem C22_unit_range (g : GratingArgs d h amp pin pout A φin φout) (hp : d.p ≠ 0) (kw : Kwargs)
    (draw : ℕ → ℕ → ℝ) (hA : ∀ i < d.slm.Ny, ∀ j < d.slm.Nx, 0 ≤ A i j ∧ A i j ≤ 1) :
    ∃ t : Tensor XR, d.setDmdGratingState h amp pin pout "ideal" kw draw = ⟨.rebind (.float t), .ok ()⟩ ∧
      t.shape = .mat d.slm.Ny d.slm.Nx ∧
      ∀ i < d.slm.Ny, ∀ j < d.slm.Nx, ∃ v, t.get i j = .fin v ∧ 0 ≤ v ∧ v ≤ 1 := by
  obtain ⟨t, h1, h2, h3⟩ := C22_ideal_range g hp kw draw
  refine ⟨t, h1, h2, fun i hi j hj => ?_⟩
  obtain ⟨v, hv, h4, -⟩ := h3 i hi j hj
  obtain ⟨h5, h6⟩ := hA i hi j hj
  exact ⟨v, hv, (h4 h5).1, (h4 h5).2.trans h6⟩

/-- **C29.** `set_dmd_grating_state(..., method="simple")` switches a mirror on exactly when the value
that `method="ideal"` gives for the same arguments exceeds 0.5. -/
theorem C29_simple_threshold (g : GratingArgs d h amp pin pout A φin φout) (kw : Kwargs)
    (draw : ℕ → ℕ → ℝ) :
    ∃ (t : Tensor Bool) (f : Tensor XR),
      d.setDmdGratingState h amp pin pout "simple" kw draw = ⟨.rebind (.bool t), .ok ()⟩ ∧
      d.setDmdGratingState h amp pin pout "ideal" kw draw = ⟨.rebind (.float f), .ok ()⟩ ∧
      t.shape = .mat d.slm.Ny d.slm.Nx ∧ f.shape = t.shape ∧
      ∀ i < d.slm.Ny, ∀ j < d.slm.Nx, (t.get i j = true ↔ ∃ v, f.get i j = .fin v ∧ 1 / 2 < v) := by
  obtain ⟨⟨f, f1, f2, f3⟩, ⟨t, h1, h2, h3⟩, -⟩ := setGrating_eq g kw draw
  refine ⟨t, f, h1, f1, h2, f2.trans h2.symm, fun i hi j hj => ?_⟩
  rw [h3 i hi j hj, f3 i hi j hj]
  by_cases hp : d.p = 0
  · unfold simplePixel idealPixel
    simp [hp, XR.gtFin]
  · rw [simplePixel_iff d hp, idealPixel_eq d hp]
    exact ⟨fun h4 => ⟨_, rfl, h4⟩, fun ⟨v, hv, h4⟩ => by cases hv; exact h4⟩

/-- **C29**, consequences: no mirror is on where the amplitude is in `[0, 1/2]`; where it is 1 exactly
the mirrors with positive cosine of the detuning are on. -/
theorem C29_consequences (g : GratingArgs d h amp pin pout A φin φout) (hp : d.p ≠ 0) (kw : Kwargs)
    (draw : ℕ → ℕ → ℝ) :
    ∃ t : Tensor Bool, d.setDmdGratingState h amp pin pout "simple" kw draw = ⟨.rebind (.bool t), .ok ()⟩ ∧
      t.shape = .mat d.slm.Ny d.slm.Nx ∧ ∀ i < d.slm.Ny, ∀ j < d.slm.Nx,
        (A i j ≤ 1 / 2 → t.get i j = false) ∧
        (A i j = 1 → (t.get i j = true ↔ 0 < Real.cos (d.detuning φin φout i j))) := by
  obtain ⟨-, ⟨t, h1, h2, h3⟩, -⟩ := setGrating_eq g kw draw
  refine ⟨t, h1, h2, fun i hi j hj => ⟨fun hA => ?_, fun hA => ?_⟩⟩ <;> rw [h3 i hi j hj]
  · rw [← Bool.not_eq_true, simplePixel_iff d hp]
    have := cos_half_nonneg (d.detuning φin φout i j)
    have := cos_half_le_one (d.detuning φin φout i j)
    nlinarith
  · rw [simplePixel_iff d hp, hA]
    constructor <;> intro <;> linarith

/-- **C30.** `method="random"` with steepness `r > 0`: a mirror whose amplitude is in `[0, 1]` is on exactly
when its draw is below the duty value, which lies in `[0, 1)`; a mirror whose amplitude is not positive or
is outside `[-1, 1]` is off for every draw in `[0, 1)`. -/
theorem C30_random (g : GratingArgs d h amp pin pout A φin φout) (hp : d.p ≠ 0) (kw : Kwargs)
    (draw : ℕ → ℕ → ℝ) {r : ℝ} (hr : 0 < r) (hkw : kw.r.getD 10 = r) (hu : ∀ i j, 0 ≤ draw i j) :
    ∃ t : Tensor Bool, d.setDmdGratingState h amp pin pout "random" kw draw = ⟨.rebind (.bool t), .ok ()⟩ ∧
      t.shape = .mat d.slm.Ny d.slm.Nx ∧ ∀ i < d.slm.Ny, ∀ j < d.slm.Nx,
        (0 ≤ A i j → A i j ≤ 1 → (t.get i j = true ↔ draw i j < d.duty r A φin φout i j) ∧
          0 ≤ d.duty r A φin φout i j ∧ d.duty r A φin φout i j < 1) ∧
        (A i j ≤ 0 ∨ 1 < A i j → t.get i j = false) := by
  obtain ⟨-, -, t, h1, h2, h3⟩ := setGrating_eq g kw draw
  refine ⟨t, h1, h2, fun i hi j hj => ⟨fun hA hA1 => ⟨?_, ?_, ?_⟩, fun hA => ?_⟩⟩
  · rw [h3 i hi j hj, hkw, randomPixel_iff d hp]
    exact ⟨fun h4 => h4.2.2, fun h4 => ⟨by linarith, hA1, h4⟩⟩
  · exact duty_nonneg d hr.le A φin φout i j hA
  · exact duty_lt_one d r A φin φout i j
  · rw [h3 i hi j hj, hkw, ← Bool.not_eq_true, randomPixel_iff d hp]
    rintro ⟨h4, h5, h6⟩
    rcases hA with hA | hA
    · have := duty_nonpos d hr.le A φin φout i j hA
      have := hu i j
      linarith
    · linarith

/-- **C30**, probabilities: whatever the joint law of the draws, if the draw of a pixel is uniform on
`[0, 1)` the mirror is on with probability equal to the duty value. -/
theorem C30_probability (g : GratingArgs d h amp pin pout A φin φout) (hp : d.p ≠ 0) (kw : Kwargs)
    {r : ℝ} (hr : 0 < r) (hkw : kw.r.getD 10 = r) {i j : ℕ} (hi : i < d.slm.Ny) (hj : j < d.slm.Nx)
    (hA : 0 ≤ A i j) (hA1 : A i j ≤ 1)
    {Ω : Type} [MeasurableSpace Ω] (μ : MeasureTheory.Measure Ω) (draw : Ω → ℕ → ℕ → ℝ)
    (hm : Measurable fun ω => draw ω i j)
    (huniform : μ.map (fun ω => draw ω i j) = MeasureTheory.volume.restrict (Set.Ico 0 1)) :
    μ {ω | ∃ t, d.setDmdGratingState h amp pin pout "random" kw (draw ω) = ⟨.rebind (.bool t), .ok ()⟩ ∧
        t.get i j = true} = ENNReal.ofReal (d.duty r A φin φout i j) := by
  have h1 : {ω | ∃ t, d.setDmdGratingState h amp pin pout "random" kw (draw ω) =
        ⟨.rebind (.bool t), .ok ()⟩ ∧ t.get i j = true} =
      (fun ω => draw ω i j) ⁻¹' Set.Iio (d.duty r A φin φout i j) := by
    ext ω
    obtain ⟨-, -, t, h1, h2, h3⟩ := setGrating_eq g kw (draw ω)
    simp only [Set.mem_setOf_eq, Set.mem_preimage, Set.mem_Iio]
    rw [h1]
    constructor
    · rintro ⟨t', ht', h4⟩
      cases ht'
      rw [h3 i hi j hj, hkw, randomPixel_iff d hp] at h4
      exact h4.2.2
    · intro h4
      refine ⟨t, rfl, ?_⟩
      rw [h3 i hi j hj, hkw, randomPixel_iff d hp]
      exact ⟨by linarith, hA1, h4⟩
  rw [h1, ← MeasureTheory.Measure.map_apply hm measurableSet_Iio, huniform,
    MeasureTheory.Measure.restrict_apply measurableSet_Iio]
  have h2 : Set.Iio (d.duty r A φin φout i j) ∩ Set.Ico 0 1 = Set.Ico 0 (d.duty r A φin φout i j) := by
    ext x
    have := duty_lt_one d r A φin φout i j
    simp only [Set.mem_inter_iff, Set.mem_Iio, Set.mem_Ico]
    constructor
    · rintro ⟨a, b, c⟩; exact ⟨b, a⟩
    · rintro ⟨a, b⟩; exact ⟨b, a, by linarith⟩
  rw [h2, Real.volume_Ico, sub_zero]

/-- **C31.** Raising the amplitude within `[0, 1]` (phases and draws unchanged) never lowers the ideal
value and never switches a mirror off with methods `simple` and `random`. -/
theorem C31_monotone {amp' : ProfArg} {A' : ℕ → ℕ → ℝ} (g : GratingArgs d h amp pin pout A φin φout)
    (g' : GratingArgs d h amp' pin pout A' φin φout) (hp : d.p ≠ 0) (kw : Kwargs) (draw : ℕ → ℕ → ℝ)
    (hr : 0 ≤ kw.r.getD 10) :
    (∃ f f' : Tensor XR, d.setDmdGratingState h amp pin pout "ideal" kw draw = ⟨.rebind (.float f), .ok ()⟩ ∧
      d.setDmdGratingState h amp' pin pout "ideal" kw draw = ⟨.rebind (.float f'), .ok ()⟩ ∧
      ∀ i < d.slm.Ny, ∀ j < d.slm.Nx, 0 ≤ A i j → A i j ≤ A' i j → A' i j ≤ 1 →
        ∃ v v', f.get i j = .fin v ∧ f'.get i j = .fin v' ∧ v ≤ v') ∧
    ∀ method, method = "simple" ∨ method = "random" →
      ∃ t t' : Tensor Bool, d.setDmdGratingState h amp pin pout method kw draw = ⟨.rebind (.bool t), .ok ()⟩ ∧
        d.setDmdGratingState h amp' pin pout method kw draw = ⟨.rebind (.bool t'), .ok ()⟩ ∧
        ∀ i < d.slm.Ny, ∀ j < d.slm.Nx, 0 ≤ A i j → A i j ≤ A' i j → A' i j ≤ 1 →
          t.get i j = true → t'.get i j = true := by
  obtain ⟨⟨f, f1, f2, f3⟩, ⟨t, t1, t2, t3⟩, ⟨u, u1, u2, u3⟩⟩ := setGrating_eq g kw draw
  obtain ⟨⟨f', f1', f2', f3'⟩, ⟨t', t1', t2', t3'⟩, ⟨u', u1', u2', u3'⟩⟩ := setGrating_eq g' kw draw
  have key : ∀ i j, A i j ≤ A' i j → A i j * (Real.cos (d.detuning φin φout i j) / 2 + 1 / 2) ≤
      A' i j * (Real.cos (d.detuning φin φout i j) / 2 + 1 / 2) := fun i j hA =>
    mul_le_mul_of_nonneg_right hA (cos_half_nonneg _)
  refine ⟨⟨f, f', f1, f1', fun i hi j hj _ hA _ => ?_⟩, ?_⟩
  · exact ⟨_, _, (f3 i hi j hj).trans (idealPixel_eq d hp _ _ _ _ _),
      (f3' i hi j hj).trans (idealPixel_eq d hp _ _ _ _ _), key i j hA⟩
  · rintro method (rfl | rfl)
    · refine ⟨t, t', t1, t1', fun i hi j hj _ hA _ => ?_⟩
      rw [t3 i hi j hj, t3' i hi j hj, simplePixel_iff d hp, simplePixel_iff d hp]
      exact fun h4 => lt_of_lt_of_le h4 (key i j hA)
    · refine ⟨u, u', u1, u1', fun i hi j hj h0 hA hA1 => ?_⟩
      rw [u3 i hi j hj, u3' i hi j hj, randomPixel_iff d hp, randomPixel_iff d hp]
      exact fun h4 => ⟨by linarith, hA1, lt_of_lt_of_le h4.2.2 (duty_mono d hr A A' φin φout i j hA)⟩

/-- **C32.** Adding the same phase `c` to both phases, and multiples of `2 pi` (which may differ from pixel
to pixel) to each, leaves the state computed by the methods `ideal`, `simple` and `random` unchanged. -/
theorem C32_phase_difference {amp' pin' pout' : ProfArg} {φin' φout' : ℕ → ℕ → ℝ}
    (g : GratingArgs d h amp pin pout A φin φout) (g' : GratingArgs d h amp' pin' pout' A φin' φout')
    (c : ℕ → ℕ → ℝ) (m n : ℕ → ℕ → ℤ)
    (hin : ∀ i < d.slm.Ny, ∀ j < d.slm.Nx, φin' i j = φin i j + c i j + 2 * Real.pi * m i j)
    (hout : ∀ i < d.slm.Ny, ∀ j < d.slm.Nx, φout' i j = φout i j + c i j + 2 * Real.pi * n i j)
    (kw : Kwargs) (draw : ℕ → ℕ → ℝ) (method : String)
    (hm : method = "ideal" ∨ method = "simple" ∨ method = "random") :
    ∃ st st', d.setDmdGratingState h amp pin pout method kw draw = ⟨.rebind st, .ok ()⟩ ∧
      d.setDmdGratingState h amp' pin' pout' method kw draw = ⟨.rebind st', .ok ()⟩ ∧ st.Same st' := by
  have key : ∀ i < d.slm.Ny, ∀ j < d.slm.Nx,
      Real.cos (d.detuning φin' φout' i j) = Real.cos (d.detuning φin φout i j) := by
    intro i hi j hj
    unfold detuning
    rw [hin i hi j hj, hout i hi j hj]
    cases d.neg
    · simp only [Bool.false_eq_true, if_false]
      rw [← Real.cos_sub_int_mul_two_pi _ (m i j - n i j)]
      congr 1
      push_cast
      ring
    · simp only [if_true]
      rw [← Real.cos_sub_int_mul_two_pi _ (n i j - m i j)]
      congr 1
      push_cast
      ring
  obtain ⟨⟨f, f1, f2, f3⟩, ⟨t, t1, t2, t3⟩, ⟨u, u1, u2, u3⟩⟩ := setGrating_eq g kw draw
  obtain ⟨⟨f', f1', f2', f3'⟩, ⟨t', t1', t2', t3'⟩, ⟨u', u1', u2', u3'⟩⟩ := setGrating_eq g' kw draw
  have hideal : ∀ i < d.slm.Ny, ∀ j < d.slm.Nx,
      idealPixel d.p d.theta d.neg (d.pixel A φin φout i j) =
        idealPixel d.p d.theta d.neg (d.pixel A φin' φout' i j) := by
    intro i hi j hj
    by_cases hp : d.p = 0
    · simp [idealPixel, hp]
    · rw [idealPixel_eq d hp, idealPixel_eq d hp, key i hi j hj]
  rcases hm with rfl | rfl | rfl
  · refine ⟨_, _, f1, f1', f2.trans f2'.symm, ?_⟩
    rw [f2]
    intro i hi j hj
    rw [f3 i hi j hj, f3' i hi j hj, hideal i hi j hj]
  · refine ⟨_, _, t1, t1', t2.trans t2'.symm, ?_⟩
    rw [t2]
    intro i hi j hj
    rw [t3 i hi j hj, t3' i hi j hj]
    unfold simplePixel
    rw [hideal i hi j hj]
  · refine ⟨_, _, u1, u1', u2.trans u2'.symm, ?_⟩
    rw [u2]
    intro i hi j hj
    rw [u3 i hi j hj, u3' i hi j hj]
    unfold randomPixel
    by_cases hp : d.p = 0
    · unfold randomDuty
      rw [if_pos hp, if_pos hp]
    · rw [randomDuty_eq d hp, randomDuty_eq d hp]
      unfold duty
      rw [key i hi j hj]

/-- **C33.** A DMD built with a non-zero `periodicity` and `pixel_size`: for uniform amplitude `a` and
phases the ideal state samples, at the pixel coordinates, a function `F` of position that is invariant
under moving by `periodicity * pixel_size` along the direction `theta` and under every displacement
perpendicular to it, and that takes the values `0` and `a` (and, being continuous along the segment, all
values in between) within any such period. -/
theorem C33_periodic {s : SLM} {periodicity theta : ℝ} {neg : Bool} {a φ₁ φ₂ : ℝ}
    (hperiod : periodicity ≠ 0) (hps : s.ps ≠ 0)
    (g : GratingArgs (DMD.new s periodicity theta neg) h amp pin pout (fun _ _ => a) (fun _ _ => φ₁)
      (fun _ _ => φ₂)) (kw : Kwargs) (draw : ℕ → ℕ → ℝ) :
    ∃ (t : Tensor XR) (F : ℝ → ℝ → ℝ),
      (DMD.new s periodicity theta neg).setDmdGratingState h amp pin pout "ideal" kw draw =
        ⟨.rebind (.float t), .ok ()⟩ ∧
      (∀ i < s.Ny, ∀ j < s.Nx, t.get i j = .fin (F (s.fourierGrid.1.get i j) (s.fourierGrid.2.get i j))) ∧
      (∀ x y, F (x + periodicity * s.ps * Real.cos theta) (y + periodicity * s.ps * Real.sin theta) =
        F x y) ∧
      (∀ x y v, F (x - v * Real.sin theta) (y + v * Real.cos theta) = F x y) ∧
      (∀ x y, ∃ v ∈ Set.Icc (0 : ℝ) 1, F (x + v * (periodicity * s.ps) * Real.cos theta)
        (y + v * (periodicity * s.ps) * Real.sin theta) = a) ∧
      (∀ x y, ∃ v ∈ Set.Icc (0 : ℝ) 1, F (x + v * (periodicity * s.ps) * Real.cos theta)
        (y + v * (periodicity * s.ps) * Real.sin theta) = 0) ∧
      Continuous (Function.uncurry F) := by
  set d := DMD.new s periodicity theta neg with hd
  have hp : d.p ≠ 0 := mul_ne_zero hperiod hps
  have hth : d.theta = theta := rfl
  have hpe : d.p = periodicity * s.ps := rfl
  obtain ⟨⟨f, f1, f2, f3⟩, -, -⟩ := setGrating_eq g kw draw
  set c : ℝ := if d.neg then -(φ₂ - φ₁) else φ₂ - φ₁ with hc
  have hcs := Real.cos_sq_add_sin_sq theta
  have hmove : ∀ x y v, d.carrier (x + v * d.p * Real.cos theta) (y + v * d.p * Real.sin theta) =
      d.carrier x y + 2 * Real.pi * v := by
    intro x y v
    unfold carrier
    rw [hth]
    field_simp
    linear_combination (v * d.p) * hcs
  -- every target phase is reached within a period
  have hreach : ∀ x y q, ∃ v ∈ Set.Icc (0 : ℝ) 1, ∃ n : ℤ,
      d.carrier x y + 2 * Real.pi * v - c = q + n * (2 * Real.pi) := by
    intro x y q
    set z := (q + c - d.carrier x y) / (2 * Real.pi) with hz
    refine ⟨Int.fract z, ⟨Int.fract_nonneg z, (Int.fract_lt_one z).le⟩, -⌊z⌋, ?_⟩
    have h1 : z * (2 * Real.pi) = q + c - d.carrier x y := by
      rw [hz]; field_simp
    have h2 := Int.fract_add_floor z
    push_cast
    linear_combination (2 * Real.pi) * h2 + h1
  refine ⟨f, fun x y => a * (Real.cos (d.carrier x y - c) / 2 + 1 / 2), f1, fun i hi j hj => ?_, ?_, ?_, ?_,
    ?_, ?_⟩
  · exact (f3 i hi j hj).trans (idealPixel_eq d hp _ _ _ _ _)
  · intro x y
    have := hmove x y 1
    rw [hpe, one_mul] at this
    simp only
    rw [this, show d.carrier x y + 2 * Real.pi * 1 - c = d.carrier x y - c + 2 * Real.pi by ring,
      Real.cos_add_two_pi]
  · intro x y v
    have : d.carrier (x - v * Real.sin theta) (y + v * Real.cos theta) = d.carrier x y := by
      unfold carrier
      rw [hth]
      congr 2
      ring
    simp only
    rw [this]
  · intro x y
    obtain ⟨v, hv, n, hn⟩ := hreach x y 0
    refine ⟨v, hv, ?_⟩
    have := hmove x y v
    rw [hpe] at this
    simp only
    rw [this, hn, Real.cos_add_int_mul_two_pi, Real.cos_zero]
    ring
  · intro x y
    obtain ⟨v, hv, n, hn⟩ := hreach x y Real.pi
    refine ⟨v, hv, ?_⟩
    have := hmove x y v
    rw [hpe] at this
    simp only
    rw [this, hn, Real.cos_add_int_mul_two_pi, Real.cos_pi]
    ring
  · unfold Function.uncurry carrier
    fun_prop

/-- **C24**, second half: a DMD with `negative_order=True` and one with `negative_order=False` and `theta`
increased by `pi` behave identically: every public call has the same effect on `dmd_state` and the same
result (for every method and the same random draw), hence so has every history of calls. -/
theorem C24_theta_plus_pi (s : SLM) (periodicity theta : ℝ) :
    let d := DMD.new s periodicity theta true
    let d' := DMD.new s periodicity (theta + Real.pi) false
    (∀ cur c, d.call cur c = d'.call cur c) ∧
    (∀ h inp target method window kw draw, d.calculateDmdState h inp target method window kw draw =
      d'.calculateDmdState h inp target method window kw draw) ∧
    ∀ cs, d.runCalls d.initialState cs = d'.runCalls d'.initialState cs := by
  intro d d'
  have hg : ∀ amp pin pout method kw draw, d.grating amp pin pout method kw draw =
      d'.grating amp pin pout method kw draw := fun _ _ _ _ _ _ =>
    (calculateDmdGrating_pi _ _ _ _ _ _ _ _ _ _).symm
  have ha : ∀ h amp pin pout method kw draw, d.gratingOfArgs h amp pin pout method kw draw =
      d'.gratingOfArgs h amp pin pout method kw draw := by
    intro h amp pin pout method kw draw
    unfold gratingOfArgs
    simp only [hg]
    rfl
  have hc : ∀ h inp target method window kw draw, d.calcGrating h inp target method window kw draw =
      d'.calcGrating h inp target method window kw draw := by
    intro h inp target method window kw draw
    unfold calcGrating
    simp only [hg]
    rfl
  have hcalc : ∀ h inp target method window kw draw, d.calculateDmdState h inp target method window kw draw =
      d'.calculateDmdState h inp target method window kw draw := by
    intro h inp target method window kw draw
    unfold calculateDmdState
    rw [hc]
    rfl
  have hcall : ∀ cur c, d.call cur c = d'.call cur c := by
    intro cur c
    cases c with
    | off => rfl
    | on => rfl
    | setGrating h amp pin pout method kw draw =>
      unfold call setDmdGratingState
      simp only [ha]
    | patch h i j amp pin pout dia method kw draw =>
      unfold call circularPatch
      simp only [ha]
      rfl
    | calculate h inp target method window kw draw =>
      unfold call
      simp only [hcalc]
  refine ⟨hcall, hcalc, fun cs => ?_⟩
  have h0 : d.initialState = d'.initialState := rfl
  rw [h0]
  generalize d'.initialState = cur
  induction cs generalizing cur with
  | nil => rfl
  | cons c cs ih =>
    unfold runCalls
    rw [hcall, ih]

/-! ## The hypotheses are satisfiable -/

/-- A 4 x 2 DMD with period 4 pixels. -/
def exGrating : DMD := DMD.new ⟨3, 5, 4, 2, 2⟩ 4 (Real.pi / 3) false

/-- An amplitude array and phase numbers. -/
theorem exGratingArgs (h : Profile.Heap) : GratingArgs exGrating h
    (.ndarray .real ⟨.mat 2 4, fun i j => (((i + j) / 8 : ℝ) : ℂ)⟩) (.num (.real 0)) (.num (.real 1))
    (fun i j => ((i : ℝ) + j) / 8) (fun _ _ => 0) (fun _ _ => 1) := by
  refine ⟨⟨_, rfl, rfl, fun i _ j _ => ?_⟩, ⟨_, rfl, rfl, fun i _ j _ => ?_⟩,
    ⟨_, rfl, rfl, fun i _ j _ => ?_⟩⟩
  · simp [castTo, Tensor.map, Tensor.at_]
  · simp [Tensor.at_, Tensor.map, Tensor.scalar]
  · simp [Tensor.at_, Tensor.map, Tensor.scalar]

/-- The hypotheses of C22, C29 - C32 hold for these arguments, and those of C33 for uniform ones. -/
example : exGrating.p ≠ 0 ∧ (∀ i < exGrating.slm.Ny, ∀ j < exGrating.slm.Nx,
    0 ≤ ((i : ℝ) + j) / 8 ∧ ((i : ℝ) + j) / 8 ≤ 1) := by
  refine ⟨by norm_num [exGrating, DMD.new], fun i hi j hj => ⟨by positivity, ?_⟩⟩
  have h1 : (i : ℝ) < 2 := by exact_mod_cast hi
  have h2 : (j : ℝ) < 4 := by exact_mod_cast hj
  linarith

example (h : Profile.Heap) : GratingArgs exGrating h (.num (.real 1)) (.num (.real 0)) (.num (.real 1))
    (fun _ _ => 1) (fun _ _ => 0) (fun _ _ => 1) := by
  refine ⟨⟨_, rfl, rfl, fun i _ j _ => ?_⟩, ⟨_, rfl, rfl, fun i _ j _ => ?_⟩,
    ⟨_, rfl, rfl, fun i _ j _ => ?_⟩⟩ <;> simp [Tensor.at_, Tensor.map, Tensor.scalar]

/-- C30: there is a uniform draw (the identity on the unit interval). -/
example : (MeasureTheory.volume.restrict (Set.Ico (0 : ℝ) 1)).map (fun ω : ℝ => (fun _ _ => ω : ℕ → ℕ → ℝ) 0 0) =
    MeasureTheory.volume.restrict (Set.Ico 0 1) := MeasureTheory.Measure.map_id

end PySLM2.DMD
