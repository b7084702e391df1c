import Verif.Lemmas.Simulation
import Verif.Spec.Dmd
import Mathlib.Analysis.SpecialFunctions.Artanh

/-! Helper lemmas about gratings. -/

noncomputable section

open Complex Finset

namespace PySLM2

open Lib

theorem bcast_scalar_right (s : Shape) : bcast s .scalar = some s := by cases s <;> rfl

theorem gratingShape_of {amp : Tensor XR} {pin pout x y : Tensor ℝ} {M N : ℕ}
    (ha : bcast amp.shape (.mat M N) = some (.mat M N))
    (hi : bcast pin.shape (.mat M N) = some (.mat M N))
    (ho : bcast pout.shape (.mat M N) = some (.mat M N))
    (hx : x.shape = .mat M N) (hy : y.shape = .mat M N) :
    gratingShape amp pin pout x y = some (.mat M N) := by
  unfold gratingShape
  simp only [bcastAll, hx, hy, bcast_scalar_right, bcast_self, ho, hi, ha]

theorem gratingPhase_pi (x y theta p : ℝ) : gratingPhase x y (theta + Real.pi) p = -gratingPhase x y theta p := by
  unfold gratingPhase
  rw [Real.cos_add_pi, Real.sin_add_pi]
  ring

theorem cos_negative_order (theta p : ℝ) (q : Pix) :
    Real.cos (gratingPhase q.x q.y (theta + Real.pi) p - ((signedPhases false q).2 - (signedPhases false q).1)) =
    Real.cos (gratingPhase q.x q.y theta p - ((signedPhases true q).2 - (signedPhases true q).1)) := by
  rw [gratingPhase_pi, ← Real.cos_neg]
  congr 1
  simp only [signedPhases, if_true, Bool.false_eq_true, if_false]
  ring

theorem idealPixel_pi (p theta : ℝ) (q : Pix) :
    idealPixel p (theta + Real.pi) false q = idealPixel p theta true q := by
  unfold idealPixel
  simp only [cos_negative_order]

theorem randomDuty_pi (p theta r : ℝ) (q : Pix) :
    randomDuty p (theta + Real.pi) r false q = randomDuty p theta r true q := by
  unfold randomDuty
  simp only [cos_negative_order]

theorem calculateDmdGrating_pi (amp : Tensor XR) (pin pout x y : Tensor ℝ) (p theta : ℝ) (method : String)
    (kw : Kwargs) (draw : ℕ → ℕ → ℝ) :
    calculateDmdGrating amp pin pout x y p (theta + Real.pi) method false kw draw =
      calculateDmdGrating amp pin pout x y p theta method true kw draw := by
  have h1 : idealPixel p (theta + Real.pi) false = idealPixel p theta true := funext (idealPixel_pi p theta)
  have h2 : randomDuty p (theta + Real.pi) (kw.r.getD 10) false = randomDuty p theta (kw.r.getD 10) true :=
    funext (randomDuty_pi p theta _)
  unfold calculateDmdGrating gratingIfta simplePixel randomPixel
  rw [h1]
  simp only
  rw [h2]

namespace DMD

/-- The arguments of pixel `(i, j)`. -/
def pixel (d : DMD) (A φin φout : ℕ → ℕ → ℝ) (i j : ℕ) : Pix :=
  ⟨.fin (A i j), φin i j, φout i j, d.slm.fourierX i j, d.slm.fourierY i j⟩

theorem gratingPhase_eq (d : DMD) (X Y : ℝ) : gratingPhase X Y d.theta d.p = d.carrier X Y := by
  unfold gratingPhase carrier; ring

theorem signed_eq (d : DMD) (A φin φout : ℕ → ℕ → ℝ) (i j : ℕ) :
    gratingPhase (d.pixel A φin φout i j).x (d.pixel A φin φout i j).y d.theta d.p -
      ((signedPhases d.neg (d.pixel A φin φout i j)).2 - (signedPhases d.neg (d.pixel A φin φout i j)).1) =
    d.detuning φin φout i j := by
  rw [gratingPhase_eq]
  unfold detuning signedPhases pixel SLM.fourierGrid
  cases d.neg
  · simp
  · simp; ring

theorem idealPixel_eq (d : DMD) (hp : d.p ≠ 0) (A φin φout : ℕ → ℕ → ℝ) (i j : ℕ) :
    idealPixel d.p d.theta d.neg (d.pixel A φin φout i j) =
      .fin (A i j * (Real.cos (d.detuning φin φout i j) / 2 + 1 / 2)) := by
  unfold idealPixel
  rw [if_neg hp]
  simp only [signed_eq]
  show XR.fin _ = _
  norm_num

theorem randomDuty_eq (d : DMD) (hp : d.p ≠ 0) (r : ℝ) (A φin φout : ℕ → ℕ → ℝ) (i j : ℕ) :
    randomDuty d.p d.theta r d.neg (d.pixel A φin φout i j) =
      if -1 ≤ A i j ∧ A i j ≤ 1 then .fin (d.duty r A φin φout i j) else .nan := by
  unfold randomDuty
  rw [if_neg hp]
  simp only [signed_eq]
  have : (d.pixel A φin φout i j).amp = .fin (A i j) := rfl
  rw [this]
  by_cases h : -1 ≤ A i j ∧ A i j ≤ 1
  · have h2 : asinX (.fin (A i j)) = .fin (Real.arcsin (A i j)) := if_pos h
    rw [h2, if_pos h]
    simp only [duty]
    congr 1
    ring
  · have h2 : asinX (.fin (A i j)) = .nan := if_neg h
    rw [h2, if_neg h]

/-- The pixels of a grating computed from arguments. -/
theorem pixAt_eq {d : DMD} {amp pin pout : Tensor ℝ} {A φin φout : ℕ → ℕ → ℝ}
    (ha : amp.Denotes d.slm.Ny d.slm.Nx A) (hi : pin.Denotes d.slm.Ny d.slm.Nx φin)
    (ho : pout.Denotes d.slm.Ny d.slm.Nx φout) {i j : ℕ} (hii : i < d.slm.Ny) (hj : j < d.slm.Nx) :
    pixAt (amp.map XR.fin) pin pout d.slm.fourierGrid.1 d.slm.fourierGrid.2 i j =
      d.pixel A φin φout i j := by
  unfold pixAt pixel
  have h1 : (amp.map XR.fin).at_ i j = .fin (A i j) := by
    rw [← ha.2 i hii j hj]
    unfold Tensor.at_ Tensor.map
    cases amp.shape <;> rfl
  rw [h1, hi.2 i hii j hj, ho.2 i hii j hj, Tensor.at_eq_get (t := d.slm.fourierGrid.1) rfl hii hj,
    Tensor.at_eq_get (t := d.slm.fourierGrid.2) rfl hii hj]
  rfl

/-- The state computed by the elementwise methods from well-shaped arguments. -/
theorem gratingOfArgs_eq {d : DMD} {h : Profile.Heap} {amp pin pout : ProfArg} {A φin φout : ℕ → ℕ → ℝ}
    (g : GratingArgs d h amp pin pout A φin φout) (kw : Kwargs) (draw : ℕ → ℕ → ℝ) :
    (∃ t : Tensor XR, d.gratingOfArgs h amp pin pout "ideal" kw draw = .ok (.float t) ∧
      t.shape = .mat d.slm.Ny d.slm.Nx ∧ ∀ i < d.slm.Ny, ∀ j < d.slm.Nx,
        t.get i j = idealPixel d.p d.theta d.neg (d.pixel A φin φout i j)) ∧
    (∃ t : Tensor Bool, d.gratingOfArgs h amp pin pout "simple" kw draw = .ok (.bool t) ∧
      t.shape = .mat d.slm.Ny d.slm.Nx ∧ ∀ i < d.slm.Ny, ∀ j < d.slm.Nx,
        t.get i j = simplePixel d.p d.theta d.neg (d.pixel A φin φout i j)) ∧
    (∃ t : Tensor Bool, d.gratingOfArgs h amp pin pout "random" kw draw = .ok (.bool t) ∧
      t.shape = .mat d.slm.Ny d.slm.Nx ∧ ∀ i < d.slm.Ny, ∀ j < d.slm.Nx,
        t.get i j = randomPixel d.p d.theta (kw.r.getD 10) d.neg (draw i j) (d.pixel A φin φout i j)) := by
  obtain ⟨⟨ta, hta, hda⟩, ⟨ti, hti, hdi⟩, ⟨to_, hto, hdo⟩⟩ := g
  have hsh : gratingShape (ta.map XR.fin) ti to_ d.slm.fourierGrid.1 d.slm.fourierGrid.2 =
      some (.mat d.slm.Ny d.slm.Nx) := gratingShape_of hda.1 hdi.1 hdo.1 rfl rfl
  refine ⟨?_, ?_, ?_⟩ <;>
    (unfold gratingOfArgs
     rw [hta]; simp only; rw [hti]; simp only; rw [hto]; simp only
     unfold grating calculateDmdGrating
     rw [hsh])
  · exact ⟨_, rfl, rfl, fun i hi j hj => by simp only; rw [pixAt_eq hda hdi hdo hi hj]⟩
  · exact ⟨_, rfl, rfl, fun i hi j hj => by simp only; rw [pixAt_eq hda hdi hdo hi hj]⟩
  · exact ⟨_, rfl, rfl, fun i hi j hj => by simp only; rw [pixAt_eq hda hdi hdo hi hj]⟩

/-- `set_dmd_grating_state` with the elementwise methods. -/
theorem setGrating_eq {d : DMD} {h : Profile.Heap} {amp pin pout : ProfArg} {A φin φout : ℕ → ℕ → ℝ}
    (g : GratingArgs d h amp pin pout A φin φout) (kw : Kwargs) (draw : ℕ → ℕ → ℝ) :
    (∃ t : Tensor XR, d.setDmdGratingState h amp pin pout "ideal" kw draw = ⟨.rebind (.float t), .ok ()⟩ ∧
      t.shape = .mat d.slm.Ny d.slm.Nx ∧ ∀ i < d.slm.Ny, ∀ j < d.slm.Nx,
        t.get i j = idealPixel d.p d.theta d.neg (d.pixel A φin φout i j)) ∧
    (∃ t : Tensor Bool, d.setDmdGratingState h amp pin pout "simple" kw draw = ⟨.rebind (.bool t), .ok ()⟩ ∧
      t.shape = .mat d.slm.Ny d.slm.Nx ∧ ∀ i < d.slm.Ny, ∀ j < d.slm.Nx,
        t.get i j = simplePixel d.p d.theta d.neg (d.pixel A φin φout i j)) ∧
    (∃ t : Tensor Bool, d.setDmdGratingState h amp pin pout "random" kw draw = ⟨.rebind (.bool t), .ok ()⟩ ∧
      t.shape = .mat d.slm.Ny d.slm.Nx ∧ ∀ i < d.slm.Ny, ∀ j < d.slm.Nx,
        t.get i j = randomPixel d.p d.theta (kw.r.getD 10) d.neg (draw i j) (d.pixel A φin φout i j)) := by
  obtain ⟨⟨t1, h1, r1⟩, ⟨t2, h2, r2⟩, ⟨t3, h3, r3⟩⟩ := gratingOfArgs_eq g kw draw
  refine ⟨⟨t1, ?_, r1⟩, ⟨t2, ?_, r2⟩, ⟨t3, ?_, r3⟩⟩ <;> unfold setDmdGratingState
  · rw [h1]
  · rw [h2]
  · rw [h3]

theorem cos_half_nonneg (x : ℝ) : 0 ≤ Real.cos x / 2 + 1 / 2 := by
  have := Real.neg_one_le_cos x; linarith

theorem cos_half_le_one (x : ℝ) : Real.cos x / 2 + 1 / 2 ≤ 1 := by
  have := Real.cos_le_one x; linarith

theorem tanh_bounds (x : ℝ) : -1 < Real.tanh x ∧ Real.tanh x < 1 :=
  Real.tanh_bijOn.mapsTo (Set.mem_univ x)

theorem tanh_mono {x y : ℝ} (h : x ≤ y) : Real.tanh x ≤ Real.tanh y := by
  rw [Real.tanh_eq_sinh_div_cosh, Real.tanh_eq_sinh_div_cosh,
    div_le_div_iff₀ (Real.cosh_pos x) (Real.cosh_pos y)]
  have h1 := Real.sinh_sub y x
  have h2 : 0 ≤ Real.sinh (y - x) := Real.sinh_nonneg_iff.mpr (by linarith)
  linarith

theorem duty_nonneg (d : DMD) {r : ℝ} (hr : 0 ≤ r) (A φin φout : ℕ → ℕ → ℝ) (i j : ℕ) (hA : 0 ≤ A i j) :
    0 ≤ d.duty r A φin φout i j := by
  unfold duty
  have h1 : 0 ≤ Real.arcsin (A i j) := Real.arcsin_nonneg.mpr hA
  have : Real.tanh (r * (Real.arccos (Real.cos (d.detuning φin φout i j)) - Real.arcsin (A i j))) ≤
      Real.tanh (r * (Real.arccos (Real.cos (d.detuning φin φout i j)) + Real.arcsin (A i j))) :=
    tanh_mono (mul_le_mul_of_nonneg_left (by linarith) hr)
  linarith

theorem duty_nonpos (d : DMD) {r : ℝ} (hr : 0 ≤ r) (A φin φout : ℕ → ℕ → ℝ) (i j : ℕ) (hA : A i j ≤ 0) :
    d.duty r A φin φout i j ≤ 0 := by
  unfold duty
  have h1 : Real.arcsin (A i j) ≤ 0 := Real.arcsin_nonpos.mpr hA
  have : Real.tanh (r * (Real.arccos (Real.cos (d.detuning φin φout i j)) + Real.arcsin (A i j))) ≤
      Real.tanh (r * (Real.arccos (Real.cos (d.detuning φin φout i j)) - Real.arcsin (A i j))) :=
    tanh_mono (mul_le_mul_of_nonneg_left (by linarith) hr)
  linarith

theorem duty_lt_one (d : DMD) (r : ℝ) (A φin φout : ℕ → ℕ → ℝ) (i j : ℕ) :
    d.duty r A φin φout i j < 1 := by
  unfold duty
  have h1 := (tanh_bounds (r * (Real.arccos (Real.cos (d.detuning φin φout i j)) +
    Real.arcsin (A i j)))).2
  have h2 := (tanh_bounds (r * (Real.arccos (Real.cos (d.detuning φin φout i j)) -
    Real.arcsin (A i j)))).1
  linarith

theorem duty_mono (d : DMD) {r : ℝ} (hr : 0 ≤ r) (A A' φin φout : ℕ → ℕ → ℝ) (i j : ℕ)
    (hA : A i j ≤ A' i j) : d.duty r A φin φout i j ≤ d.duty r A' φin φout i j := by
  unfold duty
  have h1 := Real.monotone_arcsin hA
  have h2 : Real.tanh (r * (Real.arccos (Real.cos (d.detuning φin φout i j)) + Real.arcsin (A i j))) ≤
      Real.tanh (r * (Real.arccos (Real.cos (d.detuning φin φout i j)) + Real.arcsin (A' i j))) :=
    tanh_mono (mul_le_mul_of_nonneg_left (by linarith) hr)
  have h3 : Real.tanh (r * (Real.arccos (Real.cos (d.detuning φin φout i j)) - Real.arcsin (A' i j))) ≤
      Real.tanh (r * (Real.arccos (Real.cos (d.detuning φin φout i j)) - Real.arcsin (A i j))) :=
    tanh_mono (mul_le_mul_of_nonneg_left (by linarith) hr)
  linarith

/-- When is a mirror on with method `random`. -/
theorem randomPixel_iff (d : DMD) (hp : d.p ≠ 0) (r u : ℝ) (A φin φout : ℕ → ℕ → ℝ) (i j : ℕ) :
    randomPixel d.p d.theta r d.neg u (d.pixel A φin φout i j) = true ↔
      -1 ≤ A i j ∧ A i j ≤ 1 ∧ u < d.duty r A φin φout i j := by
  classical
  unfold randomPixel
  rw [decide_eq_true_iff, randomDuty_eq d hp]
  by_cases h : -1 ≤ A i j ∧ A i j ≤ 1
  · rw [if_pos h]
    exact ⟨fun h2 => ⟨h.1, h.2, h2⟩, fun h2 => h2.2.2⟩
  · rw [if_neg h]
    exact ⟨fun h2 => h2.elim, fun h2 => h ⟨h2.1, h2.2.1⟩⟩

/-- When is a mirror on with method `simple`. -/
theorem simplePixel_iff (d : DMD) (hp : d.p ≠ 0) (A φin φout : ℕ → ℕ → ℝ) (i j : ℕ) :
    simplePixel d.p d.theta d.neg (d.pixel A φin φout i j) = true ↔
      1 / 2 < A i j * (Real.cos (d.detuning φin φout i j) / 2 + 1 / 2) := by
  classical
  unfold simplePixel
  rw [decide_eq_true_iff, idealPixel_eq d hp]
  show (0.5 : ℝ) < _ ↔ _
  norm_num

end DMD

end PySLM2
