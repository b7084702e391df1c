import Verif.Lemmas.ModeMatching3

/-! Helper lemmas about IFTA. -/

noncomputable section

open Complex Finset

namespace PySLM2.DMD

open Lib

theorem bin_cases (x t : ℝ) :
    (x < t ∧ iftaBinarize x t = 0) ∨ (t ≤ x ∧ 1 - t < x ∧ iftaBinarize x t = 1) ∨
      (t ≤ x ∧ x ≤ 1 - t ∧ iftaBinarize x t = x) := by
  unfold iftaBinarize
  by_cases h1 : x < t
  · left; exact ⟨h1, by simp [h1]⟩
  · right
    by_cases h2 : x > 1 - t
    · left; exact ⟨not_lt.mp h1, h2, by simp [h1, h2]⟩
    · right; exact ⟨not_lt.mp h1, not_lt.mp h2, by simp [h1, h2]⟩

theorem bin_half {x t : ℝ} (ht : t ≤ 1 / 2) : 1 / 2 < iftaBinarize x t ↔ 1 / 2 < x := by
  rcases bin_cases x t with ⟨h1, h2⟩ | ⟨h1, h2, h3⟩ | ⟨h1, h2, h3⟩
  · rw [h2]; constructor <;> intro h <;> linarith
  · rw [h3]; constructor <;> intro h <;> linarith
  · rw [h3]

theorem iftaThreshold_le {N n : ℕ} (h : n < N) : iftaThreshold N n ≤ 1 / 2 := by
  unfold iftaThreshold
  have hN : (0 : ℝ) < N := by exact_mod_cast (by omega : 0 < N)
  have h1 : ((n : ℝ) + 1) ≤ N := by exact_mod_cast h
  rw [mul_div_assoc', div_le_iff₀ hN]
  linarith

/-- The loop leaves dark pixels at zero. -/
theorem iftaLoop_dark {M N : ℕ} (inp ideal window : ℕ → ℕ → ℂ) (steps : ℕ) (g0 : ℕ → ℕ → ℝ) (n : ℕ) {i j : ℕ}
    (h : inp i j = 0) : iftaLoop M N inp ideal window steps g0 (n + 1) i j = 0 := by
  show iftaStep M N inp ideal window _ _ i j = 0
  unfold iftaStep
  exact if_pos h

/-- Full window: nothing moves at illuminated pixels. -/
theorem iftaLoop_full {M N : ℕ} {inp window : ℕ → ℕ → ℂ} (steps : ℕ) (g0 : ℕ → ℕ → ℝ)
    (hw : ∀ i < M, ∀ j < N, window i j = 1) (n : ℕ) {i j : ℕ} (hi : i < M) (hj : j < N) (h : inp i j ≠ 0) :
    iftaLoop M N inp (idft2 M N fun a b => inp a b * (g0 a b : ℂ)) window steps g0 n i j = g0 i j := by
  cases n with
  | zero => rfl
  | succ n =>
    show iftaStep M N inp _ window _ _ i j = _
    unfold iftaStep
    rw [if_neg h]
    have e : dft2 M N (fun a b => iftaCorrect (idft2 M N (fun a b => inp a b *
        (iftaBinarize (iftaLoop M N inp (idft2 M N fun a b => inp a b * (g0 a b : ℂ)) window steps g0 n a b)
          (iftaThreshold steps n) : ℂ)) a b) (idft2 M N (fun a b => inp a b * (g0 a b : ℂ)) a b) (window a b)) =
        dft2 M N (idft2 M N fun a b => inp a b * (g0 a b : ℂ)) := by
      refine dft2_congr fun a ha b hb => ?_
      rw [hw a ha b hb]
      unfold iftaCorrect
      ring
    rw [e, dft2_idft2 _ hi hj, mul_div_cancel_left₀ _ h, ofReal_re]

/-- Empty window: every iteration is the binarisation at illuminated pixels. -/
theorem iftaLoop_empty {M N : ℕ} {inp ideal window : ℕ → ℕ → ℂ} {steps : ℕ} (g0 : ℕ → ℕ → ℝ)
    (hw : ∀ i < M, ∀ j < N, window i j = 0) {n : ℕ} (hn : n ≤ steps) {i j : ℕ} (hi : i < M) (hj : j < N)
    (h : inp i j ≠ 0) :
    1 / 2 < iftaLoop M N inp ideal window steps g0 n i j ↔ 1 / 2 < g0 i j := by
  induction n with
  | zero => exact Iff.rfl
  | succ n ih =>
    rw [← ih (by omega), ← bin_half (x := iftaLoop M N inp ideal window steps g0 n i j)
      (iftaThreshold_le (N := steps) (n := n) (by omega))]
    show 1 / 2 < iftaStep M N inp ideal window _ _ i j ↔ _
    unfold iftaStep
    rw [if_neg h]
    have e : dft2 M N (fun a b => iftaCorrect (idft2 M N (fun a b => inp a b *
        (iftaBinarize (iftaLoop M N inp ideal window steps g0 n a b)
          (iftaThreshold steps n) : ℂ)) a b) (ideal a b) (window a b)) =
        dft2 M N (idft2 M N fun a b => inp a b * (iftaBinarize (iftaLoop M N inp ideal window steps g0 n a b)
          (iftaThreshold steps n) : ℂ)) := by
      refine dft2_congr fun a ha b hb => ?_
      rw [hw a ha b hb]
      unfold iftaCorrect
      ring
    rw [e, dft2_idft2 _ hi hj, mul_div_cancel_left₀ _ h, ofReal_re]

theorem ifftshiftIdx_lt {n i : ℕ} (h : i < n) : ifftshiftIdx n i < n := Nat.mod_lt _ (by omega)

/-- Well-formed keyword arguments of IFTA succeed. -/
theorem grating_ifta {d : DMD} {amp : Tensor XR} {pin pout : Tensor ℝ} {A : ℕ → ℕ → XR}
    {φin φout : ℕ → ℕ → ℝ} (hNx : 0 < d.slm.Nx) (hNy : 0 < d.slm.Ny)
    (ha : amp.Denotes d.slm.Ny d.slm.Nx A) (hi : pin.Denotes d.slm.Ny d.slm.Nx φin)
    (ho : pout.Denotes d.slm.Ny d.slm.Nx φout) {kw : Kwargs} (draw : ℕ → ℕ → ℝ) {ti tw : Tensor ℂ}
    {u W : ℕ → ℕ → ℂ} (hti : kw.inputProfile = some ti) (hdi : ti.Denotes d.slm.Ny d.slm.Nx u)
    (htw : kw.signalWindow = some tw) (hws : tw.shape = .mat d.slm.Ny d.slm.Nx)
    (hw : ∀ i < d.slm.Ny, ∀ j < d.slm.Nx, tw.get i j = W i j) :
    ∃ t, d.grating amp pin pout "ifta" kw draw = .ok (.bool t) ∧ t.shape = .mat d.slm.Ny d.slm.Nx ∧
      (1 ≤ kw.N.getD 200 → ∀ i < d.slm.Ny, ∀ j < d.slm.Nx, u i j = 0 → t.get i j = false) ∧
      (kw.N.getD 200 = 0 → ∀ i < d.slm.Ny, ∀ j < d.slm.Nx, (t.get i j = true ↔ ((XR.fin (kw.s.getD 1)).mul
        (idealPixel d.p d.theta d.neg (d.pixelX A φin φout i j))).gtFin (1 / 2))) ∧
      (((∀ i < d.slm.Ny, ∀ j < d.slm.Nx, W i j = 1) ∨ (∀ i < d.slm.Ny, ∀ j < d.slm.Nx, W i j = 0)) →
        (∀ i < d.slm.Ny, ∀ j < d.slm.Nx, ∃ x, idealPixel d.p d.theta d.neg (d.pixelX A φin φout i j) = .fin x) →
        ∀ i < d.slm.Ny, ∀ j < d.slm.Nx, u i j ≠ 0 → (t.get i j = true ↔ ((XR.fin (kw.s.getD 1)).mul
          (idealPixel d.p d.theta d.neg (d.pixelX A φin φout i j))).gtFin (1 / 2))) := by
  classical
  have hs : gratingShape amp pin pout d.slm.fourierGrid.1 d.slm.fourierGrid.2 =
      some (.mat d.slm.Ny d.slm.Nx) := gratingShape_of ha.1 hi.1 ho.1 rfl rfl
  have hstart : d.grating amp pin pout "ifta" kw draw = gratingIfta amp pin pout d.slm.fourierGrid.1
      d.slm.fourierGrid.2 d.p d.theta d.neg kw.inputProfile kw.signalWindow (kw.N.getD 200) (kw.s.getD 1) := by
    unfold grating calculateDmdGrating
    simp
  have hpix : ∀ i < d.slm.Ny, ∀ j < d.slm.Nx, pixAt amp pin pout d.slm.fourierGrid.1 d.slm.fourierGrid.2 i j =
      d.pixelX A φin φout i j := fun i h1 j h2 => pixAt_eqX ha hi ho h1 h2
  rw [hstart, hti, htw]
  unfold gratingIfta
  simp only
  rw [hs]
  simp only
  rw [if_neg (by rw [hws]; push Not; exact ⟨hNy.ne', hNx.ne', by simp, hdi.1, bcast_self _ _⟩)]
  have hwat : ∀ i < d.slm.Ny, ∀ j < d.slm.Nx, ifftshift2 d.slm.Ny d.slm.Nx tw.at_ i j =
      W (ifftshiftIdx d.slm.Ny i) (ifftshiftIdx d.slm.Nx j) := by
    intro i h1 j h2
    unfold ifftshift2
    rw [Tensor.at_eq_get hws (ifftshiftIdx_lt h1) (ifftshiftIdx_lt h2),
      hw _ (ifftshiftIdx_lt h1) _ (ifftshiftIdx_lt h2)]
  by_cases hf : allFinite d.slm.Ny d.slm.Nx fun i j => (XR.fin (kw.s.getD 1)).mul
      (idealPixel d.p d.theta d.neg (pixAt amp pin pout d.slm.fourierGrid.1 d.slm.fourierGrid.2 i j))
  · rw [if_pos hf]
    have hval : ∀ i < d.slm.Ny, ∀ j < d.slm.Nx, ∀ c : ℝ, ((XR.fin (kw.s.getD 1)).mul
        (idealPixel d.p d.theta d.neg (d.pixelX A φin φout i j))).gtFin c ↔ c < XR.val ((XR.fin (kw.s.getD 1)).mul
      (idealPixel d.p d.theta d.neg (pixAt amp pin pout d.slm.fourierGrid.1 d.slm.fourierGrid.2 i j))) := by
      intro i h1 j h2 c
      obtain ⟨x, hx⟩ := hf i h1 j h2
      simp only at hx
      rw [← hpix i h1 j h2, hx]
      exact Iff.rfl
    refine ⟨_, rfl, rfl, fun hN i h1 j h2 hu => ?_, fun hN i h1 j h2 => ?_, fun hW _ i h1 j h2 hu => ?_⟩
    · show decide _ = false
      obtain ⟨n, hn⟩ : ∃ n, kw.N.getD 200 = n + 1 := ⟨_, (Nat.sub_add_cancel hN).symm⟩
      rw [decide_eq_false_iff_not, hn]
      rw [iftaLoop_dark]
      · norm_num
      · rw [hdi.2 i h1 j h2, hu]
    · show decide _ = true ↔ _
      rw [hval i h1 j h2, decide_eq_true_iff, hN]
      show (0.5 : ℝ) < _ ↔ _
      norm_num [iftaLoop]
    · show decide _ = true ↔ _
      rw [hval i h1 j h2, decide_eq_true_iff]
      have hu' : ti.at_ i j ≠ 0 := by rw [hdi.2 i h1 j h2]; exact hu
      rcases hW with hW | hW
      · rw [iftaLoop_full _ _ (fun a h3 b h4 => by
          rw [hwat a h3 b h4, hW _ (ifftshiftIdx_lt h3) _ (ifftshiftIdx_lt h4)]) _ h1 h2 hu']
        show (0.5 : ℝ) < _ ↔ _
        norm_num
      · rw [gt_iff_lt, show (0.5 : ℝ) = 1 / 2 by norm_num]
        exact iftaLoop_empty _ (fun a h3 b h4 => by
          rw [hwat a h3 b h4, hW _ (ifftshiftIdx_lt h3) _ (ifftshiftIdx_lt h4)]) (le_refl _) h1 h2 hu'
  · rw [if_neg hf]
    by_cases hN : kw.N.getD 200 = 0
    · rw [if_pos hN]
      refine ⟨_, rfl, rfl, fun h => by omega, fun _ i h1 j h2 => ?_, fun _ hfin => ?_⟩
      · show decide _ = true ↔ _
        rw [decide_eq_true_iff, hpix i h1 j h2]
        rw [show (0.5 : ℝ) = 1 / 2 by norm_num]
      · refine absurd (fun i h1 j h2 => ?_) hf
        obtain ⟨x, hx⟩ := hfin i h1 j h2
        simp only
        rw [hpix i h1 j h2, hx]
        exact ⟨_, rfl⟩
    · rw [if_neg hN]
      refine ⟨_, rfl, rfl, fun _ i _ j _ _ => rfl, fun h => absurd h hN, fun _ hfin => ?_⟩
      refine absurd (fun i h1 j h2 => ?_) hf
      obtain ⟨x, hx⟩ := hfin i h1 j h2
      simp only
      rw [hpix i h1 j h2, hx]
      exact ⟨_, rfl⟩

end PySLM2.DMD
