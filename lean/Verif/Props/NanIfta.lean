import Verif.Model.NanIfta
import Verif.Props.Nan
import Verif.Props.Ifta

/-!
# C182: NaN in method `ifta`
-/

noncomputable section

namespace PySLM2

open Spec Lib Classical

namespace Lib

variable {M N : ℕ} {inp window : ℕ → ℕ → Option ℂ} {steps : ℕ} {g0 : ℕ → ℕ → Option ℝ}

theorem mulN_none (z : Option ℂ) : mulN z none = none := by cases z <;> rfl

theorem addN_none (z : Option ℂ) : addN z none = none := by cases z <;> rfl

theorem dftN_hasNan {f : ℕ → ℕ → Option ℂ} (h : HasNan M N f) (k l : ℕ) : dftN M N f k l = none := dftN_nan (fun hc => clean_iff.mp hc h) _ _

theorem idftN_hasNan {f : ℕ → ℕ → Option ℂ} (h : HasNan M N f) (k l : ℕ) : idftN M N f k l = none := idftN_nan (fun hc => clean_iff.mp hc h) _ _

theorem idftN_congr {f g : ℕ → ℕ → Option ℂ} (h : ∀ i < M, ∀ j < N, f i j = g i j) : idftN M N f = idftN M N g := by
  funext k l
  have hc : Clean M N f ↔ Clean M N g := by
    unfold Clean
    exact forall₂_congr fun i hi => forall₂_congr fun j hj => by rw [h i hi j hj]
  unfold idftN
  rw [idft2_congr (v := values g) fun a ha b hb => by unfold values; rw [h a ha b hb]]
  simp only [hc]

/-- With a NaN somewhere, an iteration gives 0 or NaN at every pixel. -/
theorem iftaStepN_nan {t : ℝ} {g : ℕ → ℕ → Option ℝ} {W : ℕ → ℕ → Option ℂ}
    (h : HasNan M N inp ∨ HasNan M N W ∨ HasNan M N g0) (i j : ℕ) :
    let x := iftaStepN M N inp (idftN M N fun a b => mulN (inp a b) ((g0 a b).map Complex.ofReal)) W t g i j
    x = some 0 ∨ x = none := by
  by_cases h0 : inp i j = some 0
  · exact .inl (if_pos h0)
  · refine .inr ?_
    show (if inp i j = some 0 then some 0 else (divN (dftN M N _ i j) (inp i j)).map Complex.re) = none
    rw [if_neg h0, dftN_hasNan]
    · rfl
    rcases h with ⟨a, ha, b, hb, h⟩ | ⟨a, ha, b, hb, h⟩ | ⟨a, ha, b, hb, h⟩
    · refine ⟨a, ha, b, hb, ?_⟩
      show addN _ (idftN M N _ a b) = none
      refine (congrArg _ (idftN_hasNan (f := fun a b => mulN (inp a b) ((iftaBinarizeN (g a b) t).map Complex.ofReal)) ⟨a, ha, b, hb, ?_⟩ a b)).trans (addN_none _)
      beta_reduce
      rw [h]
      rfl
    · refine ⟨a, ha, b, hb, ?_⟩
      show addN (mulN _ (W a b)) _ = none
      rw [h, mulN_none]
      rfl
    · refine ⟨a, ha, b, hb, ?_⟩
      show addN (mulN (subN (idftN M N _ a b) _) _) _ = none
      rw [idftN_hasNan ⟨a, ha, b, hb, by rw [h]; exact mulN_none _⟩]
      rfl

theorem iftaFieldN_nan (hs : steps ≠ 0) (h : HasNan M N inp ∨ HasNan M N window ∨ HasNan M N g0) (i j : ℕ) :
    iftaFieldN M N inp window steps g0 i j = false := by
  obtain ⟨n, rfl⟩ := Nat.exists_eq_succ_of_ne_zero hs
  have hW : HasNan M N window → HasNan M N (ifftshift2 M N window) := by
    intro h
    by_contra hc
    exact clean_iff.mp (clean_ifftshift.mp (clean_iff.mpr hc)) h
  unfold iftaFieldN
  simp only [iftaLoopN]
  rcases iftaStepN_nan (t := iftaThreshold (n + 1) n) (g := iftaLoopN M N inp (idftN M N fun a b => mulN (inp a b) ((g0 a b).map Complex.ofReal))
    (ifftshift2 M N window) (n + 1) g0 n) (h.imp_right (Or.imp_left hW)) i j with h | h
  · simp only [Nat.succ_eq_add_one, h]
    norm_num
  · simp only [Nat.succ_eq_add_one, h]

/-- Without NaN an iteration is the one of the other theorems. -/
theorem iftaLoopN_clean {ideal W : ℕ → ℕ → Option ℂ} {u I V : ℕ → ℕ → ℂ} {g : ℕ → ℕ → ℝ} (hu : ∀ i < M, ∀ j < N, inp i j = some (u i j))
    (hI : ∀ i j, ideal i j = some (I i j)) (hV : ∀ i < M, ∀ j < N, W i j = some (V i j)) (hg : ∀ i < M, ∀ j < N, g0 i j = some (g i j)) (n : ℕ) :
    ∀ i < M, ∀ j < N, iftaLoopN M N inp ideal W steps g0 n i j = some (iftaLoop M N u I V steps g n i j) := by
  induction n with
  | zero => exact hg
  | succ n ih =>
    intro i hi j hj
    have himg : ∀ k l, idftN M N (fun a b => mulN (inp a b) ((iftaBinarizeN (iftaLoopN M N inp ideal W steps g0 n a b)
        (iftaThreshold steps n)).map Complex.ofReal)) k l =
        some (idft2 M N (fun a b => u a b * (iftaBinarize (iftaLoop M N u I V steps g n a b) (iftaThreshold steps n) : ℂ)) k l) :=
      fun k l => idftN_clean (fun a ha b hb => by rw [hu a ha b hb, ih a ha b hb]; rfl) k l
    have hcor : ∀ a < M, ∀ b < N, iftaCorrectN (idftN M N (fun a b => mulN (inp a b) ((iftaBinarizeN (iftaLoopN M N inp ideal W steps g0 n a b)
        (iftaThreshold steps n)).map Complex.ofReal)) a b) (ideal a b) (W a b) =
        some (iftaCorrect (idft2 M N (fun a b => u a b * (iftaBinarize (iftaLoop M N u I V steps g n a b) (iftaThreshold steps n) : ℂ)) a b)
          (I a b) (V a b)) := by
      intro a ha b hb
      rw [himg, hI, hV a ha b hb]
      rfl
    show (if inp i j = some 0 then some 0 else (divN (dftN M N _ i j) (inp i j)).map Complex.re) = some (if u i j = 0 then 0 else _)
    rw [hu i hi j hj, dftN_clean hcor]
    by_cases h0 : u i j = 0
    · rw [if_pos (by rw [h0]), if_pos h0]
    · rw [if_neg (fun h => h0 (Option.some.inj h)), if_neg h0]
      show ((if u i j = 0 then none else some _ : Option ℂ)).map Complex.re = _
      rw [if_neg h0]
      rfl

theorem iftaFieldN_clean {u V : ℕ → ℕ → ℂ} {g : ℕ → ℕ → ℝ} (hu : ∀ i < M, ∀ j < N, inp i j = some (u i j))
    (hV : ∀ i < M, ∀ j < N, window i j = some (V i j)) (hg : ∀ i < M, ∀ j < N, g0 i j = some (g i j)) {i j : ℕ} (hi : i < M) (hj : j < N) :
    iftaFieldN M N inp window steps g0 i j = iftaField M N u V steps g i j := by
  unfold iftaFieldN iftaField
  simp only
  rw [iftaLoopN_clean (ideal := idftN M N fun a b => mulN (inp a b) ((g0 a b).map Complex.ofReal)) (W := ifftshift2 M N window)
    (I := idft2 M N fun a b => u a b * (g a b : ℂ)) (V := ifftshift2 M N V) hu
    (fun a b => idftN_clean (fun k hk l hl => by rw [hu k hk l hl, hg k hk l hl]; rfl) a b)
    (fun a ha b hb => hV _ (ifftshiftIdx_lt ha) _ (ifftshiftIdx_lt hb)) hg steps i hi j hj]

theorem iftaLoopN_congr {ideal W : ℕ → ℕ → Option ℂ} {g0' : ℕ → ℕ → Option ℝ} (hg : ∀ i < M, ∀ j < N, g0 i j = g0' i j) (n : ℕ) :
    ∀ i < M, ∀ j < N, iftaLoopN M N inp ideal W steps g0 n i j = iftaLoopN M N inp ideal W steps g0' n i j := by
  induction n with
  | zero => exact hg
  | succ n ih =>
    intro i hi j hj
    have : (idftN M N fun a b => mulN (inp a b) ((iftaBinarizeN (iftaLoopN M N inp ideal W steps g0 n a b) (iftaThreshold steps n)).map Complex.ofReal)) =
        idftN M N fun a b => mulN (inp a b) ((iftaBinarizeN (iftaLoopN M N inp ideal W steps g0' n a b) (iftaThreshold steps n)).map Complex.ofReal) :=
      idftN_congr fun a ha b hb => by rw [ih a ha b hb]
    show iftaStepN M N inp ideal W _ _ i j = iftaStepN M N inp ideal W _ _ i j
    unfold iftaStepN
    simp only [this]

theorem iftaFieldN_congr {g0' : ℕ → ℕ → Option ℝ} (hg : ∀ i < M, ∀ j < N, g0 i j = g0' i j) {i j : ℕ} (hi : i < M) (hj : j < N) :
    iftaFieldN M N inp window steps g0 i j = iftaFieldN M N inp window steps g0' i j := by
  have : (idftN M N fun a b => mulN (inp a b) ((g0 a b).map Complex.ofReal)) = idftN M N fun a b => mulN (inp a b) ((g0' a b).map Complex.ofReal) :=
    idftN_congr fun a ha b hb => by rw [hg a ha b hb]
  unfold iftaFieldN
  simp only
  rw [this, iftaLoopN_congr hg steps i hi j hj]

end Lib

namespace DMD

variable {d : DMD}

/-- The model of method `ifta` of the other theorems, written with NaN. -/
theorem grating_iftaN {amp : Tensor XR} {pin pout : Tensor ℝ} {A : ℕ → ℕ → XR} {φin φout : ℕ → ℕ → ℝ} (hNx : 0 < d.slm.Nx) (hNy : 0 < d.slm.Ny)
    (ha : amp.Denotes d.slm.Ny d.slm.Nx A) (hi : pin.Denotes d.slm.Ny d.slm.Nx φin)
    (ho : pout.Denotes d.slm.Ny d.slm.Nx φout) {kw : Kwargs} (draw : ℕ → ℕ → ℝ) {ti tw : Tensor ℂ}
    {u W : ℕ → ℕ → ℂ} (hti : kw.inputProfile = some ti) (hdi : ti.Denotes d.slm.Ny d.slm.Nx u)
    (htw : kw.signalWindow = some tw) (hws : tw.shape = .mat d.slm.Ny d.slm.Nx)
    (hw : ∀ i < d.slm.Ny, ∀ j < d.slm.Nx, tw.get i j = W i j)
    (hinf : ∀ i < d.slm.Ny, ∀ j < d.slm.Nx, idealPixel d.p d.theta d.neg (d.pixelX A φin φout i j) = .nan ∨
      ∃ x, idealPixel d.p d.theta d.neg (d.pixelX A φin φout i j) = .fin x) :
    ∃ t, d.grating amp pin pout "ifta" kw draw = .ok (.bool t) ∧ t.shape = .mat d.slm.Ny d.slm.Nx ∧ ∀ i < d.slm.Ny, ∀ j < d.slm.Nx,
      t.get i j = iftaFieldN d.slm.Ny d.slm.Nx (fun i j => some (u i j)) (fun i j => some (W i j)) (kw.N.getD 200)
        (fun i j => numN ((XR.fin (kw.s.getD 1)).mul (idealPixel d.p d.theta d.neg (d.pixelX A φin φout i j)))) i j := by
  have hs : gratingShape amp pin pout d.slm.fourierGrid.1 d.slm.fourierGrid.2 =
      some (.mat d.slm.Ny d.slm.Nx) := gratingShape_of ha.1 hi.1 ho.1 rfl rfl
  have hstart : d.grating amp pin pout "ifta" kw draw = gratingIfta amp pin pout d.slm.fourierGrid.1
      d.slm.fourierGrid.2 d.p d.theta d.neg kw.inputProfile kw.signalWindow (kw.N.getD 200) (kw.s.getD 1) := by
    unfold grating calculateDmdGrating
    simp
  have hpix : ∀ i < d.slm.Ny, ∀ j < d.slm.Nx, pixAt amp pin pout d.slm.fourierGrid.1 d.slm.fourierGrid.2 i j =
      d.pixelX A φin φout i j := fun i h1 j h2 => pixAt_eqX ha hi ho h1 h2
  rw [hstart, hti, htw]
  unfold gratingIfta
  simp only
  rw [hs]
  simp only
  rw [if_neg (by rw [hws]; push Not; exact ⟨hNy.ne', hNx.ne', by simp, hdi.1, bcast_self _ _⟩)]
  by_cases hf : allFinite d.slm.Ny d.slm.Nx fun i j => (XR.fin (kw.s.getD 1)).mul
      (idealPixel d.p d.theta d.neg (pixAt amp pin pout d.slm.fourierGrid.1 d.slm.fourierGrid.2 i j))
  · rw [if_pos hf]
    refine ⟨_, rfl, rfl, fun i h1 j h2 => ?_⟩
    refine (iftaFieldN_clean (u := ti.at_) (V := tw.at_) (fun i h1 j h2 => by rw [hdi.2 i h1 j h2])
      (fun i h1 j h2 => by rw [Tensor.at_eq_get hws h1 h2, hw i h1 j h2]) (fun i h1 j h2 => ?_) h1 h2).symm
    obtain ⟨x, hx⟩ := hf i h1 j h2
    simp only at hx ⊢
    rw [← hpix i h1 j h2, hx]
    rfl
  · rw [if_neg hf]
    obtain ⟨a, h3, b, h4, hn⟩ : HasNan d.slm.Ny d.slm.Nx fun i j =>
        numN ((XR.fin (kw.s.getD 1)).mul (idealPixel d.p d.theta d.neg (d.pixelX A φin φout i j))) := by
      unfold allFinite at hf
      push Not at hf
      obtain ⟨i, h1, j, h2, h⟩ := hf
      refine ⟨i, h1, j, h2, ?_⟩
      rw [hpix i h1 j h2] at h
      beta_reduce
      rcases hinf i h1 j h2 with e | ⟨x, e⟩ <;> rw [e]
      · rfl
      · exact absurd (by rw [e]; rfl) (h (kw.s.getD 1 * x))
    by_cases hN : kw.N.getD 200 = 0
    · rw [if_pos hN]
      refine ⟨_, rfl, rfl, fun i h1 j h2 => ?_⟩
      unfold iftaFieldN
      simp only [hN, iftaLoopN, hpix i h1 j h2]
      rcases hinf i h1 j h2 with e | ⟨x, e⟩ <;> simp only [e]
      · exact decide_eq_false fun h => h
      · rfl
    · rw [if_neg hN]
      exact ⟨_, rfl, rfl, fun i h1 j h2 => (iftaFieldN_nan hN (.inr (.inr ⟨a, h3, b, h4, hn⟩)) i j).symm⟩

/-- **C182**, `set_dmd_grating_state`: with one iteration or more, a NaN anywhere in the amplitudes, in the phases, in the input or in the signal
window turns every mirror off. -/
theorem C182_set (A φin φout : ℕ → ℕ → Option ℝ) (u W : ℕ → ℕ → Option ℂ) {steps : ℕ} (hs : steps ≠ 0) (s : ℝ)
    (h : HasNan d.slm.Ny d.slm.Nx A ∨ HasNan d.slm.Ny d.slm.Nx φin ∨ HasNan d.slm.Ny d.slm.Nx φout ∨ HasNan d.slm.Ny d.slm.Nx u ∨
      HasNan d.slm.Ny d.slm.Nx W) (i j : ℕ) :
    setIftaN d A φin φout u W steps s i j = false := by
  refine iftaFieldN_nan hs ?_ i j
  rcases h with ⟨a, ha, b, hb, h⟩ | ⟨a, ha, b, hb, h⟩ | ⟨a, ha, b, hb, h⟩ | h | h
  · exact .inr (.inr ⟨a, ha, b, hb, by simp only [h, floatN, idealPixelN_amp]; rfl⟩)
  · exact .inr (.inr ⟨a, ha, b, hb, by simp only [h, idealPixelN_in]; rfl⟩)
  · exact .inr (.inr ⟨a, ha, b, hb, by simp only [h, idealPixelN_out]; rfl⟩)
  · exact .inl h
  · exact .inr (.inl h)

/-- **C182**, `calculate_dmd_state`: with one iteration or more, a NaN anywhere in the target, in the window, in the input or in the signal window
turns every mirror off, whatever the maximum of an array with NaN is. -/
theorem C182_calculate (red : (ℕ → ℕ → XR) → XR) (u T : ℕ → ℕ → Option ℂ) (window : Option (ℕ → ℕ → Option ℂ)) (W : ℕ → ℕ → Option ℂ)
    {steps : ℕ} (hs : steps ≠ 0) (s : ℝ) (hNx : 0 < d.slm.Nx) (hNy : 0 < d.slm.Ny)
    (h : HasNan d.slm.Ny d.slm.Nx T ∨ (∃ i < d.slm.Ny, ∃ j < d.slm.Nx, WindowNan window i j) ∨ HasNan d.slm.Ny d.slm.Nx u ∨
      HasNan d.slm.Ny d.slm.Nx W) (i j : ℕ) :
    calcIftaN red d u T window W steps s i j = false := by
  refine iftaFieldN_nan hs ?_ i j
  rcases h with h | ⟨a, ha, b, hb, h⟩ | h | h
  · exact .inr (.inr ⟨0, hNy, 0, hNx, by simp only [(C174_target red d u T window h 0 (fun _ _ => 0) 0 0).2.2]; rfl⟩)
  · exact .inr (.inr ⟨a, ha, b, hb, by simp only [(C174_pixel red d u T window (.inr h) 0 fun _ _ => 0).2.2]; rfl⟩)
  · exact .inl h
  · exact .inr (.inl h)

theorem ratioN_cases (a b : Option ℂ) : ratioN a b = .nan ∨ ratioN a b = .pinf ∨ ∃ x, 0 ≤ x ∧ ratioN a b = .fin x := by
  rcases b with _ | t
  · exact .inl (ratioN_nan_right a)
  rcases a with _ | u
  · by_cases h : t = 0
    · rw [h, ratioN_zero]
      exact .inr (.inr ⟨0, le_rfl, rfl⟩)
    · exact .inl (ratioN_nan_left h)
  · rw [ratioN_some]
    rcases ratio_cases (fun _ _ => u) (fun _ _ => t) 0 0 with h | h
    · exact .inr (.inl h.2.2)
    · exact .inr (.inr ⟨_, by positivity, h.2⟩)

/-- **C182**: the ideal grating of `calculate_dmd_state` has no infinite values, only numbers and NaN. -/
theorem C182_finite {red : (ℕ → ℕ → XR) → XR} (hmax : Maximum d.slm.Ny d.slm.Nx red) (hprop : Propagates d.slm.Ny d.slm.Nx red)
    (hNx : 0 < d.slm.Nx) (hNy : 0 < d.slm.Ny) (u T : ℕ → ℕ → Option ℂ) (window : Option (ℕ → ℕ → Option ℂ)) {i j : ℕ} (hi : i < d.slm.Ny)
    (hj : j < d.slm.Nx) : calcIdealN red d u T window i j = .nan ∨ ∃ x, calcIdealN red d u T window i j = .fin x := by
  have hamp : ampScaledN red d.slm u T window i j = .nan ∨ ∃ x, ampScaledN red d.slm u T window i j = .fin x := by
    unfold ampScaledN oneOverEtaN
    by_cases hn : ∃ i < d.slm.Ny, ∃ j < d.slm.Nx, ratioN (u i j) (targetFpN d.slm T window i j) = .nan
    · rw [hprop _ hn]
      left
      cases ratioN (u i j) (targetFpN d.slm T window i j) <;> rfl
    · push Not at hn
      rw [hmax _ hn]
      by_cases hp : ∃ i < d.slm.Ny, ∃ j < d.slm.Nx, ratioN (u i j) (targetFpN d.slm T window i j) = .pinf
      · rw [reduceMax_pinf (fun a ha b hb => ?_) hp]
        · rcases ratioN_cases (u i j) (targetFpN d.slm T window i j) with h | h | ⟨x, -, h⟩ <;> rw [h]
          · exact .inl rfl
          · exact .inl rfl
          · exact .inr ⟨0, rfl⟩
        · rcases ratioN_cases (u a b) (targetFpN d.slm T window a b) with h | h | ⟨x, -, h⟩
          · exact absurd h (hn a ha b hb)
          · exact .inl h
          · exact .inr ⟨x, h⟩
      · push Not at hp
        have hf : ∀ i < d.slm.Ny, ∀ j < d.slm.Nx, ∃ x, 0 ≤ x ∧ ratioN (u i j) (targetFpN d.slm T window i j) = .fin x := by
          intro a ha b hb
          rcases ratioN_cases (u a b) (targetFpN d.slm T window a b) with h | h | h
          · exact absurd h (hn a ha b hb)
          · exact absurd h (hp a ha b hb)
          · exact h
        obtain ⟨m, hm, hle, -⟩ := reduceMax_fin hNy hNx (f := fun i j => ratioN (u i j) (targetFpN d.slm T window i j))
          (g := fun i j => XR.val (ratioN (u i j) (targetFpN d.slm T window i j))) (fun a ha b hb => by
            obtain ⟨x, -, hx⟩ := hf a ha b hb
            simp only [hx, XR.val])
        rw [hm]
        obtain ⟨x, hx0, hx⟩ := hf i hi j hj
        have hxm := hle i hi j hj
        simp only [hx, XR.val] at hxm
        rw [hx]
        show XR.divFin x m = _ ∨ ∃ y, XR.divFin x m = _
        unfold XR.divFin
        by_cases h0 : m = 0
        · rw [if_pos h0, if_pos (by linarith)]
          exact .inl rfl
        · rw [if_neg h0]
          exact .inr ⟨_, rfl⟩
  unfold calcIdealN
  rcases hamp with h | ⟨x, h⟩ <;> rw [h]
  · exact .inl (idealPixelN_amp _ _ _ _)
  · unfold idealPixelN
    split
    · unfold idealPixel
      split_ifs
      · exact .inl rfl
      · exact .inr ⟨_, rfl⟩
    · exact .inl rfl

/-- **C182**: such a failure need not show in the efficiency.  If the NaN are only in the signal window, or in the input where the windowed spectrum
of the target is 0, the efficiency is that of a calculation without NaN (with any input `u'` that has numbers there), although every mirror is off. -/
theorem C182_silent {red : (ℕ → ℕ → XR) → XR} (hmax : Maximum d.slm.Ny d.slm.Nx red) (hNx : 0 < d.slm.Nx) (hNy : 0 < d.slm.Ny)
    (u u' T : ℕ → ℕ → Option ℂ) (window : Option (ℕ → ℕ → Option ℂ)) (W : ℕ → ℕ → Option ℂ) {steps : ℕ} (hs : steps ≠ 0) (s : ℝ)
    (hT : ¬HasNan d.slm.Ny d.slm.Nx T) (hw : ∀ i < d.slm.Ny, ∀ j < d.slm.Nx, ¬WindowNan window i j) (hu' : ¬HasNan d.slm.Ny d.slm.Nx u')
    (hu : ∀ i < d.slm.Ny, ∀ j < d.slm.Nx, u i j = u' i j ∨ spectrum d.slm (values T) i j * windowValue window i j = 0)
    (h : HasNan d.slm.Ny d.slm.Nx u ∨ HasNan d.slm.Ny d.slm.Nx W) :
    calcEtaN red d u T window = calcEtaN red d u' T window ∧ ∀ i j, calcIftaN red d u T window W steps s i j = false :=
  ⟨(C174_masked hmax u u' T window hT hw hu' hu).1, C182_calculate red u T window W hs s hNx hNy (.inr (.inr h))⟩

/-- **C182**: without NaN these are the patterns of the other theorems. -/
theorem C182_agree {red : (ℕ → ℕ → XR) → XR} (hmax : Maximum d.slm.Ny d.slm.Nx red) (hprop : Propagates d.slm.Ny d.slm.Nx red)
    {h : Profile.Heap} {inp target : ProfArg} {window : Option ProfArg} {u T w W : ℕ → ℕ → ℂ} (m : Matching d h inp target window u T w)
    {kw : CalcKwargs} {sw : ProfArg} (hsw : kw.signalWindow = some sw) (hw : TargetArg d.slm h sw W) (draw : ℕ → ℕ → ℝ)
    {win : Option (ℕ → ℕ → Option ℂ)} (hwin : win = none ∧ (∀ i j, w i j = 1) ∨ win = some fun i j => some (w i j)) :
    ∃ t : Tensor Bool, d.calculateDmdState h inp target "ifta" window kw draw =
        ⟨.rebind (.bool t), calcEtaN red d (fun i j => some (u i j)) (fun i j => some (T i j)) win⟩ ∧
      t.shape = .mat d.slm.Ny d.slm.Nx ∧ ∀ i < d.slm.Ny, ∀ j < d.slm.Nx, t.get i j = calcIftaN red d (fun i j => some (u i j))
        (fun i j => some (T i j)) win (fun i j => some (W i j)) (kw.N.getD 200) (kw.s.getD 1) i j := by
  obtain ⟨-, -, t₀, e0, e1⟩ := C174_agree hmax m kw draw hwin
  obtain ⟨tin', amp', pin', pout', -, -, b3, b4, b5, b6⟩ := calcGrating_eq m "ideal" kw draw
  obtain ⟨⟨t₁, g1, g2, g3⟩, -, -⟩ := grating_elementwise b3 b4 b5 { r := kw.r, N := kw.N, s := kw.s } draw
  have b7 : d.forwardKwargs h tin' "ideal" kw = .ok { r := kw.r, N := kw.N, s := kw.s } := rfl
  rw [b7] at b6
  simp only at b6
  rw [g1] at b6
  rw [calculate_of_grating b6] at e0
  injection e0 with e2 e3
  injection e2 with e2
  injection e2 with e2
  subst e2
  obtain ⟨tin, amp, pin, pout, h1, h2, h3, h4, h5, h6⟩ := calcGrating_eq m "ifta" kw draw
  obtain ⟨tw, hw1, hw2, hw3⟩ := hw
  have h7 : d.forwardKwargs h tin "ifta" kw =
      .ok { r := kw.r, N := kw.N, s := kw.s, inputProfile := some tin, signalWindow := some tw } := by
    unfold forwardKwargs
    rw [if_pos rfl, hsw]
    simp only
    rw [hw1]
  have hval : ∀ i < d.slm.Ny, ∀ j < d.slm.Nx, idealPixel d.p d.theta d.neg (d.pixelX (fun i j => (ratio u (wspec d.slm T w) i j).div
      (reduceMax d.slm.Ny d.slm.Nx (ratio u (wspec d.slm T w)))) (fun i j => Complex.arg (u i j)) (fun i j => phaseOutPixel (wspec d.slm T w i j)) i j) =
      calcIdealN red d (fun i j => some (u i j)) (fun i j => some (T i j)) win i j := fun i hi j hj => by
    rw [← g3 i hi j hj, e1 i hi j hj]
  obtain ⟨t, h8, h9, h10⟩ := grating_iftaN m.hNx m.hNy h3 h4 h5
    (kw := { r := kw.r, N := kw.N, s := kw.s, inputProfile := some tin, signalWindow := some tw }) draw rfl h2 rfl hw2 hw3
    (fun i hi j hj => by rw [hval i hi j hj]; exact C182_finite hmax hprop m.hNx m.hNy _ _ _ hi hj)
  rw [h7] at h6
  simp only at h6
  rw [h8] at h6
  refine ⟨t, ?_, h9, fun i hi j hj => ?_⟩
  · rw [calculate_of_grating h6, e3]
  · rw [h10 i hi j hj]
    exact iftaFieldN_congr (fun i hi j hj => by simp only; rw [hval i hi j hj]) hi hj

/-- **C182**: the same for `set_dmd_grating_state`. -/
theorem C182_agree_set {h : Profile.Heap} {amp phaseIn phaseOut : ProfArg} {A φin φout : ℕ → ℕ → ℝ}
    {kw : Kwargs} {u W : ℕ → ℕ → ℂ} (ga : GratingArgs d h amp phaseIn phaseOut A φin φout)
    (hk : IftaKwargs d.slm kw u W) (hNx : 0 < d.slm.Nx) (hNy : 0 < d.slm.Ny) (draw : ℕ → ℕ → ℝ) :
    ∃ t : Tensor Bool, d.setDmdGratingState h amp phaseIn phaseOut "ifta" kw draw = ⟨.rebind (.bool t), .ok ()⟩ ∧
      t.shape = .mat d.slm.Ny d.slm.Nx ∧ ∀ i < d.slm.Ny, ∀ j < d.slm.Nx, t.get i j = setIftaN d (fun i j => some (A i j))
        (fun i j => some (φin i j)) (fun i j => some (φout i j)) (fun i j => some (u i j)) (fun i j => some (W i j)) (kw.N.getD 200)
        (kw.s.getD 1) i j := by
  obtain ⟨ta, ti, tj, g1, g2, g3, g4⟩ := setGrating_of_grating ga
  obtain ⟨⟨t1, h1, h2⟩, ⟨t2, h3, h4, h5⟩⟩ := hk
  obtain ⟨t, h6, h7, h8⟩ := grating_iftaN hNx hNy g1 g2 g3 draw h1 h2 h3 h4 h5 (fun i hi j hj => by
    unfold idealPixel
    split_ifs
    · exact .inl rfl
    · exact .inr ⟨_, rfl⟩)
  refine ⟨t, by rw [g4, h6], h7, fun i hi j hj => ?_⟩
  rw [h8 i hi j hj]
  rfl

end DMD

/-! ## The hypotheses can be met -/

/-- C182_set: one NaN in the signal window of a DMD of 3 rows and 4 columns, 200 iterations. -/
example (neg : Bool) (i j : ℕ) : DMD.setIftaN ⟨⟨1, 1, 4, 3, 1⟩, 4, 0, neg⟩ (fun _ _ => some 1) (fun _ _ => some 0) (fun _ _ => some 0)
    (fun _ _ => some 1) (fun i j => if i = 2 ∧ j = 1 then none else some 1) 200 1 i j = false :=
  DMD.C182_set _ _ _ _ _ (by norm_num) 1 (.inr (.inr (.inr (.inr ⟨2, by norm_num, 1, by norm_num, by simp⟩)))) i j

/-- C182_silent: the input is NaN where the window is 0. -/
example (neg : Bool) (i j : ℕ) :
    DMD.calcEtaN (nanMax 3 4) ⟨⟨1, 1, 4, 3, 1⟩, 4, 0, neg⟩ (fun i j => if i = 0 ∧ j = 0 then none else some 1) (fun i _ => some i)
      (some fun i j => some (if i = 0 ∧ j = 0 then 0 else 1)) =
    DMD.calcEtaN (nanMax 3 4) ⟨⟨1, 1, 4, 3, 1⟩, 4, 0, neg⟩ (fun _ _ => some 1) (fun i _ => some i)
      (some fun i j => some (if i = 0 ∧ j = 0 then 0 else 1)) ∧
    DMD.calcIftaN (nanMax 3 4) ⟨⟨1, 1, 4, 3, 1⟩, 4, 0, neg⟩ (fun i j => if i = 0 ∧ j = 0 then none else some 1) (fun i _ => some i)
      (some fun i j => some (if i = 0 ∧ j = 0 then 0 else 1)) (fun _ _ => some 1) 200 1 i j = false := by
  refine (DMD.C182_silent (fun f hf => if_neg (by push Not; exact hf)) (by norm_num) (by norm_num) _ _ _ _ _ (by norm_num) 1 ?_ ?_ ?_ ?_
    (.inl ⟨0, by norm_num, 0, by norm_num, by simp⟩)).imp_right fun h => h i j
  · rintro ⟨i, -, j, -, h⟩
    cases h
  · rintro i - j - ⟨w, hw, h⟩
    rw [← Option.some.inj hw] at h
    cases h
  · rintro ⟨i, -, j, -, h⟩
    cases h
  · intro i _ j _
    by_cases h : i = 0 ∧ j = 0
    · right
      simp [windowValue, h]
    · left
      simp [h]

/-- C182_finite and C182_agree: the maximum that propagates NaN. -/
example (neg : Bool) (u T : ℕ → ℕ → Option ℂ) :
    DMD.calcIdealN (nanMax 3 4) ⟨⟨1, 1, 4, 3, 1⟩, 4, 0, neg⟩ u T none 2 3 = .nan ∨
      ∃ x, DMD.calcIdealN (nanMax 3 4) ⟨⟨1, 1, 4, 3, 1⟩, 4, 0, neg⟩ u T none 2 3 = .fin x :=
  DMD.C182_finite (fun f hf => if_neg (by push Not; exact hf)) (fun f hf => if_pos hf) (by norm_num) (by norm_num) u T none (by norm_num)
    (by norm_num)

end PySLM2
