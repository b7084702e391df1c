import Verif.Spec.Nan
import Verif.Lemmas.ModeMatching3

/-!
# C174, C175: NaN in the beams
-/

noncomputable section

namespace PySLM2

open Spec Lib Classical

namespace Lib

theorem clean_iff {α : Type} {M N : ℕ} {f : ℕ → ℕ → Option α} : Clean M N f ↔ ¬HasNan M N f := by
  unfold Clean HasNan
  push Not
  rfl

theorem clean_ifftshift {α : Type} {M N : ℕ} {f : ℕ → ℕ → Option α} : Clean M N (ifftshift2 M N f) ↔ Clean M N f := by
  constructor
  · intro h i hi j hj
    have := h _ (fftshiftIdx_lt hi) _ (fftshiftIdx_lt hj)
    unfold ifftshift2 at this
    rwa [ifftshift_fftshift hi, ifftshift_fftshift hj] at this
  · intro h i hi j hj
    exact h _ (ifftshiftIdx_lt hi) _ (ifftshiftIdx_lt hj)

theorem dftN_nan {M N : ℕ} {f : ℕ → ℕ → Option ℂ} (h : ¬Clean M N f) (k l : ℕ) : dftN M N f k l = none := if_neg h

theorem idftN_nan {M N : ℕ} {f : ℕ → ℕ → Option ℂ} (h : ¬Clean M N f) (k l : ℕ) : idftN M N f k l = none := if_neg h

theorem dftN_clean {M N : ℕ} {f : ℕ → ℕ → Option ℂ} {g : ℕ → ℕ → ℂ} (h : ∀ i < M, ∀ j < N, f i j = some (g i j)) (k l : ℕ) :
    dftN M N f k l = some (dft2 M N g k l) := by
  unfold dftN
  rw [if_pos (show Clean M N f from fun i hi j hj => by rw [h i hi j hj]; simp)]
  rw [dft2_congr (v := g) (fun a ha b hb => by simp [values, h a ha b hb])]

theorem idftN_clean {M N : ℕ} {f : ℕ → ℕ → Option ℂ} {g : ℕ → ℕ → ℂ} (h : ∀ i < M, ∀ j < N, f i j = some (g i j)) (k l : ℕ) :
    idftN M N f k l = some (idft2 M N g k l) := by
  unfold idftN
  rw [if_pos (show Clean M N f from fun i hi j hj => by rw [h i hi j hj]; simp)]
  rw [idft2_congr (v := g) (fun a ha b hb => by simp [values, h a ha b hb])]

theorem idealPixelN_amp {p theta : ℝ} {neg : Bool} (a b : Option ℝ) (x y : ℝ) : idealPixelN p theta neg .nan a b x y = .nan := by
  unfold idealPixelN
  split
  · exact DMD.idealPixel_amp_nan rfl
  · rfl

theorem idealPixelN_in {p theta : ℝ} {neg : Bool} {amp : XR} (b : Option ℝ) (x y : ℝ) : idealPixelN p theta neg amp none b x y = .nan := by
  unfold idealPixelN
  split
  · simp_all
  · rfl

theorem idealPixelN_out {p theta : ℝ} {neg : Bool} {amp : XR} (a : Option ℝ) (x y : ℝ) : idealPixelN p theta neg amp a none x y = .nan := by
  unfold idealPixelN
  split
  · simp_all
  · rfl

theorem randomPixelN_amp {p theta r draw : ℝ} {neg : Bool} (a b : Option ℝ) (x y : ℝ) :
    randomPixelN p theta r neg draw .nan a b x y = false := by
  unfold randomPixelN
  split
  · unfold randomDuty
    split_ifs
    · exact decide_eq_false fun h => h
    · exact decide_eq_false fun h => h
  · exact decide_eq_false fun h => h

theorem randomPixelN_in {p theta r draw : ℝ} {neg : Bool} {amp : XR} (b : Option ℝ) (x y : ℝ) :
    randomPixelN p theta r neg draw amp none b x y = false := by
  unfold randomPixelN
  split
  · simp_all
  · exact decide_eq_false fun h => h

theorem randomPixelN_out {p theta r draw : ℝ} {neg : Bool} {amp : XR} (a : Option ℝ) (x y : ℝ) :
    randomPixelN p theta r neg draw amp a none x y = false := by
  unfold randomPixelN
  split
  · simp_all
  · exact decide_eq_false fun h => h

end Lib

namespace DMD

theorem targetFpN_nan {s : SLM} {T : ℕ → ℕ → Option ℂ} {window : Option (ℕ → ℕ → Option ℂ)} (h : HasNan s.Ny s.Nx T) (i j : ℕ) :
    targetFpN s T window i j = none := by
  have hc : ¬Clean s.Ny s.Nx (ifftshift2 s.Ny s.Nx T) := by
    rw [clean_ifftshift, clean_iff, not_not]
    exact h
  have e : fftshift2 s.Ny s.Nx (dftN s.Ny s.Nx (ifftshift2 s.Ny s.Nx T)) i j = none := dftN_nan hc _ _
  unfold targetFpN
  simp only [e]
  cases window <;> rfl

theorem targetFpN_window {s : SLM} {T : ℕ → ℕ → Option ℂ} {window : Option (ℕ → ℕ → Option ℂ)} {i j : ℕ} (h : WindowNan window i j) :
    targetFpN s T window i j = none := by
  obtain ⟨w, rfl, hw⟩ := h
  unfold targetFpN
  simp only [hw, mulN, Option.map_none]
  cases fftshift2 s.Ny s.Nx (dftN s.Ny s.Nx (ifftshift2 s.Ny s.Nx T)) i j <;> rfl

theorem targetFpN_clean {s : SLM} {T : ℕ → ℕ → Option ℂ} {window : Option (ℕ → ℕ → Option ℂ)} (h : ¬HasNan s.Ny s.Nx T) {i j : ℕ}
    (hi : i < s.Ny) (hj : j < s.Nx) (hw : ¬WindowNan window i j) :
    targetFpN s T window i j = some (spectrum s (values T) i j * windowValue window i j) := by
  have hc := clean_iff.mpr h
  have e : fftshift2 s.Ny s.Nx (dftN s.Ny s.Nx (ifftshift2 s.Ny s.Nx T)) i j = some (spectrum s (values T) i j) := by
    rw [← spectrum_eq s _ hi hj]
    unfold fftshift2 targetFp
    refine dftN_clean (fun a ha b hb => ?_) _ _
    have := clean_ifftshift.mpr hc a ha b hb
    unfold ifftshift2 values at *
    rcases e : T (ifftshiftIdx s.Ny a) (ifftshiftIdx s.Nx b) with _ | v
    · exact absurd e this
    · rfl
  unfold targetFpN
  simp only [e]
  cases window with
  | none => simp [windowValue]
  | some w =>
    rcases ew : w i j with _ | v
    · exact absurd ⟨w, rfl, ew⟩ hw
    · simp [mulN, windowValue, ew]

theorem ratioN_nan_right (u : Option ℂ) : ratioN u none = .nan := by
  unfold ratioN absN
  rw [if_neg (by simp)]
  rfl

theorem ratioN_nan_left {t : ℂ} (ht : t ≠ 0) : ratioN none (some t) = .nan := by
  unfold ratioN absN
  simp only
  rw [if_neg (by simpa using ht)]
  rfl

theorem ratioN_zero (u : Option ℂ) : ratioN u (some 0) = .fin 0 := by
  unfold ratioN absN
  simp

theorem ratioN_some (u t : ℂ) : ratioN (some u) (some t) = ratioPixel u t := by
  unfold ratioN absN ratioPixel
  simp [XR.div]

theorem ratioPixel_ne (u t : ℂ) : ratioPixel u t ≠ .nan := by
  rcases ratio_cases (fun _ _ => u) (fun _ _ => t) 0 0 with h | h
  · have := h.2.2
    unfold ratio at this
    rw [this]
    simp
  · have := h.2
    unfold ratio at this
    rw [this]
    simp

/-- **C174**, target: if the target has a NaN anywhere, then whatever the input, the window, the period and the random draws are, and whatever the
maximum of an array with NaN is, every mirror is off (`simple`, `random`), every value is NaN (`ideal`). -/
theorem C174_target (red : (ℕ → ℕ → XR) → XR) (d : DMD) (u T : ℕ → ℕ → Option ℂ) (window : Option (ℕ → ℕ → Option ℂ))
    (h : HasNan d.slm.Ny d.slm.Nx T) (r : ℝ) (draw : ℕ → ℕ → ℝ) (i j : ℕ) :
    calcSimpleN red d u T window i j = false ∧ calcRandomN red d r draw u T window i j = false ∧
      calcIdealN red d u T window i j = .nan := by
  have e : targetFpN d.slm T window i j = none := targetFpN_nan h i j
  have e2 : phaseOutN none = none := by simp [phaseOutN, angleN]
  refine ⟨?_, ?_, ?_⟩
  · unfold calcSimpleN simplePixelN
    rw [e, e2, idealPixelN_out]
    exact decide_eq_false fun h => h
  · unfold calcRandomN
    rw [e, e2, randomPixelN_out]
  · unfold calcIdealN
    rw [e, e2, idealPixelN_out]

/-- **C174**, input and window: a mirror where the input or the window is NaN is off (its value is NaN for `ideal`). -/
theorem C174_pixel (red : (ℕ → ℕ → XR) → XR) (d : DMD) (u T : ℕ → ℕ → Option ℂ) (window : Option (ℕ → ℕ → Option ℂ)) {i j : ℕ}
    (h : u i j = none ∨ WindowNan window i j) (r : ℝ) (draw : ℕ → ℕ → ℝ) :
    calcSimpleN red d u T window i j = false ∧ calcRandomN red d r draw u T window i j = false ∧
      calcIdealN red d u T window i j = .nan := by
  rcases h with h | h
  · have e2 : angleN none = none := rfl
    refine ⟨?_, ?_, ?_⟩
    · unfold calcSimpleN simplePixelN
      rw [h, e2, idealPixelN_in]
      exact decide_eq_false fun h => h
    · unfold calcRandomN
      rw [h, e2, randomPixelN_in]
    · unfold calcIdealN
      rw [h, e2, idealPixelN_in]
  · have e : targetFpN d.slm T window i j = none := targetFpN_window h
    have e2 : phaseOutN none = none := by simp [phaseOutN, angleN]
    refine ⟨?_, ?_, ?_⟩
    · unfold calcSimpleN simplePixelN
      rw [e, e2, idealPixelN_out]
      exact decide_eq_false fun h => h
    · unfold calcRandomN
      rw [e, e2, randomPixelN_out]
    · unfold calcIdealN
      rw [e, e2, idealPixelN_out]

/-- When is one of the ratios NaN? -/
theorem ratioN_iff {s : SLM} {u T : ℕ → ℕ → Option ℂ} {window : Option (ℕ → ℕ → Option ℂ)} {i j : ℕ} (hi : i < s.Ny) (hj : j < s.Nx) :
    ratioN (u i j) (targetFpN s T window i j) = .nan ↔
      HasNan s.Ny s.Nx T ∨ WindowNan window i j ∨ u i j = none ∧ spectrum s (values T) i j * windowValue window i j ≠ 0 := by
  by_cases h1 : HasNan s.Ny s.Nx T
  · rw [targetFpN_nan h1, ratioN_nan_right]
    simp [h1]
  by_cases h2 : WindowNan window i j
  · rw [targetFpN_window h2, ratioN_nan_right]
    simp [h2]
  rw [targetFpN_clean h1 hi hj h2]
  simp only [h1, h2, false_or]
  rcases u i j with _ | v
  · by_cases h3 : spectrum s (values T) i j * windowValue window i j = 0
    · rw [h3, ratioN_zero]
      simp
    · rw [ratioN_nan_left h3]
      simpa using h3
  · rw [ratioN_some]
    simp [ratioPixel_ne]

/-- **C174**, efficiency: the call returns normally, and with a maximum that is NaN as soon as the array has one, the efficiency is NaN exactly if
the target has a NaN, or the window, or the input at a pixel where the windowed spectrum of the target is not 0.  In that case all mirrors are off.
-/
theorem C174_eta {red : (ℕ → ℕ → XR) → XR} {d : DMD} (hmax : Maximum d.slm.Ny d.slm.Nx red) (hprop : Propagates d.slm.Ny d.slm.Nx red)
    (hNx : 0 < d.slm.Nx) (hNy : 0 < d.slm.Ny) (hsc : d.slm.wavelength * d.slm.focal ≠ 0) (u T : ℕ → ℕ → Option ℂ)
    (window : Option (ℕ → ℕ → Option ℂ)) :
    (calcEtaN red d u T window = .ok .nan ↔ HasNan d.slm.Ny d.slm.Nx T ∨ ∃ i < d.slm.Ny, ∃ j < d.slm.Nx,
      WindowNan window i j ∨ u i j = none ∧ spectrum d.slm (values T) i j * windowValue window i j ≠ 0) ∧
    (calcEtaN red d u T window = .ok .nan → ∀ (r : ℝ) (draw : ℕ → ℕ → ℝ) (i j : ℕ),
      calcSimpleN red d u T window i j = false ∧ calcRandomN red d r draw u T window i j = false ∧
        calcIdealN red d u T window i j = .nan) := by
  have hs : d.slm.scaling ≠ 0 := hsc
  have key : calcEtaN red d u T window = .ok .nan ↔
      ∃ i < d.slm.Ny, ∃ j < d.slm.Nx, ratioN (u i j) (targetFpN d.slm T window i j) = .nan := by
    constructor
    · intro h
      by_contra hc
      push Not at hc
      have e : oneOverEtaN red d.slm u T window = reduceMax d.slm.Ny d.slm.Nx fun i j => ratioN (u i j) (targetFpN d.slm T window i j) :=
        hmax _ hc
      unfold calcEtaN etaOf at h
      rw [if_neg hs, e] at h
      have hfin : ∀ f : ℕ → ℕ → XR, (∀ i < d.slm.Ny, ∀ j < d.slm.Nx, f i j ≠ .nan) → reduceMax d.slm.Ny d.slm.Nx f ≠ .nan := by
        intro f hf
        unfold reduceMax
        have : ∀ l : List XR, (∀ x ∈ l, x ≠ .nan) → l.foldr XR.max .ninf ≠ .nan := by
          intro l
          induction l with
          | nil => intro _; simp
          | cons x l ih =>
            intro hl
            have h1 := hl x (by simp)
            have h2 := ih fun y hy => hl y (by simp [hy])
            rw [List.foldr_cons]
            generalize l.foldr XR.max .ninf = z at h2
            cases x <;> cases z <;> simp_all [XR.max]
        refine this _ fun x hx => ?_
        obtain ⟨⟨a, b⟩, hab, rfl⟩ := List.mem_map.mp hx
        rw [List.mem_product] at hab
        exact hf _ (List.mem_range.mp hab.1) _ (List.mem_range.mp hab.2)
      have h2 := hfin _ hc
      revert h h2
      generalize (reduceMax d.slm.Ny d.slm.Nx fun i j => ratioN (u i j) (targetFpN d.slm T window i j)) = z
      rcases z with m | _ | _ | _ <;> simp
      split_ifs <;> simp
    · intro h
      have e : oneOverEtaN red d.slm u T window = .nan := hprop _ h
      unfold calcEtaN etaOf
      rw [if_neg hs, e]
  refine ⟨?_, fun h r draw i j => ?_⟩
  · rw [key]
    constructor
    · rintro ⟨i, hi, j, hj, h⟩
      rcases (ratioN_iff hi hj).mp h with h | h
      · exact Or.inl h
      · exact Or.inr ⟨i, hi, j, hj, h⟩
    · rintro (h | ⟨i, hi, j, hj, h⟩)
      · exact ⟨0, hNy, 0, hNx, (ratioN_iff hNy hNx).mpr (Or.inl h)⟩
      · exact ⟨i, hi, j, hj, (ratioN_iff hi hj).mpr (Or.inr h)⟩
  · have e : oneOverEtaN red d.slm u T window = .nan := hprop _ (key.mp h)
    have e2 : ampScaledN red d.slm u T window i j = .nan := by
      unfold ampScaledN
      rw [e]
      cases ratioN (u i j) (targetFpN d.slm T window i j) <;> rfl
    refine ⟨?_, ?_, ?_⟩
    · unfold calcSimpleN simplePixelN
      rw [e2, idealPixelN_amp]
      exact decide_eq_false fun h => h
    · unfold calcRandomN
      rw [e2, randomPixelN_amp]
    · unfold calcIdealN
      rw [e2, idealPixelN_amp]

/-- **C174**, the rest is not affected: NaN of the input only where the windowed spectrum of the target is 0 changes nothing but those mirrors.
With any other input `u'` that has numbers there and is the same elsewhere, the efficiency and all other mirrors are the same. -/
theorem C174_masked {red : (ℕ → ℕ → XR) → XR} {d : DMD} (hmax : Maximum d.slm.Ny d.slm.Nx red) (u u' T : ℕ → ℕ → Option ℂ)
    (window : Option (ℕ → ℕ → Option ℂ)) (hT : ¬HasNan d.slm.Ny d.slm.Nx T) (hw : ∀ i < d.slm.Ny, ∀ j < d.slm.Nx, ¬WindowNan window i j)
    (hu' : ¬HasNan d.slm.Ny d.slm.Nx u')
    (hu : ∀ i < d.slm.Ny, ∀ j < d.slm.Nx, u i j = u' i j ∨ spectrum d.slm (values T) i j * windowValue window i j = 0) :
    calcEtaN red d u T window = calcEtaN red d u' T window ∧
    ∀ (r : ℝ) (draw : ℕ → ℕ → ℝ), ∀ i < d.slm.Ny, ∀ j < d.slm.Nx, u i j = u' i j →
      calcSimpleN red d u T window i j = calcSimpleN red d u' T window i j ∧
      calcRandomN red d r draw u T window i j = calcRandomN red d r draw u' T window i j ∧
      calcIdealN red d u T window i j = calcIdealN red d u' T window i j := by
  have heq : ∀ i < d.slm.Ny, ∀ j < d.slm.Nx,
      ratioN (u i j) (targetFpN d.slm T window i j) = ratioN (u' i j) (targetFpN d.slm T window i j) := by
    intro i hi j hj
    rcases hu i hi j hj with h | h
    · rw [h]
    · rw [targetFpN_clean hT hi hj (hw i hi j hj), h, ratioN_zero, ratioN_zero]
  have hn' : ∀ i < d.slm.Ny, ∀ j < d.slm.Nx, ratioN (u' i j) (targetFpN d.slm T window i j) ≠ .nan := by
    intro i hi j hj h
    rcases (ratioN_iff hi hj).mp h with h | h | h
    · exact hT h
    · exact hw i hi j hj h
    · exact hu' ⟨i, hi, j, hj, h.1⟩
  have hmx : oneOverEtaN red d.slm u T window = oneOverEtaN red d.slm u' T window := by
    unfold oneOverEtaN
    rw [hmax _ hn', hmax _ (fun i hi j hj => by rw [heq i hi j hj]; exact hn' i hi j hj)]
    exact reduceMax_congr heq
  refine ⟨by unfold calcEtaN; rw [hmx], fun r draw i hi j hj h => ?_⟩
  have ha : ampScaledN red d.slm u T window i j = ampScaledN red d.slm u' T window i j := by
    unfold ampScaledN
    rw [hmx, h]
  unfold calcSimpleN calcRandomN calcIdealN
  rw [ha, h]
  exact ⟨rfl, rfl, rfl⟩

/-- **C174**: without NaN this model is the one of the other theorems. -/
theorem C174_agree {red : (ℕ → ℕ → XR) → XR} {d : DMD} (hmax : Maximum d.slm.Ny d.slm.Nx red) {h : Profile.Heap} {inp target : ProfArg}
    {window : Option ProfArg} {u T w : ℕ → ℕ → ℂ} (m : Matching d h inp target window u T w) (kw : CalcKwargs) (draw : ℕ → ℕ → ℝ)
    {win : Option (ℕ → ℕ → Option ℂ)} (hwin : win = none ∧ (∀ i j, w i j = 1) ∨ win = some fun i j => some (w i j)) :
    (∃ t : Tensor Bool, d.calculateDmdState h inp target "simple" window kw draw =
        ⟨.rebind (.bool t), calcEtaN red d (fun i j => some (u i j)) (fun i j => some (T i j)) win⟩ ∧
      ∀ i < d.slm.Ny, ∀ j < d.slm.Nx, t.get i j = calcSimpleN red d (fun i j => some (u i j)) (fun i j => some (T i j)) win i j) ∧
    (∃ t : Tensor Bool, d.calculateDmdState h inp target "random" window kw draw =
        ⟨.rebind (.bool t), calcEtaN red d (fun i j => some (u i j)) (fun i j => some (T i j)) win⟩ ∧
      ∀ i < d.slm.Ny, ∀ j < d.slm.Nx,
        t.get i j = calcRandomN red d (kw.r.getD 10) draw (fun i j => some (u i j)) (fun i j => some (T i j)) win i j) ∧
    ∃ t : Tensor XR, d.calculateDmdState h inp target "ideal" window kw draw =
        ⟨.rebind (.float t), calcEtaN red d (fun i j => some (u i j)) (fun i j => some (T i j)) win⟩ ∧
      ∀ i < d.slm.Ny, ∀ j < d.slm.Nx, t.get i j = calcIdealN red d (fun i j => some (u i j)) (fun i j => some (T i j)) win i j := by
  have hw1 : ∀ i j, ¬WindowNan win i j := by
    rintro i j ⟨w', rfl, hn⟩
    rcases hwin with ⟨h0, -⟩ | h0
    · cases h0
    · rw [Option.some.inj h0] at hn
      cases hn
  have hw2 : ∀ i j, windowValue win i j = w i j := by
    intro i j
    rcases hwin with ⟨rfl, h0⟩ | rfl
    · rw [h0]
      rfl
    · rfl
  have hT : ¬HasNan d.slm.Ny d.slm.Nx (fun i j => some (T i j)) := by
    rintro ⟨i, -, j, -, h0⟩
    cases h0
  have hfp : ∀ i < d.slm.Ny, ∀ j < d.slm.Nx, targetFpN d.slm (fun i j => some (T i j)) win i j = some (wspec d.slm T w i j) := by
    intro i hi j hj
    rw [targetFpN_clean hT hi hj (hw1 i j), hw2]
    rfl
  have hr : ∀ i < d.slm.Ny, ∀ j < d.slm.Nx, ratioN (some (u i j)) (targetFpN d.slm (fun i j => some (T i j)) win i j) =
      ratio u (wspec d.slm T w) i j := by
    intro i hi j hj
    rw [hfp i hi j hj, ratioN_some]
    rfl
  have hm : oneOverEtaN red d.slm (fun i j => some (u i j)) (fun i j => some (T i j)) win =
      reduceMax d.slm.Ny d.slm.Nx (ratio u (wspec d.slm T w)) := by
    unfold oneOverEtaN
    rw [hmax _ (fun i hi j hj => by rw [hr i hi j hj]; exact ratioPixel_ne _ _)]
    exact reduceMax_congr hr
  have hA : ∀ i < d.slm.Ny, ∀ j < d.slm.Nx, ampScaledN red d.slm (fun i j => some (u i j)) (fun i j => some (T i j)) win i j =
      (ratio u (wspec d.slm T w) i j).div (reduceMax d.slm.Ny d.slm.Nx (ratio u (wspec d.slm T w))) := by
    intro i hi j hj
    unfold ampScaledN
    rw [hm, hr i hi j hj]
  have hpo : ∀ z : ℂ, phaseOutN (some z) = some (phaseOutPixel z) := by
    intro z
    unfold phaseOutN phaseOutPixel angleN
    by_cases hz : z = 0 <;> simp [hz]
  have heta : etaOf d.slm (reduceMax d.slm.Ny d.slm.Nx (ratio u (wspec d.slm T w))) =
      calcEtaN red d (fun i j => some (u i j)) (fun i j => some (T i j)) win := by
    unfold calcEtaN
    rw [hm]
  refine ⟨?_, ?_, ?_⟩
  · obtain ⟨tin, amp, pin, pout, h1, h2, h3, h4, h5, h6⟩ := calcGrating_eq m "simple" kw draw
    obtain ⟨-, ⟨t, g1, g2, g3⟩, -⟩ := grating_elementwise h3 h4 h5 { r := kw.r, N := kw.N, s := kw.s } draw
    have h7 : d.forwardKwargs h tin "simple" kw = .ok { r := kw.r, N := kw.N, s := kw.s } := rfl
    rw [h7] at h6
    simp only at h6
    rw [g1] at h6
    refine ⟨t, by rw [← heta]; exact calculate_of_grating h6, fun i hi j hj => ?_⟩
    rw [Bool.eq_iff_iff, g3 i hi j hj]
    unfold calcSimpleN simplePixelN
    rw [hfp i hi j hj, hA i hi j hj, hpo, decide_eq_true_iff]
    rfl
  · obtain ⟨tin, amp, pin, pout, h1, h2, h3, h4, h5, h6⟩ := calcGrating_eq m "random" kw draw
    obtain ⟨-, -, ⟨t, g1, g2, g3⟩⟩ := grating_elementwise h3 h4 h5 { r := kw.r, N := kw.N, s := kw.s } draw
    have h7 : d.forwardKwargs h tin "random" kw = .ok { r := kw.r, N := kw.N, s := kw.s } := rfl
    rw [h7] at h6
    simp only at h6
    rw [g1] at h6
    refine ⟨t, by rw [← heta]; exact calculate_of_grating h6, fun i hi j hj => ?_⟩
    rw [Bool.eq_iff_iff, g3 i hi j hj]
    unfold calcRandomN
    rw [hfp i hi j hj, hA i hi j hj, hpo]
    simp only [randomPixelN, angleN, Option.map_some, decide_eq_true_iff]
    rfl
  · obtain ⟨tin, amp, pin, pout, h1, h2, h3, h4, h5, h6⟩ := calcGrating_eq m "ideal" kw draw
    obtain ⟨⟨t, g1, g2, g3⟩, -, -⟩ := grating_elementwise h3 h4 h5 { r := kw.r, N := kw.N, s := kw.s } draw
    have h7 : d.forwardKwargs h tin "ideal" kw = .ok { r := kw.r, N := kw.N, s := kw.s } := rfl
    rw [h7] at h6
    simp only at h6
    rw [g1] at h6
    refine ⟨t, by rw [← heta]; exact calculate_of_grating h6, fun i hi j hj => ?_⟩
    rw [g3 i hi j hj]
    unfold calcIdealN
    rw [hfp i hi j hj, hA i hi j hj, hpo]
    rfl

end DMD

namespace LCOS

theorem gsStepN_nan {M N : ℕ} {inp target : ℕ → ℕ → Option ℂ} {phase : ℕ → ℕ → Option ℝ}
    (h : HasNan M N inp ∨ HasNan M N target ∨ HasNan M N phase) (a b : ℕ) : gsStepN M N inp target phase a b = none := by
  have hM : ∀ f : ℕ → ℕ → Option ℂ, HasNan M N f → dftN M N f a b = none := fun f hf => dftN_nan (fun hc => clean_iff.mp hc hf) _ _
  have himg : HasNan M N inp ∨ HasNan M N phase →
      ∀ k l, idftN M N (fun a b => mulN (inp a b) (cisN (phase a b))) k l = none := by
    intro h k l
    refine idftN_nan (fun hc => clean_iff.mp hc ?_) _ _
    rcases h with ⟨i, hi, j, hj, h⟩ | ⟨i, hi, j, hj, h⟩
    · exact ⟨i, hi, j, hj, by simp [h, mulN]⟩
    · refine ⟨i, hi, j, hj, ?_⟩
      simp only [h, mulN, cisN, Option.map_none]
      cases inp i j <;> rfl
  show angleN (dftN M N _ a b) = none
  rw [hM]
  · rfl
  rcases h with h | h | h
  · obtain ⟨i, hi, j, hj, -⟩ := id h
    refine ⟨i, hi, j, hj, ?_⟩
    show mulN (target i j) (cisN (angleN (idftN M N (fun a b => mulN (inp a b) (cisN (phase a b))) i j))) = none
    rw [himg (Or.inl h)]
    cases target i j <;> rfl
  · obtain ⟨i, hi, j, hj, h⟩ := h
    exact ⟨i, hi, j, hj, by simp [h, mulN]⟩
  · obtain ⟨i, hi, j, hj, -⟩ := id h
    refine ⟨i, hi, j, hj, ?_⟩
    show mulN (target i j) (cisN (angleN (idftN M N (fun a b => mulN (inp a b) (cisN (phase a b))) i j))) = none
    rw [himg (Or.inr h)]
    cases target i j <;> rfl

theorem mrafStepN_nan {M N : ℕ} {inp target window : ℕ → ℕ → Option ℂ} {m : ℝ} {phase : ℕ → ℕ → Option ℝ}
    (h : HasNan M N inp ∨ HasNan M N target ∨ HasNan M N window ∨ HasNan M N phase) (a b : ℕ) :
    mrafStepN M N inp target window m phase a b = none := by
  have hM : ∀ f : ℕ → ℕ → Option ℂ, HasNan M N f → dftN M N f a b = none := fun f hf => dftN_nan (fun hc => clean_iff.mp hc hf) _ _
  have himg : HasNan M N inp ∨ HasNan M N phase →
      ∀ k l, idftN M N (fun a b => mulN (inp a b) (cisN (phase a b))) k l = none := by
    intro h k l
    refine idftN_nan (fun hc => clean_iff.mp hc ?_) _ _
    rcases h with ⟨i, hi, j, hj, h⟩ | ⟨i, hi, j, hj, h⟩
    · exact ⟨i, hi, j, hj, by simp [h, mulN]⟩
    · refine ⟨i, hi, j, hj, ?_⟩
      simp only [h, mulN, cisN, Option.map_none]
      cases inp i j <;> rfl
  have m1 : ∀ z, mulN z none = none := fun z => by cases z <;> rfl
  have m2 : ∀ z, mulN none z = none := fun z => rfl
  have a1 : ∀ z, addN none z = none := fun z => rfl
  have hi' : (HasNan M N inp ∨ HasNan M N phase) → mrafStepN M N inp target window m phase a b = none := by
    intro h
    show angleN (dftN M N _ a b) = none
    rw [hM]
    · rfl
    obtain ⟨i, hi, j, hj, -⟩ : ∃ i < M, ∃ j < N, True := by
      rcases h with ⟨i, hi, j, hj, -⟩ | ⟨i, hi, j, hj, -⟩ <;> exact ⟨i, hi, j, hj, trivial⟩
    refine ⟨i, hi, j, hj, ?_⟩
    have c1 : cisN (angleN none) = none := rfl
    simp only [himg h, c1, m1, m2, a1]
  rcases h with h | h | h | h
  · exact hi' (Or.inl h)
  · obtain ⟨i, hi, j, hj, h⟩ := h
    show angleN (dftN M N _ a b) = none
    rw [hM]
    · rfl
    exact ⟨i, hi, j, hj, by simp only [h, m1, m2, a1]⟩
  · obtain ⟨i, hi, j, hj, h⟩ := h
    show angleN (dftN M N _ a b) = none
    rw [hM]
    · rfl
    exact ⟨i, hi, j, hj, by simp only [h, m1, a1]⟩
  · exact hi' (Or.inr h)

theorem gsLoopN_clean {M N : ℕ} {inp target : ℕ → ℕ → Option ℂ} {A B : ℕ → ℕ → ℂ} (hA : ∀ i < M, ∀ j < N, inp i j = some (A i j))
    (hB : ∀ i < M, ∀ j < N, target i j = some (B i j)) (phase0 : ℕ → ℕ → ℝ) (n a b : ℕ) :
    gsLoopN M N inp target phase0 n a b = some (gsLoop M N A B phase0 n a b) := by
  induction n generalizing a b with
  | zero => rfl
  | succ n ih =>
    show angleN (dftN M N _ a b) = some _
    rw [dftN_clean (g := fun k l => gsCorrect (B k l) (idft2 M N (modulate A (gsLoop M N A B phase0 n)) k l))]
    · rfl
    · intro k hk l hl
      rw [hB k hk l hl]
      rw [idftN_clean (g := modulate A (gsLoop M N A B phase0 n))]
      · rfl
      · intro i hi j hj
        rw [hA i hi j hj, ih]
        rfl

theorem mrafLoopN_clean {M N : ℕ} {inp target window : ℕ → ℕ → Option ℂ} {A B W : ℕ → ℕ → ℂ} (hA : ∀ i < M, ∀ j < N, inp i j = some (A i j))
    (hB : ∀ i < M, ∀ j < N, target i j = some (B i j)) (hW : ∀ i < M, ∀ j < N, window i j = some (W i j)) (m : ℝ) (phase0 : ℕ → ℕ → ℝ)
    (n a b : ℕ) :
    mrafLoopN M N inp target window m phase0 n a b = some (mrafLoop M N A B W m phase0 n a b) := by
  induction n generalizing a b with
  | zero => rfl
  | succ n ih =>
    show angleN (dftN M N _ a b) = some _
    rw [dftN_clean (g := fun k l => mrafCorrect m (B k l) (W k l) (idft2 M N (modulate A (mrafLoop M N A B W m phase0 n)) k l))]
    · rfl
    · intro k hk l hl
      rw [hB k hk l hl, hW k hk l hl]
      rw [idftN_clean (g := modulate A (mrafLoop M N A B W m phase0 n))]
      · rfl
      · intro i hi j hj
        rw [hA i hi j hj, ih]
        rfl

theorem getD_of_clean {α : Type} {M N : ℕ} {f : ℕ → ℕ → Option α} (d : α) (h : ¬HasNan M N f) {i j : ℕ} (hi : i < M) (hj : j < N) :
    f i j = some ((f i j).getD d) := by
  rcases e : f i j with _ | v
  · exact absurd ⟨i, hi, j, hj, e⟩ h
  · rfl

theorem hasNan_shift {α β : Type} {M N : ℕ} {f : ℕ → ℕ → Option α} {g : α → β} (h : HasNan M N f) :
    HasNan M N (ifftshift2 M N fun i j => (f i j).map g) := by
  by_contra hc
  have := clean_ifftshift.mp (clean_iff.mpr hc)
  obtain ⟨i, hi, j, hj, e⟩ := h
  exact this i hi j hj (by simp [e])

/-- **C175** (`gs`): a hologram computed with at least one iteration has a NaN at every pixel if the input or the target has a NaN anywhere, and
otherwise it has no NaN and is the hologram of the other theorems. -/
theorem C175_gs (s : SLM) (A : ℕ → ℕ → Option ℂ) (T : ℕ → ℕ → Option ℝ) (draw : ℕ → ℕ → ℝ) {steps : ℕ} (hsteps : steps ≠ 0) :
    ((HasNan s.Ny s.Nx A ∨ HasNan s.Ny s.Nx T) → ∀ i j, gsN s A T draw steps i j = none) ∧
    (¬(HasNan s.Ny s.Nx A ∨ HasNan s.Ny s.Nx T) → ∀ i j, gsN s A T draw steps i j =
      some (gsLoop s.Ny s.Nx (fun i j => (A i j).getD 0) (ifftshift2 s.Ny s.Nx fun i j => (((T i j).getD 0 : ℝ) : ℂ)) (initialPhase draw)
        steps i j)) := by
  obtain ⟨n, rfl⟩ := Nat.exists_eq_succ_of_ne_zero hsteps
  refine ⟨fun h i j => ?_, fun h i j => ?_⟩
  · show gsStepN _ _ _ _ _ i j = none
    rcases h with h | h
    · exact gsStepN_nan (Or.inl h) i j
    · exact gsStepN_nan (Or.inr (Or.inl (hasNan_shift h))) i j
  · push Not at h
    refine gsLoopN_clean (fun a ha b hb => getD_of_clean 0 h.1 ha hb) (fun a ha b hb => ?_) _ _ _ _
    have e := getD_of_clean 0 h.2 (ifftshiftIdx_lt ha) (ifftshiftIdx_lt hb)
    unfold ifftshift2
    simp only
    rw [e]
    rfl

/-- **C175** (`mraf`): the same, for a NaN in the input, the target or the signal window, also where the window is 0 and for every mixing factor. -/
theorem C175_mraf (s : SLM) (A : ℕ → ℕ → Option ℂ) (T : ℕ → ℕ → Option ℝ) (w : ℕ → ℕ → Option ℂ) (m : ℝ) (draw : ℕ → ℕ → ℝ) {steps : ℕ}
    (hsteps : steps ≠ 0) :
    ((HasNan s.Ny s.Nx A ∨ HasNan s.Ny s.Nx T ∨ HasNan s.Ny s.Nx w) → ∀ i j, mrafN s A T w m draw steps i j = none) ∧
    (¬(HasNan s.Ny s.Nx A ∨ HasNan s.Ny s.Nx T ∨ HasNan s.Ny s.Nx w) → ∀ i j, mrafN s A T w m draw steps i j =
      some (mrafLoop s.Ny s.Nx (fun i j => (A i j).getD 0) (ifftshift2 s.Ny s.Nx fun i j => (((T i j).getD 0 : ℝ) : ℂ))
        (ifftshift2 s.Ny s.Nx fun i j => (w i j).getD 0) m (initialPhase draw) steps i j)) := by
  obtain ⟨n, rfl⟩ := Nat.exists_eq_succ_of_ne_zero hsteps
  refine ⟨fun h i j => ?_, fun h i j => ?_⟩
  · show mrafStepN _ _ _ _ _ _ _ i j = none
    rcases h with h | h | h
    · exact mrafStepN_nan (Or.inl h) i j
    · exact mrafStepN_nan (Or.inr (Or.inl (hasNan_shift h))) i j
    · refine mrafStepN_nan (Or.inr (Or.inr (Or.inl ?_))) i j
      have := hasNan_shift (g := id) h
      simpa using this
  · push Not at h
    refine mrafLoopN_clean (fun a ha b hb => getD_of_clean 0 h.1 ha hb) (fun a ha b hb => ?_) (fun a ha b hb => ?_) _ _ _ _ _
    · have e := getD_of_clean 0 h.2.1 (ifftshiftIdx_lt ha) (ifftshiftIdx_lt hb)
      unfold ifftshift2
      simp only
      rw [e]
      rfl
    · exact getD_of_clean 0 h.2.2 (ifftshiftIdx_lt ha) (ifftshiftIdx_lt hb)

/-- One NaN in a target of 3 rows and 4 columns. -/
example (draw : ℕ → ℕ → ℝ) : gsN ⟨1, 1, 4, 3, 1⟩ (fun _ _ => some 1) (fun i j => if i = 2 ∧ j = 1 then none else some 1) draw 200 0 0 = none :=
  (C175_gs _ _ _ draw (by norm_num)).1 (Or.inr ⟨2, by norm_num, 1, by norm_num, by simp⟩) 0 0

end LCOS

/-! ## The hypotheses can be met -/

/-- A maximum that is NaN as soon as the array has one. -/
def nanMax (M N : ℕ) (f : ℕ → ℕ → XR) : XR := if ∃ i < M, ∃ j < N, f i j = .nan then .nan else DMD.reduceMax M N f

/-- A maximum that leaves NaN out (of positive numbers). -/
def quietMax (M N : ℕ) (f : ℕ → ℕ → XR) : XR := DMD.reduceMax M N fun i j => if f i j = .nan then .ninf else f i j

example (M N : ℕ) : Maximum M N (nanMax M N) ∧ Propagates M N (nanMax M N) :=
  ⟨fun f hf => if_neg (by push Not; exact hf), fun f hf => if_pos hf⟩

example (M N : ℕ) : Maximum M N (quietMax M N) :=
  fun f hf => DMD.reduceMax_congr fun i hi j hj => if_neg (hf i hi j hj)

/-- C174_target, for either maximum: one NaN in a target of 3 rows and 4 columns. -/
example (neg : Bool) (u : ℕ → ℕ → Option ℂ) :
    DMD.calcSimpleN (quietMax 3 4) ⟨⟨1, 1, 4, 3, 1⟩, 4, 0, neg⟩ u (fun i j => if i = 2 ∧ j = 1 then none else some 1) none 0 0 = false :=
  (DMD.C174_target _ _ u _ none ⟨2, by norm_num, 1, by norm_num, by simp⟩ 10 (fun _ _ => 0) 0 0).1

/-- C174_masked: the input is NaN where the window is 0. -/
example (neg : Bool) :
    DMD.calcEtaN (nanMax 3 4) ⟨⟨1, 1, 4, 3, 1⟩, 4, 0, neg⟩ (fun i j => if i = 0 ∧ j = 0 then none else some 1) (fun i _ => some i)
      (some fun i j => some (if i = 0 ∧ j = 0 then 0 else 1)) =
    DMD.calcEtaN (nanMax 3 4) ⟨⟨1, 1, 4, 3, 1⟩, 4, 0, neg⟩ (fun _ _ => some 1) (fun i _ => some i)
      (some fun i j => some (if i = 0 ∧ j = 0 then 0 else 1)) := by
  refine (DMD.C174_masked (fun f hf => if_neg (by push Not; exact hf)) _ _ _ _ ?_ ?_ ?_ ?_).1
  · rintro ⟨i, -, j, -, h⟩
    cases h
  · rintro i - j - ⟨w, hw, h⟩
    rw [← Option.some.inj hw] at h
    cases h
  · rintro ⟨i, -, j, -, h⟩
    cases h
  · intro i _ j _
    by_cases h : i = 0 ∧ j = 0
    · right
      simp [windowValue, h]
    · left
      simp [h]

end PySLM2
