import Verif.Lemmas.Grating
import Mathlib.Analysis.SpecialFunctions.Trigonometric.Angle

/-! Helper lemmas about mode matching. -/

noncomputable section

open Complex Finset

namespace PySLM2

open Lib

/-! ### Extended reals -/

namespace XR

/-- Multiplication by a positive number. -/
def smul (c : ℝ) : XR → XR
  | .fin x => .fin (c * x)
  | x => x

theorem smul_max {c : ℝ} (hc : 0 < c) (a b : XR) : (smul c a).max (smul c b) = smul c (a.max b) := by
  cases a <;> cases b <;> simp only [smul, XR.max] <;> try rfl
  rw [mul_max_of_nonneg _ _ hc.le]

theorem smul_divFin {c : ℝ} (hc : 0 < c) (a b : ℝ) : divFin (c * a) (c * b) = divFin a b := by
  unfold divFin
  by_cases hb : b = 0
  · have h1 : c * b = 0 := by rw [hb, mul_zero]
    rw [if_pos hb, if_pos h1]
    by_cases ha : a = 0
    · have h2 : c * a = 0 := by rw [ha, mul_zero]
      rw [if_pos ha, if_pos h2]
    · rw [if_neg ha, if_neg (mul_ne_zero hc.ne' ha)]
      by_cases h0 : 0 < a
      · rw [if_pos h0, if_pos (mul_pos hc h0)]
      · rw [if_neg h0, if_neg (fun h => h0 (pos_of_mul_pos_right h hc.le))]
  · rw [if_neg hb, if_neg (mul_ne_zero hc.ne' hb), mul_div_mul_left _ _ hc.ne']

theorem smul_div {c : ℝ} (hc : 0 < c) (a b : XR) : (smul c a).div (smul c b) = a.div b := by
  cases a with
  | fin a =>
    cases b with
    | fin b => exact smul_divFin hc a b
    | _ => rfl
  | pinf =>
    cases b with
    | fin b => simp only [smul, XR.div, mul_nonneg_iff_of_pos_left hc]
    | _ => rfl
  | ninf =>
    cases b with
    | fin b => simp only [smul, XR.div, mul_nonneg_iff_of_pos_left hc]
    | _ => rfl
  | nan => cases b <;> rfl

end XR

/-! ### The maximum -/

namespace DMD

theorem reduceMax_congr {M N : ℕ} {f g : ℕ → ℕ → XR} (h : ∀ i < M, ∀ j < N, f i j = g i j) :
    reduceMax M N f = reduceMax M N g := by
  unfold reduceMax
  congr 1
  refine List.map_congr_left fun ij hij => ?_
  rw [List.mem_product] at hij
  exact h _ (List.mem_range.mp hij.1) _ (List.mem_range.mp hij.2)

theorem reduceMax_smul {M N : ℕ} {c : ℝ} (hc : 0 < c) (f : ℕ → ℕ → XR) :
    reduceMax M N (fun i j => (f i j).smul c) = (reduceMax M N f).smul c := by
  unfold reduceMax
  induction (List.range M ×ˢ List.range N) with
  | nil => rfl
  | cons a l ih => rw [List.map_cons, List.foldr_cons, ih, List.map_cons, List.foldr_cons, XR.smul_max hc]

theorem foldr_max_fin {α : Type} (g : α → ℝ) (l : List α) (hl : l ≠ []) :
    ∃ m, (l.map fun a => XR.fin (g a)).foldr XR.max .ninf = .fin m ∧ (∀ a ∈ l, g a ≤ m) ∧
      ∃ a ∈ l, g a = m := by
  induction l with
  | nil => exact absurd rfl hl
  | cons a l ih =>
    by_cases h : l = []
    · subst h
      refine ⟨g a, rfl, ?_, a, List.mem_cons_self, rfl⟩
      intro b hb
      rw [List.mem_singleton.mp hb]
    · obtain ⟨m, hm, hle, b, hb, hbm⟩ := ih h
      refine ⟨Max.max (g a) m, ?_, ?_, ?_⟩
      · rw [List.map_cons, List.foldr_cons, hm]; rfl
      · intro c hc
        rcases List.mem_cons.mp hc with rfl | hc
        · exact le_max_left _ _
        · exact (hle c hc).trans (le_max_right _ _)
      · rcases le_total (g a) m with h1 | h1
        · exact ⟨b, List.mem_cons_of_mem _ hb, by rw [hbm, max_eq_right h1]⟩
        · exact ⟨a, List.mem_cons_self, by rw [max_eq_left h1]⟩

theorem reduceMax_fin {M N : ℕ} (hM : 0 < M) (hN : 0 < N) {f : ℕ → ℕ → XR} {g : ℕ → ℕ → ℝ}
    (h : ∀ i < M, ∀ j < N, f i j = .fin (g i j)) :
    ∃ m, reduceMax M N f = .fin m ∧ (∀ i < M, ∀ j < N, g i j ≤ m) ∧ ∃ i < M, ∃ j < N, g i j = m := by
  have hl : (List.range M ×ˢ List.range N) ≠ [] := by
    intro h0
    have : ((0, 0) : ℕ × ℕ) ∈ (List.range M ×ˢ List.range N) :=
      List.pair_mem_product.mpr ⟨List.mem_range.mpr hM, List.mem_range.mpr hN⟩
    rw [h0] at this
    exact absurd this List.not_mem_nil
  obtain ⟨m, hm, hle, a, ha, ham⟩ := foldr_max_fin (fun ij : ℕ × ℕ => g ij.1 ij.2) _ hl
  rw [List.mem_product] at ha
  refine ⟨m, ?_, fun i hi j hj => ?_, a.1, List.mem_range.mp ha.1, a.2, List.mem_range.mp ha.2, ham⟩
  · rw [reduceMax_congr h, ← hm]; rfl
  · exact hle (i, j) (List.pair_mem_product.mpr ⟨List.mem_range.mpr hi, List.mem_range.mpr hj⟩)

theorem foldr_max_pinf {α : Type} (f : α → XR) (l : List α)
    (h : ∀ a ∈ l, f a = .pinf ∨ ∃ x, f a = .fin x) :
    (∃ a ∈ l, f a = .pinf) → (l.map f).foldr XR.max .ninf = .pinf := by
  have hfin : ∀ l : List α, (∀ a ∈ l, f a = .pinf ∨ ∃ x, f a = .fin x) →
      (l.map f).foldr XR.max .ninf = .pinf ∨ (l.map f).foldr XR.max .ninf = .ninf ∨
      ∃ x, (l.map f).foldr XR.max .ninf = .fin x := by
    intro l hl
    induction l with
    | nil => exact Or.inr (Or.inl rfl)
    | cons a l ih =>
      rw [List.map_cons, List.foldr_cons]
      rcases hl a List.mem_cons_self with h1 | ⟨x, h1⟩ <;>
        rcases ih (fun b hb => hl b (List.mem_cons_of_mem _ hb)) with h2 | h2 | ⟨y, h2⟩ <;>
        rw [h1, h2]
      · exact Or.inl rfl
      · exact Or.inl rfl
      · exact Or.inl rfl
      · exact Or.inl rfl
      · exact Or.inr (Or.inr ⟨x, rfl⟩)
      · exact Or.inr (Or.inr ⟨_, rfl⟩)
  induction l with
  | nil => rintro ⟨a, ha, -⟩; exact absurd ha List.not_mem_nil
  | cons a l ih =>
    have hl := fun b hb => h b (List.mem_cons_of_mem a hb)
    rintro ⟨b, hb, hbp⟩
    rw [List.map_cons, List.foldr_cons]
    rcases List.mem_cons.mp hb with rfl | hb
    · rw [hbp]
      rcases hfin l hl with h2 | h2 | ⟨y, h2⟩ <;> rw [h2] <;> rfl
    · rw [ih hl ⟨b, hb, hbp⟩]
      rcases h a List.mem_cons_self with h1 | ⟨x, h1⟩ <;> rw [h1] <;> rfl

theorem reduceMax_pinf {M N : ℕ} {f : ℕ → ℕ → XR}
    (h : ∀ i < M, ∀ j < N, f i j = .pinf ∨ ∃ x, f i j = .fin x)
    (hp : ∃ i < M, ∃ j < N, f i j = .pinf) : reduceMax M N f = .pinf := by
  refine foldr_max_pinf (fun ij : ℕ × ℕ => f ij.1 ij.2) _ ?_ ?_
  · intro a ha
    rw [List.mem_product] at ha
    exact h _ (List.mem_range.mp ha.1) _ (List.mem_range.mp ha.2)
  · obtain ⟨i, hi, j, hj, hij⟩ := hp
    exact ⟨(i, j), List.pair_mem_product.mpr ⟨List.mem_range.mpr hi, List.mem_range.mpr hj⟩, hij⟩

/-! ### The spectrum -/

theorem spectrum_eq (s : SLM) (T : ℕ → ℕ → ℂ) {i j : ℕ} (hi : i < s.Ny) (hj : j < s.Nx) :
    targetFp s.Ny s.Nx T i j = spectrum s T i j := by
  rw [targetFp_eq T hi hj]
  unfold spectrum
  refine Finset.sum_congr rfl fun k _ => Finset.sum_congr rfl fun l _ => ?_
  rw [Ecm, Ecm, ← Complex.exp_add]
  congr 2
  ring

theorem spectrum_congr (s : SLM) {T T' : ℕ → ℕ → ℂ} (h : ∀ i < s.Ny, ∀ j < s.Nx, T i j = T' i j) :
    spectrum s T = spectrum s T' := by
  funext i j
  unfold spectrum
  exact Finset.sum_congr rfl fun k hk => Finset.sum_congr rfl fun l hl => by
    rw [h k (mem_range.mp hk) l (mem_range.mp hl)]

theorem spectrum_smul (s : SLM) (c : ℂ) (T : ℕ → ℕ → ℂ) (i j : ℕ) :
    spectrum s (fun k l => c * T k l) i j = c * spectrum s T i j := by
  unfold spectrum
  simp only [Finset.mul_sum, mul_assoc]

/-- A target that does not vanish has a spectrum that does not vanish. -/
theorem spectrum_ne_zero (s : SLM) {T : ℕ → ℕ → ℂ} (h : ∃ k < s.Ny, ∃ l < s.Nx, T k l ≠ 0) :
    ∃ i < s.Ny, ∃ j < s.Nx, spectrum s T i j ≠ 0 := by
  by_contra hc
  push Not at hc
  obtain ⟨k, hk, l, hl, hT⟩ := h
  apply hT
  rw [← centredIdft_targetFp T hk hl, centredIdft_eq _ hk hl]
  rw [Finset.sum_eq_zero, mul_zero]
  intro i hi
  refine Finset.sum_eq_zero fun j hj => ?_
  rw [spectrum_eq s T (mem_range.mp hi) (mem_range.mp hj), hc i (mem_range.mp hi) j (mem_range.mp hj),
    zero_mul]

theorem spectrum_zero (s : SLM) {T : ℕ → ℕ → ℂ} (h : ∀ k < s.Ny, ∀ l < s.Nx, T k l = 0) (i j : ℕ) :
    spectrum s T i j = 0 := by
  unfold spectrum
  refine Finset.sum_eq_zero fun k hk => Finset.sum_eq_zero fun l hl => ?_
  rw [h k (mem_range.mp hk) l (mem_range.mp hl), zero_mul]

end DMD

/-! ### Broadcasting -/

theorem bcastDim_comm (a b : ℕ) : bcastDim a b = bcastDim b a := by
  unfold bcastDim
  split_ifs <;> simp_all

theorem bcast_comm (a b : Shape) : bcast a b = bcast b a := by
  cases a <;> cases b <;> simp only [bcast]
  rw [bcastDim_comm, bcastDim_comm (_ : ℕ)]
  rename_i r c r' c'
  rw [bcastDim_comm c']

theorem Tensor.Denotes.map {α β : Type} {t : Tensor α} {M N : ℕ} {f : ℕ → ℕ → α} (ht : t.Denotes M N f)
    (g : α → β) : (t.map g).Denotes M N fun i j => g (f i j) := by
  refine ⟨ht.1, fun i hi j hj => ?_⟩
  simp only
  rw [← ht.2 i hi j hj]
  unfold Tensor.at_ Tensor.map
  cases t.shape <;> rfl

theorem Tensor.denotes_of_mat {α : Type} {t : Tensor α} {M N : ℕ} {f : ℕ → ℕ → α} (hs : t.shape = .mat M N)
    (h : ∀ i < M, ∀ j < N, t.get i j = f i j) : t.Denotes M N f :=
  ⟨by rw [hs, bcast_self], fun i hi j hj => by rw [Tensor.at_eq_get hs hi hj, h i hi j hj]⟩

/-- Elementwise operation of an `M x N` tensor with something that broadcasts to it. -/
theorem Tensor.map2_denotes {α β γ : Type} {a : Tensor α} {b : Tensor β} {M N : ℕ} {f : ℕ → ℕ → α}
    {g : ℕ → ℕ → β} (op : α → β → γ) (hs : a.shape = .mat M N) (ha : ∀ i < M, ∀ j < N, a.get i j = f i j)
    (hb : b.Denotes M N g) :
    ∃ t, Tensor.map2 op a b = .ok t ∧ t.shape = .mat M N ∧
      ∀ i < M, ∀ j < N, t.get i j = op (f i j) (g i j) := by
  unfold Tensor.map2
  rw [hs, bcast_comm, hb.1]
  refine ⟨_, rfl, rfl, fun i hi j hj => ?_⟩
  show op (a.at_ i j) (b.at_ i j) = _
  rw [Tensor.at_eq_get hs hi hj, ha i hi j hj, hb.2 i hi j hj]

namespace DMD

/-- The ratio of the amplitudes, pixel by pixel. -/
def ratio (u F : ℕ → ℕ → ℂ) (i j : ℕ) : XR := ratioPixel (u i j) (F i j)

/-- The windowed spectrum. -/
def wspec (s : SLM) (T w : ℕ → ℕ → ℂ) (i j : ℕ) : ℂ := spectrum s T i j * w i j

/-- The results of `_calc_amp_phase`. -/
theorem calcAmpPhase_eq {s : SLM} {tin ttg : Tensor ℂ} {win : Option (Tensor ℂ)} {u T w : ℕ → ℕ → ℂ}
    (hNx : 0 < s.Nx) (hNy : 0 < s.Ny) (hin : tin.Denotes s.Ny s.Nx u) (hts : ttg.shape = .mat s.Ny s.Nx)
    (htg : ∀ i < s.Ny, ∀ j < s.Nx, ttg.get i j = T i j)
    (hw : match win with | none => ∀ i j, w i j = 1 | some t => t.Denotes s.Ny s.Nx w) :
    ∃ ap, calcAmpPhase tin ttg win = .ok ap ∧
      ap.ampScaled.Denotes s.Ny s.Nx (fun i j => (ratio u (wspec s T w) i j).div
        (reduceMax s.Ny s.Nx (ratio u (wspec s T w)))) ∧
      ap.phaseIn.Denotes s.Ny s.Nx (fun i j => arg (u i j)) ∧
      ap.phaseOut.Denotes s.Ny s.Nx (fun i j => phaseOutPixel (wspec s T w i j)) ∧
      ap.oneOverEta = reduceMax s.Ny s.Nx (ratio u (wspec s T w)) := by
  unfold calcAmpPhase
  rw [hts]
  simp only
  rw [if_neg (by omega)]
  have hfp : ∀ i < s.Ny, ∀ j < s.Nx, targetFp s.Ny s.Nx ttg.get i j = spectrum s T i j := by
    intro i hi j hj
    rw [spectrum_eq s _ hi hj, spectrum_congr s htg]
  have hwin : ∃ fp : Tensor ℂ, applyWindow ⟨.mat s.Ny s.Nx, targetFp s.Ny s.Nx ttg.get⟩ win = .ok fp ∧
      fp.shape = .mat s.Ny s.Nx ∧ ∀ i < s.Ny, ∀ j < s.Nx, fp.get i j = wspec s T w i j := by
    cases win with
    | none =>
      refine ⟨_, rfl, rfl, fun i hi j hj => ?_⟩
      simp only at hw ⊢
      rw [hfp i hi j hj, wspec, hw, mul_one]
    | some t =>
      simp only at hw
      exact Tensor.map2_denotes (fun a b => a * b) rfl hfp hw
  obtain ⟨fp, h1, h2, h3⟩ := hwin
  rw [h1]
  simp only
  obtain ⟨t, h4, h5, h6⟩ := Tensor.map2_denotes (fun t i => ratioPixel i t) h2 h3 hin
  rw [h4]
  simp only
  rw [h5]
  have hm : reduceMax s.Ny s.Nx t.get = reduceMax s.Ny s.Nx (ratio u (wspec s T w)) := reduceMax_congr h6
  refine ⟨_, rfl, ?_, hin.map arg, ?_, hm⟩
  · simp only [hm]
    exact (Tensor.denotes_of_mat h5 h6).map _
  · exact (Tensor.denotes_of_mat h2 h3).map _

/-- What `calculate_dmd_state` computes for well-formed arguments. -/
theorem calcGrating_eq {d : DMD} {h : Profile.Heap} {inp target : ProfArg} {window : Option ProfArg}
    {u T w : ℕ → ℕ → ℂ} (m : Matching d h inp target window u T w) (method : String) (kw : CalcKwargs)
    (draw : ℕ → ℕ → ℝ) :
    ∃ (tin : Tensor ℂ) (amp : Tensor XR) (pin pout : Tensor ℝ),
      d.slm.profileToTensor h inp true true = .ok tin ∧ tin.Denotes d.slm.Ny d.slm.Nx u ∧
      amp.Denotes d.slm.Ny d.slm.Nx (fun i j => (ratio u (wspec d.slm T w) i j).div
        (reduceMax d.slm.Ny d.slm.Nx (ratio u (wspec d.slm T w)))) ∧
      pin.Denotes d.slm.Ny d.slm.Nx (fun i j => arg (u i j)) ∧
      pout.Denotes d.slm.Ny d.slm.Nx (fun i j => phaseOutPixel (wspec d.slm T w i j)) ∧
      d.calcGrating h inp target method window kw draw =
        match d.forwardKwargs h tin method kw with
        | .error e => .error e
        | .ok kw => match d.grating amp pin pout method kw draw with
          | .error e => .error e
          | .ok g => .ok (g, reduceMax d.slm.Ny d.slm.Nx (ratio u (wspec d.slm T w))) := by
  obtain ⟨hNx, hNy, ⟨tin, hti, hdi⟩, ⟨ttg, htt, hts, htg⟩, hw⟩ := m
  have hwin : ∃ win, d.windowTensor h window = .ok win ∧
      (match win with | none => ∀ i j, w i j = 1 | some t => t.Denotes d.slm.Ny d.slm.Nx w) := by
    cases window with
    | none => exact ⟨none, rfl, hw⟩
    | some a =>
      obtain ⟨t, ht, hd⟩ := hw
      refine ⟨some t, ?_, hd⟩
      unfold windowTensor
      simp only
      rw [ht]
  obtain ⟨win, hwin, hwd⟩ := hwin
  obtain ⟨ap, hap, h1, h2, h3, h4⟩ := calcAmpPhase_eq hNx hNy hdi hts htg hwd
  refine ⟨tin, ap.ampScaled, ap.phaseIn, ap.phaseOut, hti, hdi, h1, h2, h3, ?_⟩
  unfold calcGrating
  rw [hti]; simp only
  rw [htt]; simp only
  rw [hwin]; simp only
  rw [hap]; simp only
  rw [h4]
  rfl

/-- The arguments of pixel `(i, j)`, amplitude possibly not finite. -/
def pixelX (d : DMD) (A : ℕ → ℕ → XR) (φin φout : ℕ → ℕ → ℝ) (i j : ℕ) : Pix :=
  ⟨A i j, φin i j, φout i j, d.slm.fourierX i j, d.slm.fourierY i j⟩

theorem pixAt_eqX {d : DMD} {amp : Tensor XR} {pin pout : Tensor ℝ} {A : ℕ → ℕ → XR} {φin φout : ℕ → ℕ → ℝ}
    (ha : amp.Denotes d.slm.Ny d.slm.Nx A) (hi : pin.Denotes d.slm.Ny d.slm.Nx φin)
    (ho : pout.Denotes d.slm.Ny d.slm.Nx φout) {i j : ℕ} (hii : i < d.slm.Ny) (hj : j < d.slm.Nx) :
    pixAt amp pin pout d.slm.fourierGrid.1 d.slm.fourierGrid.2 i j = d.pixelX A φin φout i j := by
  unfold pixAt pixelX
  rw [ha.2 i hii j hj, hi.2 i hii j hj, ho.2 i hii j hj,
    Tensor.at_eq_get (t := d.slm.fourierGrid.1) rfl hii hj,
    Tensor.at_eq_get (t := d.slm.fourierGrid.2) rfl hii hj]
  rfl

/-- Same error, or same state. -/
def ESame : Except PyErr StateArr → Except PyErr StateArr → Prop
  | .error e, .error e' => e = e'
  | .ok a, .ok b => a.Same b
  | _, _ => False

/-- One IFTA step with a rescaled input field. -/
theorem iftaStep_scale {M N : ℕ} {inp inp' ideal ideal' window : ℕ → ℕ → ℂ} {α : ℂ} (hα : α ≠ 0)
    (hinp : ∀ i < M, ∀ j < N, inp' i j = α * inp i j) (hideal : ∀ i j, ideal' i j = α * ideal i j)
    (t : ℝ) {g g' : ℕ → ℕ → ℝ} (hg : ∀ i < M, ∀ j < N, g' i j = g i j) :
    ∀ i < M, ∀ j < N, iftaStep M N inp' ideal' window t g' i j = iftaStep M N inp ideal window t g i j := by
  have h1 : idft2 M N (fun a b => inp' a b * (iftaBinarize (g' a b) t : ℂ)) =
      fun a b => α * idft2 M N (fun a b => inp a b * (iftaBinarize (g a b) t : ℂ)) a b := by
    funext k l
    rw [← idft2_smul]
    exact congrFun (congrFun (idft2_congr fun a ha b hb => by rw [hinp a ha b hb, hg a ha b hb]; ring) k) l
  have h2 : (fun a b => iftaCorrect (idft2 M N (fun a b => inp' a b * (iftaBinarize (g' a b) t : ℂ)) a b)
      (ideal' a b) (window a b)) = fun a b => α * iftaCorrect
        (idft2 M N (fun a b => inp a b * (iftaBinarize (g a b) t : ℂ)) a b) (ideal a b) (window a b) := by
    funext a b
    rw [h1, hideal]
    unfold iftaCorrect
    ring
  intro i hi j hj
  unfold iftaStep
  rw [h2, dft2_smul, hinp i hi j hj]
  by_cases h0 : inp i j = 0
  · rw [if_pos h0, if_pos (by rw [h0, mul_zero])]
  · rw [if_neg h0, if_neg (mul_ne_zero hα h0), mul_div_mul_left _ _ hα]

theorem iftaLoop_scale {M N : ℕ} {inp inp' ideal ideal' window : ℕ → ℕ → ℂ} {α : ℂ} (hα : α ≠ 0)
    (hinp : ∀ i < M, ∀ j < N, inp' i j = α * inp i j) (hideal : ∀ i j, ideal' i j = α * ideal i j)
    (steps : ℕ) {g g' : ℕ → ℕ → ℝ} (hg : ∀ i < M, ∀ j < N, g' i j = g i j) (n : ℕ) :
    ∀ i < M, ∀ j < N, iftaLoop M N inp' ideal' window steps g' n i j =
      iftaLoop M N inp ideal window steps g n i j := by
  induction n with
  | zero => exact hg
  | succ n ih => exact iftaStep_scale hα hinp hideal _ ih

theorem iftaField_scale {M N : ℕ} {inp inp' window : ℕ → ℕ → ℂ} {α : ℂ} (hα : α ≠ 0)
    (hinp : ∀ i < M, ∀ j < N, inp' i j = α * inp i j)
    (steps : ℕ) {g g' : ℕ → ℕ → ℝ} (hg : ∀ i < M, ∀ j < N, g' i j = g i j) :
    ∀ i < M, ∀ j < N, iftaField M N inp' window steps g' i j = iftaField M N inp window steps g i j := by
  intro i hi j hj
  unfold iftaField
  rw [iftaLoop_scale hα hinp (fun k l => ?_) steps hg steps i hi j hj]
  rw [← idft2_smul]
  exact congrFun (congrFun (idft2_congr fun a ha b hb => by rw [hinp a ha b hb, hg a ha b hb]; ring) k) l

/-- The methods only depend on the pixel values of `idealPixel` and `randomDuty`, and on the input field up
to a factor. -/
theorem grating_congr {d : DMD} {amp amp' : Tensor XR} {pin pout pin' pout' : Tensor ℝ} {A A' : ℕ → ℕ → XR}
    {φin φout φin' φout' : ℕ → ℕ → ℝ}
    (ha : amp.Denotes d.slm.Ny d.slm.Nx A) (hi : pin.Denotes d.slm.Ny d.slm.Nx φin)
    (ho : pout.Denotes d.slm.Ny d.slm.Nx φout)
    (ha' : amp'.Denotes d.slm.Ny d.slm.Nx A') (hi' : pin'.Denotes d.slm.Ny d.slm.Nx φin')
    (ho' : pout'.Denotes d.slm.Ny d.slm.Nx φout')
    (hideal : ∀ i < d.slm.Ny, ∀ j < d.slm.Nx, idealPixel d.p d.theta d.neg (d.pixelX A φin φout i j) =
      idealPixel d.p d.theta d.neg (d.pixelX A' φin' φout' i j))
    (hduty : ∀ r, ∀ i < d.slm.Ny, ∀ j < d.slm.Nx, randomDuty d.p d.theta r d.neg (d.pixelX A φin φout i j) =
      randomDuty d.p d.theta r d.neg (d.pixelX A' φin' φout' i j))
    (method : String) (kw kw' : Kwargs) (hr : kw.r = kw'.r)
    (hifta : method = "ifta" → kw.N = kw'.N ∧ kw.s = kw'.s ∧ kw.signalWindow = kw'.signalWindow ∧
      ∃ ti ti' u α, kw.inputProfile = some ti ∧ kw'.inputProfile = some ti' ∧ α ≠ 0 ∧
        ti.Denotes d.slm.Ny d.slm.Nx u ∧ ti'.Denotes d.slm.Ny d.slm.Nx (fun i j => α * u i j))
    (draw : ℕ → ℕ → ℝ) :
    ESame (d.grating amp pin pout method kw draw) (d.grating amp' pin' pout' method kw' draw) := by
  classical
  have hs : gratingShape amp pin pout d.slm.fourierGrid.1 d.slm.fourierGrid.2 =
      some (.mat d.slm.Ny d.slm.Nx) := gratingShape_of ha.1 hi.1 ho.1 rfl rfl
  have hs' : gratingShape amp' pin' pout' d.slm.fourierGrid.1 d.slm.fourierGrid.2 =
      some (.mat d.slm.Ny d.slm.Nx) := gratingShape_of ha'.1 hi'.1 ho'.1 rfl rfl
  unfold grating calculateDmdGrating
  rw [hs, hs']
  by_cases h1 : method = "ideal"
  · simp only [h1, if_true]
    refine ⟨rfl, fun i hi2 j hj => ?_⟩
    simp only
    rw [pixAt_eqX ha hi ho hi2 hj, pixAt_eqX ha' hi' ho' hi2 hj, hideal i hi2 j hj]
  by_cases h2 : method = "simple"
  · simp only [h2, if_true]
    refine ⟨rfl, fun i hi2 j hj => ?_⟩
    simp only [simplePixel]
    rw [pixAt_eqX ha hi ho hi2 hj, pixAt_eqX ha' hi' ho' hi2 hj, hideal i hi2 j hj]
  by_cases h3 : method = "random"
  · simp only [h3, if_true]
    refine ⟨rfl, fun i hi2 j hj => ?_⟩
    simp only [randomPixel]
    rw [pixAt_eqX ha hi ho hi2 hj, pixAt_eqX ha' hi' ho' hi2 hj, hduty _ i hi2 j hj, hr]
  by_cases h4 : method = "ifta"
  · obtain ⟨hN, hS, hW, ti, ti', u, α, hti, hti', hα, hd, hd'⟩ := hifta h4
    simp only [h4, if_true]
    unfold gratingIfta
    rw [hti, hti', hN, hS, hW, hs, hs']
    cases kw'.signalWindow with
    | none => exact rfl
    | some win =>
      simp only [hd.1, hd'.1, ne_eq, not_true_eq_false, false_or]
      by_cases h5 : d.slm.Ny = 0 ∨ d.slm.Nx = 0 ∨ win.shape = .scalar ∨
          ¬bcast win.shape (.mat d.slm.Ny d.slm.Nx) = some (.mat d.slm.Ny d.slm.Nx)
      · rw [if_pos h5, if_pos h5]
        exact rfl
      · rw [if_neg h5, if_neg h5]
        have hg : ∀ i < d.slm.Ny, ∀ j < d.slm.Nx,
            (XR.fin (kw'.s.getD 1)).mul (idealPixel d.p d.theta d.neg
              (pixAt amp pin pout d.slm.fourierGrid.1 d.slm.fourierGrid.2 i j)) =
            (XR.fin (kw'.s.getD 1)).mul (idealPixel d.p d.theta d.neg
              (pixAt amp' pin' pout' d.slm.fourierGrid.1 d.slm.fourierGrid.2 i j)) := by
          intro i hi2 j hj
          rw [pixAt_eqX ha hi ho hi2 hj, pixAt_eqX ha' hi' ho' hi2 hj, hideal i hi2 j hj]
        have hfin : allFinite d.slm.Ny d.slm.Nx (fun i j =>
            (XR.fin (kw'.s.getD 1)).mul (idealPixel d.p d.theta d.neg
              (pixAt amp pin pout d.slm.fourierGrid.1 d.slm.fourierGrid.2 i j))) ↔
            allFinite d.slm.Ny d.slm.Nx (fun i j =>
            (XR.fin (kw'.s.getD 1)).mul (idealPixel d.p d.theta d.neg
              (pixAt amp' pin' pout' d.slm.fourierGrid.1 d.slm.fourierGrid.2 i j))) :=
          forall₂_congr fun i hi2 => forall₂_congr fun j hj => by simp only; rw [hg i hi2 j hj]
        by_cases h6 : allFinite d.slm.Ny d.slm.Nx (fun i j =>
            (XR.fin (kw'.s.getD 1)).mul (idealPixel d.p d.theta d.neg
              (pixAt amp pin pout d.slm.fourierGrid.1 d.slm.fourierGrid.2 i j)))
        · rw [if_pos h6, if_pos (hfin.mp h6)]
          refine ⟨rfl, fun i hi2 j hj => ?_⟩
          refine (iftaField_scale hα (fun a ha2 b hb => ?_) _ (fun a ha2 b hb => ?_) i hi2 j hj).symm
          · rw [hd'.2 a ha2 b hb, hd.2 a ha2 b hb]
          · rw [hg a ha2 b hb]
        · rw [if_neg h6, if_neg (fun h => h6 (hfin.mpr h))]
          by_cases h7 : kw'.N.getD 200 = 0
          · rw [if_pos h7, if_pos h7]
            refine ⟨rfl, fun i hi2 j hj => ?_⟩
            have h8 := hg i hi2 j hj
            show decide (((XR.fin (kw'.s.getD 1)).mul (idealPixel d.p d.theta d.neg
              (pixAt amp pin pout d.slm.fourierGrid.1 d.slm.fourierGrid.2 i j))).gtFin 0.5) = _
            rw [h8]
          · rw [if_neg h7, if_neg h7]
            exact ⟨rfl, fun i hi2 j hj => rfl⟩
  simp only [h1, h2, h3, h4, if_false]
  exact rfl

end DMD

end PySLM2
