import Verif.Lemmas.Spot

/-!
# LCOS holograms (C44-C50)
-/

noncomputable section

open Complex Finset

namespace PySLM2.LCOS

open Lib

/-! ## C44, C45 -/

/-- Error monotonicity for inputs of uniform phase. -/
theorem gs_error {l : LCOS} {h : Profile.Heap} {inp target : ProfArg} {A T : ℕ → ℕ → ℝ} {c : ℂ} (hc : ‖c‖ = 1)
    (ha : HologramArgs l.slm h inp target (fun i j => c * A i j) T)
    (hA : ∀ i < l.slm.Ny, ∀ j < l.slm.Nx, 0 ≤ A i j) (hT : ∀ i < l.slm.Ny, ∀ j < l.slm.Nx, 0 ≤ T i j)
    (u : ℕ → ℕ → ℝ) {N N' : ℕ} (hN : N ≤ N') :
    ∃ φ φ', Shows (after l h inp target "gs" { N := some N } u) φ ∧
      Shows (after l h inp target "gs" { N := some N' } u) φ' ∧
      imageError l.slm (fun i j => c * A i j) T φ' ≤ imageError l.slm (fun i j => c * A i j) T φ := by
  obtain ⟨A', B', hA', hB', e⟩ := calculate_gs ha
  refine ⟨gsLoop l.slm.Ny l.slm.Nx A' B' (initialPhase u) N, gsLoop l.slm.Ny l.slm.Nx A' B' (initialPhase u) N',
    ?_, ?_, ?_⟩
  · rw [after, e]; exact shows_phaseState _ _
  · rw [after, e]; exact shows_phaseState _ _
  · have key := gsLoop_le hc hA' hA hB'
      (fun a ha b hb => hT _ (ifftshiftIdx_lt ha) _ (ifftshiftIdx_lt hb)) (initialPhase u) hN
    rw [imageError_eq, imageError_eq, ← rawError_congr hA' (fun _ _ _ _ => rfl) (fun _ _ _ _ => rfl),
      ← rawError_congr hA' (fun _ _ _ _ => rfl) (fun _ _ _ _ => rfl)]
    exact key

/-- **C44.** For a non-negative input amplitude `A` and a non-negative target amplitude `T`, more iterations of
method `gs` (with the same random initial phases `u`) never increase the squared error between the modulus of
the predicted image and the target. -/
theorem C44_monotone {l : LCOS} {h : Profile.Heap} {inp target : ProfArg} {A T : ℕ → ℕ → ℝ}
    (ha : HologramArgs l.slm h inp target (fun i j => A i j) T)
    (hA : ∀ i < l.slm.Ny, ∀ j < l.slm.Nx, 0 ≤ A i j) (hT : ∀ i < l.slm.Ny, ∀ j < l.slm.Nx, 0 ≤ T i j)
    (u : ℕ → ℕ → ℝ) {N N' : ℕ} (hN : N ≤ N') :
    ∃ φ φ', Shows (after l h inp target "gs" { N := some N } u) φ ∧
      Shows (after l h inp target "gs" { N := some N' } u) φ' ∧
      imageError l.slm (fun i j => A i j) T φ' ≤ imageError l.slm (fun i j => A i j) T φ := by
  have e : (fun i j => ((A i j : ℝ) : ℂ)) = fun i j => 1 * ((A i j : ℝ) : ℂ) := by
    funext i j; rw [one_mul]
  rw [e] at ha ⊢
  exact gs_error (by simp) ha hA hT u hN

/-- **C45** (proved part): the same for complex inputs of uniform phase `c`.  Missing: inputs whose phase is not
uniform, for which it is false (`C45_refuted`). -/
theorem C45_partial {l : LCOS} {h : Profile.Heap} {inp target : ProfArg} {A T : ℕ → ℕ → ℝ} {c : ℂ} (hc : ‖c‖ = 1)
    (ha : HologramArgs l.slm h inp target (fun i j => c * A i j) T)
    (hA : ∀ i < l.slm.Ny, ∀ j < l.slm.Nx, 0 ≤ A i j) (hT : ∀ i < l.slm.Ny, ∀ j < l.slm.Nx, 0 ≤ T i j)
    (u : ℕ → ℕ → ℝ) {N N' : ℕ} (hN : N ≤ N') :
    ∃ φ φ', Shows (after l h inp target "gs" { N := some N } u) φ ∧
      Shows (after l h inp target "gs" { N := some N' } u) φ' ∧
      imageError l.slm (fun i j => c * A i j) T φ' ≤ imageError l.slm (fun i j => c * A i j) T φ :=
  gs_error hc ha hA hT u hN

/-- The image plane pixels of a target that is a single spot at `(k, l)`. -/
def oneSpot (k l i j : ℕ) : ℝ := if i = k ∧ j = l then 1 else 0

theorem ifftshift2_oneSpot {M N k l a b : ℕ} (hk : k < M) (hl : l < N) (ha : a < M) (hb : b < N) :
    ifftshift2 M N (oneSpot k l) a b = spot (fftshiftIdx M k) (fftshiftIdx N l) a b := by
  unfold ifftshift2 oneSpot spot
  have h1 : ifftshiftIdx M a = k ↔ a = fftshiftIdx M k :=
    ⟨fun h => by rw [← h, fftshift_ifftshift ha], fun h => by rw [h, ifftshift_fftshift hk]⟩
  have h2 : ifftshiftIdx N b = l ↔ b = fftshiftIdx N l :=
    ⟨fun h => by rw [← h, fftshift_ifftshift hb], fun h => by rw [h, ifftshift_fftshift hl]⟩
  simp only [h1, h2]

/-- **C45**, negation: for every device and every input beam of amplitude 1 whose phase is not uniform, there
are a target (a single spot, at any position) and a random draw for which one iteration turns a perfect hologram
into an imperfect one. -/
theorem C45_refuted {l : LCOS} {h : Profile.Heap} {inp target : ProfArg} {A : ℕ → ℕ → ℂ} {k₀ l₀ : ℕ}
    (hk : k₀ < l.slm.Ny) (hl : l₀ < l.slm.Nx) (ha : HologramArgs l.slm h inp target A (oneSpot k₀ l₀))
    (hA : ∀ i < l.slm.Ny, ∀ j < l.slm.Nx, ‖A i j‖ = 1)
    (hne : ∃ i < l.slm.Ny, ∃ j < l.slm.Nx, A i j ≠ A 0 0) :
    ∃ u : ℕ → ℕ → ℝ, (∀ i j, 0 ≤ u i j ∧ u i j < 1) ∧
      ∃ φ φ', Shows (after l h inp target "gs" { N := some 0 } u) φ ∧
        Shows (after l h inp target "gs" { N := some 1 } u) φ' ∧
        imageError l.slm A (oneSpot k₀ l₀) φ = 0 ∧ 0 < imageError l.slm A (oneSpot k₀ l₀) φ' := by
  obtain ⟨A', B', hA', hB', e⟩ := calculate_gs ha
  set M := l.slm.Ny with hM
  set N := l.slm.Nx with hN
  set p := fftshiftIdx M k₀ with hp
  set q := fftshiftIdx N l₀ with hq
  have hpM : p < M := fftshiftIdx_lt hk
  have hqN : q < N := fftshiftIdx_lt hl
  have hspot : ∀ a < M, ∀ b < N, ifftshift2 M N (oneSpot k₀ l₀) a b = spot p q a b :=
    fun a ha b hb => ifftshift2_oneSpot hk hl ha hb
  set u : ℕ → ℕ → ℝ := fun i j => drawOf (blaze M N p q i j / A i j) with hu
  have h0 : ∀ a < M, ∀ b < N, modulate A' (initialPhase u) a b = blaze M N p q a b := by
    intro a ha b hb
    have hn := hA a ha b hb
    have hA0 : A a b ≠ 0 := by rw [← norm_ne_zero_iff, hn]; norm_num
    unfold modulate initialPhase
    rw [hu, hA' a ha b hb]
    simp only
    rw [exp_drawOf (by rw [norm_div, hn, norm_blaze, div_one]), mul_div_cancel₀ _ hA0]
  have h1 := gsStep_spot hpM hqN (inp := A') (target := B')
    (fun a ha b hb => by rw [hB' a ha b hb, hspot a ha b hb]) h0
  refine ⟨u, fun i j => ⟨Int.fract_nonneg _, Int.fract_lt_one _⟩, initialPhase u,
    gsStep M N A' B' (initialPhase u), ?_, ?_, ?_, ?_⟩
  · rw [after, e]; exact shows_phaseState _ _
  · rw [after, e]; exact shows_phaseState _ _
  · rw [imageError_eq, ← rawError_congr hA' (fun a ha b hb => (hspot a ha b hb).symm) (fun _ _ _ _ => rfl)]
    refine Finset.sum_eq_zero fun a ha => Finset.sum_eq_zero fun b hb => ?_
    rw [idft2_congr h0, idft2_blaze hpM hqN (mem_range.mp ha) (mem_range.mp hb)]
    unfold spot
    split_ifs <;> simp
  · rw [imageError_eq, ← rawError_congr hA' (fun a ha b hb => (hspot a ha b hb).symm) (fun _ _ _ _ => rfl)]
    have hnn : 0 ≤ rawError M N A' (spot p q) (gsStep M N A' B' (initialPhase u)) :=
      Finset.sum_nonneg fun _ _ => Finset.sum_nonneg fun _ _ => sq_nonneg _
    refine lt_of_le_of_ne hnn fun h => ?_
    have huni := uniform_of_error hpM hqN (fun a _ b _ => h1 a b) h.symm
    obtain ⟨i, hi, j, hj, hij⟩ := hne
    apply hij
    rw [← hA' i hi j hj, ← hA' 0 (by omega) 0 (by omega), huni i hi j hj, huni 0 (by omega) 0 (by omega)]

/-! ## C46 -/

/-- **C46** (proved part): simulating the LCOS SLM with phases `φ` and an input `A` (without padding), the image
at pixel `(k, l)` has the modulus, up to the common unit factor, that the hologram algorithm predicts for the
complex conjugate input at the opposite pixel.  In particular, for real inputs the simulated image is the
predicted one, point-reflected.  Missing: the image at the pixel itself, which is different
(`C46_refuted`). -/
theorem C46_partial {s : Sim} {h : Profile.Heap} {a : ProfArg} {A m : ℕ → ℕ → ℂ} {l : LCOS} {φ : ℕ → ℕ → ℝ}
    (r : Sim.Ready s 0 0 h a A m) (hs : s.dev = .lcos l) (hφ : Shows l φ) :
    ∃ img, (s.propagate h a).1.imageField = some img ∧ img.shape = .mat l.slm.Ny l.slm.Nx ∧
      ∀ k < l.slm.Ny, ∀ j < l.slm.Nx, ‖img.get k j‖ =
        l.slm.Ny * l.slm.Nx * (l.slm.ps ^ 2 / |l.slm.wavelength * l.slm.focal|) *
          ‖predicted l.slm (modulated (fun i j => (starRingEnd ℂ) (A i j)) φ)
            (reflect l.slm.Ny k) (reflect l.slm.Nx j)‖ := by
  have hd : s.dev.slm = l.slm := by rw [hs]; rfl
  obtain ⟨t, ht1, ht2, ht3⟩ := r.modulation
  rw [hs] at ht1
  injection ht1 with ht1
  have hm : ∀ i < l.slm.Ny, ∀ j < l.slm.Nx, m i j = cexp (-I * φ i j) := by
    intro i hi j hj
    rw [← ht3 i (by rw [hd]; exact hi) j (by rw [hd]; exact hj), ← ht1]
    show cexp (-I * l.state.arr.get i j) = _
    rw [hφ.2.2 i hi j hj]
  rw [Sim.propagate_ready r]
  refine ⟨_, rfl, ?_, fun k hk j hj => ?_⟩
  · simp [hd]
  · simp only
    have := Sim.propagated_image_get A m r.hpx r.hpy (k := k) (l := j) (by rw [hd]; omega) (by rw [hd]; omega)
    refine (congrArg norm this).trans ?_
    rw [norm_mul, Complex.norm_real, Real.norm_eq_abs, hd, abs_div, abs_of_nonneg (sq_nonneg _)]
    have hsum := sum_Ec_reflect (s := l.slm) (modulated (fun i j => (starRingEnd ℂ) (A i j)) φ) hk hj
    rw [show l.slm.scaling = l.slm.wavelength * l.slm.focal from rfl,
      mul_comm ((l.slm.Ny : ℝ) * l.slm.Nx), mul_assoc, ← hsum]
    congr 2
    refine Finset.sum_congr rfl fun i hi => Finset.sum_congr rfl fun j hj => ?_
    rw [hm i (mem_range.mp hi) j (mem_range.mp hj)]
    unfold modulated
    rw [map_mul, Complex.conj_conj, ← Complex.exp_conj, map_mul, Complex.conj_I, Complex.conj_ofReal]
    simp

/-- **C46**, negation: for every device, input beam of amplitude 1, and spot position, there is a random draw
for which, with any number of iterations, the hologram is predicted to be perfect (all light in the spot and
nothing elsewhere), but the simulation shows the spot at the opposite pixel. -/
theorem C46_refuted {l : LCOS} {h : Profile.Heap} {inp target : ProfArg} {k₀ l₀ : ℕ}
    (hk : k₀ < l.slm.Ny) (hl : l₀ < l.slm.Nx) (ha : HologramArgs l.slm h inp target (fun _ _ => 1) (oneSpot k₀ l₀))
    (hps : l.slm.ps ≠ 0) (hsc : l.slm.wavelength * l.slm.focal ≠ 0) :
    ∃ u : ℕ → ℕ → ℝ, (∀ i j, 0 ≤ u i j ∧ u i j < 1) ∧ ∀ N : ℕ,
      let l' := after l h inp target "gs" { N := some N } u
      ∃ φ img, Shows l' φ ∧
        (∀ k < l.slm.Ny, ∀ j < l.slm.Nx,
          ‖predicted l.slm (modulated (fun _ _ => 1) φ) k j‖ = oneSpot k₀ l₀ k j) ∧
        (Sim.propagate ⟨.lcos l', 0, 0, none, none, none⟩ h inp).1.imageField = some img ∧
        ∀ k < l.slm.Ny, ∀ j < l.slm.Nx,
          (img.get k j ≠ 0 ↔ reflect l.slm.Ny k = k₀ ∧ reflect l.slm.Nx j = l₀) := by
  obtain ⟨A', B', hA', hB', e⟩ := calculate_gs ha
  set M := l.slm.Ny with hM
  set N := l.slm.Nx with hN
  set p := fftshiftIdx M k₀ with hp
  set q := fftshiftIdx N l₀ with hq
  have hpM : p < M := fftshiftIdx_lt hk
  have hqN : q < N := fftshiftIdx_lt hl
  have hspot : ∀ a < M, ∀ b < N, ifftshift2 M N (oneSpot k₀ l₀) a b = spot p q a b :=
    fun a ha b hb => ifftshift2_oneSpot hk hl ha hb
  set u : ℕ → ℕ → ℝ := fun i j => drawOf (blaze M N p q i j) with hu
  refine ⟨u, fun i j => ⟨Int.fract_nonneg _, Int.fract_lt_one _⟩, fun n => ?_⟩
  have h0 : ∀ a < M, ∀ b < N, modulate A' (initialPhase u) a b = blaze M N p q a b := by
    intro a ha b hb
    unfold modulate initialPhase
    rw [hu, hA' a ha b hb, one_mul]
    simp only
    rw [exp_drawOf (norm_blaze _ _ _ _ _ _)]
  have h1 := gsLoop_spot hpM hqN (target := B') hA' (fun a ha b hb => by rw [hB' a ha b hb, hspot a ha b hb]) h0 n
  set φ := gsLoop M N A' B' (initialPhase u) n with hφ
  have hl' : after l h inp target "gs" { N := some n } u = { l with state := phaseState l.slm φ } := by
    rw [after, e]; rfl
  have hshow : Shows { l with state := phaseState l.slm φ } φ := shows_phaseState _ _
  have hpred : ∀ k < M, ∀ j < N, ‖predicted l.slm (modulated (fun _ _ => 1) φ) k j‖ = oneSpot k₀ l₀ k j := by
    intro k hk' j hj
    rw [predicted_eq _ hk' hj]
    have : ∀ a < M, ∀ b < N, modulated (fun _ _ => 1) φ a b = blaze M N p q a b := by
      intro a ha b hb
      rw [← h1 a ha b hb, modulate, hA' a ha b hb, modulated]
    rw [idft2_congr this, idft2_blaze hpM hqN (fftshiftIdx_lt hk') (fftshiftIdx_lt hj),
      ← hspot _ (fftshiftIdx_lt hk') _ (fftshiftIdx_lt hj)]
    unfold ifftshift2
    rw [ifftshift_fftshift hk', ifftshift_fftshift hj, oneSpot]
    split_ifs <;> simp
  simp only
  rw [hl']
  have ready : Sim.Ready ⟨.lcos { l with state := phaseState l.slm φ }, 0, 0, none, none, none⟩ 0 0 h inp
      (fun _ _ => 1) (fun i j => cexp (-I * φ i j)) :=
    ⟨rfl, rfl, ha.hNx, ha.hNy, hsc, hps, ha.input, ⟨_, rfl, rfl, fun _ _ _ _ => rfl⟩⟩
  obtain ⟨img, i1, i2, i3⟩ := C46_partial ready rfl hshow
  refine ⟨φ, img, hshow, hpred, i1, fun k hk' j hj => ?_⟩
  have h3 := i3 k hk' j hj
  have hr : ∀ {n k : ℕ}, k < n → reflect n k < n := fun h => Nat.mod_lt _ (by omega)
  simp only [map_one] at h3
  rw [hpred _ (hr hk') _ (hr hj)] at h3
  rw [← norm_ne_zero_iff, h3, oneSpot]
  have h4 : (M : ℝ) * N * (l.slm.ps ^ 2 / |l.slm.wavelength * l.slm.focal|) ≠ 0 := by
    have : (M : ℝ) ≠ 0 := by exact_mod_cast (by omega : M ≠ 0)
    have : (N : ℝ) ≠ 0 := by exact_mod_cast (by omega : N ≠ 0)
    have : |l.slm.wavelength * l.slm.focal| ≠ 0 := by simpa using hsc
    positivity
  split_ifs with h5
  · simpa [h5] using h4
  · simp [h5]

/-! ## C47, C48, C49 -/

/-- The phases of a hologram with `N` iterations. -/
def PhaseRange (s : SLM) (N : ℕ) (u φ : ℕ → ℕ → ℝ) : Prop :=
  ∀ i < s.Ny, ∀ j < s.Nx, (1 ≤ N → -Real.pi < φ i j ∧ φ i j ≤ Real.pi) ∧
    (N = 0 → 0 ≤ u i j → u i j < 1 → 0 ≤ φ i j ∧ φ i j < 2 * Real.pi)

theorem initialPhase_range {u : ℕ → ℕ → ℝ} {i j : ℕ} (h0 : 0 ≤ u i j) (h1 : u i j < 1) :
    0 ≤ initialPhase u i j ∧ initialPhase u i j < 2 * Real.pi := by
  unfold initialPhase
  have := Real.pi_pos
  exact ⟨by positivity, by nlinarith⟩

/-- **C47.** Both methods return normally for well-formed arguments (`mraf` with a signal window) and leave a
real array of the shape of the device, with phases in `(-π, π]` after at least one iteration and in `[0, 2π)`
without iterations. -/
theorem C47_phase_range {l : LCOS} {h : Profile.Heap} {inp target : ProfArg} {A : ℕ → ℕ → ℂ} {T : ℕ → ℕ → ℝ}
    (ha : HologramArgs l.slm h inp target A T) {method : String} {kw : Kwargs}
    (hm : method = "gs" ∨ method = "mraf" ∧ ∃ sw W, kw.signalWindow = some sw ∧ DMD.TargetArg l.slm h sw W)
    (u : ℕ → ℕ → ℝ) :
    (l.calculateHologram h inp target method kw u).2 = .ok () ∧
    ∃ φ, Shows (after l h inp target method kw u) φ ∧ PhaseRange l.slm (kw.N.getD 200) u φ := by
  rcases hm with rfl | ⟨rfl, sw, W, hk, hw⟩
  · obtain ⟨A', B', hA', hB', e⟩ := calculate_gs ha
    refine ⟨by rw [e], gsLoop l.slm.Ny l.slm.Nx A' B' (initialPhase u) (kw.N.getD 200), ?_, fun i _ j _ => ⟨fun hN => ?_, fun hN h0 h1 => ?_⟩⟩
    · rw [after, e]; exact shows_phaseState _ _
    · obtain ⟨n, hn⟩ := Nat.exists_eq_add_of_le' hN
      rw [hn]
      exact ⟨Complex.neg_pi_lt_arg _, Complex.arg_le_pi _⟩
    · rw [hN]
      exact initialPhase_range h0 h1
  · obtain ⟨A', B', W', hA', hB', hW', e⟩ := calculate_mraf ha hw
    refine ⟨by rw [e _ _ hk], mrafLoop l.slm.Ny l.slm.Nx A' B' W' (kw.mixingFactor.getD 0.4) (initialPhase u)
      (kw.N.getD 200), ?_, fun i _ j _ => ⟨fun hN => ?_, fun hN h0 h1 => ?_⟩⟩
    · rw [after, e _ _ hk]; exact shows_phaseState _ _
    · obtain ⟨n, hn⟩ := Nat.exists_eq_add_of_le' hN
      rw [hn]
      exact ⟨Complex.neg_pi_lt_arg _, Complex.arg_le_pi _⟩
    · rw [hN]
      exact initialPhase_range h0 h1

/-- **C48.** With a signal window that is 1 on all image plane pixels and a positive mixing factor, method
`mraf` leaves exactly the hologram of method `gs` for the same random draw and number of iterations. -/
theorem C48_full_window {l : LCOS} {h : Profile.Heap} {inp target : ProfArg} {A : ℕ → ℕ → ℂ} {T : ℕ → ℕ → ℝ}
    (ha : HologramArgs l.slm h inp target A T) {sw : ProfArg} (hw : DMD.TargetArg l.slm h sw fun _ _ => 1)
    {m : ℝ} (hm : 0 < m) (N : Option ℕ) (u : ℕ → ℕ → ℝ) :
    ∃ φ, Shows (after l h inp target "mraf" { N := N, signalWindow := some sw, mixingFactor := some m } u) φ ∧
      Shows (after l h inp target "gs" { N := N } u) φ := by
  obtain ⟨A', B', hA', hB', e⟩ := calculate_gs ha
  obtain ⟨A2, B2, W2, hA2, hB2, hW2, e2⟩ := calculate_mraf ha hw
  refine ⟨gsLoop l.slm.Ny l.slm.Nx A' B' (initialPhase u) (N.getD 200), ?_, ?_⟩
  · rw [after, e2 _ _ rfl]
    simp only [Option.getD_some]
    rw [mrafLoop_full (inp' := A') (target' := B') hm]
    · exact shows_phaseState _ _
    · intro a ha b hb; rw [hW2 a ha b hb]; rfl
    · intro a ha b hb; rw [hA2 a ha b hb, hA' a ha b hb]
    · intro a ha b hb; rw [hB2 a ha b hb, hB' a ha b hb]
  · rw [after, e]
    exact shows_phaseState _ _

/-- **C49.** The hologram of `mraf` after `N + 1` iterations is the phase of a field on the SLM whose image `F`
is determined by the prediction `P` for the hologram after `N` iterations: inside the signal window (1) it has
the phase of `P` and `m` times the target amplitude, outside (0) it is `(1 - m) P`. -/
theorem C49_region_weighting {l : LCOS} {h : Profile.Heap} {inp target : ProfArg} {A : ℕ → ℕ → ℂ}
    {T : ℕ → ℕ → ℝ} (ha : HologramArgs l.slm h inp target A T) {sw : ProfArg} {W : ℕ → ℕ → ℂ}
    (hw : DMD.TargetArg l.slm h sw W) (m : ℝ) (N : ℕ) (u : ℕ → ℕ → ℝ) :
    ∃ φ φ' F,
      Shows (after l h inp target "mraf" { N := some N, signalWindow := some sw, mixingFactor := some m } u) φ ∧
      Shows (after l h inp target "mraf" { N := some (N + 1), signalWindow := some sw, mixingFactor := some m } u)
        φ' ∧
      (∀ i < l.slm.Ny, ∀ j < l.slm.Nx, φ' i j = arg (backPropagated l.slm F i j)) ∧
      ∀ k < l.slm.Ny, ∀ j < l.slm.Nx, let P := predicted l.slm (modulated A φ) k j
        (W k j = 1 → F k j = m * T k j * cexp (I * arg P) ∧ ‖F k j‖ = |m * T k j|) ∧
        (W k j = 0 → F k j = (1 - m) * P ∧ (m = 1 → F k j = 0)) := by
  obtain ⟨A', B', W', hA', hB', hW', e⟩ := calculate_mraf ha hw
  set φ := mrafLoop l.slm.Ny l.slm.Nx A' B' W' m (initialPhase u) N with hφ
  set C := fun a b => mrafCorrect m (B' a b) (W' a b) (idft2 l.slm.Ny l.slm.Nx (modulate A' φ) a b) with hC
  refine ⟨φ, mrafStep l.slm.Ny l.slm.Nx A' B' W' m φ,
    fun k j => C (fftshiftIdx l.slm.Ny k) (fftshiftIdx l.slm.Nx j), ?_, ?_, fun i hi j hj => ?_, fun k hk j hj => ?_⟩
  · rw [after, e _ _ rfl]; exact shows_phaseState _ _
  · rw [after, e _ _ rfl]; exact shows_phaseState _ _
  · rw [backPropagated_eq]
    show arg (dft2 _ _ C i j) = _
    refine congrArg arg (congrFun (congrFun (dft2_congr fun a ha b hb => ?_) i) j)
    simp only [ifftshift2]
    rw [fftshift_ifftshift ha, fftshift_ifftshift hb]
  · have hP : predicted l.slm (modulated A φ) k j =
        idft2 l.slm.Ny l.slm.Nx (modulate A' φ) (fftshiftIdx l.slm.Ny k) (fftshiftIdx l.slm.Nx j) := by
      rw [predicted_eq _ hk hj]
      refine congrFun (congrFun (idft2_congr fun a ha b hb => ?_) _) _
      rw [modulate, hA' a ha b hb, modulated]
    have hB : B' (fftshiftIdx l.slm.Ny k) (fftshiftIdx l.slm.Nx j) = T k j := by
      rw [hB' _ (fftshiftIdx_lt hk) _ (fftshiftIdx_lt hj)]
      unfold ifftshift2
      rw [ifftshift_fftshift hk, ifftshift_fftshift hj]
    have hW : W' (fftshiftIdx l.slm.Ny k) (fftshiftIdx l.slm.Nx j) = W k j := by
      rw [hW' _ (fftshiftIdx_lt hk) _ (fftshiftIdx_lt hj)]
      unfold ifftshift2
      rw [ifftshift_fftshift hk, ifftshift_fftshift hj]
    simp only [hC]
    rw [hB, hW, ← hP]
    unfold mrafCorrect
    refine ⟨fun h1 => ?_, fun h0 => ?_⟩
    · rw [h1]
      have : (m : ℂ) * T k j * cexp (I * arg (predicted l.slm (modulated A φ) k j)) * 1 +
          ((1 - m : ℝ) : ℂ) * predicted l.slm (modulated A φ) k j * (1 - 1) =
          m * T k j * cexp (I * arg (predicted l.slm (modulated A φ) k j)) := by ring
      rw [this]
      refine ⟨rfl, ?_⟩
      rw [norm_mul, norm_expI, mul_one, ← Complex.ofReal_mul, Complex.norm_real, Real.norm_eq_abs]
    · rw [h0]
      have : (m : ℂ) * T k j * cexp (I * arg (predicted l.slm (modulated A φ) k j)) * 0 +
          ((1 - m : ℝ) : ℂ) * predicted l.slm (modulated A φ) k j * (1 - 0) =
          (1 - m) * predicted l.slm (modulated A φ) k j := by push_cast; ring
      rw [this]
      exact ⟨rfl, fun h => by rw [h]; simp⟩

/-! ## C50 -/

/-- **C50.** An unknown method raises `ValueError` and leaves the SLM alone. -/
theorem C50_unknown_method {l : LCOS} {h : Profile.Heap} {inp target : ProfArg} {A : ℕ → ℕ → ℂ} {T : ℕ → ℕ → ℝ}
    (ha : HologramArgs l.slm h inp target A T) {method : String} (hg : method ≠ "gs") (hm : method ≠ "mraf")
    (kw : Kwargs) (u : ℕ → ℕ → ℝ) :
    l.calculateHologram h inp target method kw u = (l, .error .valueError) := by
  obtain ⟨hNx, hNy, ⟨ti, hi1, hi2, hi3⟩, ⟨tt, ht1, ht2, ht3⟩⟩ := ha
  unfold calculateHologram hologram
  rw [hi1]
  simp only
  rw [ht1]
  simp only
  unfold forwardKwargs
  rw [if_neg hm]
  simp only
  unfold calculateLcosSlmHologram
  rw [if_neg hg, if_neg hm]

/-- **C50.** Method `mraf` without `signal_window` raises `KeyError` and leaves the SLM alone. -/
theorem C50_missing_window {l : LCOS} {h : Profile.Heap} {inp target : ProfArg} {A : ℕ → ℕ → ℂ} {T : ℕ → ℕ → ℝ}
    (ha : HologramArgs l.slm h inp target A T) {kw : Kwargs} (hk : kw.signalWindow = none) (u : ℕ → ℕ → ℝ) :
    l.calculateHologram h inp target "mraf" kw u = (l, .error .keyError) := by
  obtain ⟨hNx, hNy, ⟨ti, hi1, hi2, hi3⟩, ⟨tt, ht1, ht2, ht3⟩⟩ := ha
  unfold calculateHologram hologram
  rw [hi1]
  simp only
  rw [ht1]
  simp only
  unfold forwardKwargs
  rw [if_pos rfl, hk]

/-- **C50.** Whatever the arguments, if `calculate_hologram` raises, the SLM is unchanged. -/
theorem C50_failed (l : LCOS) (h : Profile.Heap) (inp target : ProfArg) (method : String) (kw : Kwargs)
    (u : ℕ → ℕ → ℝ) {e : PyErr} (he : (l.calculateHologram h inp target method kw u).2 = .error e) :
    (l.calculateHologram h inp target method kw u).1 = l := by
  unfold calculateHologram at he ⊢
  split at he
  · rfl
  · cases he

/-! ## Instances -/

/-- A 4 x 6 LCOS SLM. -/
def exLcos : LCOS := LCOS.new ⟨3, 5, 6, 4, 2⟩

theorem exHologramArgs (h : Profile.Heap) (A : ℕ → ℕ → ℂ) (T : ℕ → ℕ → ℝ) :
    HologramArgs exLcos.slm h (.ndarray .cplx ⟨.mat 4 6, A⟩)
      (.ndarray .real ⟨.mat 4 6, fun i j => ((T i j : ℝ) : ℂ)⟩) A T :=
  ⟨by decide, by decide, ⟨_, rfl, rfl, fun _ _ _ _ => rfl⟩, ⟨_, rfl, rfl, fun _ _ _ _ => rfl⟩⟩

/-- C44, C45_partial: arguments with amplitudes that are not constant. -/
example (h : Profile.Heap) : ∃ inp target, HologramArgs exLcos.slm h inp target
    (fun i j => I * ((i + 2 * j : ℕ) : ℝ)) (fun i j => ((i * j : ℕ) : ℝ)) :=
  ⟨_, _, exHologramArgs h _ _⟩

/-- C45_refuted: an input with a phase gradient. -/
example (h : Profile.Heap) : ∃ inp target, HologramArgs exLcos.slm h inp target (fun _ j => I ^ j) (oneSpot 1 2) ∧
    (∀ i < exLcos.slm.Ny, ∀ j < exLcos.slm.Nx, ‖I ^ j‖ = 1) ∧
    ∃ i < exLcos.slm.Ny, ∃ j < exLcos.slm.Nx, I ^ j ≠ I ^ 0 :=
  ⟨_, _, exHologramArgs h _ _, fun i _ j _ => by simp,
    0, by decide, 2, by decide, by simp; norm_num⟩

/-- C46_refuted: a spot that is not its own reflection. -/
example (h : Profile.Heap) : (∃ inp target, HologramArgs exLcos.slm h inp target (fun _ _ => 1) (oneSpot 1 2)) ∧
    exLcos.slm.ps ≠ 0 ∧ exLcos.slm.wavelength * exLcos.slm.focal ≠ 0 ∧
    reflect 4 3 = 1 ∧ reflect 6 4 = 2 ∧ (3, 4) ≠ (1, 2) :=
  ⟨⟨_, _, exHologramArgs h _ _⟩, by norm_num [exLcos, LCOS.new], by norm_num [exLcos, LCOS.new], rfl, rfl, by decide⟩

/-- C47, C48, C49: a signal window. -/
example (h : Profile.Heap) (W : ℕ → ℕ → ℂ) : ∃ sw, DMD.TargetArg exLcos.slm h sw W :=
  ⟨.ndarray .cplx ⟨.mat 4 6, W⟩, _, rfl, rfl, fun _ _ _ _ => rfl⟩

end PySLM2.LCOS
