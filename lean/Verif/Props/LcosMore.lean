import Verif.Props.Lcos

/-!
# C88, C89: scale invariance and fixed points of the hologram algorithms
-/

noncomputable section

open Complex Finset

namespace PySLM2

open Lib

namespace LCOS

theorem gsStep_scale {M N : ℕ} {inp inp' target target' : ℕ → ℕ → ℂ} {a b : ℝ} (ha : 0 < a) (hb : 0 < b)
    (hi : ∀ i < M, ∀ j < N, inp' i j = a * inp i j) (ht : ∀ i < M, ∀ j < N, target' i j = b * target i j)
    (φ : ℕ → ℕ → ℝ) : gsStep M N inp' target' φ = gsStep M N inp target φ := by
  have h1 : idft2 M N (modulate inp' φ) = fun k l => (a : ℂ) * idft2 M N (modulate inp φ) k l := by
    rw [idft2_congr (v := fun i j => (a : ℂ) * modulate inp φ i j) fun i h1 j h2 => by
      unfold modulate; rw [hi i h1 j h2]; ring]
    funext k l
    rw [idft2_smul]
  funext k l
  show arg (dft2 M N (fun i j => gsCorrect (target' i j) (idft2 M N (modulate inp' φ) i j)) k l) =
    arg (dft2 M N (fun i j => gsCorrect (target i j) (idft2 M N (modulate inp φ) i j)) k l)
  rw [h1, dft2_congr (v := fun i j => (b : ℂ) * gsCorrect (target i j) (idft2 M N (modulate inp φ) i j)),
    dft2_smul, Complex.arg_real_mul _ hb]
  intro i h2 j h3
  unfold gsCorrect
  rw [ht i h2 j h3, Complex.arg_real_mul _ ha]
  ring

theorem gsLoop_scale {M N : ℕ} {inp inp' target target' : ℕ → ℕ → ℂ} {a b : ℝ} (ha : 0 < a) (hb : 0 < b)
    (hi : ∀ i < M, ∀ j < N, inp' i j = a * inp i j) (ht : ∀ i < M, ∀ j < N, target' i j = b * target i j)
    (φ : ℕ → ℕ → ℝ) (n : ℕ) : gsLoop M N inp' target' φ n = gsLoop M N inp target φ n := by
  induction n with
  | zero => rfl
  | succ n ih =>
    unfold gsLoop
    rw [ih]
    exact gsStep_scale ha hb hi ht _

theorem mrafStep_scale {M N : ℕ} {inp inp' target target' window window' : ℕ → ℕ → ℂ} {a : ℝ} (ha : 0 < a)
    (hi : ∀ i < M, ∀ j < N, inp' i j = a * inp i j) (ht : ∀ i < M, ∀ j < N, target' i j = a * target i j)
    (hw : ∀ i < M, ∀ j < N, window' i j = window i j) (m : ℝ) (φ : ℕ → ℕ → ℝ) :
    mrafStep M N inp' target' window' m φ = mrafStep M N inp target window m φ := by
  have h1 : idft2 M N (modulate inp' φ) = fun k l => (a : ℂ) * idft2 M N (modulate inp φ) k l := by
    rw [idft2_congr (v := fun i j => (a : ℂ) * modulate inp φ i j) fun i h1 j h2 => by
      unfold modulate; rw [hi i h1 j h2]; ring]
    funext k l
    rw [idft2_smul]
  funext k l
  show arg (dft2 M N (fun i j => mrafCorrect m (target' i j) (window' i j) (idft2 M N (modulate inp' φ) i j)) k l) =
    arg (dft2 M N (fun i j => mrafCorrect m (target i j) (window i j) (idft2 M N (modulate inp φ) i j)) k l)
  rw [h1, dft2_congr (v := fun i j => (a : ℂ) * mrafCorrect m (target i j) (window i j) (idft2 M N (modulate inp φ) i j)),
    dft2_smul, Complex.arg_real_mul _ ha]
  intro i h2 j h3
  unfold mrafCorrect
  rw [ht i h2 j h3, hw i h2 j h3, Complex.arg_real_mul _ ha]
  ring

theorem mrafLoop_scale {M N : ℕ} {inp inp' target target' window window' : ℕ → ℕ → ℂ} {a : ℝ} (ha : 0 < a)
    (hi : ∀ i < M, ∀ j < N, inp' i j = a * inp i j) (ht : ∀ i < M, ∀ j < N, target' i j = a * target i j)
    (hw : ∀ i < M, ∀ j < N, window' i j = window i j) (m : ℝ) (φ : ℕ → ℕ → ℝ) (n : ℕ) :
    mrafLoop M N inp' target' window' m φ n = mrafLoop M N inp target window m φ n := by
  induction n with
  | zero => rfl
  | succ n ih =>
    unfold mrafLoop
    rw [ih]
    exact mrafStep_scale ha hi ht hw m _

/-- **C88.** The units of the input field and of the target do not matter to method `gs`: multiplying them by positive
numbers leaves the hologram unchanged, for the same random draw and number of iterations. -/
theorem C88_gs {l : LCOS} {h : Profile.Heap} {inp target inp' target' : ProfArg} {A : ℕ → ℕ → ℂ} {T : ℕ → ℕ → ℝ}
    {a b : ℝ} (ha : 0 < a) (hb : 0 < b) (hargs : HologramArgs l.slm h inp target A T)
    (hargs' : HologramArgs l.slm h inp' target' (fun i j => a * A i j) fun i j => b * T i j)
    (kw : Kwargs) (u : ℕ → ℕ → ℝ) :
    ∃ φ, Shows (after l h inp target "gs" kw u) φ ∧ Shows (after l h inp' target' "gs" kw u) φ := by
  obtain ⟨A1, B1, hA1, hB1, e1⟩ := calculate_gs hargs
  obtain ⟨A2, B2, hA2, hB2, e2⟩ := calculate_gs hargs'
  refine ⟨gsLoop l.slm.Ny l.slm.Nx A1 B1 (initialPhase u) (kw.N.getD 200), ?_, ?_⟩
  · rw [after, e1]
    exact shows_phaseState _ _
  · rw [after, e2, gsLoop_scale (inp := A1) (target := B1) ha hb]
    · exact shows_phaseState _ _
    · intro i hi j hj; rw [hA2 i hi j hj, hA1 i hi j hj]
    · intro i hi j hj; rw [hB2 i hi j hj, hB1 i hi j hj]; unfold ifftshift2; push_cast; rfl

/-- **C88** for method `mraf`, whose mixing compares the target with the predicted image: the common unit of the input
field and the target does not matter. -/
theorem C88_mraf {l : LCOS} {h : Profile.Heap} {inp target inp' target' : ProfArg} {A : ℕ → ℕ → ℂ} {T : ℕ → ℕ → ℝ}
    {a : ℝ} (ha : 0 < a) (hargs : HologramArgs l.slm h inp target A T)
    (hargs' : HologramArgs l.slm h inp' target' (fun i j => a * A i j) fun i j => a * T i j)
    {sw : ProfArg} {W : ℕ → ℕ → ℂ} (hw : DMD.TargetArg l.slm h sw W) {kw : Kwargs} (hk : kw.signalWindow = some sw)
    (u : ℕ → ℕ → ℝ) :
    ∃ φ, Shows (after l h inp target "mraf" kw u) φ ∧ Shows (after l h inp' target' "mraf" kw u) φ := by
  obtain ⟨A1, B1, W1, hA1, hB1, hW1, e1⟩ := calculate_mraf hargs hw
  obtain ⟨A2, B2, W2, hA2, hB2, hW2, e2⟩ := calculate_mraf hargs' hw
  refine ⟨mrafLoop l.slm.Ny l.slm.Nx A1 B1 W1 (kw.mixingFactor.getD 0.4) (initialPhase u) (kw.N.getD 200), ?_, ?_⟩
  · rw [after, e1 _ _ hk]
    exact shows_phaseState _ _
  · rw [after, e2 _ _ hk, mrafLoop_scale (inp := A1) (target := B1) (window := W1) ha]
    · exact shows_phaseState _ _
    · intro i hi j hj; rw [hA2 i hi j hj, hA1 i hi j hj]
    · intro i hi j hj; rw [hB2 i hi j hj, hB1 i hi j hj]; unfold ifftshift2; push_cast; rfl
    · intro i hi j hj; rw [hW2 i hi j hj, hW1 i hi j hj]

/-- **C47**, without iterations: the hologram is the random draw, uniform over the full circle. -/
theorem C47_initial {l : LCOS} {h : Profile.Heap} {inp target : ProfArg} {A : ℕ → ℕ → ℂ} {T : ℕ → ℕ → ℝ}
    (ha : HologramArgs l.slm h inp target A T) {kw : Kwargs} (hN : kw.N = some 0) (u : ℕ → ℕ → ℝ) :
    Shows (after l h inp target "gs" kw u) fun i j => 2 * Real.pi * u i j := by
  obtain ⟨A', B', hA', hB', e⟩ := calculate_gs ha
  rw [after, e, hN]
  exact shows_phaseState _ _

/-- If the predicted image already has the target modulus, a step gives back the modulation. -/
theorem gsStep_fixed {M N : ℕ} {inp target : ℕ → ℕ → ℂ} {φ : ℕ → ℕ → ℝ}
    (hpos : ∀ i < M, ∀ j < N, 0 < (inp i j).re ∧ (inp i j).im = 0)
    (h0 : ∀ k < M, ∀ l < N, target k l = (‖idft2 M N (modulate inp φ) k l‖ : ℂ)) {i j : ℕ} (hi : i < M) (hj : j < N) :
    gsStep M N inp target φ i j = arg (cexp (I * φ i j)) := by
  show arg (dft2 M N (fun i j => gsCorrect (target i j) (idft2 M N (modulate inp φ) i j)) i j) = _
  rw [dft2_congr (v := idft2 M N (modulate inp φ)), dft2_idft2 _ hi hj]
  · unfold modulate
    obtain ⟨h1, h2⟩ := hpos i hi j hj
    have : inp i j = ((inp i j).re : ℂ) := Complex.ext rfl (by simpa using h2)
    rw [this, Complex.arg_real_mul _ h1]
  · intro k hk l hl
    unfold gsCorrect
    rw [h0 k hk l hl, mul_expI_arg]

/-- **C89.** A perfect hologram is a fixed point of Gerchberg-Saxton: if with some number of iterations the predicted
image has exactly the target modulus everywhere, then more iterations show the same hologram (up to multiples of `2 pi`),
for every input that is real and positive on the device. -/
theorem C89_fixed_point {l : LCOS} {h : Profile.Heap} {inp target : ProfArg} {A : ℕ → ℕ → ℝ} {T : ℕ → ℕ → ℝ}
    (ha : HologramArgs l.slm h inp target (fun i j => A i j) T)
    (hpos : ∀ i < l.slm.Ny, ∀ j < l.slm.Nx, 0 < A i j) {N : ℕ} (u : ℕ → ℕ → ℝ) {φ : ℕ → ℕ → ℝ}
    (hφ : Shows (after l h inp target "gs" { N := some N } u) φ)
    (h0 : ∀ k < l.slm.Ny, ∀ j < l.slm.Nx, ‖predicted l.slm (modulated (fun i j => A i j) φ) k j‖ = T k j)
    {N' : ℕ} (hN : N ≤ N') :
    ∃ φ', Shows (after l h inp target "gs" { N := some N' } u) φ' ∧
      (∀ i < l.slm.Ny, ∀ j < l.slm.Nx, ∃ n : ℤ, φ' i j = φ i j + n * (2 * Real.pi)) ∧
      (1 ≤ N → ∀ i < l.slm.Ny, ∀ j < l.slm.Nx, φ' i j = φ i j) := by
  obtain ⟨A', B', hA', hB', e⟩ := calculate_gs ha
  have hshow : ∀ n : ℕ, Shows (after l h inp target "gs" { N := some n } u)
      (gsLoop l.slm.Ny l.slm.Nx A' B' (initialPhase u) n) := fun n => by
    rw [after, e]; exact shows_phaseState _ _
  have hsl : ∀ n : ℕ, (after l h inp target "gs" { N := some n } u).slm = l.slm := fun n => by rw [after, e]
  have hφe : ∀ i < l.slm.Ny, ∀ j < l.slm.Nx, φ i j = gsLoop l.slm.Ny l.slm.Nx A' B' (initialPhase u) N i j := by
    have := hφ.unique (hshow N)
    rwa [hsl] at this
  have main : ∀ n, N ≤ n → ∀ i < l.slm.Ny, ∀ j < l.slm.Nx,
      cexp (I * gsLoop l.slm.Ny l.slm.Nx A' B' (initialPhase u) n i j) = cexp (I * φ i j) ∧
      (1 ≤ N → gsLoop l.slm.Ny l.slm.Nx A' B' (initialPhase u) n i j = φ i j) := by
    intro n hn
    induction n, hn using Nat.le_induction with
    | base => exact fun i hi j hj => ⟨by rw [hφe i hi j hj], fun _ => (hφe i hi j hj).symm⟩
    | succ n _ ih =>
      intro i hi j hj
      have hst : gsLoop l.slm.Ny l.slm.Nx A' B' (initialPhase u) (n + 1) i j = arg (cexp (I * φ i j)) := by
        show gsStep _ _ A' B' (gsLoop l.slm.Ny l.slm.Nx A' B' (initialPhase u) n) i j = _
        rw [gsStep_fixed (fun i hi j hj => by rw [hA' i hi j hj]; exact ⟨by simpa using hpos i hi j hj, by simp⟩) _ hi hj,
          (ih i hi j hj).1]
        intro k hk m hm
        rw [hB' k hk m hm]
        congr 1
        unfold ifftshift2
        rw [← h0 _ (ifftshiftIdx_lt hk) _ (ifftshiftIdx_lt hm), predicted_eq _ (ifftshiftIdx_lt hk) (ifftshiftIdx_lt hm),
          fftshift_ifftshift hk, fftshift_ifftshift hm]
        rw [idft2_congr (u := modulated (fun i j => (A i j : ℂ)) φ)
          (v := modulate A' (gsLoop l.slm.Ny l.slm.Nx A' B' (initialPhase u) n)) fun i hi j hj => by
            unfold modulated modulate; rw [hA' i hi j hj, (ih i hi j hj).1]]
      rw [hst]
      refine ⟨?_, fun h1 => ?_⟩
      · have := mul_expI_arg (cexp (I * φ i j))
        rwa [norm_expI, ofReal_one, one_mul] at this
      · have hr : φ i j ∈ Set.Ioc (-Real.pi) Real.pi := by
          obtain ⟨p, hp⟩ := Nat.exists_eq_add_of_le' h1
          rw [hφe i hi j hj, hp]
          exact ⟨Complex.neg_pi_lt_arg _, Complex.arg_le_pi _⟩
        rw [mul_comm I, Complex.arg_exp_mul_I, (toIocMod_eq_self Real.two_pi_pos).mpr]
        convert hr using 1
        ring_nf
  refine ⟨_, hshow N', fun i hi j hj => ?_, fun h1 i hi j hj => (main N' hN i hi j hj).2 h1⟩
  have := (main N' hN i hi j hj).1
  obtain ⟨n, hn⟩ := Complex.exp_eq_exp_iff_exists_int.mp this
  refine ⟨n, ?_⟩
  have h2 : I * ((gsLoop l.slm.Ny l.slm.Nx A' B' (initialPhase u) N' i j : ℝ) : ℂ) = I * ((φ i j + n * (2 * Real.pi) : ℝ) : ℂ) := by
    rw [hn]; push_cast; ring
  exact_mod_cast mul_left_cancel₀ Complex.I_ne_zero h2

/-! ## Instances -/

/-- C88: amplitudes that are not constant, tripled input, halved target. -/
example (h : Profile.Heap) :
    (∃ inp target, HologramArgs exLcos.slm h inp target (fun i j => I * ((i + 2 * j : ℕ) : ℝ)) (fun i j => ((i * j : ℕ) : ℝ))) ∧
    (∃ inp target, HologramArgs exLcos.slm h inp target (fun i j => (3 : ℝ) * (I * ((i + 2 * j : ℕ) : ℝ)))
      (fun i j => (1 / 2 : ℝ) * ((i * j : ℕ) : ℝ))) ∧
    ∃ sw, DMD.TargetArg exLcos.slm h sw fun i _ => i :=
  ⟨⟨_, _, exHologramArgs h _ _⟩, ⟨_, _, exHologramArgs h _ _⟩, .ndarray .cplx ⟨.mat 4 6, fun i _ => i⟩, _, rfl, rfl, fun _ _ _ _ => rfl⟩

/-- C89: for every draw there is a target met exactly, with any positive input. -/
example (h : Profile.Heap) (u : ℕ → ℕ → ℝ) : ∃ inp target T φ, HologramArgs exLcos.slm h inp target
      (fun i j => (((i + j + 1 : ℕ) : ℝ) : ℂ)) T ∧
    (∀ i < exLcos.slm.Ny, ∀ j < exLcos.slm.Nx, (0 : ℝ) < ((i + j + 1 : ℕ) : ℝ)) ∧
    Shows (after exLcos h inp target "gs" { N := some 0 } u) φ ∧
    ∀ k < exLcos.slm.Ny, ∀ j < exLcos.slm.Nx,
      ‖predicted exLcos.slm (modulated (fun i j => (((i + j + 1 : ℕ) : ℝ) : ℂ)) φ) k j‖ = T k j := by
  have ha := exHologramArgs h (fun i j => (((i + j + 1 : ℕ) : ℝ) : ℂ)) (fun k j =>
    ‖predicted exLcos.slm (modulated (fun i j => (((i + j + 1 : ℕ) : ℝ) : ℂ)) fun i j => 2 * Real.pi * u i j) k j‖)
  exact ⟨_, _, _, _, ha, fun i _ j _ => by positivity, C47_initial ha rfl u, fun k _ j _ => rfl⟩

end LCOS

end PySLM2
