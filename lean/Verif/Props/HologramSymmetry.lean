import Verif.Props.LcosMore
import Verif.Lemmas.HologramSymmetry

/-!
# C115, C116: twin images and moved targets
-/

noncomputable section

open Complex Finset

namespace PySLM2

open Lib

namespace LCOS

/-- Opposite phases with conjugate inputs predict the twin image. -/
theorem predicted_twin {s : SLM} {A A' : ℕ → ℕ → ℂ} (hA : ∀ i < s.Ny, ∀ j < s.Nx, A' i j = starRingEnd ℂ (A i j))
    {φ φ' : ℕ → ℕ → ℝ} (hφ : ∀ i < s.Ny, ∀ j < s.Nx, cexp (I * φ' i j) = starRingEnd ℂ (cexp (I * φ i j)))
    {k l : ℕ} (hk : k < s.Ny) (hl : l < s.Nx) :
    predicted s (modulated A' φ') (reflect s.Ny k) (reflect s.Nx l) = starRingEnd ℂ (predicted s (modulated A φ) k l) := by
  rw [predicted_eq _ (reflect_lt hk) (reflect_lt hl), predicted_eq _ hk hl,
    idft2_conj (v := modulated A φ) (fun i hi j hj => ?_) (fftshiftIdx_lt (reflect_lt hk)) (fftshiftIdx_lt (reflect_lt hl)),
    fftshift_reflect hk, fftshift_reflect hl]
  unfold modulated
  rw [hA i hi j hj, hφ i hi j hj, map_mul]

theorem initialPhase_twin {u u' : ℕ → ℕ → ℝ} {M N : ℕ} (hu : ∀ i < M, ∀ j < N, ∃ n : ℤ, u' i j = -u i j + n) :
    ∀ i < M, ∀ j < N, cexp (I * initialPhase u' i j) = starRingEnd ℂ (cexp (I * initialPhase u i j)) := by
  intro i hi j hj
  obtain ⟨n, hn⟩ := hu i hi j hj
  refine exp_of_opposite (n := n) ?_
  show 2 * Real.pi * u' i j = -(2 * Real.pi * u i j) + n * (2 * Real.pi)
  rw [hn]; ring

theorem target_twin {s : SLM} {T T' : ℕ → ℕ → ℝ}
    (hT : ∀ k < s.Ny, ∀ l < s.Nx, T' (reflect s.Ny k) (reflect s.Nx l) = T k l) {B B' : ℕ → ℕ → ℂ}
    (hB : ∀ a < s.Ny, ∀ b < s.Nx, B a b = ((ifftshift2 s.Ny s.Nx T a b : ℝ) : ℂ))
    (hB' : ∀ a < s.Ny, ∀ b < s.Nx, B' a b = ((ifftshift2 s.Ny s.Nx T' a b : ℝ) : ℂ)) :
    ∀ a < s.Ny, ∀ b < s.Nx, B' a b = starRingEnd ℂ (B (nidx s.Ny a) (nidx s.Nx b)) := by
  intro a ha b hb
  rw [hB' a ha b hb, hB _ (nidx_lt ha) _ (nidx_lt hb), conj_ofReal]
  unfold ifftshift2
  rw [← hT _ (ifftshiftIdx_lt (nidx_lt ha)) _ (ifftshiftIdx_lt (nidx_lt hb)), reflect_ifftshift ha, reflect_ifftshift hb]

/-- **C115.** Twin images with method `gs`: for the conjugate input field, the target turned by 180 degrees about the
origin of the image plane and opposite random draws, the hologram is the opposite one (up to multiples of `2 pi`), for
every number of iterations, and its predicted image is the conjugate of the other one turned by 180 degrees. -/
theorem C115_gs {l : LCOS} {h : Profile.Heap} {inp target inp' target' : ProfArg} {A A' : ℕ → ℕ → ℂ} {T T' : ℕ → ℕ → ℝ}
    (hargs : HologramArgs l.slm h inp target A T) (hargs' : HologramArgs l.slm h inp' target' A' T')
    (hA : ∀ i < l.slm.Ny, ∀ j < l.slm.Nx, A' i j = starRingEnd ℂ (A i j))
    (hT : ∀ k < l.slm.Ny, ∀ m < l.slm.Nx, T' (reflect l.slm.Ny k) (reflect l.slm.Nx m) = T k m) (kw : Kwargs)
    {u u' : ℕ → ℕ → ℝ} (hu : ∀ i < l.slm.Ny, ∀ j < l.slm.Nx, ∃ n : ℤ, u' i j = -u i j + n) :
    ∃ φ φ', Shows (after l h inp target "gs" kw u) φ ∧ Shows (after l h inp' target' "gs" kw u') φ' ∧
      (∀ i < l.slm.Ny, ∀ j < l.slm.Nx, ∃ n : ℤ, φ' i j = -φ i j + n * (2 * Real.pi)) ∧
      ∀ k < l.slm.Ny, ∀ m < l.slm.Nx, predicted l.slm (modulated A' φ') (reflect l.slm.Ny k) (reflect l.slm.Nx m) =
        starRingEnd ℂ (predicted l.slm (modulated A φ) k m) := by
  obtain ⟨A1, B1, hA1, hB1, e1⟩ := calculate_gs hargs
  obtain ⟨A2, B2, hA2, hB2, e2⟩ := calculate_gs hargs'
  have hφ := gsLoop_mirror (inp := A1) (inp' := A2) (target := B1) (target' := B2)
    (fun i hi j hj => by rw [hA2 i hi j hj, hA1 i hi j hj, hA i hi j hj]) (target_twin hT hB1 hB2)
    (initialPhase_twin hu) (kw.N.getD 200)
  refine ⟨_, _, by rw [after, e1]; exact shows_phaseState _ _, by rw [after, e2]; exact shows_phaseState _ _,
    fun i hi j hj => opposite_of_exp (hφ i hi j hj), fun k hk m hm => predicted_twin hA hφ hk hm⟩

/-- **C115** for method `mraf`, with the signal window turned (and conjugated) as well. -/
theorem C115_mraf {l : LCOS} {h : Profile.Heap} {inp target inp' target' : ProfArg} {A A' : ℕ → ℕ → ℂ} {T T' : ℕ → ℕ → ℝ}
    (hargs : HologramArgs l.slm h inp target A T) (hargs' : HologramArgs l.slm h inp' target' A' T')
    (hA : ∀ i < l.slm.Ny, ∀ j < l.slm.Nx, A' i j = starRingEnd ℂ (A i j))
    (hT : ∀ k < l.slm.Ny, ∀ m < l.slm.Nx, T' (reflect l.slm.Ny k) (reflect l.slm.Nx m) = T k m)
    {sw sw' : ProfArg} {W W' : ℕ → ℕ → ℂ} (hw : DMD.TargetArg l.slm h sw W) (hw' : DMD.TargetArg l.slm h sw' W')
    (hW : ∀ k < l.slm.Ny, ∀ m < l.slm.Nx, W' (reflect l.slm.Ny k) (reflect l.slm.Nx m) = starRingEnd ℂ (W k m))
    {kw kw' : Kwargs} (hk : kw.signalWindow = some sw) (hk' : kw' = { kw with signalWindow := some sw' })
    {u u' : ℕ → ℕ → ℝ} (hu : ∀ i < l.slm.Ny, ∀ j < l.slm.Nx, ∃ n : ℤ, u' i j = -u i j + n) :
    ∃ φ φ', Shows (after l h inp target "mraf" kw u) φ ∧ Shows (after l h inp' target' "mraf" kw' u') φ' ∧
      (∀ i < l.slm.Ny, ∀ j < l.slm.Nx, ∃ n : ℤ, φ' i j = -φ i j + n * (2 * Real.pi)) ∧
      ∀ k < l.slm.Ny, ∀ m < l.slm.Nx, predicted l.slm (modulated A' φ') (reflect l.slm.Ny k) (reflect l.slm.Nx m) =
        starRingEnd ℂ (predicted l.slm (modulated A φ) k m) := by
  obtain ⟨A1, B1, W1, hA1, hB1, hW1, e1⟩ := calculate_mraf hargs hw
  obtain ⟨A2, B2, W2, hA2, hB2, hW2, e2⟩ := calculate_mraf hargs' hw'
  have hφ := mrafLoop_mirror (inp := A1) (inp' := A2) (target := B1) (target' := B2) (window := W1) (window' := W2)
    (fun i hi j hj => by rw [hA2 i hi j hj, hA1 i hi j hj, hA i hi j hj]) (target_twin hT hB1 hB2)
    (fun a ha b hb => by
      rw [hW2 a ha b hb, hW1 _ (nidx_lt ha) _ (nidx_lt hb)]
      unfold ifftshift2
      rw [← hW _ (ifftshiftIdx_lt (nidx_lt ha)) _ (ifftshiftIdx_lt (nidx_lt hb)), reflect_ifftshift ha, reflect_ifftshift hb])
    (kw.mixingFactor.getD 0.4) (initialPhase_twin hu) (kw.N.getD 200)
  subst hk'
  refine ⟨_, _, by rw [after, e1 _ _ hk]; exact shows_phaseState _ _,
    by rw [after, e2 _ _ rfl]; exact shows_phaseState _ _,
    fun i hi j hj => opposite_of_exp (hφ i hi j hj), fun k hk m hm => predicted_twin hA hφ hk hm⟩

/-- The factor of a phase ramp -/
theorem exp_ramp {M N p q i j : ℕ} {x y : ℝ} {n : ℤ} (hM : 0 < M) (hN : 0 < N)
    (h : y = x - 2 * Real.pi * ((p * i : ℕ) / M + (q * j : ℕ) / N) + n * (2 * Real.pi)) :
    cexp (I * y) = cexp (I * x) * (Em M p i * Em N q j) := by
  have hM : (M : ℂ) ≠ 0 := by exact_mod_cast hM.ne'
  have hN : (N : ℂ) ≠ 0 := by exact_mod_cast hN.ne'
  rw [Em, Em, ← Complex.exp_add, ← Complex.exp_add, Complex.exp_eq_exp_iff_exists_int]
  refine ⟨n, ?_⟩
  rw [h]
  push_cast
  field_simp
  ring

theorem ramp_of_exp {M N p q i j : ℕ} {x y : ℝ} (hM : 0 < M) (hN : 0 < N)
    (h : cexp (I * y) = cexp (I * x) * (Em M p i * Em N q j)) :
    ∃ n : ℤ, y = x - 2 * Real.pi * ((p * i : ℕ) / M + (q * j : ℕ) / N) + n * (2 * Real.pi) := by
  rw [← exp_ramp (x := x) (y := x - 2 * Real.pi * ((p * i : ℕ) / M + (q * j : ℕ) / N)) (n := 0) hM hN (by push_cast; ring)] at h
  obtain ⟨n, hn⟩ := Complex.exp_eq_exp_iff_exists_int.mp h
  refine ⟨n, ?_⟩
  have h2 : I * (y : ℂ) = I * ((x - 2 * Real.pi * ((p * i : ℕ) / M + (q * j : ℕ) / N) + n * (2 * Real.pi) : ℝ) : ℂ) := by
    rw [hn]; push_cast; ring
  exact_mod_cast mul_left_cancel₀ Complex.I_ne_zero h2

/-- A phase ramp moves the predicted image. -/
theorem predicted_moved {s : SLM} {p q : ℕ} (hp : p < s.Ny) (hq : q < s.Nx) {A : ℕ → ℕ → ℂ}
    {φ φ' : ℕ → ℕ → ℝ} (hφ : ∀ i < s.Ny, ∀ j < s.Nx, A i j ≠ 0 → cexp (I * φ' i j) = cexp (I * φ i j) * (Em s.Ny p i * Em s.Nx q j))
    {k l : ℕ} (hk : k < s.Ny) (hl : l < s.Nx) :
    predicted s (modulated A φ') ((k + p) % s.Ny) ((l + q) % s.Nx) = predicted s (modulated A φ) k l := by
  have hk' : (k + p) % s.Ny < s.Ny := Nat.mod_lt _ (by omega)
  have hl' : (l + q) % s.Nx < s.Nx := Nat.mod_lt _ (by omega)
  rw [predicted_eq _ hk' hl', predicted_eq _ hk hl,
    idft2_tilt hp hq (v := modulated A φ) (fun i hi j hj => ?_) (fftshiftIdx_lt hk') (fftshiftIdx_lt hl'),
    back_fftshift hp hk, back_fftshift hq hl]
  unfold modulated
  by_cases h : A i j = 0
  · rw [h]; ring
  · rw [hφ i hi j hj h]; ring

/-- **C116.** Moving the target with method `gs`: if the target is moved (cyclically) by `(p, q)` pixels and the phase ramp
that moves an image by `(p, q)` is added to the random draw, then, for every number of iterations, the hologram has that
phase ramp added (up to multiples of `2 pi`, on the illuminated pixels) and its predicted image is moved by `(p, q)`; provided
that in no iteration the field that determines a new phase vanishes at an illuminated pixel. -/
theorem C116_moved {l : LCOS} {h : Profile.Heap} {inp target target' : ProfArg} {A : ℕ → ℕ → ℂ} {T T' : ℕ → ℕ → ℝ}
    (hargs : HologramArgs l.slm h inp target A T) (hargs' : HologramArgs l.slm h inp target' A T') {p q : ℕ}
    (hp : p < l.slm.Ny) (hq : q < l.slm.Nx)
    (hT : ∀ k < l.slm.Ny, ∀ m < l.slm.Nx, T' ((k + p) % l.slm.Ny) ((m + q) % l.slm.Nx) = T k m) {N : ℕ}
    {u u' : ℕ → ℕ → ℝ}
    (hu : ∀ i < l.slm.Ny, ∀ j < l.slm.Nx, ∃ n : ℤ, u' i j = u i j - ((p * i : ℕ) / l.slm.Ny + (q * j : ℕ) / l.slm.Nx) + n)
    (hne : ∀ n < N, ∀ φ, Shows (after l h inp target "gs" { N := some n } u) φ → ∀ i < l.slm.Ny, ∀ j < l.slm.Nx, A i j ≠ 0 →
      backPropagated l.slm (corrected l.slm A T φ) i j ≠ 0) :
    ∃ φ φ', Shows (after l h inp target "gs" { N := some N } u) φ ∧ Shows (after l h inp target' "gs" { N := some N } u') φ' ∧
      (∀ i < l.slm.Ny, ∀ j < l.slm.Nx, A i j ≠ 0 → ∃ n : ℤ,
        φ' i j = φ i j - 2 * Real.pi * ((p * i : ℕ) / l.slm.Ny + (q * j : ℕ) / l.slm.Nx) + n * (2 * Real.pi)) ∧
      ∀ k < l.slm.Ny, ∀ m < l.slm.Nx, predicted l.slm (modulated A φ') ((k + p) % l.slm.Ny) ((m + q) % l.slm.Nx) =
        predicted l.slm (modulated A φ) k m := by
  obtain ⟨A1, B1, hA1, hB1, e1⟩ := calculate_gs hargs
  obtain ⟨A2, B2, hA2, hB2, e2⟩ := calculate_gs hargs'
  have hNy := hargs.hNy
  have hNx := hargs.hNx
  have ht : ∀ a < l.slm.Ny, ∀ b < l.slm.Nx, B2 a b = B1 (back l.slm.Ny p a) (back l.slm.Nx q b) := by
    intro a ha b hb
    rw [hB2 a ha b hb, hB1 _ (back_lt ha) _ (back_lt hb)]
    unfold ifftshift2
    rw [← hT _ (ifftshiftIdx_lt (back_lt ha)) _ (ifftshiftIdx_lt (back_lt hb)), ifftshift_back hp ha, ifftshift_back hq hb]
  have hnorm : ∀ n a i : ℕ, ‖Em n a i‖ = 1 := fun n a i => by
    have h1 := E_mul_Em n a i
    rw [← conj_Em, mul_comm, Complex.mul_conj, Complex.normSq_eq_norm_sq] at h1
    have h2 : ‖Em n a i‖ ^ 2 = 1 := by exact_mod_cast h1
    nlinarith [norm_nonneg (Em n a i)]
  have key : ∀ n ≤ N, ∀ i < l.slm.Ny, ∀ j < l.slm.Nx, A i j ≠ 0 →
      cexp (I * gsLoop l.slm.Ny l.slm.Nx A2 B2 (initialPhase u') n i j) =
        cexp (I * gsLoop l.slm.Ny l.slm.Nx A1 B1 (initialPhase u) n i j) * (Em l.slm.Ny p i * Em l.slm.Nx q j) := by
    intro n
    induction n with
    | zero =>
      intro _ i hi j hj _
      obtain ⟨n, hn⟩ := hu i hi j hj
      refine exp_ramp (n := n) hNy hNx ?_
      show 2 * Real.pi * u' i j = 2 * Real.pi * u i j - _ + _
      rw [hn]; ring
    | succ n ih =>
      intro hn i hi j hj hA
      have hst := movedStep hp hq (inp := A1) (inp' := A2) (target := B1) (target' := B2)
        (fun i hi j hj => by rw [hA2 i hi j hj, hA1 i hi j hj]) ht
        (fun i hi j hj h0 => ih (by omega) i hi j hj (by rwa [hA1 i hi j hj] at h0)) i j
      show cexp (I * (arg (dft2 l.slm.Ny l.slm.Nx _ i j) : ℂ)) = cexp (I * (arg (dft2 l.slm.Ny l.slm.Nx _ i j) : ℂ)) * _
      rw [hst, expI_arg_mul _ (by rw [norm_mul, hnorm, hnorm, one_mul])]
      have h2 := hne n (by omega) _ (by rw [after, e1]; exact shows_phaseState _ _) i hi j hj hA
      rw [backPropagated_eq] at h2
      rw [dft2_congr (v := ifftshift2 l.slm.Ny l.slm.Nx (corrected l.slm A T
        (gsLoop l.slm.Ny l.slm.Nx A1 B1 (initialPhase u) n)))]
      · exact h2
      intro a ha b hb
      unfold gsCorrect ifftshift2 corrected
      rw [hB1 a ha b hb, predicted_eq _ (ifftshiftIdx_lt ha) (ifftshiftIdx_lt hb), fftshift_ifftshift ha, fftshift_ifftshift hb,
        idft2_congr (u := modulated A _) (v := modulate A1 (gsLoop l.slm.Ny l.slm.Nx A1 B1 (initialPhase u) n)) fun i hi j hj => by
          unfold modulated modulate; rw [hA1 i hi j hj]]
      rfl
  refine ⟨_, _, by rw [after, e1]; exact shows_phaseState _ _, by rw [after, e2]; exact shows_phaseState _ _,
    fun i hi j hj hA => ramp_of_exp hNy hNx (key N le_rfl i hi j hj hA),
    fun k hk m hm => predicted_moved hp hq (key N le_rfl) hk hm⟩

/-! ## Instances -/

/-- C115: an input with a phase, a target that is not symmetric, and draws that are not opposite everywhere. -/
example (h : Profile.Heap) : (∃ inp target inp' target',
    HologramArgs exLcos.slm h inp target (fun i j => I * ((i + 2 * j : ℕ) : ℝ)) (fun i j => ((i * j : ℕ) : ℝ)) ∧
    HologramArgs exLcos.slm h inp' target' (fun i j => -I * ((i + 2 * j : ℕ) : ℝ))
      (fun i j => ((reflect 4 i * reflect 6 j : ℕ) : ℝ))) ∧
    (∀ i < exLcos.slm.Ny, ∀ j < exLcos.slm.Nx, -I * ((i + 2 * j : ℕ) : ℝ) = starRingEnd ℂ (I * ((i + 2 * j : ℕ) : ℝ))) ∧
    (∀ k < exLcos.slm.Ny, ∀ m < exLcos.slm.Nx, ((reflect 4 (reflect exLcos.slm.Ny k) * reflect 6 (reflect exLcos.slm.Nx m) : ℕ) : ℝ) =
      ((k * m : ℕ) : ℝ)) ∧
    (∀ i < exLcos.slm.Ny, ∀ j < exLcos.slm.Nx, ∃ n : ℤ, (fun _ _ => 3 / 4 : ℕ → ℕ → ℝ) i j = -(fun _ _ => 1 / 4 : ℕ → ℕ → ℝ) i j + n) :=
  ⟨⟨_, _, _, _, exHologramArgs h _ _, exHologramArgs h _ _⟩, fun i _ j _ => by rw [map_mul, conj_I, conj_ofReal],
    fun k hk m hm => by
      rw [show exLcos.slm.Ny = 4 from rfl, show exLcos.slm.Nx = 6 from rfl, reflect_reflect (n := 4) hk, reflect_reflect (n := 6) hm],
    fun i _ j _ => ⟨1, by norm_num⟩⟩

/-- C116: with a single spot as target the provision holds for every number of iterations and every draw. -/
example (h : Profile.Heap) (u : ℕ → ℕ → ℝ) : ∃ inp target target', HologramArgs exLcos.slm h inp target (fun _ _ => 1) (oneSpot 1 2) ∧
    HologramArgs exLcos.slm h inp target' (fun _ _ => 1) (oneSpot 3 1) ∧
    (∀ k < exLcos.slm.Ny, ∀ m < exLcos.slm.Nx, oneSpot 3 1 ((k + 2) % exLcos.slm.Ny) ((m + 5) % exLcos.slm.Nx) = oneSpot 1 2 k m) ∧
    ∀ n, ∀ φ, Shows (after exLcos h inp target "gs" { N := some n } u) φ → ∀ i < exLcos.slm.Ny, ∀ j < exLcos.slm.Nx, (1 : ℂ) ≠ 0 →
      backPropagated exLcos.slm (corrected exLcos.slm (fun _ _ => 1) (oneSpot 1 2) φ) i j ≠ 0 := by
  refine ⟨_, _, _, exHologramArgs h _ _, exHologramArgs h _ _, ?_, ?_⟩
  · intro k hk m hm
    have hk : k < 4 := hk
    have hm : m < 6 := hm
    unfold oneSpot
    rw [show exLcos.slm.Ny = 4 from rfl, show exLcos.slm.Nx = 6 from rfl]
    congr 1
    simp only [eq_iff_iff]
    omega
  · intro n φ _ i _ j _ _
    have h1 : ∀ k l, ¬(k = 1 ∧ l = 2) → corrected exLcos.slm (fun _ _ => 1) (oneSpot 1 2) φ k l = 0 := fun k l hkl => by
      unfold corrected oneSpot; rw [if_neg hkl]; simp
    have h2 : corrected exLcos.slm (fun _ _ => 1) (oneSpot 1 2) φ 1 2 ≠ 0 := by
      unfold corrected oneSpot; rw [if_pos ⟨rfl, rfl⟩]; simp
    unfold backPropagated
    rw [Finset.sum_eq_single 1, Finset.sum_eq_single 2]
    · exact mul_ne_zero h2 (Complex.exp_ne_zero _)
    · intro l _ hl; rw [h1 1 l (by omega), zero_mul]
    · intro hl; exact absurd (mem_range.mpr (by decide)) hl
    · intro k _ hk; exact Finset.sum_eq_zero fun l _ => by rw [h1 k l (by omega), zero_mul]
    · intro hl; exact absurd (mem_range.mpr (by decide)) hl

end LCOS

end PySLM2
