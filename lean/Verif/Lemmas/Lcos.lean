import Verif.Spec.Lcos
import Verif.Lemmas.Dft
import Verif.Lemmas.Centred
import Verif.Lemmas.Simulation

/-!
# Lemmas on the hologram algorithms
-/

noncomputable section

open Complex Finset

namespace PySLM2

open Lib

namespace LCOS

theorem E_fftshift {n k a : ℕ} (hk : k < n) :
    E n (fftshiftIdx n k) a = cexp ((2 * Real.pi * I) * (((k : ℂ) - (n / 2 : ℕ)) * a / n)) := by
  have hn : (n : ℂ) ≠ 0 := by exact_mod_cast (by omega : n ≠ 0)
  obtain ⟨z, hz⟩ := fftshiftIdx_int hk
  rw [E, hz]
  rw [Complex.exp_eq_exp_iff_exists_int]
  refine ⟨z * a, ?_⟩
  generalize (n / 2 : ℕ) = c
  push_cast
  field_simp

theorem Em_fftshift {n k a : ℕ} (hk : k < n) :
    Em n (fftshiftIdx n k) a = cexp (-(2 * Real.pi * I) * (((k : ℂ) - (n / 2 : ℕ)) * a / n)) := by
  have h1 := E_mul_Em n (fftshiftIdx n k) a
  rw [E_fftshift hk] at h1
  have h2 : cexp ((2 * Real.pi * I) * (((k : ℂ) - (n / 2 : ℕ)) * a / n)) *
      cexp (-(2 * Real.pi * I) * (((k : ℂ) - (n / 2 : ℕ)) * a / n)) = 1 := by
    rw [← Complex.exp_add]; simp
  exact mul_left_cancel₀ (Complex.exp_ne_zero _) (h1.trans h2.symm)

theorem predicted_eq {s : SLM} (U : ℕ → ℕ → ℂ) {k l : ℕ} (hk : k < s.Ny) (hl : l < s.Nx) :
    predicted s U k l = idft2 s.Ny s.Nx U (fftshiftIdx s.Ny k) (fftshiftIdx s.Nx l) := by
  rw [idft2_eq, predicted]
  congr 1
  refine Finset.sum_congr rfl fun i _ => Finset.sum_congr rfl fun j _ => ?_
  rw [E_fftshift hk, E_fftshift hl, ← Complex.exp_add]
  congr 2
  ring

theorem backPropagated_eq {s : SLM} (F : ℕ → ℕ → ℂ) (i j : ℕ) :
    backPropagated s F i j = dft2 s.Ny s.Nx (ifftshift2 s.Ny s.Nx F) i j := by
  rw [dft2_eq]
  unfold ifftshift2
  rw [sum_ifftshift s.Ny (fun k a => ∑ b ∈ range s.Nx, F k (ifftshiftIdx s.Nx b) * (Em s.Ny i a * Em s.Nx j b))]
  unfold backPropagated
  refine Finset.sum_congr rfl fun k hk => ?_
  rw [sum_ifftshift s.Nx (fun l b => F k l * (Em s.Ny i (fftshiftIdx s.Ny k) * Em s.Nx j b))]
  refine Finset.sum_congr rfl fun l hl => ?_
  rw [Em_comm, Em_fftshift (mem_range.mp hk), Em_comm, Em_fftshift (mem_range.mp hl), ← Complex.exp_add]
  congr 2
  ring

theorem sum2_ifftshift {M N : ℕ} (g : ℕ → ℕ → ℝ) :
    ∑ k ∈ range M, ∑ l ∈ range N, g (fftshiftIdx M k) (fftshiftIdx N l) = ∑ a ∈ range M, ∑ b ∈ range N, g a b := by
  rw [← sum_ifftshift M (fun _ a => ∑ l ∈ range N, g a (fftshiftIdx N l))]
  refine Finset.sum_congr rfl fun a _ => ?_
  rw [← sum_ifftshift N (fun _ b => g a b)]

/-- The error in the order of indices of the algorithm. -/
def rawError (M N : ℕ) (A : ℕ → ℕ → ℂ) (B : ℕ → ℕ → ℝ) (φ : ℕ → ℕ → ℝ) : ℝ :=
  ∑ a ∈ range M, ∑ b ∈ range N, (‖idft2 M N (modulate A φ) a b‖ - B a b) ^ 2

theorem imageError_eq (s : SLM) (A : ℕ → ℕ → ℂ) (T φ : ℕ → ℕ → ℝ) :
    imageError s A T φ = rawError s.Ny s.Nx A (ifftshift2 s.Ny s.Nx T) φ := by
  unfold imageError rawError
  rw [← sum2_ifftshift (fun a b => (‖idft2 s.Ny s.Nx (modulate A φ) a b‖ - ifftshift2 s.Ny s.Nx T a b) ^ 2)]
  refine Finset.sum_congr rfl fun k hk => Finset.sum_congr rfl fun l hl => ?_
  rw [predicted_eq _ (mem_range.mp hk) (mem_range.mp hl)]
  unfold ifftshift2
  rw [ifftshift_fftshift (mem_range.mp hk), ifftshift_fftshift (mem_range.mp hl)]
  rfl

theorem norm_expI (x : ℝ) : ‖cexp (I * x)‖ = 1 := by
  rw [mul_comm, Complex.norm_exp_ofReal_mul_I]

theorem mul_expI_arg (z : ℂ) : (‖z‖ : ℂ) * cexp (I * (arg z : ℂ)) = z := by
  rw [mul_comm I, Complex.norm_mul_exp_arg_mul_I]

/-- The point of modulus `a` with the phase of `h` is at least as near to `h` as any other point of modulus
`a`. -/
theorem nearest (a : ℝ) (ha : 0 ≤ a) (h w : ℂ) (hw : ‖w‖ = a) :
    ‖(a : ℂ) * cexp (I * (arg h : ℂ)) - h‖ ≤ ‖w - h‖ := by
  have h1 : (a : ℂ) * cexp (I * (arg h : ℂ)) - h = ((a - ‖h‖ : ℝ) : ℂ) * cexp (I * (arg h : ℂ)) := by
    conv_lhs => rw [← mul_expI_arg h]
    rw [mul_expI_arg h]
    push_cast
    rw [sub_mul, mul_expI_arg]
  rw [h1, norm_mul, norm_expI, mul_one, Complex.norm_real, Real.norm_eq_abs, ← hw]
  exact abs_norm_sub_norm_le w h

/-- How much nearer: the difference is the phase change weighted by the moduli. -/
theorem nearest_drop (a : ℝ) (h z : ℂ) (hz : ‖z‖ = 1) :
    ‖(a : ℂ) * cexp (I * (arg h : ℂ)) - h‖ ^ 2 + a * ‖h‖ * ‖z - cexp (I * (arg h : ℂ))‖ ^ 2 = ‖(a : ℂ) * z - h‖ ^ 2 := by
  set e := cexp (I * (arg h : ℂ)) with he
  have hn : ‖e‖ = 1 := norm_expI _
  have hh : h = (‖h‖ : ℂ) * e := (mul_expI_arg h).symm
  clear_value e
  clear he
  generalize ‖h‖ = r at hh ⊢
  subst hh
  rw [← Complex.normSq_eq_norm_sq, ← Complex.normSq_eq_norm_sq, ← Complex.normSq_eq_norm_sq]
  have h1 : e.re * e.re + e.im * e.im = 1 := by
    rw [← Complex.normSq_apply, Complex.normSq_eq_norm_sq, hn]; norm_num
  have h2 : z.re * z.re + z.im * z.im = 1 := by
    rw [← Complex.normSq_apply, Complex.normSq_eq_norm_sq, hz]; norm_num
  simp only [Complex.normSq_apply, Complex.sub_re, Complex.sub_im, Complex.mul_re, Complex.mul_im, Complex.ofReal_re,
    Complex.ofReal_im]
  linear_combination (a ^ 2 - a * r) * h1 + (a * r - a ^ 2) * h2

/-- One Gerchberg-Saxton step lowers the error at least by the weighted phase changes, if the phase of the input is
uniform. -/
theorem gsStep_drop {M N : ℕ} {inp target : ℕ → ℕ → ℂ} {A B : ℕ → ℕ → ℝ} {c : ℂ} (hc : ‖c‖ = 1)
    (hinp : ∀ a < M, ∀ b < N, inp a b = c * A a b)
    (htg : ∀ a < M, ∀ b < N, target a b = B a b) (hB : ∀ a < M, ∀ b < N, 0 ≤ B a b) (φ : ℕ → ℕ → ℝ) :
    rawError M N inp B (gsStep M N inp target φ) + (∑ a ∈ range M, ∑ b ∈ range N, A a b *
      ‖dft2 M N (fun a b => gsCorrect (target a b) (idft2 M N (modulate inp φ) a b)) a b‖ *
        ‖c * cexp (I * φ a b) - cexp (I * gsStep M N inp target φ a b)‖ ^ 2) / (M * N) ≤ rawError M N inp B φ := by
  set g := idft2 M N (modulate inp φ) with hg
  set G := fun a b => gsCorrect (target a b) (g a b) with hG
  set h := dft2 M N G with hh
  set φ' := gsStep M N inp target φ with hφ'
  have hφ'' : ∀ a b, φ' a b = arg (h a b) := fun a b => rfl
  set g' := idft2 M N (modulate inp φ') with hg'
  rcases Nat.eq_zero_or_pos M with hM | hM
  · subst hM; simp [rawError]
  rcases Nat.eq_zero_or_pos N with hN | hN
  · subst hN; simp [rawError]
  have hMN : (0 : ℝ) < M * N := by positivity
  have hcc : (starRingEnd ℂ) c * c = 1 := by
    rw [mul_comm, Complex.mul_conj, Complex.normSq_eq_norm_sq, hc]; simp
  have hcn : ‖(starRingEnd ℂ) c‖ = 1 := by rw [Complex.norm_conj, hc]
  -- differences in the image plane and on the SLM
  have e1 : (M * N : ℝ) * ∑ a ∈ range M, ∑ b ∈ range N, ‖(starRingEnd ℂ) c * g' a b - G a b‖ ^ 2 =
      ∑ a ∈ range M, ∑ b ∈ range N, ‖(starRingEnd ℂ) c * modulate inp φ' a b - h a b‖ ^ 2 := by
    rw [← idft2_parseval M N (fun a b => (starRingEnd ℂ) c * modulate inp φ' a b - h a b)]
    refine congrArg _ (Finset.sum_congr rfl fun a ha => Finset.sum_congr rfl fun b hb => ?_)
    have := idft2_add M N (fun a b => (starRingEnd ℂ) c * modulate inp φ' a b) (fun a b => (-1) * h a b) a b
    rw [idft2_smul, idft2_smul, hh, idft2_dft2 G (mem_range.mp ha) (mem_range.mp hb)] at this
    rw [show (fun a b => (starRingEnd ℂ) c * modulate inp φ' a b - dft2 M N G a b) =
      fun a b => (starRingEnd ℂ) c * modulate inp φ' a b + (-1) * dft2 M N G a b by funext a b; ring, this]
    congr 2
    ring
  have e2 : (M * N : ℝ) * ∑ a ∈ range M, ∑ b ∈ range N, ‖g a b - G a b‖ ^ 2 =
      ∑ a ∈ range M, ∑ b ∈ range N, ‖modulate inp φ a b - h a b‖ ^ 2 := by
    rw [← idft2_parseval M N (fun a b => modulate inp φ a b - h a b)]
    refine congrArg _ (Finset.sum_congr rfl fun a ha => Finset.sum_congr rfl fun b hb => ?_)
    have := idft2_add M N (fun a b => modulate inp φ a b) (fun a b => (-1) * h a b) a b
    rw [idft2_smul, hh, idft2_dft2 G (mem_range.mp ha) (mem_range.mp hb)] at this
    rw [show (fun a b => modulate inp φ a b - dft2 M N G a b) =
      fun a b => modulate inp φ a b + (-1) * dft2 M N G a b by funext a b; ring, this]
    congr 2
    ring
  set D := ∑ a ∈ range M, ∑ b ∈ range N, A a b * ‖h a b‖ * ‖c * cexp (I * φ a b) - cexp (I * φ' a b)‖ ^ 2 with hD
  have e3 : ∑ a ∈ range M, ∑ b ∈ range N, ‖(starRingEnd ℂ) c * modulate inp φ' a b - h a b‖ ^ 2 + D =
      ∑ a ∈ range M, ∑ b ∈ range N, ‖modulate inp φ a b - h a b‖ ^ 2 := by
    rw [hD, ← Finset.sum_add_distrib]
    refine Finset.sum_congr rfl fun a ha => ?_
    rw [← Finset.sum_add_distrib]
    refine Finset.sum_congr rfl fun b hb => ?_
    have ha := mem_range.mp ha
    have hb := mem_range.mp hb
    have h1 : (starRingEnd ℂ) c * modulate inp φ' a b = (A a b : ℂ) * cexp (I * (arg (h a b) : ℂ)) := by
      unfold modulate
      rw [hinp a ha b hb, hφ'', ← mul_assoc, ← mul_assoc, hcc, one_mul]
    have h2 : modulate inp φ a b = (A a b : ℂ) * (c * cexp (I * φ a b)) := by
      unfold modulate
      rw [hinp a ha b hb]
      ring
    rw [h1, h2, hφ'']
    exact nearest_drop _ _ _ (by rw [norm_mul, hc, norm_expI, one_mul])
  have e4 : ∑ a ∈ range M, ∑ b ∈ range N, ‖(starRingEnd ℂ) c * g' a b - G a b‖ ^ 2 + D / (M * N) =
      ∑ a ∈ range M, ∑ b ∈ range N, ‖g a b - G a b‖ ^ 2 := by
    rw [← e1, ← e2] at e3
    rw [← mul_right_inj' hMN.ne', ← e3, mul_add, mul_div_cancel₀ _ hMN.ne']
  have hGn : ∀ a < M, ∀ b < N, ‖G a b‖ = B a b := by
    intro a ha b hb
    simp only [hG, gsCorrect]
    rw [htg a ha b hb, norm_mul, norm_expI, Complex.norm_real, Real.norm_eq_abs, abs_of_nonneg (hB a ha b hb), mul_one]
  have e5 : rawError M N inp B φ = ∑ a ∈ range M, ∑ b ∈ range N, ‖g a b - G a b‖ ^ 2 := by
    refine Finset.sum_congr rfl fun a ha => Finset.sum_congr rfl fun b hb => ?_
    have ha := mem_range.mp ha
    have hb := mem_range.mp hb
    have h1 : g a b - G a b = ((‖g a b‖ - B a b : ℝ) : ℂ) * cexp (I * (arg (g a b) : ℂ)) := by
      simp only [hG, gsCorrect]
      rw [htg a ha b hb]
      push_cast
      rw [sub_mul, mul_expI_arg]
    rw [h1, norm_mul, norm_expI, mul_one, Complex.norm_real, Real.norm_eq_abs, sq_abs]
  rw [e5, ← e4]
  refine add_le_add ?_ le_rfl
  refine Finset.sum_le_sum fun a ha => Finset.sum_le_sum fun b hb => ?_
  have ha := mem_range.mp ha
  have hb := mem_range.mp hb
  rw [← hGn a ha b hb]
  have h1 : ‖idft2 M N (modulate inp φ') a b‖ = ‖(starRingEnd ℂ) c * g' a b‖ := by
    rw [norm_mul, hcn, one_mul]
  rw [h1, ← sq_abs]
  exact pow_le_pow_left₀ (abs_nonneg _) (abs_norm_sub_norm_le _ _) 2

/-- One Gerchberg-Saxton step does not increase the error, if the phase of the input is uniform. -/
theorem gsStep_le {M N : ℕ} {inp target : ℕ → ℕ → ℂ} {A B : ℕ → ℕ → ℝ} {c : ℂ} (hc : ‖c‖ = 1)
    (hinp : ∀ a < M, ∀ b < N, inp a b = c * A a b) (hA : ∀ a < M, ∀ b < N, 0 ≤ A a b)
    (htg : ∀ a < M, ∀ b < N, target a b = B a b) (hB : ∀ a < M, ∀ b < N, 0 ≤ B a b) (φ : ℕ → ℕ → ℝ) :
    rawError M N inp B (gsStep M N inp target φ) ≤ rawError M N inp B φ := by
  refine le_trans ?_ (gsStep_drop hc hinp htg hB φ)
  refine le_add_of_nonneg_right (div_nonneg (Finset.sum_nonneg fun a ha => Finset.sum_nonneg fun b hb => ?_) (by positivity))
  have := hA a (mem_range.mp ha) b (mem_range.mp hb)
  positivity

theorem rawError_congr {M N : ℕ} {A A' : ℕ → ℕ → ℂ} {B B' φ φ' : ℕ → ℕ → ℝ} (hA : ∀ a < M, ∀ b < N, A a b = A' a b)
    (hB : ∀ a < M, ∀ b < N, B a b = B' a b) (hφ : ∀ a < M, ∀ b < N, φ a b = φ' a b) :
    rawError M N A B φ = rawError M N A' B' φ' := by
  unfold rawError
  refine Finset.sum_congr rfl fun a ha => Finset.sum_congr rfl fun b hb => ?_
  rw [hB a (mem_range.mp ha) b (mem_range.mp hb)]
  rw [idft2_congr (v := modulate A' φ') fun a ha b hb => by unfold modulate; rw [hA a ha b hb, hφ a ha b hb]]

theorem imageError_congr {s : SLM} {A A' : ℕ → ℕ → ℂ} {T T' φ φ' : ℕ → ℕ → ℝ}
    (hA : ∀ a < s.Ny, ∀ b < s.Nx, A a b = A' a b)
    (hT : ∀ a < s.Ny, ∀ b < s.Nx, T a b = T' a b) (hφ : ∀ a < s.Ny, ∀ b < s.Nx, φ a b = φ' a b) :
    imageError s A T φ = imageError s A' T' φ' := by
  rw [imageError_eq, imageError_eq]
  exact rawError_congr hA (fun a ha b hb => hT _ (ifftshiftIdx_lt ha) _ (ifftshiftIdx_lt hb)) hφ

/-- The state showing the phases `φ`. -/
def phaseState (s : SLM) (φ : ℕ → ℕ → ℝ) : LcosState := ⟨.real, ⟨.mat s.Ny s.Nx, fun i j => ((φ i j : ℝ) : ℂ)⟩⟩

theorem shows_phaseState (l : LCOS) (φ : ℕ → ℕ → ℝ) : Shows { l with state := phaseState l.slm φ } φ :=
  ⟨rfl, rfl, fun _ _ _ _ => rfl⟩

theorem Shows.unique {l : LCOS} {φ φ' : ℕ → ℕ → ℝ} (h : Shows l φ) (h' : Shows l φ') :
    ∀ i < l.slm.Ny, ∀ j < l.slm.Nx, φ i j = φ' i j := by
  intro i hi j hj
  have := (h.2.2 i hi j hj).symm.trans (h'.2.2 i hi j hj)
  exact_mod_cast this

/-- `calculate_hologram(..., method='gs')` on well-formed arguments. -/
theorem calculate_gs {l : LCOS} {h : Profile.Heap} {inp target : ProfArg} {A : ℕ → ℕ → ℂ} {T : ℕ → ℕ → ℝ}
    (ha : HologramArgs l.slm h inp target A T) :
    ∃ A' B' : ℕ → ℕ → ℂ, (∀ a < l.slm.Ny, ∀ b < l.slm.Nx, A' a b = A a b) ∧
      (∀ a < l.slm.Ny, ∀ b < l.slm.Nx, B' a b = ((ifftshift2 l.slm.Ny l.slm.Nx T a b : ℝ) : ℂ)) ∧
      ∀ kw u, l.calculateHologram h inp target "gs" kw u =
        ({ l with state := phaseState l.slm (gsLoop l.slm.Ny l.slm.Nx A' B' (initialPhase u) (kw.N.getD 200)) },
          .ok ()) := by
  obtain ⟨hNx, hNy, ⟨ti, hi1, hi2, hi3⟩, ⟨tt, ht1, ht2, ht3⟩⟩ := ha
  refine ⟨ti.get, fun i j => (((⟨.mat l.slm.Ny l.slm.Nx, ifftshift2 l.slm.Ny l.slm.Nx tt.get⟩ : Tensor ℝ).at_ i j : ℝ) : ℂ),
    hi3, fun a ha b hb => ?_, fun kw u => ?_⟩
  · simp only
    rw [Tensor.at_eq_get rfl ha hb]
    simp only [ifftshift2]
    rw [ht3 _ (ifftshiftIdx_lt ha) _ (ifftshiftIdx_lt hb)]
  · have hf : forwardKwargs l.slm h "gs" kw = .ok { N := kw.N, mixingFactor := kw.mixingFactor } := by
      unfold forwardKwargs
      rw [if_neg (by decide)]
    have hs : ifftshift tt = .ok ⟨.mat l.slm.Ny l.slm.Nx, ifftshift2 l.slm.Ny l.slm.Nx tt.get⟩ := by
      unfold ifftshift
      rw [ht2]
    unfold calculateHologram hologram
    rw [hi1]
    simp only
    rw [ht1]
    simp only
    rw [hf]
    simp only
    unfold calculateLcosSlmHologram
    rw [if_pos rfl]
    unfold hologramGs
    rw [hs]
    simp only
    rw [hi2]
    simp only
    rw [if_neg]
    · rfl
    · push Not
      exact ⟨by omega, bcast_self _ _⟩

/-- `calculate_hologram(..., method='mraf')` on well-formed arguments. -/
theorem calculate_mraf {l : LCOS} {h : Profile.Heap} {inp target : ProfArg} {A : ℕ → ℕ → ℂ} {T : ℕ → ℕ → ℝ}
    (ha : HologramArgs l.slm h inp target A T) {sw : ProfArg} {W : ℕ → ℕ → ℂ} (hw : DMD.TargetArg l.slm h sw W) :
    ∃ A' B' W' : ℕ → ℕ → ℂ, (∀ a < l.slm.Ny, ∀ b < l.slm.Nx, A' a b = A a b) ∧
      (∀ a < l.slm.Ny, ∀ b < l.slm.Nx, B' a b = ((ifftshift2 l.slm.Ny l.slm.Nx T a b : ℝ) : ℂ)) ∧
      (∀ a < l.slm.Ny, ∀ b < l.slm.Nx, W' a b = ifftshift2 l.slm.Ny l.slm.Nx W a b) ∧
      ∀ kw u, kw.signalWindow = some sw → l.calculateHologram h inp target "mraf" kw u =
        ({ l with state := phaseState l.slm <| mrafLoop l.slm.Ny l.slm.Nx A' B' W' (kw.mixingFactor.getD 0.4) (initialPhase u) (kw.N.getD 200) },
          .ok ()) := by
  obtain ⟨hNx, hNy, ⟨ti, hi1, hi2, hi3⟩, ⟨tt, ht1, ht2, ht3⟩⟩ := ha
  obtain ⟨tw, hw1, hw2, hw3⟩ := hw
  refine ⟨ti.get, fun i j => (((⟨.mat l.slm.Ny l.slm.Nx, ifftshift2 l.slm.Ny l.slm.Nx tt.get⟩ : Tensor ℝ).at_ i j : ℝ) : ℂ),
    (⟨.mat l.slm.Ny l.slm.Nx, ifftshift2 l.slm.Ny l.slm.Nx tw.get⟩ : Tensor ℂ).at_,
    hi3, fun a ha b hb => ?_, fun a ha b hb => ?_, fun kw u hk => ?_⟩
  · simp only
    rw [Tensor.at_eq_get rfl ha hb]
    simp only [ifftshift2]
    rw [ht3 _ (ifftshiftIdx_lt ha) _ (ifftshiftIdx_lt hb)]
  · rw [Tensor.at_eq_get rfl ha hb]
    simp only [ifftshift2]
    rw [hw3 _ (ifftshiftIdx_lt ha) _ (ifftshiftIdx_lt hb)]
  · have hf : forwardKwargs l.slm h "mraf" kw =
        .ok { N := kw.N, signalWindow := some tw, mixingFactor := kw.mixingFactor } := by
      unfold forwardKwargs
      rw [if_pos rfl, hk]
      simp only
      rw [hw1]
    have hs : ifftshift tt = .ok ⟨.mat l.slm.Ny l.slm.Nx, ifftshift2 l.slm.Ny l.slm.Nx tt.get⟩ := by
      unfold ifftshift
      rw [ht2]
    have hsw : ifftshift tw = .ok ⟨.mat l.slm.Ny l.slm.Nx, ifftshift2 l.slm.Ny l.slm.Nx tw.get⟩ := by
      unfold ifftshift
      rw [hw2]
    unfold calculateHologram hologram
    rw [hi1]
    simp only
    rw [ht1]
    simp only
    rw [hf]
    simp only
    unfold calculateLcosSlmHologram
    rw [if_neg (by decide), if_pos rfl]
    unfold hologramMraf
    rw [hs]
    simp only
    rw [hsw]
    simp only
    rw [hi2]
    simp only
    rw [if_neg]
    · rfl
    · push Not
      exact ⟨by omega, bcast_self _ _, bcast_self _ _⟩

theorem gsLoop_le {M N : ℕ} {inp target : ℕ → ℕ → ℂ} {A B : ℕ → ℕ → ℝ} {c : ℂ} (hc : ‖c‖ = 1)
    (hinp : ∀ a < M, ∀ b < N, inp a b = c * A a b) (hA : ∀ a < M, ∀ b < N, 0 ≤ A a b)
    (htg : ∀ a < M, ∀ b < N, target a b = B a b) (hB : ∀ a < M, ∀ b < N, 0 ≤ B a b) (φ : ℕ → ℕ → ℝ) {n n' : ℕ}
    (hn : n ≤ n') :
    rawError M N inp B (gsLoop M N inp target φ n') ≤ rawError M N inp B (gsLoop M N inp target φ n) := by
  induction n', hn using Nat.le_induction with
  | base => exact le_refl _
  | succ k _ ih => exact (gsStep_le hc hinp hA htg hB _).trans ih

/-- With a full signal window and a positive mixing factor, MRAF steps are Gerchberg-Saxton steps. -/
theorem mrafStep_full {M N : ℕ} {inp inp' target target' window : ℕ → ℕ → ℂ} {m : ℝ} (hm : 0 < m)
    (hw : ∀ a < M, ∀ b < N, window a b = 1) (hi : ∀ a < M, ∀ b < N, inp a b = inp' a b)
    (ht : ∀ a < M, ∀ b < N, target a b = target' a b) {φ φ' : ℕ → ℕ → ℝ}
    (hφ : ∀ a < M, ∀ b < N, φ a b = φ' a b) :
    mrafStep M N inp target window m φ = gsStep M N inp' target' φ' := by
  have h1 : idft2 M N (modulate inp φ) = idft2 M N (modulate inp' φ') :=
    idft2_congr fun a ha b hb => by unfold modulate; rw [hi a ha b hb, hφ a ha b hb]
  funext a b
  show arg (dft2 M N (fun a b => mrafCorrect m (target a b) (window a b) (idft2 M N (modulate inp φ) a b)) a b) =
    arg (dft2 M N (fun a b => gsCorrect (target' a b) (idft2 M N (modulate inp' φ') a b)) a b)
  rw [h1, dft2_congr (v := fun a b => (m : ℂ) * gsCorrect (target' a b) (idft2 M N (modulate inp' φ') a b))]
  · rw [dft2_smul, Complex.arg_real_mul _ hm]
  · intro a ha b hb
    unfold mrafCorrect gsCorrect
    rw [hw a ha b hb, ht a ha b hb]
    ring

theorem mrafLoop_full {M N : ℕ} {inp inp' target target' window : ℕ → ℕ → ℂ} {m : ℝ} (hm : 0 < m)
    (hw : ∀ a < M, ∀ b < N, window a b = 1) (hi : ∀ a < M, ∀ b < N, inp a b = inp' a b)
    (ht : ∀ a < M, ∀ b < N, target a b = target' a b) (φ : ℕ → ℕ → ℝ) (n : ℕ) :
    mrafLoop M N inp target window m φ n = gsLoop M N inp' target' φ n := by
  induction n with
  | zero => rfl
  | succ n ih =>
    unfold mrafLoop gsLoop
    rw [ih]
    exact mrafStep_full hm hw hi ht fun _ _ _ _ => rfl

end LCOS

end PySLM2
