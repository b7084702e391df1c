import Verif.Lemmas.FloatHologram
import Verif.Props.Lcos
import Verif.Props.Mraf

/-!
# C151, C152: rounding in the hologram algorithms
-/

noncomputable section

open Complex Finset

namespace PySLM2.LCOS

open Lib Spec

variable {u v τ : ℝ} {F : HoloArith} {s : SLM}

theorem gsLoopR_range {M N : ℕ} (H : HoloPrecise u v τ M N F) (hu : u ≤ 1 / 1000) {inp target : ℕ → ℕ → ℂ} {x : ℕ → ℕ → ℝ}
    (hx : ∀ i j, 0 ≤ x i j ∧ x i j ≤ 1) (n a b : ℕ) : |gsLoopR F M N inp target (initialPhaseR F x) n a b| ≤ 7 := by
  cases n with
  | zero => exact initialPhaseR_le H hu (hx a b).1 (hx a b).2
  | succ n => exact (H.angle_range _).trans (by norm_num)

theorem mrafLoopR_range {M N : ℕ} (H : HoloPrecise u v τ M N F) (hu : u ≤ 1 / 1000) {inp target window : ℕ → ℕ → ℂ} {m : ℝ} {x : ℕ → ℕ → ℝ}
    (hx : ∀ i j, 0 ≤ x i j ∧ x i j ≤ 1) (n a b : ℕ) : |mrafLoopR F M N inp target window m (initialPhaseR F x) n a b| ≤ 7 := by
  cases n with
  | zero => exact initialPhaseR_le H hu (hx a b).1 (hx a b).2
  | succ n => exact (H.angle_range _).trans (by norm_num)

/-- The root of the sum of squares of the image. -/
theorem image_norm (hNx : 0 < s.Nx) (hNy : 0 < s.Ny) {inp : ℕ → ℕ → ℂ} {A : ℕ → ℕ → ℝ} {c : ℂ} (hc : ‖c‖ = 1)
    (hinp : ∀ i < s.Ny, ∀ j < s.Nx, inp i j = c * A i j) :
    ‖vec s.Ny s.Nx (idft2 s.Ny s.Nx inp)‖ = rss s A / √(s.Ny * s.Nx) := by
  have hs : 0 < √((s.Ny : ℝ) * s.Nx) := Real.sqrt_pos.mpr (by positivity)
  rw [eq_div_iff hs.ne', mul_comm, idft_norm, rss, ← Real.sqrt_sq (norm_nonneg (vec _ _ _)), vec_normSq]
  congr 1
  refine sum_congr rfl fun i hi => sum_congr rfl fun j hj => ?_
  rw [hinp i (mem_range.mp hi) j (mem_range.mp hj), norm_mul, hc, one_mul, norm_real, Real.norm_eq_abs, sq_abs]

theorem cut_norm (S : ℕ → ℕ → Bool) (T : ℕ → ℕ → ℝ) :
    ‖vec s.Ny s.Nx (cut (ifftshift2 s.Ny s.Nx S) (ifftshift2 s.Ny s.Nx T))‖ = rssOn s S T := by
  rw [rssOn, ← Real.sqrt_sq (norm_nonneg (vec _ _ _)), vec_normSq]
  congr 1
  rw [← sum2_ifftshift (fun a b => ‖cut (ifftshift2 s.Ny s.Nx S) (ifftshift2 s.Ny s.Nx T) a b‖ ^ 2)]
  refine sum_congr rfl fun k hk => sum_congr rfl fun l hl => ?_
  unfold cut ifftshift2
  rw [ifftshift_fftshift (mem_range.mp hk), ifftshift_fftshift (mem_range.mp hl)]
  split_ifs
  · rw [norm_real, Real.norm_eq_abs, sq_abs]
  · simp

theorem rssOn_true (T : ℕ → ℕ → ℝ) : rssOn s (fun _ _ => true) T = rss s T := by simp [rssOn, rss]

theorem rawWindowError_true (M N : ℕ) (A : ℕ → ℕ → ℂ) (B φ : ℕ → ℕ → ℝ) :
    rawWindowError M N A B (fun _ _ => true) φ = rawError M N A B φ := by simp [rawWindowError, rawError]

/-- Steps that add at most `δ` each. -/
theorem loop_le {f : ℕ → ℝ} {δ : ℝ} (h : ∀ n, f (n + 1) ≤ f n + δ) {N N' : ℕ} (hN : N ≤ N') : f N' ≤ f N + (N' - N : ℕ) * δ := by
  induction N', hN using Nat.le_induction with
  | base => simp
  | succ k hk ih =>
    have := h k
    rw [Nat.succ_sub hk, Nat.cast_succ]
    linarith

theorem cmulR_id (a b : ℂ) : cmulR id a b = a * b := by
  simp [cmulR, Complex.ext_iff]

theorem gsLoopR_exact {M N : ℕ} {A A' B B' : ℕ → ℕ → ℂ} (hA : ∀ a < M, ∀ b < N, A' a b = A a b) (hB : ∀ a < M, ∀ b < N, B' a b = B a b)
    (φ : ℕ → ℕ → ℝ) (n : ℕ) : ∀ a < M, ∀ b < N, gsLoop M N A' B' φ n a b = gsLoopR exactHolo M N A B φ n a b := by
  induction n with
  | zero => exact fun _ _ _ _ => rfl
  | succ n ih =>
    intro a _ b _
    show arg (dft2 M N _ a b) = arg (dft2 M N _ a b)
    congr 1
    refine congrFun (congrFun (dft2_congr fun i hi j hj => ?_) a) b
    have h1 : idft2 M N (modulate A' (gsLoop M N A' B' φ n)) = imageR exactHolo M N A (gsLoopR exactHolo M N A B φ n) := by
      refine idft2_congr fun i hi j hj => ?_
      show A' i j * cexp _ = cmulR id (A i j) (cexp _)
      rw [cmulR_id, hA i hi j hj, ih i hi j hj]
    show B' i j * cexp _ = cmulR id (B i j) (cexp _)
    rw [cmulR_id, hB i hi j hj, h1]
    rfl

theorem mrafLoopR_exact {M N : ℕ} {A A' B B' W W' : ℕ → ℕ → ℂ} (hA : ∀ a < M, ∀ b < N, A' a b = A a b)
    (hB : ∀ a < M, ∀ b < N, B' a b = B a b) (hW : ∀ a < M, ∀ b < N, W' a b = W a b) (m : ℝ)
    (φ : ℕ → ℕ → ℝ) (n : ℕ) : ∀ a < M, ∀ b < N, mrafLoop M N A' B' W' m φ n a b = mrafLoopR exactHolo M N A B W m φ n a b := by
  induction n with
  | zero => exact fun _ _ _ _ => rfl
  | succ n ih =>
    intro a _ b _
    show arg (dft2 M N _ a b) = arg (dft2 M N _ a b)
    congr 1
    refine congrFun (congrFun (dft2_congr fun i hi j hj => ?_) a) b
    have h1 : idft2 M N (modulate A' (mrafLoop M N A' B' W' m φ n)) = imageR exactHolo M N A (mrafLoopR exactHolo M N A B W m φ n) := by
      refine idft2_congr fun i hi j hj => ?_
      show A' i j * cexp _ = cmulR id (A i j) (cexp _)
      rw [cmulR_id, hA i hi j hj, ih i hi j hj]
    show mrafCorrect m (B' i j) (W' i j) _ = mrafCorrectR exactHolo m (B i j) (W i j) _
    rw [hB i hi j hj, hW i hi j hj, h1]
    generalize imageR exactHolo M N A (mrafLoopR exactHolo M N A B W m φ n) i j = z
    unfold mrafCorrect mrafCorrectR exactHolo
    simp only [cmulR_id]
    have e : (⟨id (1 - (W i j).re), id (0 - (W i j).im)⟩ : ℂ) = 1 - W i j := by simp [Complex.ext_iff]
    have e' : ∀ a b : ℂ, caddR id a b = a + b := fun a b => by simp [caddR, Complex.ext_iff]
    rw [e, e']
    rfl

/-! ## C151 -/

/-- **C151.** Gerchberg-Saxton in an arithmetic with relative error `u` per operation, complex exponentials and angles within `v` of the
exact ones and transforms within `τ` of the exact ones: for an input of uniform phase `c` with amplitude `A` and a target `T` each further
iteration raises the root of the squared error between the modulus of the (exact) image of the computed phases and the target by at most
`7 u + 4 v + 3 τ` times the sum of the root of the power in the image and the root of the sum of squares of the target. -/
theorem C151_gs (H : HoloPrecise u v τ s.Ny s.Nx F) (hu : u ≤ 1 / 1000) (hv : v ≤ 1 / 1000) (hτ : 0 ≤ τ) (hτ1 : τ ≤ 1 / 1000)
    (hNx : 0 < s.Nx) (hNy : 0 < s.Ny) {inp : ℕ → ℕ → ℂ} {A T x : ℕ → ℕ → ℝ} {c : ℂ} (hc : ‖c‖ = 1)
    (hinp : ∀ i < s.Ny, ∀ j < s.Nx, inp i j = c * A i j)
    (hA : ∀ i < s.Ny, ∀ j < s.Nx, 0 ≤ A i j) (hT : ∀ i < s.Ny, ∀ j < s.Nx, 0 ≤ T i j) (hx : ∀ i j, 0 ≤ x i j ∧ x i j ≤ 1)
    {N N' : ℕ} (hN : N ≤ N') :
    √(imageError s inp T (gsPhasesR F s inp T x N')) ≤ √(imageError s inp T (gsPhasesR F s inp T x N)) +
      (N' - N : ℕ) * ((7 * u + 4 * v + 3 * τ) * (rss s A / √(s.Ny * s.Nx) + rss s T)) := by
  refine loop_le (f := fun n => √(imageError s inp T (gsPhasesR F s inp T x n))) (fun n => ?_) hN
  have h1 := gsStepR_error H hu hv hτ hτ1 hNy hNx hc hinp hA (B := ifftshift2 s.Ny s.Nx T)
    (fun a ha b hb => hT _ (ifftshiftIdx_lt ha) _ (ifftshiftIdx_lt hb)) (φ := gsPhasesR F s inp T x n)
    (fun a _ b _ => gsLoopR_range H hu hx n a b)
  have h2 := cut_norm (s := s) (fun _ _ => true) T
  rw [rssOn_true] at h2
  rw [rawWindowError_true, rawWindowError_true, image_norm hNx hNy hc hinp] at h1
  simp only [imageError_eq]
  rw [← h2]
  exact h1

/-- **C151.** In exact arithmetic these are the phases the device shows. -/
theorem C151_exact {l : LCOS} {h : Profile.Heap} {inp target : ProfArg} {A : ℕ → ℕ → ℂ} {T : ℕ → ℕ → ℝ}
    (ha : HologramArgs l.slm h inp target A T) (x : ℕ → ℕ → ℝ) (N : ℕ) :
    Shows (after l h inp target "gs" { N := some N } x) (gsPhasesR exactHolo l.slm A T x N) := by
  obtain ⟨A', B', hA', hB', e⟩ := calculate_gs ha
  rw [after, e]
  exact ⟨rfl, rfl, fun i hi j hj => congrArg (fun y : ℝ => (y : ℂ)) (gsLoopR_exact hA' hB' (initialPhase x) N i hi j hj)⟩

/-! ## C152 -/

/-- **C152.** The same for MRAF with a signal window `S` and a mixing factor `m`, for the error over the signal window with respect to the
target times `m / (1 - m)`. -/
theorem C152_mraf (H : HoloPrecise u v τ s.Ny s.Nx F) (hu : u ≤ 1 / 1000) (hv : v ≤ 1 / 1000) (hτ : 0 ≤ τ) (hτ1 : τ ≤ 1 / 1000)
    (hNx : 0 < s.Nx) (hNy : 0 < s.Ny) {inp : ℕ → ℕ → ℂ} {A T x : ℕ → ℕ → ℝ} {c : ℂ} (hc : ‖c‖ = 1)
    (hinp : ∀ i < s.Ny, ∀ j < s.Nx, inp i j = c * A i j)
    (hA : ∀ i < s.Ny, ∀ j < s.Nx, 0 ≤ A i j) (hT : ∀ i < s.Ny, ∀ j < s.Nx, 0 ≤ T i j) (hx : ∀ i j, 0 ≤ x i j ∧ x i j ≤ 1)
    (S : ℕ → ℕ → Bool) {m : ℝ} (hm0 : 0 < m) (hm1 : m < 1) {N N' : ℕ} (hN : N ≤ N') :
    let φ := mrafPhasesR F s inp T (indicator S) m x
    let T' := fun i j => m / (1 - m) * T i j
    √(windowError s inp T' S (φ N')) ≤ √(windowError s inp T' S (φ N)) +
      (N' - N : ℕ) * ((28 * u + 6 * v + 5 * τ) * (rss s A / √(s.Ny * s.Nx) + rssOn s S T')) := by
  intro φ T'
  refine loop_le (f := fun n => √(windowError s inp T' S (φ n))) (fun n => ?_) hN
  have h1 := mrafStepR_error H hu hv hτ hτ1 hNy hNx hc hinp hA (B := ifftshift2 s.Ny s.Nx T) (S := ifftshift2 s.Ny s.Nx S)
    (fun a ha b hb => hT _ (ifftshiftIdx_lt ha) _ (ifftshiftIdx_lt hb)) hm0 hm1 (φ := φ n)
    (fun a _ b _ => mrafLoopR_range H hu hx n a b)
  have h2 := cut_norm (s := s) S T'
  rw [image_norm hNx hNy hc hinp] at h1
  simp only [windowError_eq]
  rw [← h2]
  exact h1

/-- **C152.** In exact arithmetic these are the phases the device shows. -/
theorem C152_exact {l : LCOS} {h : Profile.Heap} {inp target sw : ProfArg} {A : ℕ → ℕ → ℂ} {T : ℕ → ℕ → ℝ}
    (ha : HologramArgs l.slm h inp target A T) {S : ℕ → ℕ → ℂ} (hw : DMD.TargetArg l.slm h sw S) (m : ℝ) (x : ℕ → ℕ → ℝ) (N : ℕ) :
    Shows (after l h inp target "mraf" (mrafArgs N sw m) x) (mrafPhasesR exactHolo l.slm A T S m x N) := by
  obtain ⟨A', B', W', hA', hB', hW', e⟩ := calculate_mraf ha hw
  rw [after, e _ _ rfl]
  exact ⟨rfl, rfl, fun i hi j hj => congrArg (fun y : ℝ => (y : ℂ)) (mrafLoopR_exact hA' hB' hW' m (initialPhase x) N i hi j hj)⟩

/-! ## The hypotheses can be met -/

/-- Double precision (rounding to nearest), complex exponentials off by `1e-12` and transforms off by `1e-8` satisfy the assumptions. -/
theorem exists_holoPrecise (M N : ℕ) : ∃ F, HoloPrecise (1 / 2 ^ 53) (1 / 10 ^ 12) (1 / 10 ^ 8) M N F ∧ F.rnd = Spec.nearest 53 := by
  have hr : RelErr (1 / 2 ^ 53) (Spec.nearest 53) := fun x => by
    have := (nearest_roundsTo (t := 53) (by norm_num)).err x
    rw [div_eq_mul_one_div, mul_comm] at this
    exact this
  have key : ∀ G : (ℕ → ℕ → ℂ) → ℕ → ℕ → ℂ, ∀ f : ℕ → ℕ → ℂ,
      ∑ i ∈ range M, ∑ j ∈ range N, ‖(1 + 1 / 10 ^ 8) * G f i j - G f i j‖ ^ 2 ≤
        (1 / 10 ^ 8 : ℝ) ^ 2 * ∑ i ∈ range M, ∑ j ∈ range N, ‖G f i j‖ ^ 2 := by
    intro G f
    rw [mul_sum]
    refine sum_le_sum fun i _ => ?_
    rw [mul_sum]
    refine sum_le_sum fun j _ => le_of_eq ?_
    rw [show (1 + 1 / 10 ^ 8) * G f i j - G f i j = ((1 / 10 ^ 8 : ℝ) : ℂ) * G f i j by push_cast; ring,
      norm_mul, mul_pow, norm_real, Real.norm_of_nonneg (by positivity)]
  refine ⟨⟨Spec.nearest 53, Spec.nearest 53, fun z => (1 + 1 / 10 ^ 12) * cexp z, arg, fun M N f i j => (1 + 1 / 10 ^ 8) * dft2 M N f i j,
    fun M N f i j => (1 + 1 / 10 ^ 8) * idft2 M N f i j⟩,
    ⟨hr, hr, fun x _ => le_of_eq ?_, fun z _ => ⟨0, by simp⟩, fun z => ?_, fun f => key (dft2 M N) f, fun f => key (idft2 M N) f⟩, rfl⟩
  · rw [show (1 + 1 / 10 ^ 12) * cexp (I * x) - cexp (I * x) = ((1 / 10 ^ 12 : ℝ) : ℂ) * cexp (I * x) by push_cast; ring,
      norm_mul, norm_expI, norm_real, Real.norm_of_nonneg (by positivity), mul_one]
  · have h1 := abs_arg_le_pi z
    have h2 := Real.pi_le_four
    linarith

/-- C151, C152: double precision on the PLUTO-2, 200 iterations. -/
example (w f : ℝ) (c : ℂ) (hc : ‖c‖ = 1) : ∃ F : HoloArith, F.rnd = Spec.nearest 53 ∧ ∀ A T x : ℕ → ℕ → ℝ, (∀ i j, 0 ≤ A i j) → (∀ i j, 0 ≤ T i j) →
    (∀ i j, 0 ≤ x i j ∧ x i j ≤ 1) →
    let s : SLM := ⟨w, f, 1920, 1080, 8e-6⟩
    √(imageError s (fun i j => c * A i j) T (gsPhasesR F s (fun i j => c * A i j) T x 200)) ≤
      √(imageError s (fun i j => c * A i j) T (gsPhasesR F s (fun i j => c * A i j) T x 0)) +
        1 / 10 ^ 5 * (rss s A / √(s.Ny * s.Nx) + rss s T) := by
  obtain ⟨F, H, hF⟩ := exists_holoPrecise 1080 1920
  refine ⟨F, hF, fun A T x hA hT hx => ?_⟩
  intro s
  have h1 := C151_gs (s := s) (inp := fun i j => c * A i j) (N := 0) (N' := 200) H (by norm_num) (by norm_num) (by norm_num) (by norm_num)
    (by norm_num [s]) (by norm_num [s]) hc (fun i _ j _ => rfl) (fun i _ j _ => hA i j) (fun i _ j _ => hT i j) hx (by norm_num)
  refine h1.trans (add_le_add le_rfl ?_)
  have h2 : 0 ≤ rss s A / √(s.Ny * s.Nx) + rss s T :=
    add_nonneg (div_nonneg (Real.sqrt_nonneg _) (Real.sqrt_nonneg _)) (Real.sqrt_nonneg _)
  rw [← mul_assoc]
  exact mul_le_mul_of_nonneg_right (by norm_num) h2

end PySLM2.LCOS
