import Verif.Lemmas.Near
import Verif.Lemmas.Simulation
import Verif.Spec.FloatSim

/-! Helper lemmas about rounding in the simulation. -/

noncomputable section

open Complex Finset

namespace PySLM2

open Lib Spec

variable {u τ : ℝ} {k M N : ℕ} {rnd : ℝ → ℝ}

theorem Spec.RelErr.nonneg (h : RelErr u rnd) : 0 ≤ u := by
  have := (abs_nonneg _).trans (h 1)
  simpa using this

theorem Spec.RelErr.near (h : RelErr u rnd) (x : ℝ) : Near u x (rnd x) := near_of_rel (h x)

/-- A rounded value of something that is near `x`. -/
theorem Spec.RelErr.near' (h : RelErr u rnd) {c x x' : ℝ} (hx : Near c x x') : Near (c + u) x (rnd x') :=
  hx.trans (h.near x') h.nonneg

theorem addR_err (h : RelErr u rnd) (x y : ℝ) :
    |rnd (rnd x + rnd y) - (x + y)| ≤ (2 * u + u ^ 2) * (|x| + |y|) := by
  have hu := RelErr.nonneg h
  have hx := h x
  have hy := h y
  have hz := h (rnd x + rnd y)
  have h1 : |rnd x + rnd y - (x + y)| ≤ u * (|x| + |y|) := by
    rw [show rnd x + rnd y - (x + y) = (rnd x - x) + (rnd y - y) by ring]
    exact (abs_add_le _ _).trans (by linarith)
  have h2 : |rnd x + rnd y| ≤ (1 + u) * (|x| + |y|) := by
    have e : rnd x + rnd y = (rnd x + rnd y - (x + y)) + (x + y) := by ring
    rw [e]
    refine (abs_add_le _ _).trans ?_
    have := abs_add_le x y
    linarith
  have h3 : u * |rnd x + rnd y| ≤ u * ((1 + u) * (|x| + |y|)) := mul_le_mul_of_nonneg_left h2 hu
  rw [show rnd (rnd x + rnd y) - (x + y) = (rnd (rnd x + rnd y) - (rnd x + rnd y)) + (rnd x + rnd y - (x + y)) by ring]
  refine (abs_add_le _ _).trans ?_
  calc _ ≤ u * ((1 + u) * (|x| + |y|)) + u * (|x| + |y|) := by linarith
    _ = _ := by ring

theorem subR_err (h : RelErr u rnd) (x y : ℝ) :
    |rnd (rnd x - rnd y) - (x - y)| ≤ (2 * u + u ^ 2) * (|x| + |y|) := by
  have hu := RelErr.nonneg h
  have hx := h x
  have hy := h y
  have hz := h (rnd x - rnd y)
  have h1 : |rnd x - rnd y - (x - y)| ≤ u * (|x| + |y|) := by
    rw [show rnd x - rnd y - (x - y) = (rnd x - x) - (rnd y - y) by ring]
    exact (abs_sub _ _).trans (by linarith)
  have h2 : |rnd x - rnd y| ≤ (1 + u) * (|x| + |y|) := by
    have e : rnd x - rnd y = (rnd x - rnd y - (x - y)) + (x - y) := by ring
    rw [e]
    refine (abs_add_le _ _).trans ?_
    have := abs_sub x y
    linarith
  have h3 : u * |rnd x - rnd y| ≤ u * ((1 + u) * (|x| + |y|)) := mul_le_mul_of_nonneg_left h2 hu
  rw [show rnd (rnd x - rnd y) - (x - y) = (rnd (rnd x - rnd y) - (rnd x - rnd y)) + (rnd x - rnd y - (x - y)) by ring]
  refine (abs_add_le _ _).trans ?_
  calc _ ≤ u * ((1 + u) * (|x| + |y|)) + u * (|x| + |y|) := by linarith
    _ = _ := by ring

theorem cmulR_near (h : RelErr u rnd) (hu : u ≤ 1 / 100) (a b : ℂ) : Near (3 * u) (a * b) (cmulR rnd a b) := by
  have hu0 := RelErr.nonneg h
  refine near_of_rel ?_
  have hre := subR_err h (a.re * b.re) (a.im * b.im)
  have him := addR_err h (a.re * b.im) (a.im * b.re)
  set γ := 2 * u + u ^ 2 with hγ
  have hγ0 : 0 ≤ γ := by positivity
  have hcs : ∀ p q r s : ℝ, (|p * r| + |q * s|) ^ 2 ≤ (p ^ 2 + q ^ 2) * (r ^ 2 + s ^ 2) := by
    intro p q r s
    rw [abs_mul, abs_mul, ← sq_abs p, ← sq_abs q, ← sq_abs r, ← sq_abs s]
    nlinarith [sq_nonneg (|p| * |s| - |q| * |r|)]
  have hn : ‖cmulR rnd a b - a * b‖ ^ 2 ≤ (3 * u * ‖a * b‖) ^ 2 := by
    rw [mul_pow, norm_mul, mul_pow ‖a‖, ← normSq_eq_norm_sq, ← normSq_eq_norm_sq, ← normSq_eq_norm_sq, normSq_apply, normSq_apply,
      normSq_apply]
    have e1 : (cmulR rnd a b - a * b).re = rnd (rnd (a.re * b.re) - rnd (a.im * b.im)) - (a.re * b.re - a.im * b.im) := rfl
    have e2 : (cmulR rnd a b - a * b).im = rnd (rnd (a.re * b.im) + rnd (a.im * b.re)) - (a.re * b.im + a.im * b.re) := rfl
    rw [← e1] at hre
    rw [← e2] at him
    have s1 : (cmulR rnd a b - a * b).re ^ 2 ≤ (γ * (|a.re * b.re| + |a.im * b.im|)) ^ 2 := sq_le_sq' (by linarith [neg_abs_le (cmulR rnd a b - a * b).re]) ((le_abs_self _).trans hre)
    have s2 : (cmulR rnd a b - a * b).im ^ 2 ≤ (γ * (|a.re * b.im| + |a.im * b.re|)) ^ 2 := sq_le_sq' (by linarith [neg_abs_le (cmulR rnd a b - a * b).im]) ((le_abs_self _).trans him)
    rw [mul_pow] at s1 s2
    have c1 := hcs a.re a.im b.re b.im
    have c2 := hcs a.re a.im b.im b.re
    have t1 := mul_le_mul_of_nonneg_left c1 (sq_nonneg γ)
    have t2 := mul_le_mul_of_nonneg_left c2 (sq_nonneg γ)
    have g : 2 * γ ^ 2 ≤ (3 * u) ^ 2 := by
      rw [hγ]
      nlinarith [mul_nonneg hu0 hu0, mul_nonneg (mul_nonneg hu0 hu0) hu0]
    have q : 0 ≤ (a.re ^ 2 + a.im ^ 2) * (b.re ^ 2 + b.im ^ 2) := by positivity
    have t3 := mul_le_mul_of_nonneg_right g q
    calc _ = (cmulR rnd a b - a * b).re ^ 2 + (cmulR rnd a b - a * b).im ^ 2 := by ring
      _ ≤ 2 * γ ^ 2 * ((a.re ^ 2 + a.im ^ 2) * (b.re ^ 2 + b.im ^ 2)) := by linarith
      _ ≤ _ := t3
      _ = _ := by ring
  exact (abs_le_of_sq_le_sq' hn (by positivity)).2

/-- Rounded intensities. -/
theorem intensityR_near (h : RelErr u rnd) (z : ℂ) : Near (2 * u) (‖z‖ ^ 2) (Sim.intensityPixelR rnd z) := by
  rw [← Sim.intensityPixel_eq, Sim.intensityPixel, sq, sq, two_mul]
  exact h.near' (near_add (h.near _) (h.near _) (mul_self_nonneg _) (mul_self_nonneg _))

theorem Spec.RelErr.map_nonneg (h : RelErr u rnd) (hu : u ≤ 1 / 100) {x : ℝ} (hx : 0 ≤ x) : 0 ≤ rnd x := by
  have h1 := h x
  rw [abs_of_nonneg hx] at h1
  have h2 := neg_le_of_abs_le h1
  nlinarith

theorem intensityR_nonneg (h : RelErr u rnd) (hu : u ≤ 1 / 100) (z : ℂ) : 0 ≤ Sim.intensityPixelR rnd z :=
  h.map_nonneg hu (add_nonneg (h.map_nonneg hu (mul_self_nonneg _)) (h.map_nonneg hu (mul_self_nonneg _)))

/-- Rounded sums of non-negative numbers. -/
theorem SumTree.eval_near (h : RelErr u rnd) {f : ℕ → ℕ → ℝ} (hf : ∀ i j, 0 ≤ f i j) (t : SumTree) :
    Near (t.depth * u) (t.leaves.map fun p => f p.1 p.2).sum (t.eval rnd f) := by
  have hu := RelErr.nonneg h
  induction t with
  | leaf i j =>
    simp only [SumTree.depth, SumTree.leaves, SumTree.eval, Multiset.map_singleton, Multiset.sum_singleton]
    exact Near.refl (by simp) _
  | node a b iha ihb =>
    have h0 : ∀ t : SumTree, 0 ≤ (t.leaves.map fun p => f p.1 p.2).sum := by
      intro t
      refine Multiset.sum_nonneg fun x hx => ?_
      obtain ⟨p, -, rfl⟩ := Multiset.mem_map.mp hx
      exact hf _ _
    simp only [SumTree.depth, SumTree.leaves, SumTree.eval, Multiset.map_add, Multiset.sum_add]
    have ha : Near ((max a.depth b.depth : ℕ) * u) _ _ :=
      iha.mono (mul_le_mul_of_nonneg_right (by exact_mod_cast le_max_left _ _) hu)
    have hb : Near ((max a.depth b.depth : ℕ) * u) _ _ :=
      ihb.mono (mul_le_mul_of_nonneg_right (by exact_mod_cast le_max_right _ _) hu)
    have := h.near' (near_add ha hb (h0 a) (h0 b))
    refine this.mono (le_of_eq ?_)
    push_cast
    ring

/-- `np.sum` of an array in any order. -/
theorem SumTree.sum_near (h : RelErr u rnd) {f g : ℕ → ℕ → ℝ} (hf : ∀ i j, 0 ≤ f i j) (hg : ∀ i j, 0 ≤ g i j) {t : SumTree}
    (ht : t.leaves = (range M ×ˢ range N).val) (hk : t.depth ≤ k) {c : ℝ} (hc : 0 ≤ c) (hfg : ∀ i < M, ∀ j < N, Near c (f i j) (g i j)) :
    Near (c + k * u) (∑ i ∈ range M, ∑ j ∈ range N, f i j) (t.eval rnd g) := by
  have hu := RelErr.nonneg h
  have h1 := SumTree.eval_near h hg t
  rw [ht] at h1
  have e : (((range M ×ˢ range N).val).map fun p : ℕ × ℕ => g p.1 p.2).sum = ∑ i ∈ range M, ∑ j ∈ range N, g i j := by
    rw [← sum_product (s := range M) (t := range N) (f := fun p => g p.1 p.2)]
    rfl
  rw [e] at h1
  have h2 : Near c (∑ i ∈ range M, ∑ j ∈ range N, f i j) (∑ i ∈ range M, ∑ j ∈ range N, g i j) :=
    near_sum (fun i hi => near_sum (fun j hj => hfg i (mem_range.mp hi) j (mem_range.mp hj)) fun j _ => hf i j)
      fun i _ => sum_nonneg fun j _ => hf i j
  exact (h2.trans h1 (by positivity)).mono
    (add_le_add le_rfl (mul_le_mul_of_nonneg_right (by exact_mod_cast hk) hu))

namespace Sim

/-- The exact transform keeps relative errors. -/
theorem centredIdft_near (hM : 0 < M) (hN : 0 < N) {c : ℝ} (hc : 0 ≤ c) {f g : ℕ → ℕ → ℂ} (h : Near c (vec M N f) (vec M N g)) :
    Near c (vec M N (centredIdft M N f)) (vec M N (centredIdft M N g)) := by
  rw [vec_near_iff hc] at h ⊢
  have hlin : ∀ i j, centredIdft M N g i j - centredIdft M N f i j = centredIdft M N (fun i j => g i j - f i j) i j := by
    intro i j
    have := centredIdft_lin M N 1 (-1) g f i j
    simp only [one_mul, neg_one_mul, ← sub_eq_add_neg] at this
    exact this.symm
  simp only [hlin]
  have p1 := centredIdft_parseval M N fun i j => g i j - f i j
  have p2 := centredIdft_parseval M N f
  have hMN : (0 : ℝ) < M * N := by positivity
  refine le_of_mul_le_mul_left ?_ hMN
  rw [p1, mul_left_comm, p2]
  exact h

theorem sum_fftshift2 (M N : ℕ) (f : ℕ → ℕ → ℝ) :
    ∑ i ∈ range M, ∑ j ∈ range N, f (fftshiftIdx M i) (fftshiftIdx N j) = ∑ i ∈ range M, ∑ j ∈ range N, f i j := by
  rw [← sum_ifftshift M (fun _ a => ∑ j ∈ range N, f a (fftshiftIdx N j))]
  refine sum_congr rfl fun i _ => ?_
  rw [← sum_ifftshift N (fun _ b => f i b)]

/-- The transform of the library, between the shifts. -/
theorem ifft_near {F : SimArith} (h : SimPrecise u τ k M N F) (hτ : 0 ≤ τ) (f : ℕ → ℕ → ℂ) :
    Near τ (vec M N (centredIdft M N f)) (vec M N (fftshift2 M N (F.ifft M N (ifftshift2 M N f)))) := by
  rw [vec_near_iff hτ]
  unfold centredIdft fftshift2
  rw [sum_fftshift2 M N fun i j => ‖F.ifft M N (ifftshift2 M N f) i j - idft2 M N (ifftshift2 M N f) i j‖ ^ 2,
    sum_fftshift2 M N fun i j => ‖idft2 M N (ifftshift2 M N f) i j‖ ^ 2]
  refine (h.ifft _).trans (mul_le_mul_of_nonneg_right (pow_le_pow_left₀ hτ ?_ 2) ?_)
  · have := Real.add_one_le_exp τ
    linarith
  · exact sum_nonneg fun i _ => sum_nonneg fun j _ => sq_nonneg _

variable {F : SimArith}

theorem scalingR_near (h : RelErr u F.py) (s : Sim) : Near u s.dev.slm.scaling (s.scalingR F) := h.near _

theorem fourierPixelAreaR_near (h : RelErr u F.py) (s : Sim) : Near u s.fourierPixelArea (s.fourierPixelAreaR F) := by
  unfold fourierPixelArea fourierPixelAreaR
  rw [sq]
  exact h.near _

theorem gainR_near (hr : RelErr u F.rnd) (h : RelErr u F.py) (hu : u ≤ 1 / 100) (s : Sim) : Near (7 * u) s.gain (s.gainR F) := by
  have hu0 := RelErr.nonneg h
  have h1 := h.near' ((h.near ((s.Nx * s.Ny : ℕ) : ℝ)).mul (s.fourierPixelAreaR_near h) hu0 hu0)
  have h2 := h.near' (h1.div (s.scalingR_near h) (by linarith) hu0 (by linarith))
  exact (hr.near' h2).mono (by linarith)

theorem imagePixelAreaR_near (h : RelErr u F.py) (hu : u ≤ 1 / 100) (s : Sim) :
    Near (9 * u) (s.dev.slm.scaling ^ 2 / (s.Nx * s.Ny : ℕ) / s.dev.slm.ps ^ 2) (s.imagePixelAreaR F) := by
  have hu0 := RelErr.nonneg h
  have h1 := h.near' ((s.scalingR_near h).mul (s.scalingR_near h) hu0 hu0)
  have h2 := h.near' (h1.div (h.near ((s.Nx * s.Ny : ℕ) : ℝ)) (by linarith) hu0 (by linarith))
  have h3 := h.near' (h2.div (s.fourierPixelAreaR_near h) (by linarith) hu0 (by linarith))
  rw [← sq] at h3
  exact h3.mono (by linarith)

theorem outputFieldR_near (h : RelErr u F.rnd) (hu : u ≤ 1 / 100) (s : Sim) (f m : ℕ → ℕ → ℂ) (i j : ℕ) :
    Near (3 * u) (pad2 s.dev.slm.Ny s.dev.slm.Nx s.py.toNat s.px.toNat (fun i j => f i j * m i j) i j) (s.outputFieldR F f m i j) := by
  have hu0 := RelErr.nonneg h
  unfold outputFieldR pad2
  split_ifs
  · exact cmulR_near h hu _ _
  · exact Near.refl (by linarith) _

/-- The computed image. -/
theorem imageFieldR_near {s : Sim} (h : SimPrecise u τ k s.Ny s.Nx F) (hu : u ≤ 1 / 100) (hτ : 0 ≤ τ) (hM : 0 < s.Ny) (hN : 0 < s.Nx)
    (f m : ℕ → ℕ → ℂ) :
    Near (τ + 13 * u)
      (vec s.Ny s.Nx fun i j => centredIdft s.Ny s.Nx
        (pad2 s.dev.slm.Ny s.dev.slm.Nx s.py.toNat s.px.toNat fun i j => f i j * m i j) i j * (s.gain : ℂ))
      (vec s.Ny s.Nx (s.imageFieldR F f m)) := by
  have hu0 := RelErr.nonneg h.rnd
  set y := fftshift2 s.Ny s.Nx (F.ifft s.Ny s.Nx (ifftshift2 s.Ny s.Nx (s.outputFieldR F f m))) with hy
  have h1 := centredIdft_near hM hN (by linarith : 0 ≤ 3 * u)
    (vec_near (M := s.Ny) (N := s.Nx) (by linarith : 0 ≤ 3 * u) fun i _ j _ => outputFieldR_near h.rnd hu s f m i j)
  have h2 := h1.trans (ifft_near h hτ (s.outputFieldR F f m)) hτ
  rw [← hy] at h2
  have hsm : ∀ a : ℕ → ℕ → ℂ, (vec s.Ny s.Nx fun i j => a i j * (s.gain : ℂ)) = (s.gain : ℂ) • vec s.Ny s.Nx a := by
    intro a
    refine PiLp.ext fun p => ?_
    show a p.1 p.2 * (s.gain : ℂ) = (s.gain : ℂ) * a p.1 p.2
    ring
  have h3 : Near (3 * u + τ) (vec s.Ny s.Nx fun i j => centredIdft s.Ny s.Nx
        (pad2 s.dev.slm.Ny s.dev.slm.Nx s.py.toNat s.px.toNat fun i j => f i j * m i j) i j * (s.gain : ℂ))
      (vec s.Ny s.Nx fun i j => y i j * (s.gain : ℂ)) := by
    rw [hsm, hsm]
    unfold Near at h2 ⊢
    rw [← smul_sub, norm_smul, norm_smul, mul_left_comm]
    exact mul_le_mul_of_nonneg_left h2 (norm_nonneg _)
  have hg : Near (7 * u) (s.gain : ℂ) (s.gainR F : ℂ) := by
    have := gainR_near h.rnd h.py hu s
    unfold Near at this ⊢
    rw [← ofReal_sub, norm_real, norm_real]
    exact this
  have h4 : Near (10 * u) (vec s.Ny s.Nx fun i j => y i j * (s.gain : ℂ)) (vec s.Ny s.Nx (s.imageFieldR F f m)) := by
    refine vec_near (by linarith) fun i _ j _ => ?_
    have := (((Near.refl (le_refl 0) (y i j)).mul hg le_rfl (by linarith)).trans (cmulR_near h.rnd hu (y i j) (s.gainR F))
      (by linarith))
    exact this.mono (by linarith)
  exact (h3.trans h4 (by linarith)).mono (by linarith)

/-- The computed power of a field that is near an exact one. -/
theorem powerR_near {s : Sim} (h : SimPrecise u τ k s.Ny s.Nx F) (hu : u ≤ 1 / 100) {c d area area' : ℝ} (hc : 0 ≤ c) (hd : 0 ≤ d)
    {f g : ℕ → ℕ → ℂ} (hfg : Near c (vec s.Ny s.Nx f) (vec s.Ny s.Nx g)) (ha : Near d area area') :
    Near (2 * c + d + (k + 4) * u) ((∑ i ∈ range s.Ny, ∑ j ∈ range s.Nx, ‖f i j‖ ^ 2) * area) (s.powerR F g area') := by
  have hu0 := RelErr.nonneg h.rnd
  have hk : (0 : ℝ) ≤ k := Nat.cast_nonneg k
  have h1 := hfg.normSq hc
  rw [vec_normSq, vec_normSq] at h1
  have h2 := SumTree.sum_near h.rnd (f := fun i j => ‖g i j‖ ^ 2) (g := fun i j => intensityPixelR F.rnd (g i j))
    (fun i j => sq_nonneg _) (fun i j => intensityR_nonneg h.rnd hu _) h.leaves h.depth (by linarith : 0 ≤ 2 * u)
    fun i _ j _ => intensityR_near h.rnd (g i j)
  have h3 := h1.trans h2 (by positivity)
  have h4 := h.out.near' (h3.mul (h.out.near' ha) (by positivity) (by linarith))
  exact h4.mono (le_of_eq (by ring))

end Sim

end PySLM2
