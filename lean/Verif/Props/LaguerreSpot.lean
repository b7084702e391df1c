import Verif.Lemmas.LaguerreFourier
import Verif.Props.Continuum

/-!
# C113, C114: Laguerre-Gaussian beams and their focal spots
-/

noncomputable section

open MeasureTheory Finset Complex

namespace PySLM2.Profile

/-- **C113.** A freshly constructed `LaguerreGaussian` follows the textbook formula. -/
theorem C113_formula (h : Heap) (x0 y0 a w : ℝ) (l : ℤ) (p : ℕ) (hw : w ≠ 0) {r : Heap × Prof}
    (hr : New.run h (.lg x0 y0 a w l p) = .ok r) (x y : ℝ) :
    eval r.1 r.2 x y = some (Spec.laguerreGauss x0 y0 a w l p x y) := by
  injection hr with hr
  subst hr
  rw [eval_newLg]
  simp only [lgFunc, if_neg hw, polyval_laguerre, atan2]
  congr 1
  unfold Spec.laguerreGauss Spec.laguerre
  congr 2
  have e : ∀ t : ℝ, ∑ i ∈ range (p + 1), lagCoef p l.natAbs i * t ^ i =
      ∑ i ∈ range (p + 1), (-1) ^ i * ((p + l.natAbs).choose (p - i) : ℝ) / (i.factorial : ℝ) * t ^ i := fun t => rfl
  rw [← e]
  ring

theorem laguerre_hasDerivAt (p k : ℕ) (t : ℝ) :
    HasDerivAt (fun s : ℝ => Real.exp (-s) * s ^ (k + 1) * Spec.laguerre p (k + 1) s)
      (((p : ℝ) + 1) * (Real.exp (-t) * t ^ k * Spec.laguerre (p + 1) k t)) t := by
  set L : Polynomial ℝ := ∑ i ∈ range (p + 1), Polynomial.monomial i (lagCoef p (k + 1) i)
  have hL : ∀ s : ℝ, Spec.laguerre p (k + 1) s = Polynomial.eval s L := by
    intro s
    unfold Spec.laguerre
    rw [Polynomial.eval_finset_sum]
    refine sum_congr rfl fun i _ => ?_
    rw [Polynomial.eval_monomial]
    rfl
  have hc : laguerreC p (k + 1) = L.map ofRealHom := by
    unfold laguerreC
    rw [Polynomial.map_sum]
    refine sum_congr rfl fun i _ => ?_
    rw [Polynomial.map_monomial]
    rfl
  have hs := congrArg (Polynomial.eval (t : ℂ)) (laguerreC_step p k)
  have hm : ∀ q : Polynomial ℝ, Polynomial.eval (t : ℂ) (q.map ofRealHom) = ((Polynomial.eval t q : ℝ) : ℂ) := fun q => by
    have := Polynomial.eval_map_apply (f := ofRealHom) (p := q) t
    exact this
  simp only [Polynomial.eval_add, Polynomial.eval_sub, Polynomial.eval_mul, Polynomial.eval_smul, Polynomial.eval_X, smul_eq_mul,
    laguerreC_eval] at hs
  rw [hc, Polynomial.derivative_map, hm, hL] at hs
  have hs' : ((k : ℝ) + 1) * Polynomial.eval t L - t * Polynomial.eval t L + t * Polynomial.eval t (Polynomial.derivative L) =
      ((p : ℝ) + 1) * Spec.laguerre (p + 1) k t := by exact_mod_cast hs
  have he : HasDerivAt (fun s : ℝ => Real.exp (-s)) (-Real.exp (-t)) t := by
    simpa using (hasDerivAt_neg t).exp
  have hp := (he.mul (hasDerivAt_pow (k + 1) t)).mul (L.hasDerivAt t)
  simp only [hL]
  refine hp.congr_deriv ?_
  simp only [Pi.mul_apply, Nat.add_sub_cancel]
  push_cast
  linear_combination (Real.exp (-t) * t ^ k) * hs'

theorem laguerre_iterate : ∀ (p j k : ℕ), iteratedDeriv p (fun s : ℝ => Real.exp (-s) * s ^ (k + p) * Spec.laguerre j (k + p) s) =
    fun t => ((j + p).factorial : ℝ) / (j.factorial : ℝ) * (Real.exp (-t) * t ^ k * Spec.laguerre (j + p) k t)
  | 0, j, k => by
    have : (j.factorial : ℝ) ≠ 0 := by exact_mod_cast Nat.factorial_ne_zero j
    rw [iteratedDeriv_zero]
    funext t
    simp [div_self this]
  | p + 1, j, k => by
    rw [iteratedDeriv_succ']
    have hd : deriv (fun s : ℝ => Real.exp (-s) * s ^ (k + (p + 1)) * Spec.laguerre j (k + (p + 1)) s) =
        fun t => ((j : ℝ) + 1) * (Real.exp (-t) * t ^ (k + p) * Spec.laguerre (j + 1) (k + p) t) := by
      funext t
      exact (laguerre_hasDerivAt j (k + p) t).deriv
    rw [hd]
    funext t
    rw [iteratedDeriv_const_mul_field, congrFun (laguerre_iterate p (j + 1) k) t]
    have h0 : (j.factorial : ℝ) ≠ 0 := by exact_mod_cast Nat.factorial_ne_zero j
    have h1 : ((j : ℝ) + 1) ≠ 0 := by positivity
    rw [show j + 1 + p = j + (p + 1) by ring, Nat.factorial_succ]
    push_cast
    field_simp

/-- **C113.** The polynomial of the formula is the one of Rodrigues' formula,
`t^k L_p^k(t) = (e^t / p!) (d/dt)^p (e^{-t} t^(k+p))`. -/
theorem C113_rodrigues (p k : ℕ) (t : ℝ) :
    t ^ k * Spec.laguerre p k t =
      Real.exp t / (p.factorial : ℝ) * iteratedDeriv p (fun s : ℝ => Real.exp (-s) * s ^ (k + p)) t := by
  have h := congrFun (laguerre_iterate p 0 k) t
  have h0 : (fun s : ℝ => Real.exp (-s) * s ^ (k + p) * Spec.laguerre 0 (k + p) s) = fun s => Real.exp (-s) * s ^ (k + p) := by
    funext s
    simp [Spec.laguerre]
  have hf : (p.factorial : ℝ) ≠ 0 := by exact_mod_cast Nat.factorial_ne_zero p
  rw [h0] at h
  rw [h, Real.exp_neg]
  simp only [zero_add, Nat.factorial_zero, Nat.cast_one, div_one]
  field_simp

/-- C113: a charge -2 vortex with one node. -/
example (h : Heap) : ∃ r, New.run h (.lg 1 2 3 4 (-2) 1) = .ok r ∧ (4 : ℝ) ≠ 0 := ⟨_, rfl, by norm_num⟩

/-- The imaginary unit in `x ∓ iy` -/
def unit (l : ℤ) : ℂ := if 0 ≤ l then I else -I

theorem unit_sq (l : ℤ) : unit l * unit l = -1 := by
  unfold unit
  split <;> simp

theorem vortex (u v : ℝ) (l : ℤ) :
    ((√(u ^ 2 + v ^ 2) : ℝ) : ℂ) ^ l.natAbs * cexp (-I * l * (Complex.arg ⟨u, v⟩ : ℝ)) = ((u : ℂ) - unit l * v) ^ l.natAbs := by
  have hn : ‖(⟨u, v⟩ : ℂ)‖ = √(u ^ 2 + v ^ 2) := by
    rw [Complex.norm_def, Complex.normSq_mk]
    congr 1
    ring
  have hz := Complex.norm_mul_exp_arg_mul_I ⟨u, v⟩
  rw [hn] at hz
  have huv : (⟨u, v⟩ : ℂ) = u + v * I := Complex.mk_eq_add_mul_I u v
  unfold unit
  split
  · next hl =>
    have hc := congrArg (starRingEnd ℂ) hz
    rw [map_mul, conj_ofReal, ← Complex.exp_conj, map_mul, conj_ofReal, conj_I, huv, map_add, map_mul, conj_ofReal, conj_ofReal,
      conj_I] at hc
    rw [show (u : ℂ) - I * v = u + v * -I by ring, ← hc, mul_pow, ← Complex.exp_nat_mul]
    congr 2
    have : (l : ℂ) = (l.natAbs : ℂ) := by
      have : l = (l.natAbs : ℤ) := by omega
      conv_lhs => rw [this]
      rfl
    rw [this, huv]
    ring
  · next hl =>
    rw [huv] at hz
    rw [show (u : ℂ) - -I * v = u + v * I by ring, ← hz, mul_pow, ← Complex.exp_nat_mul]
    congr 2
    have : (l : ℂ) = -(l.natAbs : ℂ) := by
      have : l = -(l.natAbs : ℤ) := by omega
      conv_lhs => rw [this]
      rw [Int.cast_neg]
      rfl
    rw [this, huv]
    ring

theorem laguerreGauss_mode {x0 y0 a w : ℝ} (hw : w ≠ 0) (l : ℤ) (p : ℕ) (x y : ℝ) :
    Spec.laguerreGauss x0 y0 a w l p x y =
      a * modeFun (laguerre2 (unit l) p l.natAbs) (√2 / w * (x - x0)) (√2 / w * (y - y0)) := by
  rw [modeFun_laguerre (unit_sq l)]
  unfold Spec.laguerreGauss
  have hv := vortex (x - x0) (y - y0) l
  have e1 : (√2 / w * (x - x0)) ^ 2 + (√2 / w * (y - y0)) ^ 2 = 2 * ((x - x0) ^ 2 + (y - y0) ^ 2) / w ^ 2 := by
    rw [mul_pow, mul_pow, div_pow, Real.sq_sqrt (by norm_num)]; ring
  have e2 : -((√2 / w * (x - x0)) ^ 2 + (√2 / w * (y - y0)) ^ 2) / 2 = -((x - x0) ^ 2 + (y - y0) ^ 2) / w ^ 2 := by
    rw [e1]; ring
  rw [← neg_div, e2, e1]
  have e3 : (((√2 / w * (x - x0) : ℝ) : ℂ) - unit l * ((√2 / w * (y - y0) : ℝ) : ℂ)) =
      (((√2 / w : ℝ) : ℂ)) * (((x - x0 : ℝ) : ℂ) - unit l * ((y - y0 : ℝ) : ℂ)) := by push_cast; ring
  rw [e3, mul_pow, ← hv]
  dsimp only
  rw [show √2 * √((x - x0) ^ 2 + (y - y0) ^ 2) / w = √2 / w * √((x - x0) ^ 2 + (y - y0) ^ 2) by ring, mul_pow]
  push_cast
  ring

end PySLM2.Profile

namespace PySLM2.Sim

open Riemann Spec

/-- **C114.** A beam `LaguerreGaussian(x0, y0, a, w, l, p)` on an SLM that does not modulate it is focused to the
Laguerre-Gaussian mode with the same indices and of waist `λf/(πw)`: for every accuracy `ε` and every part `[-K, K]²` of the
image plane there are a pixel size and an extent such that every simulation with pixels at most that large and an SLM at
least that large shows the spot with that accuracy at all pixels there. -/
theorem C114_laguerre_spot {x0 y0 amp w sc : ℝ} (hw : 0 < w) (hsc : sc ≠ 0) (l : ℤ) (p : ℕ) {ε K : ℝ} (hε : 0 < ε) :
    ∃ δ > 0, ∃ T, ∀ {s : Sim} {px py : ℕ} {h0 h : Profile.Heap} {f : Profile.Prof} {u : ℕ → ℕ → ℂ},
      Profile.New.run h0 (.lg x0 y0 amp w l p) = .ok (h, f) → Ready s px py h (.prof f) u (fun _ _ => 1) →
      s.dev.slm.wavelength * s.dev.slm.focal = sc → 0 < s.dev.slm.ps → s.dev.slm.ps ≤ δ →
      T ≤ s.dev.slm.Nx * s.dev.slm.ps / 2 → T ≤ s.dev.slm.Ny * s.dev.slm.ps / 2 →
      ∃ img g, (s.propagate h (.prof f)).1.imageField = some img ∧ s.imagePaddedGrid = .ok g ∧
        ∀ i < s.dev.slm.Ny + 2 * py, ∀ j < s.dev.slm.Nx + 2 * px,
          let ξ := g.1.get i j
          let η := g.2.get i j
          |ξ| ≤ K → |η| ≤ K →
          |‖img.get i j‖ - ‖laguerreGauss 0 0 (Real.pi * w ^ 2 * amp / sc) (sc / (Real.pi * w)) l p ξ η‖| ≤ ε ∧
          (Even s.dev.slm.Nx → Even s.dev.slm.Ny → ‖img.get i j - laguerreSpot sc x0 y0 amp w l p ξ η‖ ≤ ε) := by
  have hsc' : 0 < |sc| := abs_pos.mpr hsc
  set q := Profile.laguerre2 (Profile.unit l) p l.natAbs with hq
  obtain ⟨δ, hδ, T, H⟩ := Profile.Focal.of_mem x0 y0 hw (Profile.laguerre2_mem (Profile.unit_sq l) p l.natAbs)
    (ε * |sc| / (|amp| + 1)) (by positivity) (2 * Real.pi * K / |sc|)
  refine ⟨δ, hδ, T, ?_⟩
  intro s px py h0 h f u hnew r hs hps hps' hx hy
  obtain ⟨-, img, g, h1, h2, -, h4⟩ := C10_fraunhofer r
  refine ⟨img, g, h1, h2, fun i hi j hj => ?_⟩
  intro ξ η hξ hη
  have hs' : s.dev.slm.scaling = sc := hs
  have ex : ∀ x y : ℝ, cexp (2 * Real.pi * I * ((ξ * x + η * y : ℝ) : ℂ) / ((sc : ℝ) : ℂ)) =
      cexp (I * ((2 * Real.pi * ξ / sc : ℝ) : ℂ) * x) * cexp (I * ((2 * Real.pi * η / sc : ℝ) : ℂ) * y) := by
    intro x y
    rw [← Complex.exp_add]
    congr 1
    push_cast
    ring
  have hb : ‖fraunhofer s.dev.slm (fun i j => u i j * 1) ξ η - laguerreSpot sc x0 y0 amp w l p ξ η‖ ≤ ε := by
    set d := s.dev.slm with hd
    rw [fraunhofer_eq d (fun i j => u i j * 1) (fun x y => laguerreGauss x0 y0 amp w l p x y)
      (fun i hi j hj => by
        rw [mul_one]
        have h1 := input_values r.input hi hj
        rw [Profile.C113_formula h0 x0 y0 amp w l p hw.ne' hnew] at h1
        injection h1 with h1
        exact h1.symm), hs']
    have hκ : ∀ z : ℝ, |z| ≤ K → |2 * Real.pi * z / sc| ≤ 2 * Real.pi * K / |sc| := by
      intro z hz
      rw [abs_div, abs_mul, abs_of_pos (by positivity : 0 < 2 * Real.pi)]
      gcongr
    have hH := H (2 * Real.pi * ξ / sc) (2 * Real.pi * η / sc) d.ps d.Nx d.Ny (fun j => -(d.Nx * d.ps / 2) + j * d.ps)
      (fun j => -(d.Ny * d.ps / 2) + (j + 1) * d.ps) (hκ ξ hξ) (hκ η hη) hps.le hps' (fun k _ => ⟨le_rfl, by nlinarith⟩)
      (fun k _ => ⟨by nlinarith, le_rfl⟩) hx hy
    rw [← hq] at hH
    have hpw : sc / (Real.pi * w) ≠ 0 := div_ne_zero hsc (by positivity)
    have hsq : ∀ z : ℝ, √2 / (sc / (Real.pi * w)) * (z - 0) = 2 * Real.pi * z / sc * w / √2 := by
      intro z
      have h2 : √2 * √2 = 2 := Real.mul_self_sqrt (by norm_num)
      have h2' : √2 ≠ 0 := by positivity
      field_simp
      rw [sq, h2, sub_zero, mul_comm]
    have hspot : laguerreSpot sc x0 y0 amp w l p ξ η = ((1 / sc : ℝ) : ℂ) * ((amp : ℂ) * (Real.pi * w ^ 2 * I ^ (2 * p + l.natAbs) *
        Profile.modeFun q (2 * Real.pi * ξ / sc * w / √2) (2 * Real.pi * η / sc * w / √2) *
        (cexp (I * ((2 * Real.pi * ξ / sc : ℝ) : ℂ) * x0) * cexp (I * ((2 * Real.pi * η / sc : ℝ) : ℂ) * y0)))) := by
      unfold laguerreSpot
      rw [Profile.laguerreGauss_mode hpw, hsq, hsq, ex]
      push_cast
      ring
    have hterm : ∀ x y : ℝ, (d.ps : ℂ) ^ 2 * (laguerreGauss x0 y0 amp w l p x y *
        cexp (2 * Real.pi * I * ((ξ * x + η * y : ℝ) : ℂ) / ((sc : ℝ) : ℂ))) =
        (amp : ℂ) * ((d.ps : ℂ) ^ 2 * (Profile.modeFun q (√2 / w * (x - x0)) (√2 / w * (y - y0)) *
          (cexp (I * ((2 * Real.pi * ξ / sc : ℝ) : ℂ) * x) * cexp (I * ((2 * Real.pi * η / sc : ℝ) : ℂ) * y)))) := by
      intro x y
      rw [Profile.laguerreGauss_mode hw.ne', ex]
      ring
    simp only [hterm]
    rw [hspot]
    have e2 : ∀ A : ℕ → ℕ → ℂ, ∑ j ∈ range d.Nx, ∑ i ∈ range d.Ny, (amp : ℂ) * A j i =
        (amp : ℂ) * ∑ j ∈ range d.Nx, ∑ i ∈ range d.Ny, A j i := by
      intro A
      simp only [mul_sum]
    rw [e2, ← mul_sub, ← mul_sub, norm_mul, norm_mul, norm_real, norm_real, Real.norm_eq_abs, Real.norm_eq_abs, abs_div, abs_one,
      ← mul_assoc, one_div_mul_eq_div]
    refine (mul_le_mul_of_nonneg_left hH (by positivity)).trans ?_
    rw [div_mul_div_comm, div_le_iff₀ (by positivity)]
    have : 0 ≤ ε * |sc| := by positivity
    nlinarith
  refine ⟨?_, fun hx hy => ?_⟩
  · rw [(h4 i hi j hj).1]
    have hn : ‖laguerreSpot sc x0 y0 amp w l p ξ η‖ =
        ‖laguerreGauss 0 0 (Real.pi * w ^ 2 * amp / sc) (sc / (Real.pi * w)) l p ξ η‖ := by
      unfold laguerreSpot
      rw [norm_mul, norm_mul, norm_pow, norm_I, one_pow, one_mul,
        show 2 * Real.pi * I * ((ξ * x0 + η * y0 : ℝ) : ℂ) / ((sc : ℝ) : ℂ) =
        ((2 * Real.pi * (ξ * x0 + η * y0) / sc : ℝ) : ℂ) * I by push_cast; ring, norm_exp_ofReal_mul_I, mul_one]
    rw [← hn]
    exact (abs_norm_sub_norm_le _ _).trans hb
  · rw [(h4 i hi j hj).2 hx hy]
    exact hb

/-- For every pixel size and extent there is such a simulation: a square DMD with all mirrors on, with a vortex of
charge 1. -/
example (h0 : Profile.Heap) {δ : ℝ} (hδ : 0 < δ) (T : ℝ) : ∃ (s : Sim) (h : Profile.Heap) (f : Profile.Prof) (u : ℕ → ℕ → ℂ),
    Profile.New.run h0 (.lg 0 0 3 1 1 0) = .ok (h, f) ∧ Ready s 3 1 h (.prof f) u (fun _ _ => 1) ∧
    s.dev.slm.wavelength * s.dev.slm.focal = 2 ∧ 0 < s.dev.slm.ps ∧ s.dev.slm.ps ≤ δ ∧
    T ≤ s.dev.slm.Nx * s.dev.slm.ps / 2 ∧ T ≤ s.dev.slm.Ny * s.dev.slm.ps / 2 ∧ Even s.dev.slm.Nx ∧ Even s.dev.slm.Ny := by
  obtain ⟨N, hN⟩ := exists_nat_ge (|T| / δ + 1)
  have hT : T ≤ N * δ := by
    have h1 : |T| / δ ≤ N := by linarith
    rw [div_le_iff₀ hδ] at h1
    exact (le_abs_self T).trans h1
  have hN0 : 0 < 2 * N := by
    have h1 : (0 : ℝ) < N := by
      have : 0 ≤ |T| / δ := by positivity
      linarith
    have : 0 < N := by exact_mod_cast h1
    omega
  let s : Sim := ⟨.dmd (DMD.new ⟨1, 2, 2 * N, 2 * N, δ⟩ 4 0 false) (.bool ⟨.mat (2 * N) (2 * N), fun _ _ => true⟩), 3, 1, none, none, none⟩
  obtain ⟨r, hr⟩ : ∃ r, Profile.New.run h0 (.lg 0 0 3 1 1 0) = .ok r := ⟨_, rfl⟩
  have hev := Profile.C113_formula h0 0 0 3 1 1 0 one_ne_zero hr
  obtain ⟨t, ht⟩ := (C64_profile_partial s.dev.slm r.1 r.2 true true).2 _ rfl hN0 hN0
    (fun i _ j _ => by rw [hev]; rfl)
  have hsh : t.shape = .mat s.dev.slm.Ny s.dev.slm.Nx := by
    obtain ⟨g, -, -, hs, -⟩ := (C64_profile_partial s.dev.slm r.1 r.2 true true).1 t ht
    rcases hs with hs | ⟨-, hc⟩
    · exact hs
    · have h1 := hc 0 0 1 0
      rw [hev, hev] at h1
      injection h1 with h1
      unfold laguerreGauss laguerre at h1
      norm_num at h1
  refine ⟨s, r.1, r.2, t.get, hr, ⟨rfl, rfl, hN0, hN0, ?_, ?_, ⟨t, ht, hsh, fun _ _ _ _ => rfl⟩,
    ⟨_, rfl, rfl, fun i _ j _ => ?_⟩⟩, ?_, hδ, le_rfl, ?_, ?_, ?_, ?_⟩
  · norm_num [s, Device.slm, DMD.new]
  · exact hδ.ne'
  · simp [Tensor.map]
  · norm_num [s, Device.slm, DMD.new]
  · simp only [s, Device.slm, DMD.new]; push_cast; linarith
  · simp only [s, Device.slm, DMD.new]; push_cast; linarith
  · exact even_two_mul N
  · exact even_two_mul N

end PySLM2.Sim
