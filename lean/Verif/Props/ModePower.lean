import Verif.Lemmas.ModeSampling
import Verif.Props.LaguerreSpot
import Verif.Props.ModeOverlap
import Verif.Props.PropagationMore

/-!
# C132: powers and overlaps of the simulated modes
-/

noncomputable section

open Complex Finset MeasureTheory
open scoped Nat

namespace PySLM2.Profile

/-- A Hermite-Gaussian or Laguerre-Gaussian beam with centre `(x0, y0)` and waist `w`. -/
inductive IsMode (x0 y0 w : ℝ) : New → Prop
  | hermite (a : ℝ) (n m : ℕ) : IsMode x0 y0 w (.hg x0 y0 a w n m)
  | laguerre (a : ℝ) (l : ℤ) (p : ℕ) : IsMode x0 y0 w (.lg x0 y0 a w l p)

theorem IsMode.poly {x0 y0 w : ℝ} (hw : 0 < w) {b : New} (hb : IsMode x0 y0 w b) :
    ∃ q : Poly2, ∀ h0 r, New.run h0 b = .ok r → ∀ x y,
      eval r.1 r.2 x y = some (modeFun q (√2 / w * (x - x0)) (√2 / w * (y - y0))) := by
  have hC : ∀ (a : ℝ) (q : Poly2) (s t : ℝ), (a : ℂ) * modeFun q s t = modeFun (MvPolynomial.C (a : ℂ) * q) s t := by
    intro a q s t
    unfold modeFun
    rw [map_mul, MvPolynomial.eval_C, mul_assoc]
  cases hb with
  | hermite a n m =>
    refine ⟨MvPolynomial.C (a : ℂ) * hermite2 n m, fun h0 r hr x y => ?_⟩
    rw [C56_formula h0 x0 y0 a w n m hw.ne' hr, ← hC, modeFun_hermite]
    congr 1
    rw [← ofReal_mul, ← ofReal_mul]
    congr 1
    have h1 := line_eq n x0 w x
    have h2 := line_eq m y0 w y
    unfold line at h1 h2
    rw [h1, h2]
    unfold Spec.hermiteGauss
    rw [show -((x - x0) ^ 2 + (y - y0) ^ 2) / w ^ 2 = -((x - x0) ^ 2 / w ^ 2) + -((y - y0) ^ 2 / w ^ 2) by ring, Real.exp_add]
    ring
  | laguerre a l p =>
    refine ⟨MvPolynomial.C (a : ℂ) * laguerre2 (unit l) p l.natAbs, fun h0 r hr x y => ?_⟩
    rw [C113_formula h0 x0 y0 a w l p hw.ne' hr, ← hC, laguerreGauss_mode hw.ne']

end PySLM2.Profile

namespace PySLM2.Sim

open Profile (IsMode overlap)

/-- The sum over the pixels of the SLM of two sampled modes, against the overlap integral. -/
theorem mode_sum {x0 y0 w : ℝ} (hw : 0 < w) {b b' : Profile.New} (hb : IsMode x0 y0 w b) (hb' : IsMode x0 y0 w b')
    {ε : ℝ} (hε : 0 < ε) :
    ∃ δ > 0, ∃ T, ∀ {s s' : Sim} {h0 h h0' h' : Profile.Heap} {f f' : Profile.Prof} {u u' : ℕ → ℕ → ℂ},
      Profile.New.run h0 b = .ok (h, f) → Profile.New.run h0' b' = .ok (h', f') →
      InputField s h (.prof f) u → InputField s' h' (.prof f') u' → s'.dev.slm = s.dev.slm →
      s.dev.slm.wavelength * s.dev.slm.focal ≠ 0 → 0 < s.dev.slm.ps → s.dev.slm.ps ≤ δ →
      T ≤ s.dev.slm.Nx * s.dev.slm.ps / 2 → T ≤ s.dev.slm.Ny * s.dev.slm.ps / 2 →
      ‖(∑ i ∈ range s.dev.slm.Ny, ∑ j ∈ range s.dev.slm.Nx, u i j * (starRingEnd ℂ) (u' i j)) *
        (s.fourierPixelArea : ℂ) - overlap (h, f) (h', f')‖ ≤ ε := by
  obtain ⟨q, hq⟩ := hb.poly hw
  obtain ⟨q', hq'⟩ := hb'.poly hw
  obtain ⟨δ, hδ, T, H⟩ := (Profile.sampled x0 y0 hw (q * MvPolynomial.map (starRingEnd ℂ) q')).2 ε hε
  refine ⟨δ, hδ, T, ?_⟩
  intro s s' h0 h h0' h' f f' u u' hr hr' hu hu' hdev hsc hps hps' hx hy
  set d := s.dev.slm with hd
  have key : ∀ x y : ℝ, Profile.modeFun q (√2 / w * (x - x0)) (√2 / w * (y - y0)) *
      (starRingEnd ℂ) (Profile.modeFun q' (√2 / w * (x - x0)) (√2 / w * (y - y0))) =
      Profile.gaussAt x0 y0 w (q * MvPolynomial.map (starRingEnd ℂ) q') (x, y) := by
    intro x y
    rw [Profile.modeFun_conj, Profile.modeFun_mul]
    rfl
  have hov : overlap (h, f) (h', f') = ∫ z, Profile.gaussAt x0 y0 w (q * MvPolynomial.map (starRingEnd ℂ) q') z := by
    unfold overlap
    congr 1
    funext z
    unfold Profile.cplxValue
    rw [hq h0 _ hr, hq' h0' _ hr', Option.getD_some, Option.getD_some, key]
  have hfr := fraunhofer_eq d (fun i j => u i j * (starRingEnd ℂ) (u' i j))
    (fun x y => Profile.gaussAt x0 y0 w (q * MvPolynomial.map (starRingEnd ℂ) q') (x, y)) (fun i hi j hj => by
      have h1 := input_values hu hi hj
      have h2 := input_values hu' (i := i) (j := j) (by rw [hdev]; exact hi) (by rw [hdev]; exact hj)
      rw [hq h0 _ hr] at h1
      rw [hq' h0' _ hr', hdev] at h2
      injection h1 with h1
      injection h2 with h2
      rw [← h1, ← h2, key]) 0 0
  have hsc' : (d.scaling : ℂ) ≠ 0 := by
    unfold SLM.scaling
    exact_mod_cast hsc
  unfold fraunhofer at hfr
  simp only [zero_mul, add_zero, ofReal_zero, mul_zero, zero_div, Complex.exp_zero, mul_one] at hfr
  have e : (∑ i ∈ range d.Ny, ∑ j ∈ range d.Nx, u i j * (starRingEnd ℂ) (u' i j)) * (s.fourierPixelArea : ℂ) =
      ∑ j ∈ range d.Nx, ∑ i ∈ range d.Ny, (d.ps : ℂ) ^ 2 *
        Profile.gaussAt x0 y0 w (q * MvPolynomial.map (starRingEnd ℂ) q')
          (-(d.Nx * d.ps / 2) + j * d.ps, -(d.Ny * d.ps / 2) + (i + 1) * d.ps) := by
    have := congrArg (fun c => (d.scaling : ℂ) * c) hfr
    rw [← mul_assoc (d.scaling : ℂ) ((1 / d.scaling : ℝ) : ℂ), show (d.scaling : ℂ) * ((1 / d.scaling : ℝ) : ℂ) = 1 by
      push_cast; field_simp, one_mul] at this
    rw [← this]
    unfold fourierPixelArea
    rw [← hd]
    unfold SLM.scaling at hsc' ⊢
    push_cast at hsc' ⊢
    have h1 := left_ne_zero_of_mul hsc'
    have h2 := right_ne_zero_of_mul hsc'
    field_simp
  rw [e, hov]
  exact H d.ps d.Nx d.Ny (fun j => -(d.Nx * d.ps / 2) + j * d.ps) (fun j => -(d.Ny * d.ps / 2) + (j + 1) * d.ps) hps.le hps'
    (fun k _ => ⟨le_rfl, by nlinarith⟩) (fun k _ => ⟨by nlinarith, le_rfl⟩) hx hy

/-- **C132.** Two simulations, on the same SLM that does not modulate the light, of beams that are Hermite-Gaussian or
Laguerre-Gaussian modes with the same centre and waist: the overlap of the two image fields is, with any desired accuracy,
the overlap integral of the beams (C91, C92), provided that the pixels are small and the SLM is large enough. In
particular the images of different modes of a family are orthogonal. -/
theorem C132_overlap {x0 y0 w : ℝ} (hw : 0 < w) {b b' : Profile.New} (hb : IsMode x0 y0 w b) (hb' : IsMode x0 y0 w b')
    {ε : ℝ} (hε : 0 < ε) :
    ∃ δ > 0, ∃ T, ∀ {s s' : Sim} {px py : ℕ} {h0 h h0' h' : Profile.Heap} {f f' : Profile.Prof} {u u' : ℕ → ℕ → ℂ},
      Profile.New.run h0 b = .ok (h, f) → Profile.New.run h0' b' = .ok (h', f') →
      Ready s px py h (.prof f) u (fun _ _ => 1) → Ready s' px py h' (.prof f') u' (fun _ _ => 1) →
      s'.dev.slm = s.dev.slm → 0 < s.dev.slm.ps → s.dev.slm.ps ≤ δ →
      T ≤ s.dev.slm.Nx * s.dev.slm.ps / 2 → T ≤ s.dev.slm.Ny * s.dev.slm.ps / 2 →
      ∃ img img' A, (s.propagate h (.prof f)).1.imageField = some img ∧
        (s'.propagate h' (.prof f')).1.imageField = some img' ∧ s.imagePixelArea = .ok A ∧
        ‖(∑ k ∈ range (s.dev.slm.Ny + 2 * py), ∑ l ∈ range (s.dev.slm.Nx + 2 * px),
          img.get k l * (starRingEnd ℂ) (img'.get k l)) * (A : ℂ) - overlap (h, f) (h', f')‖ ≤ ε := by
  obtain ⟨δ, hδ, T, H⟩ := mode_sum hw hb hb' hε
  refine ⟨δ, hδ, T, ?_⟩
  intro s s' px py h0 h h0' h' f f' u u' hr hr' r r' hdev hps hps' hx hy
  obtain ⟨img, img', A, e1, e2, e3, e4⟩ := C86_overlap r r' hdev
  refine ⟨img, img', A, e1, e2, e3, ?_⟩
  rw [e4]
  simp only [mul_one]
  exact H hr hr' r.input r'.input hdev r.hsc hps hps' hx hy

/-- **C132.** Whatever the SLM does to the light, `get_input_power()` of a Hermite-Gaussian or Laguerre-Gaussian beam is,
with any desired accuracy, the power of the beam, provided that the pixels are small and the SLM is large enough. -/
theorem C132_power {x0 y0 w : ℝ} (hw : 0 < w) {b : Profile.New} (hb : IsMode x0 y0 w b) {ε : ℝ} (hε : 0 < ε) :
    ∃ δ > 0, ∃ T, ∀ {s : Sim} {px py : ℕ} {h0 h : Profile.Heap} {f : Profile.Prof} {u m : ℕ → ℕ → ℂ},
      Profile.New.run h0 b = .ok (h, f) → Ready s px py h (.prof f) u m → 0 < s.dev.slm.ps → s.dev.slm.ps ≤ δ →
      T ≤ s.dev.slm.Nx * s.dev.slm.ps / 2 → T ≤ s.dev.slm.Ny * s.dev.slm.ps / 2 →
      ∃ P, (s.propagate h (.prof f)).1.inputPower = .ok P ∧ ‖(P : ℂ) - overlap (h, f) (h, f)‖ ≤ ε := by
  obtain ⟨δ, hδ, T, H⟩ := mode_sum hw hb hb hε
  refine ⟨δ, hδ, T, ?_⟩
  intro s px py h0 h f u m hr r hps hps' hx hy
  refine ⟨slmPower s.dev.slm u, by rw [propagate_ready r]; exact (propagated_powers r).1, ?_⟩
  have h1 := H hr hr r.input r.input rfl r.hsc hps hps' hx hy
  refine le_trans (le_of_eq ?_) h1
  congr 2
  unfold slmPower fourierPixelArea
  push_cast
  simp only [Complex.mul_conj, Complex.normSq_eq_norm_sq]
  push_cast
  rfl

/-- **C132.** The power of `HermiteGaussian(x0, y0, a, w, n, m)` is `a² 2^(n+m) n! m! π w²/2`. -/
theorem C132_hermite_power {x0 y0 a w : ℝ} (hw : 0 < w) (n n' : ℕ) {ε : ℝ} (hε : 0 < ε) :
    ∃ δ > 0, ∃ T, ∀ {s : Sim} {px py : ℕ} {h0 h : Profile.Heap} {f : Profile.Prof} {u m : ℕ → ℕ → ℂ},
      Profile.New.run h0 (.hg x0 y0 a w n n') = .ok (h, f) → Ready s px py h (.prof f) u m → 0 < s.dev.slm.ps →
      s.dev.slm.ps ≤ δ → T ≤ s.dev.slm.Nx * s.dev.slm.ps / 2 → T ≤ s.dev.slm.Ny * s.dev.slm.ps / 2 →
      ∃ P, (s.propagate h (.prof f)).1.inputPower = .ok P ∧
        |P - a ^ 2 * 2 ^ (n + n') * (n ! : ℝ) * (n' ! : ℝ) * (Real.pi * w ^ 2 / 2)| ≤ ε := by
  obtain ⟨δ, hδ, T, H⟩ := C132_power hw (IsMode.hermite (x0 := x0) (y0 := y0) (w := w) a n n') hε
  refine ⟨δ, hδ, T, ?_⟩
  intro s px py h0 h f u m hr r hps hps' hx hy
  obtain ⟨P, hP, hle⟩ := H hr r hps hps' hx hy
  refine ⟨P, hP, ?_⟩
  rw [Profile.C91_hermite h0 x0 y0 a a w hw.ne' n n' n n' hr hr, if_pos ⟨rfl, rfl⟩, ← ofReal_sub, norm_real,
    Real.norm_eq_abs] at hle
  rw [sq a]
  exact hle

/-- **C132.** The power of `LaguerreGaussian(x0, y0, a, w, l, p)` is `a² (p+|l|)!/p! π w²/2`. -/
theorem C132_laguerre_power {x0 y0 a w : ℝ} (hw : 0 < w) (l : ℤ) (p : ℕ) {ε : ℝ} (hε : 0 < ε) :
    ∃ δ > 0, ∃ T, ∀ {s : Sim} {px py : ℕ} {h0 h : Profile.Heap} {f : Profile.Prof} {u m : ℕ → ℕ → ℂ},
      Profile.New.run h0 (.lg x0 y0 a w l p) = .ok (h, f) → Ready s px py h (.prof f) u m → 0 < s.dev.slm.ps →
      s.dev.slm.ps ≤ δ → T ≤ s.dev.slm.Nx * s.dev.slm.ps / 2 → T ≤ s.dev.slm.Ny * s.dev.slm.ps / 2 →
      ∃ P, (s.propagate h (.prof f)).1.inputPower = .ok P ∧
        |P - a ^ 2 * (((p + l.natAbs)! : ℝ) / (p ! : ℝ)) * (Real.pi * w ^ 2 / 2)| ≤ ε := by
  obtain ⟨δ, hδ, T, H⟩ := C132_power hw (IsMode.laguerre (x0 := x0) (y0 := y0) (w := w) a l p) hε
  refine ⟨δ, hδ, T, ?_⟩
  intro s px py h0 h f u m hr r hps hps' hx hy
  obtain ⟨P, hP, hle⟩ := H hr r hps hps' hx hy
  refine ⟨P, hP, ?_⟩
  rw [Profile.C92_laguerre h0 x0 y0 a a w hw.ne' l l p p hr hr, if_pos ⟨rfl, rfl⟩, ← ofReal_sub, norm_real,
    Real.norm_eq_abs] at hle
  rw [sq a]
  exact hle

/-- For every pixel size and extent there is such an SLM, a square DMD with all mirrors on, which two vortices of opposite
charge illuminate. -/
example (h0 : Profile.Heap) {δ : ℝ} (hδ : 0 < δ) (T : ℝ) : ∃ s : Sim, 0 < s.dev.slm.ps ∧ s.dev.slm.ps ≤ δ ∧
    T ≤ s.dev.slm.Nx * s.dev.slm.ps / 2 ∧ T ≤ s.dev.slm.Ny * s.dev.slm.ps / 2 ∧
    ∀ l : ℤ, l = 1 ∨ l = -1 → IsMode 0 0 1 (.lg 0 0 3 1 l 0) ∧ ∃ (h : Profile.Heap) (f : Profile.Prof) (u : ℕ → ℕ → ℂ),
      Profile.New.run h0 (.lg 0 0 3 1 l 0) = .ok (h, f) ∧ Ready s 3 1 h (.prof f) u (fun _ _ => 1) := by
  obtain ⟨N, hN⟩ := exists_nat_ge (|T| / δ + 1)
  have hT : T ≤ N * δ := by
    have h1 : |T| / δ ≤ N := by linarith
    rw [div_le_iff₀ hδ] at h1
    exact (le_abs_self T).trans h1
  have hN0 : 0 < 2 * N := by
    have h1 : (0 : ℝ) < N := by
      have : 0 ≤ |T| / δ := by positivity
      linarith
    have : 0 < N := by exact_mod_cast h1
    omega
  let s : Sim := ⟨.dmd (DMD.new ⟨1, 2, 2 * N, 2 * N, δ⟩ 4 0 false) (.bool ⟨.mat (2 * N) (2 * N), fun _ _ => true⟩), 3, 1, none, none, none⟩
  refine ⟨s, hδ, le_rfl, ?_, ?_, fun l hl => ⟨.laguerre 3 l 0, ?_⟩⟩
  · simp only [s, Device.slm, DMD.new]; push_cast; linarith
  · simp only [s, Device.slm, DMD.new]; push_cast; linarith
  obtain ⟨r, hr⟩ : ∃ r, Profile.New.run h0 (.lg 0 0 3 1 l 0) = .ok r := ⟨_, rfl⟩
  have hev := Profile.C113_formula h0 0 0 3 1 l 0 one_ne_zero hr
  obtain ⟨t, ht⟩ := (C64_profile_partial s.dev.slm r.1 r.2 true true).2 _ rfl hN0 hN0
    (fun i _ j _ => by rw [hev]; rfl)
  have hsh : t.shape = .mat s.dev.slm.Ny s.dev.slm.Nx := by
    obtain ⟨g, -, -, hs, -⟩ := (C64_profile_partial s.dev.slm r.1 r.2 true true).1 t ht
    rcases hs with hs | ⟨-, hc⟩
    · exact hs
    · have h1 := hc 0 0 1 0
      rw [hev, hev] at h1
      injection h1 with h1
      unfold Spec.laguerreGauss Spec.laguerre at h1
      rcases hl with rfl | rfl <;> norm_num at h1
  refine ⟨r.1, r.2, t.get, hr, ⟨rfl, rfl, hN0, hN0, ?_, ?_, ⟨t, ht, hsh, fun _ _ _ _ => rfl⟩,
    ⟨_, rfl, rfl, fun i _ j _ => ?_⟩⟩⟩
  · norm_num [s, Device.slm, DMD.new]
  · exact hδ.ne'
  · simp [Tensor.map]

end PySLM2.Sim
