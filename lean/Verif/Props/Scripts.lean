import Verif.Spec.Scripts
import Verif.Props.GaussianInput
import Verif.Props.Zernike
import Verif.Props.Lcos
import Verif.Props.Propagation
import Verif.Props.Aberration

/-!
# C125: the other example scripts
-/

noncomputable section

open Complex Finset MeasureTheory Filter Topology

namespace PySLM2

open Lib Sim Profile DMD

namespace LCOS

theorem profile_real {s : SLM} {h : Heap} {f : Prof} {T : ℕ → ℕ → ℝ} (hf : rankZero f = false)
    {g : Tensor ℝ × Tensor ℝ} (hg : s.imageGrid = .ok g)
    (hT : ∀ i < s.Ny, ∀ j < s.Nx, eval h f (g.1.get i j) (g.2.get i j) = some (T i j : ℂ)) :
    ∃ t, s.profileToReal h (.prof f) false = .ok t ∧ t.shape = .mat s.Ny s.Nx ∧
      ∀ i < s.Ny, ∀ j < s.Nx, t.get i j = T i j := by
  obtain ⟨t, h1, h2, h3⟩ := sample_mat (planeGrid_shape (b := false) (show s.planeGrid false = .ok g from hg)) hf hT
  refine ⟨(castTo false t).map Complex.re, by simp only [SLM.profileToReal, SLM.profileToTensor, hg, h1]; rfl, h2, ?_⟩
  intro i hi j hj
  show (castTo false t |>.get i j).re = _
  simp [castTo, Tensor.map, h3 i hi j hj]

theorem works_of_args {l : LCOS} {h : Heap} {inp target : ProfArg} {A : ℕ → ℕ → ℂ} {T : ℕ → ℕ → ℝ}
    (ha : HologramArgs l.slm h inp target A T) (hsc : l.slm.wavelength * l.slm.focal ≠ 0) (hps : l.slm.ps ≠ 0)
    {method : String} {kw : Kwargs}
    (hm : method = "gs" ∨ method = "mraf" ∧ ∃ sw W, kw.signalWindow = some sw ∧ DMD.TargetArg l.slm h sw W)
    (u : ℕ → ℕ → ℝ) : HologramWorks l h inp target method kw u A := by
  obtain ⟨h1, φ, h2, h3⟩ := C47_phase_range ha hm u
  refine ⟨h1, φ, h2, fun i hi j hj hN => (h3 i hi j hj).1 hN, fun px py => ?_⟩
  have hslm : (after l h inp target method kw u).slm = l.slm := by
    rcases hm with rfl | ⟨rfl, sw, W, hk, hw⟩
    · obtain ⟨A', B', hA', hB', e⟩ := calculate_gs ha
      rw [after, e]
    · obtain ⟨A', B', W', hA', hB', hW', e⟩ := calculate_mraf ha hw
      rw [after, e _ _ hk]
  set l' := after l h inp target method kw u with hl'
  have hd : (Device.lcos l').slm = l.slm := hslm
  have ready : Ready ⟨.lcos l', px, py, none, none, none⟩ px py h inp A (fun i j => cexp (-I * φ i j)) := by
    refine ⟨rfl, rfl, ?_, ?_, ?_, ?_, ?_, ?_⟩
    · show 0 < (Device.lcos l').slm.Nx; rw [hd]; exact ha.hNx
    · show 0 < (Device.lcos l').slm.Ny; rw [hd]; exact ha.hNy
    · show (Device.lcos l').slm.wavelength * (Device.lcos l').slm.focal ≠ 0; rw [hd]; exact hsc
    · show (Device.lcos l').slm.ps ≠ 0; rw [hd]; exact hps
    · obtain ⟨t, t1, t2, t3⟩ := ha.input
      exact ⟨t, by show (Device.lcos l').slm.profileToTensor h inp true true = _; rw [hd, t1],
        by show _ = Shape.mat (Device.lcos l').slm.Ny (Device.lcos l').slm.Nx; rw [hd, t2],
        by show ∀ i < (Device.lcos l').slm.Ny, ∀ j < (Device.lcos l').slm.Nx, _; rw [hd]; exact t3⟩
    · refine ⟨_, rfl, ?_, fun i hi j hj => ?_⟩
      · exact h2.2.1
      · show cexp (-I * l'.state.arr.get i j) = _
        rw [h2.2.2 i hi j hj]
  have hp := propagate_ready ready
  obtain ⟨P, -, p2, p3⟩ := C12_energy ready
  refine ⟨_, _, rfl, by rw [hp], (by rw [hp]; rfl), ?_, ?_⟩
  · simp [hd]
  · rw [p2, p3]
    congr 1
    show slmPower (Device.lcos l').slm _ = _
    rw [hd]
    unfold slmPower
    congr 1
    refine Finset.sum_congr rfl fun i _ => Finset.sum_congr rfl fun j _ => ?_
    rw [norm_mul, show -I * (φ i j : ℂ) = I * ((-φ i j : ℝ) : ℂ) by push_cast; ring, norm_expI, mul_one]

/-- **C125.** Under a Gaussian beam (`HermiteGaussian` with `n = m = 0`, of any non-zero waist) both methods work for every
real target profile that is defined at the image plane pixels. -/
theorem C125_lcos {l : LCOS} {h : Heap} {x0 y0 a w : ℕ} {f : Prof} {T : ℕ → ℕ → ℝ} {gi : Tensor ℝ × Tensor ℝ}
    (hNx : 0 < l.slm.Nx) (hNy : 0 < l.slm.Ny) (hsc : l.slm.wavelength * l.slm.focal ≠ 0) (hps : l.slm.ps ≠ 0)
    (hw : h.re w ≠ 0) (hf : rankZero f = false) (hg : l.slm.imageGrid = .ok gi)
    (hT : ∀ k < l.slm.Ny, ∀ j < l.slm.Nx, eval h f (gi.1.get k j) (gi.2.get k j) = some (T k j : ℂ))
    {method : String} {kw : Kwargs}
    (hm : method = "gs" ∨ method = "mraf" ∧ ∃ (sw : Prof) (W : ℕ → ℕ → ℂ), kw.signalWindow = some (.prof sw) ∧ rankZero sw = false ∧
      ∀ k < l.slm.Ny, ∀ j < l.slm.Nx, eval h sw (gi.1.get k j) (gi.2.get k j) = some (W k j))
    (u : ℕ → ℕ → ℝ) :
    HologramWorks l h (.prof (.hg x0 y0 a w 0 0)) (.prof f) method kw u
      (gaussianBeam l.slm (h.re x0) (h.re y0) (h.re a) (h.re w)) := by
  refine works_of_args ⟨hNx, hNy, gaussian_array l.slm h x0 y0 a w hw, profile_real hf hg hT⟩ hsc hps ?_ u
  rcases hm with hm | ⟨hm, sw, W, h1, h2, h3⟩
  · exact Or.inl hm
  · exact Or.inr ⟨hm, _, W, h1, profile_target h2 hg h3⟩

theorem newRect_frame (h : Heap) (x0 y0 wx wy : ℝ) : ∀ i < h.next, (newRect h x0 y0 wx wy).1.re i = h.re i := by
  intro i hi
  simp only [newRect, allocRe, Function.update_apply]
  split_ifs <;> first | rfl | omega

/-- **C125.** The scripts `create_gaussian_11_lcos_slm_gs.py` and `create_gaussian_11_lcos_slm_mraf.py`, for any wavelength,
focal length, waists, window size, mixing factor and number of iterations: a PLUTO-2 is to turn a Gaussian beam into the
Hermite-Gaussian mode (1, 1). -/
theorem C125_hermite (h : Heap) {wavelength focal win wout side m : ℝ} {N : ℕ} (hwf : wavelength * focal ≠ 0) (hin : win ≠ 0)
    (hout : wout ≠ 0) {r1 r2 r3 : Heap × Prof} (h1 : New.run h (.hg 0 0 1 win 0 0) = .ok r1)
    (h2 : New.run r1.1 (.hg 0 0 1 wout 1 1) = .ok r2) (h3 : New.run r2.1 (.rect 0 0 side side) = .ok r3) (u : ℕ → ℕ → ℝ) :
    let l := LCOS.new (Model.PLUTO_2.slm wavelength focal)
    HologramWorks l r2.1 (.prof r1.2) (.prof r2.2) "gs" { N := some N } u (gaussianBeam l.slm 0 0 1 win) ∧
    HologramWorks l r3.1 (.prof r1.2) (.prof r2.2) "mraf"
      { N := some N, signalWindow := some (.prof r3.2), mixingFactor := some m } u (gaussianBeam l.slm 0 0 1 win) := by
  intro l
  injection h1 with h1
  injection h2 with h2
  injection h3 with h3
  obtain ⟨c1, c2, c3, c4, c5, c6, -⟩ := newHg_cells h 0 0 1 win 0 0
  obtain ⟨d1, d2, d3, d4, d5, d6, d7⟩ := newHg_cells r1.1 0 0 1 wout 1 1
  have e7 := newRect_frame r2.1 0 0 side side
  rw [h1] at c1 c2 c3 c4 c5 c6
  rw [h2, c2] at d1 d2 d3 d4 d5 d6 d7
  rw [h3, d2] at e7
  have hps : l.slm.ps ≠ 0 := by show (8 * 1e-6 : ℝ) ≠ 0; norm_num
  have hg : ∃ gi, l.slm.imageGrid = .ok gi := by
    unfold SLM.imageGrid imageGridOf
    rw [if_neg]
    · exact ⟨_, rfl⟩
    · push Not
      exact ⟨mul_ne_zero (by show ((1920 : ℕ) : ℝ) ≠ 0; norm_num) hps, mul_ne_zero (by show ((1080 : ℕ) : ℝ) ≠ 0; norm_num) hps⟩
  obtain ⟨gi, hg⟩ := hg
  have hNx : 0 < l.slm.Nx := show 0 < 1920 by norm_num
  have hNy : 0 < l.slm.Ny := show 0 < 1080 by norm_num
  constructor
  · have := C125_lcos (l := l) (h := r2.1) (x0 := h.next) (y0 := h.next + 1) (a := h.next + 2) (w := h.next + 3) (f := r2.2)
      hNx hNy hwf hps (by rw [d7 _ (by omega), c6]; exact hin) (by rw [d1]; rfl) hg
      (fun k _ j _ => by rw [d1, C56_current _ _ _ _ _ _ _ (by rw [d6]; exact hout)])
      (method := "gs") (kw := { N := some N }) (Or.inl rfl) u
    rw [d7 _ (by omega), d7 _ (by omega), d7 _ (by omega), d7 _ (by omega), c3, c4, c5, c6, ← c1] at this
    exact this
  · have := C125_lcos (l := l) (h := r3.1) (x0 := h.next) (y0 := h.next + 1) (a := h.next + 2) (w := h.next + 3) (f := r2.2)
      hNx hNy hwf hps (by rw [e7 _ (by omega), d7 _ (by omega), c6]; exact hin) (by rw [d1]; rfl) hg
      (fun k _ j _ => by rw [d1, C56_current _ _ _ _ _ _ _ (by rw [e7 _ (by omega), d6]; exact hout)])
      (method := "mraf") (kw := { N := some N, signalWindow := some (.prof r3.2), mixingFactor := some m })
      (Or.inr ⟨rfl, r3.2, fun k j => (eval r3.1 r3.2 (gi.1.get k j) (gi.2.get k j)).getD 0, rfl, by rw [← h3]; rfl,
        fun k _ j _ => by rw [← h3]; rfl⟩) u
    rw [e7 _ (by omega), e7 _ (by omega), e7 _ (by omega), e7 _ (by omega), d7 _ (by omega), d7 _ (by omega), d7 _ (by omega),
      d7 _ (by omega), c3, c4, c5, c6, ← c1] at this
    exact this

end LCOS

namespace DMD

theorem zernike_spherical {a R : ℝ} (x y : ℝ) :
    (if (false : Bool) = false ∧ √(x ^ 2 + y ^ 2) > R then 0
      else a * (if true then Spec.zernikeNorm 4 0 else 1) * Spec.zernikeMode 4 0 R x y) = Spec.spherical a R x y := by
  have hr : ∀ ρ : ℝ, Spec.radial (Int.toNat 4) (Int.natAbs 0) ρ = 6 * ρ ^ 4 - 6 * ρ ^ 2 + 1 := by
    intro ρ
    show Spec.radial 4 0 ρ = _
    unfold Spec.radial
    norm_num [Finset.sum_range_succ, Nat.factorial]
    ring
  unfold Spec.spherical Spec.zernikeNorm Spec.zernikeMode Spec.angular
  rw [hr]
  by_cases h : R < √(x ^ 2 + y ^ 2)
  · rw [if_pos ⟨rfl, h⟩, if_pos h]
  · rw [if_neg fun hc => h hc.2, if_neg h]
    norm_num

/-- **C125.** The Gaussian beam times `as_complex_profile` of a real phase profile: an aberrated beam. -/
theorem aberrated_array (s : SLM) (h : Heap) {x0 y0 a w : ℕ} {f p : Prof} {Φ : ℝ → ℝ → ℝ} (hw : h.re w ≠ 0)
    (hΦ : ∀ x y, eval h f x y = some (Φ x y : ℂ)) (hp : pyBinary .mul (.prof (.hg x0 y0 a w 0 0)) (.prof (.asComplex f)) = .ok p) :
    ArrayArg s h (.prof p) fun i j => gaussianBeam s (h.re x0) (h.re y0) (h.re a) (h.re w) i j *
      cexp (Φ (s.fourierGrid.1.get i j) (s.fourierGrid.2.get i j) * I) := by
  injection hp with hp
  subst hp
  refine profile_array rfl fun i _ j _ => ?_
  rw [eval, eval_gaussian h x0 y0 a w hw, eval, hΦ]
  simp [applyAttr, gaussianBeam, mul_comm I]

theorem blurred_of_lit {d : DMD} {h : Heap} {inp inp' target : ProfArg} {u φ T : ℕ → ℕ → ℂ} {gi : Tensor ℝ × Tensor ℝ}
    (hNx : 0 < d.slm.Nx) (hNy : 0 < d.slm.Ny) (hin : ArrayArg d.slm h inp u) (ht : TargetArg d.slm h target T)
    (hin' : ArrayArg d.slm h inp' fun i j => u i j * φ i j)
    (hp : d.p ≠ 0) (hsc : d.slm.wavelength * d.slm.focal ≠ 0) (hps : d.slm.ps ≠ 0) (hg : d.slm.imageGrid = .ok gi)
    (hne : ∃ k < d.slm.Ny, ∃ l < d.slm.Nx, T k l ≠ 0)
    (hlit : ∀ i < d.slm.Ny, ∀ j < d.slm.Nx, spectrum d.slm T i j ≠ 0 → u i j ≠ 0) :
    BlurredOnAverage d h inp inp' target u φ T gi := by
  obtain ⟨eta, A, o, gi', κ, h1, h2, hg', h3, h4, -, h6, h7⟩ := C119_random hNx hNy hin ht hin' hp hsc hps hne hlit
  rw [hg] at hg'
  injection hg' with hg'
  subst hg'
  refine ⟨eta, A, o, κ, h1, h2, h3, h4, fun kw r hr hkr Ω _ μ _ draw hm hu px py => ?_, h7⟩
  obtain ⟨tin, hti, hts, htg⟩ := hin
  have m : Matching d h inp target none u T (fun _ _ => 1) :=
    ⟨hNx, hNy, ⟨tin, hti, Tensor.denotes_of_mat hts htg⟩, ht, fun _ _ => rfl⟩
  let s0 : Sim := ⟨.dmd d d.allOff, px, py, none, none, none⟩
  obtain ⟨t, img, g, e1, e2⟩ := h6 kw r hr hkr Ω μ draw hm hu s0 px py rfl rfl
  have hr : ∀ ω, Ready (showing s0 d (.bool (t ω))) px py h inp' (fun i j => u i j * φ i j)
      fun i j => if (t ω).get i j then 1 else 0 := fun ω =>
    ⟨rfl, rfl, hNx, hNy, hsc, hps, hin', bool_modulation d (random_shape m (e1 ω).1)⟩
  have hsh : ∀ ω, (img ω).shape = .mat (d.slm.Ny + 2 * py) (d.slm.Nx + 2 * px) := fun ω => by
    have := (e1 ω).2.1
    rw [propagate_ready (hr ω)] at this
    injection this with this
    rw [← this]
    rfl
  have hb := fun ω => propagate_block (s := showing s0 d (.bool (t ω))) rfl rfl rfl
    (by rw [propagate_ready (hr ω)]) h2 (e1 ω).2.1 (hsh ω) (e1 ω).2.2
  choose img' i1 i2 using fun ω => (hb ω).2
  refine ⟨t, fun ω => showing s0 d (.bool (t ω)), img', g, fun ω => ⟨(e1 ω).1, rfl, (e1 ω).2.2, ?_, (hb ω).1, i1 ω⟩,
    fun k hk l hl hn => ?_⟩
  · rw [propagate_ready (hr ω)]
  · have := e2 k hk l hl
    rw [show (∫ ω, (img' ω).get k l ∂μ) = ∫ ω, (img ω).get k l ∂μ from
      congrArg _ (funext fun ω => i2 ω k hk l hl hn)]
    exact this

theorem newZernike_frame {h : Heap} {a R : ℝ} {n m : ℤ} {nrm ex : Bool} {r : Heap × Prof}
    (hr : New.run h (.zernike a R n m nrm ex) = .ok r) :
    r.1.next = h.next + 1 ∧ (∀ i < h.next, r.1.re i = h.re i) ∧
      ∃ coef norm, r.2 = .zernike h.next R n m coef norm ex := by
  simp only [New.run, newZernike] at hr
  split at hr
  · cases hr
  · injection hr with hr
    subst hr
    refine ⟨rfl, fun i hi => ?_, _, _, rfl⟩
    simp only [allocRe, Function.update_apply]
    split_ifs <;> first | rfl | omega

/-- **C125.** The script `aberration_correction.py`, for any wavelength, focal length, waists, strength and radius of the
spherical aberration: the hologram that is calculated for the aberrated beam shows the Gaussian target, the one that is
calculated for the beam without aberration shows the target blurred by the aberration. -/
theorem C125_aberration (h : Heap) {wavelength focal a R win wout : ℝ} (hwf : wavelength * focal ≠ 0) (hR : 0 < R)
    (hin : win ≠ 0) (hout : wout ≠ 0) :
    let d := newCall (Model.DLP9500.slm wavelength focal) 4 (Real.pi / 4) none
    ∃ r0 r1 r2 p gi, New.run h (.zernike a R 4 0 true false) = .ok r0 ∧ New.run r0.1 (.hg 0 0 1 win 0 0) = .ok r1 ∧
      pyBinary .mul (.prof r1.2) (.prof (.asComplex r0.2)) = .ok p ∧ New.run r1.1 (.hg 0 0 1 wout 0 0) = .ok r2 ∧
      d.slm.imageGrid = .ok gi ∧
      let φ := fun i j => cexp (Spec.spherical a R (d.slm.fourierGrid.1.get i j) (d.slm.fourierGrid.2.get i j) * I)
      let T := fun k l => ((Real.exp (-((gi.1.get k l ^ 2 + gi.2.get k l ^ 2) / wout ^ 2)) : ℝ) : ℂ)
      ShowsOnAverage d r2.1 (.prof p) (.prof r2.2) (fun i j => gaussianBeam d.slm 0 0 1 win i j * φ i j) T ∧
      BlurredOnAverage d r2.1 (.prof r1.2) (.prof p) (.prof r2.2) (gaussianBeam d.slm 0 0 1 win) φ T gi := by
  intro d
  obtain ⟨r0, z1, z2⟩ := C60_formula h a R (n := 4) (m := 0) true false ⟨by norm_num, by decide⟩ hR
  obtain ⟨z3, z4, coef, norm, z5⟩ := newZernike_frame z1
  obtain ⟨c1, c2, c3, c4, c5, c6, c7⟩ := newHg_cells r0.1 0 0 1 win 0 0
  set r1 := newHermiteGaussian r0.1 0 0 1 win 0 0 with h1
  obtain ⟨d1, d2, d3, d4, d5, d6, d7⟩ := newHg_cells r1.1 0 0 1 wout 0 0
  set r2 := newHermiteGaussian r1.1 0 0 1 wout 0 0 with h2
  rw [z3] at c1 c2 c3 c4 c5 c6 c7
  rw [c2] at d1 d2 d3 d4 d5 d6 d7
  have hps : d.slm.ps ≠ 0 := by show (10.8 * 1e-6 : ℝ) ≠ 0; norm_num
  have hg : ∃ gi, d.slm.imageGrid = .ok gi := by
    unfold SLM.imageGrid imageGridOf
    rw [if_neg]
    · exact ⟨_, rfl⟩
    · push Not
      exact ⟨mul_ne_zero (by show ((1920 : ℕ) : ℝ) ≠ 0; norm_num) hps, mul_ne_zero (by show ((1080 : ℕ) : ℝ) ≠ 0; norm_num) hps⟩
  obtain ⟨gi, hg⟩ := hg
  have hNx : 0 < d.slm.Nx := show 0 < 1920 by norm_num
  have hNy : 0 < d.slm.Ny := show 0 < 1080 by norm_num
  have hp : d.p ≠ 0 := show (4 * (10.8 * 1e-6) : ℝ) ≠ 0 by norm_num
  refine ⟨r0, r1, r2, .bin .mul r1.2 (.asComplex r0.2), gi, z1, rfl, ?_, rfl, hg, ?_⟩
  · rw [c1, z5]; rfl
  intro φ T
  have hw : r2.1.re (h.next + 1 + 3) = win := by rw [d7 _ (by omega), c6]
  have ha : r2.1.re (h.next + 1 + 2) = 1 := by rw [d7 _ (by omega), c5]
  have hx : r2.1.re (h.next + 1) = 0 := by rw [d7 _ (by omega), c3]
  have hy : r2.1.re (h.next + 1 + 1) = 0 := by rw [d7 _ (by omega), c4]
  have hz : ∀ x y, eval r2.1 r0.2 x y = some (Spec.spherical a R x y : ℂ) := by
    intro x y
    rw [← zernike_spherical, ← z2 x y, z5, eval, eval, d7 _ (by omega), c7 _ (by omega)]
  have hu := gaussian_array d.slm r2.1 (h.next + 1) (h.next + 1 + 1) (h.next + 1 + 2) (h.next + 1 + 3) (by rw [hw]; exact hin)
  have hu' := aberrated_array d.slm r2.1 (x0 := h.next + 1) (y0 := h.next + 1 + 1) (a := h.next + 1 + 2)
    (w := h.next + 1 + 3) (f := r0.2) (by rw [hw]; exact hin) hz rfl
  rw [hw, ha, hx, hy, ← c1] at hu hu'
  have ht : TargetArg d.slm r2.1 (.prof r2.2) T := by
    refine profile_target (by rw [d1]; rfl) hg fun k _ l _ => ?_
    rw [d1, eval_gaussian _ _ _ _ _ (by rw [d6]; exact hout), d3, d4, d5, d6]
    simp [T]
  have hne : ∃ k < d.slm.Ny, ∃ l < d.slm.Nx, T k l ≠ 0 :=
    ⟨0, hNy, 0, hNx, by simp only [T]; exact_mod_cast (Real.exp_pos _).ne'⟩
  exact ⟨shows_of_lit hNx hNy hu' ht hp hwf hps hne
      fun i _ j _ _ => mul_ne_zero (gaussianBeam_ne_zero d.slm _ _ _ one_ne_zero i j) (exp_ne_zero _),
    blurred_of_lit hNx hNy hu ht hu' hp hwf hps hg hne fun i _ j _ _ => gaussianBeam_ne_zero d.slm _ _ _ one_ne_zero i j⟩

/-- C125: the numbers of the scripts. -/
example : (369e-9 : ℝ) * 200e-3 ≠ 0 ∧ (5e-3 : ℝ) ≠ 0 ∧ (0 : ℝ) < 5e-3 ∧ (10e-6 : ℝ) ≠ 0 ∧ (30e-6 : ℝ) ≠ 0 := by norm_num

/-- C125_hermite: the objects of the scripts exist. -/
example (h : Heap) : ∃ r1 r2 r3, New.run h (.hg 0 0 1 5e-3 0 0) = .ok r1 ∧ New.run r1.1 (.hg 0 0 1 30e-6 1 1) = .ok r2 ∧
    New.run r2.1 (.rect 0 0 100e-6 100e-6) = .ok r3 :=
  ⟨_, _, _, rfl, rfl, rfl⟩

/-- C125_lcos: a device, a target and a signal window. -/
example (h : Heap) : ∃ gi, LCOS.exLcos.slm.imageGrid = .ok gi ∧ 0 < LCOS.exLcos.slm.Nx ∧ 0 < LCOS.exLcos.slm.Ny ∧
    LCOS.exLcos.slm.wavelength * LCOS.exLcos.slm.focal ≠ 0 ∧ LCOS.exLcos.slm.ps ≠ 0 ∧
    ∀ x y, eval h (.circ 0 1 2) x y = some ((circFunc (h.re 0) (h.re 1) (h.re 2) x y : ℝ) : ℂ) := by
  have hg : ∃ gi, LCOS.exLcos.slm.imageGrid = .ok gi := by
    unfold SLM.imageGrid imageGridOf
    rw [if_neg]
    · exact ⟨_, rfl⟩
    · norm_num [LCOS.exLcos, LCOS.new]
  obtain ⟨gi, hg⟩ := hg
  refine ⟨gi, hg, by decide, by decide, ?_, ?_, fun _ _ => rfl⟩ <;> norm_num [LCOS.exLcos, LCOS.new]

end DMD

end PySLM2
