import Verif.Props.RandomOrders
import Verif.Props.SimLife
import Verif.Props.Continuum
import Verif.Props.LaguerreSpot
import Verif.Model.Defaults
import Verif.Spec.GaussianInput

/-!
# C123: holograms for a Gaussian beam, and the example scripts

`interp`, `zerothOrder`, `oppositeOrder` are those of C23, `orderField` is the field of a diffraction order of C99.
-/

noncomputable section

open Complex Finset MeasureTheory Filter Topology

namespace PySLM2.DMD

open Lib Sim Profile

theorem sample_mat {h : Heap} {f : Prof} {x y : Tensor ℝ} {M N : ℕ} {v : ℕ → ℕ → ℂ} (hx : x.shape = .mat M N)
    (hf : rankZero f = false) (hv : ∀ i < M, ∀ j < N, eval h f (x.get i j) (y.get i j) = some (v i j)) :
    ∃ t, sample h f x y = .ok t ∧ t.shape = .mat M N ∧ ∀ i < M, ∀ j < N, t.get i j = v i j := by
  unfold sample
  rw [if_neg (by simp [hf]), hx]
  simp only
  rw [if_pos (fun i hi j hj => by rw [hv i hi j hj]; rfl)]
  refine ⟨_, rfl, rfl, fun i hi j hj => ?_⟩
  simp only [hv i hi j hj, Option.getD_some]

theorem profile_target {s : SLM} {h : Heap} {f : Prof} {T : ℕ → ℕ → ℂ} (hf : rankZero f = false)
    {g : Tensor ℝ × Tensor ℝ} (hg : s.imageGrid = .ok g)
    (hT : ∀ i < s.Ny, ∀ j < s.Nx, eval h f (g.1.get i j) (g.2.get i j) = some (T i j)) :
    TargetArg s h (.prof f) T := by
  obtain ⟨t, h1, h2, h3⟩ := sample_mat (planeGrid_shape (b := false) (show s.planeGrid false = .ok g from hg)) hf hT
  exact ⟨t, by simp only [SLM.profileToTensor, hg, h1]; rfl, h2, h3⟩

theorem profile_array {s : SLM} {h : Heap} {f : Prof} {u : ℕ → ℕ → ℂ} (hf : rankZero f = false)
    (hu : ∀ i < s.Ny, ∀ j < s.Nx, eval h f (s.fourierGrid.1.get i j) (s.fourierGrid.2.get i j) = some (u i j)) :
    ArrayArg s h (.prof f) u := by
  obtain ⟨t, h1, h2, h3⟩ := sample_mat (x := s.fourierGrid.1) (y := s.fourierGrid.2) rfl hf hu
  exact ⟨t, by simp only [SLM.profileToTensor, h1]; rfl, h2, h3⟩

theorem gaussianBeam_ne_zero (s : SLM) (x0 y0 : ℝ) {a : ℝ} (w : ℝ) (ha : a ≠ 0) (i j : ℕ) : gaussianBeam s x0 y0 a w i j ≠ 0 := by
  unfold gaussianBeam
  exact_mod_cast mul_ne_zero ha (Real.exp_pos _).ne'

theorem eval_gaussian (h : Heap) (x0 y0 a w : ℕ) (hw : h.re w ≠ 0) (x y : ℝ) :
    eval h (.hg x0 y0 a w 0 0) x y =
      some ((h.re a * Real.exp (-(((x - h.re x0) ^ 2 + (y - h.re y0) ^ 2) / h.re w ^ 2)) : ℝ) : ℂ) := by
  rw [C56_current h x0 y0 a w 0 0 hw]
  congr 2
  unfold Spec.hermiteGauss
  rw [rodrigues_zero, rodrigues_zero, mul_one, mul_one]
  congr 2
  ring

theorem gaussian_array (s : SLM) (h : Heap) (x0 y0 a w : ℕ) (hw : h.re w ≠ 0) :
    ArrayArg s h (.prof (.hg x0 y0 a w 0 0)) (gaussianBeam s (h.re x0) (h.re y0) (h.re a) (h.re w)) :=
  profile_array rfl fun _ _ _ _ => eval_gaussian h x0 y0 a w hw _ _

theorem propagate_kept {s : Sim} {h : Heap} {a : ProfArg} (hok : (s.propagate h a).2 = .ok ()) :
    (s.propagate h a).1.dev = s.dev ∧ (s.propagate h a).1.px = s.px ∧ (s.propagate h a).1.py = s.py ∧
      ∃ o, (s.propagate h a).1.outputField = some o := by
  unfold propagate at hok ⊢
  cases h1 : s.dev.slm.profileToTensor h a true true with
  | error e => simp [h1] at hok
  | ok inp =>
    cases h2 : pad inp s.py s.px with
    | error e => simp [h1, h2] at hok
    | ok padded =>
      cases h3 : s.dev.stateTensor with
      | error e => simp [h1, h2, h3] at hok
      | ok st =>
        cases h4 : Tensor.map2 (fun a b => a * b) inp st with
        | error e => simp [h1, h2, h3, h4] at hok
        | ok out =>
          cases h5 : pad out s.py s.px with
          | error e => simp [h1, h2, h3, h4, h5] at hok
          | ok outp =>
            simp only [h1, h2, h3, h4, h5] at hok ⊢
            split at hok <;> simp_all

/-- Blocking the zeroth order spares the first orders, after any propagation. -/
theorem propagate_block {s : Sim} {px py : ℕ} {h : Heap} {a : ProfArg} {d : DMD} {st : StateArr}
    (hd : s.dev = .dmd d st) (hpx : s.px = px) (hpy : s.py = py) (hok : (s.propagate h a).2 = .ok ())
    {o : ℝ × ℝ} (ho : d.firstOrderOrigin = .ok o)
    {img : Tensor ℂ} {g : Tensor ℝ × Tensor ℝ} (hi : (s.propagate h a).1.imageField = some img)
    (hsh : img.shape = .mat (d.slm.Ny + 2 * py) (d.slm.Nx + 2 * px)) (hg : s.imagePaddedGrid = .ok g) :
    ((s.propagate h a).1.blockZerothOrder none).2 = .ok () ∧
    ∃ img', ((s.propagate h a).1.blockZerothOrder none).1.imageField = some img' ∧
      ∀ k < d.slm.Ny + 2 * py, ∀ l < d.slm.Nx + 2 * px,
        NearFirstOrder d o (g.1.get k l) (g.2.get k l) → img'.get k l = img.get k l := by
  obtain ⟨x0, y0⟩ := o
  obtain ⟨h1, k1, k2, o', h2⟩ := propagate_kept hok
  rw [hd] at h1
  have hslm : s.dev.slm = d.slm := by rw [hd]; rfl
  have hslm' : (s.propagate h a).1.dev.slm = d.slm := by rw [h1]; rfl
  have hy : (s.propagate h a).1.Ny = d.slm.Ny + 2 * py := by
    rw [← hslm']; exact Ny_eq (k2.trans hpy)
  have hx : (s.propagate h a).1.Nx = d.slm.Nx + 2 * px := by
    rw [← hslm']; exact Nx_eq (k1.trans hpx)
  have h4 : img.shape = .mat (s.propagate h a).1.Ny (s.propagate h a).1.Nx := by rw [hsh, hx, hy]
  have h5 : (s.propagate h a).1.imagePaddedGrid = .ok g := by
    rw [← hg]
    rw [imagePaddedGrid_nat (k1.trans hpx) (k2.trans hpy), imagePaddedGrid_nat hpx hpy, hx, hy, hslm', hslm, Nx_eq hpx, Ny_eq hpy, hslm]
  refine ⟨?_, ?_⟩
  · have hp : d.p ≠ 0 := fun hp => by simp [firstOrderOrigin, hp] at ho
    rw [C17_default_radius h1 h2 hi h4 h5 hp]
    exact (C17_blocks_disc h1 h2 hi h4 h5 _).1
  · obtain ⟨img', i1, i2⟩ := C18_first_order_spared h1 h2 hi h4 h5 ho
    refine ⟨img', i1, fun k hk l hl hc => i2 k (hy ▸ hk) l (hx ▸ hl) ?_⟩
    right
    unfold NearFirstOrder at hc
    cases hn : d.neg
    · rw [hn] at hc
      exact Or.inl hc
    · rw [hn] at hc
      simp only [if_true, sub_neg_eq_add] at hc
      exact Or.inr hc

theorem random_shape {d : DMD} {h : Heap} {inp target : ProfArg} {window : Option ProfArg} {u T w : ℕ → ℕ → ℂ}
    (m : Matching d h inp target window u T w) {kw : CalcKwargs} {draw : ℕ → ℕ → ℝ} {t : Tensor Bool} {eta : XR}
    (hc : d.calculateDmdState h inp target "random" window kw draw = ⟨.rebind (.bool t), .ok eta⟩) :
    t.shape = .mat d.slm.Ny d.slm.Nx := by
  obtain ⟨tin, amp, pin, pout, h1, h2, h3, h4, h5, h6⟩ := calcGrating_eq m "random" kw draw
  obtain ⟨-, -, ⟨t', g1, g2, g3⟩⟩ := grating_elementwise h3 h4 h5 { r := kw.r, N := kw.N, s := kw.s } draw
  have h7 : d.forwardKwargs h tin "random" kw = .ok { r := kw.r, N := kw.N, s := kw.s } := rfl
  rw [h7] at h6
  simp only at h6
  rw [g1] at h6
  rw [calculate_of_grating h6] at hc
  injection hc with a b
  injection a with a
  injection a with a
  rw [← a, g2]

theorem shows_of_lit {d : DMD} {h : Heap} {inp target : ProfArg} {u T : ℕ → ℕ → ℂ}
    (hNx : 0 < d.slm.Nx) (hNy : 0 < d.slm.Ny) (hin : ArrayArg d.slm h inp u) (ht : TargetArg d.slm h target T)
    (hp : d.p ≠ 0) (hsc : d.slm.wavelength * d.slm.focal ≠ 0) (hps : d.slm.ps ≠ 0)
    (hne : ∃ k < d.slm.Ny, ∃ l < d.slm.Nx, T k l ≠ 0)
    (hlit : ∀ i < d.slm.Ny, ∀ j < d.slm.Nx, spectrum d.slm T i j ≠ 0 → u i j ≠ 0) :
    ShowsOnAverage d h inp target u T := by
  obtain ⟨eta, A, o, κ, h1, h2, h3, h4, -, h6, h7⟩ := C99_random_orders hNx hNy hin ht hp hsc hps hne hlit
  refine ⟨eta, A, o, κ, h1, h2, h3, h4, fun kw r hr hkr Ω _ μ _ draw hm hu px py => ?_, h7⟩
  obtain ⟨tin, hti, hts, htg⟩ := hin
  have m : Matching d h inp target none u T (fun _ _ => 1) :=
    ⟨hNx, hNy, ⟨tin, hti, Tensor.denotes_of_mat hts htg⟩, ht, fun _ _ => rfl⟩
  let s0 : Sim := ⟨.dmd d d.allOff, px, py, none, none, none⟩
  obtain ⟨t, img, g, e1, e2⟩ := h6 kw r hr hkr Ω μ draw hm hu s0 px py rfl rfl
  have hr : ∀ ω, Ready (showing s0 d (.bool (t ω))) px py h inp u fun i j => if (t ω).get i j then 1 else 0 := fun ω =>
    ⟨rfl, rfl, hNx, hNy, hsc, hps, ⟨tin, hti, hts, htg⟩, bool_modulation d (random_shape m (e1 ω).1)⟩
  have hsh : ∀ ω, (img ω).shape = .mat (d.slm.Ny + 2 * py) (d.slm.Nx + 2 * px) := fun ω => by
    have := (e1 ω).2.1
    rw [propagate_ready (hr ω)] at this
    injection this with this
    rw [← this]
    rfl
  have hb := fun ω => propagate_block (s := showing s0 d (.bool (t ω))) rfl rfl rfl
    (by rw [propagate_ready (hr ω)]) h2 (e1 ω).2.1 (hsh ω) (e1 ω).2.2
  choose img' i1 i2 using fun ω => (hb ω).2
  refine ⟨t, fun ω => showing s0 d (.bool (t ω)), img', g, fun ω => ⟨(e1 ω).1, rfl, (e1 ω).2.2, ?_, (hb ω).1, i1 ω⟩,
    fun k hk l hl hn => ?_⟩
  · rw [propagate_ready (hr ω)]
  · have := e2 k hk l hl
    rw [show (∫ ω, (img' ω).get k l ∂μ) = ∫ ω, (img ω).get k l ∂μ from
      congrArg _ (funext fun ω => i2 ω k hk l hl hn)]
    exact this

/-- **C123.** Under a Gaussian beam (`HermiteGaussian` with `n = m = 0`, whatever its current centre, amplitude and
waist) every target profile that is defined and not zero at all image plane pixels is shown by the first order of the
random hologram. -/
theorem C123_random {d : DMD} {h : Heap} {x0 y0 a w : ℕ} {f : Prof} {T : ℕ → ℕ → ℂ} {gi : Tensor ℝ × Tensor ℝ}
    (hNx : 0 < d.slm.Nx) (hNy : 0 < d.slm.Ny) (hp : d.p ≠ 0) (hsc : d.slm.wavelength * d.slm.focal ≠ 0)
    (hps : d.slm.ps ≠ 0) (ha : h.re a ≠ 0) (hw : h.re w ≠ 0) (hf : rankZero f = false) (hg : d.slm.imageGrid = .ok gi)
    (hT : ∀ k < d.slm.Ny, ∀ l < d.slm.Nx, eval h f (gi.1.get k l) (gi.2.get k l) = some (T k l))
    (hne : ∃ k < d.slm.Ny, ∃ l < d.slm.Nx, T k l ≠ 0) :
    ShowsOnAverage d h (.prof (.hg x0 y0 a w 0 0)) (.prof f)
      (gaussianBeam d.slm (h.re x0) (h.re y0) (h.re a) (h.re w)) T :=
  shows_of_lit hNx hNy (gaussian_array d.slm h x0 y0 a w hw) (profile_target hf hg hT) hp hsc hps hne
    fun i _ j _ _ => gaussianBeam_ne_zero d.slm _ _ _ ha i j

/-- **C123.** The same for the ideal (grey) hologram, without an average: near the first order the image is `eta / 4`
times the target plus the tails of the zeroth and of the opposite order. -/
theorem C123_ideal {d : DMD} {h : Heap} {x0 y0 a w : ℕ} {f : Prof} {T : ℕ → ℕ → ℂ} {gi : Tensor ℝ × Tensor ℝ}
    (hNx : 0 < d.slm.Nx) (hNy : 0 < d.slm.Ny) (hp : d.p ≠ 0) (hsc : d.slm.wavelength * d.slm.focal ≠ 0)
    (hps : d.slm.ps ≠ 0) (ha : h.re a ≠ 0) (hw : h.re w ≠ 0) (hf : rankZero f = false) (hg : d.slm.imageGrid = .ok gi)
    (hT : ∀ k < d.slm.Ny, ∀ l < d.slm.Nx, eval h f (gi.1.get k l) (gi.2.get k l) = some (T k l))
    (hne : ∃ k < d.slm.Ny, ∃ l < d.slm.Nx, T k l ≠ 0) (kw : CalcKwargs) (draw : ℕ → ℕ → ℝ) :
    let u := gaussianBeam d.slm (h.re x0) (h.re y0) (h.re a) (h.re w)
    let inp : ProfArg := .prof (.hg x0 y0 a w 0 0)
    ∃ (st : StateArr) (eta : ℝ) (o : ℝ × ℝ) (κ κ' : ℂ), eta ≠ 0 ∧ ‖κ‖ = 1 ∧ ‖κ'‖ = 1 ∧
      (Even d.slm.Nx → Even d.slm.Ny → κ = 1 ∧ κ' = 1) ∧
      d.calculateDmdState h inp (.prof f) "ideal" none kw draw = ⟨.rebind st, .ok (.fin eta)⟩ ∧
      d.firstOrderOrigin = .ok o ∧
      ∀ px py : ℕ, ∃ (s : Sim) (img : Tensor ℂ) (g : Tensor ℝ × Tensor ℝ),
        newDMD (.dev (.dmd d st)) (.int px) (.int py) = .ok s ∧ s.imagePaddedGrid = .ok g ∧
        (s.propagate h inp).2 = .ok () ∧ ((s.propagate h inp).1.blockZerothOrder none).2 = .ok () ∧
        ((s.propagate h inp).1.blockZerothOrder none).1.imageField = some img ∧
        ∀ k < d.slm.Ny + 2 * py, ∀ l < d.slm.Nx + 2 * px, NearFirstOrder d o (g.1.get k l) (g.2.get k l) →
          img.get k l =
            (eta / 4 : ℂ) * interp d.slm T (g.1.get k l - (if d.neg then -o.1 else o.1))
              (g.2.get k l - (if d.neg then -o.2 else o.2)) * κ +
            fieldAt d.slm (zerothOrder d u T eta) (g.1.get k l) (g.2.get k l) +
            fieldAt d.slm (oppositeOrder d u T eta) (g.1.get k l + (if d.neg then -o.1 else o.1))
              (g.2.get k l + (if d.neg then -o.2 else o.2)) * κ' := by
  intro u inp
  have hin := gaussian_array d.slm h x0 y0 a w hw
  have ht := profile_target hf hg hT
  obtain ⟨st, eta, o, κ, κ', h1, h2, h3, h4, h5, h6, h7⟩ := C23_orders hNx hNy hin ht hp hsc hps hne
    (fun i _ j _ _ => gaussianBeam_ne_zero d.slm _ _ _ ha i j) kw draw
  refine ⟨st, eta, o, κ, κ', h1, h2, h3, h4, h5, h6, fun px py => ?_⟩
  let s : Sim := ⟨.dmd d st, px, py, none, none, none⟩
  obtain ⟨e1, img, g, e2, e3, e4, e5⟩ := h7 s px py rfl rfl rfl
  obtain ⟨b1, img', b2, b3⟩ := propagate_block (s := s) rfl rfl rfl e1 h6 e2 e4 e3
  exact ⟨s, img', g, rfl, e3, e1, b1, b2, fun k hk l hl hn => (b3 k hk l hl hn).trans (e5 k hk l hl)⟩

/-- The image plane grid has the centre pixel on the axis, and a pixel right of it off the axis. -/
theorem imageGrid_centre {s : SLM} {g : Tensor ℝ × Tensor ℝ} (hg : s.imageGrid = .ok g) (hNx : 1 < s.Nx) (hNy : 0 < s.Ny)
    (hsc : s.wavelength * s.focal ≠ 0) :
    g.1.get (s.Ny / 2) (s.Nx / 2) = 0 ∧ g.2.get (s.Ny / 2) (s.Nx / 2) = 0 ∧ g.1.get 0 0 ≠ 0 := by
  unfold SLM.imageGrid imageGridOf at hg
  split_ifs at hg with h0
  push Not at h0
  injection hg with hg
  subst hg
  have hsc' : s.scaling ≠ 0 := hsc
  refine ⟨?_, ?_, ?_⟩
  · show imageX s.Nx s.ps s.scaling (s.Ny / 2) (s.Nx / 2) = 0
    rw [imageX_eq (by omega), sub_self, zero_mul]
  · show imageY s.Ny s.ps s.scaling (s.Ny / 2) (s.Nx / 2) = 0
    rw [imageY_eq (by omega), sub_self, zero_mul]
  · show imageX s.Nx s.ps s.scaling 0 0 ≠ 0
    rw [imageX_eq (by omega)]
    refine mul_ne_zero ?_ (div_ne_zero hsc' h0.1)
    have : (0 : ℝ) < (s.Nx / 2 : ℕ) := by exact_mod_cast (by omega : 0 < s.Nx / 2)
    rw [Nat.cast_zero, zero_sub, neg_ne_zero]
    exact this.ne'

theorem newHg_cells (h : Heap) (x0 y0 a w : ℝ) (n m : ℕ) :
    (newHermiteGaussian h x0 y0 a w n m).2 = .hg h.next (h.next + 1) (h.next + 2) (h.next + 3) n m ∧
    (newHermiteGaussian h x0 y0 a w n m).1.next = h.next + 4 ∧
    (newHermiteGaussian h x0 y0 a w n m).1.re h.next = x0 ∧ (newHermiteGaussian h x0 y0 a w n m).1.re (h.next + 1) = y0 ∧
    (newHermiteGaussian h x0 y0 a w n m).1.re (h.next + 2) = a ∧ (newHermiteGaussian h x0 y0 a w n m).1.re (h.next + 3) = w ∧
    ∀ i < h.next, (newHermiteGaussian h x0 y0 a w n m).1.re i = h.re i := by
  refine ⟨rfl, rfl, ?_, ?_, ?_, ?_, fun i hi => ?_⟩ <;>
    simp only [newHermiteGaussian, allocRe, Function.update_apply] <;> split_ifs <;> first | rfl | omega

theorem newLg_frame (h : Heap) (x0 y0 a w : ℝ) (l : ℤ) (p : ℕ) :
    ∀ i < h.next, (newLaguerreGaussian h x0 y0 a w l p).1.re i = h.re i := by
  intro i hi
  simp only [newLaguerreGaussian, allocRe, Function.update_apply]
  split_ifs <;> first | rfl | omega

/-- **C123.** The script `examples/create_donut_beam.py`, for any wavelength, focal length and waists: the Gaussian beam
and the vortex of charge 1 are created, a DLP9500 with a grating of 4 pixels at 45° is to turn one into the other. -/
theorem C123_donut (h : Heap) {wavelength focal win wout : ℝ} (hwf : wavelength * focal ≠ 0) (hin : win ≠ 0) (hout : wout ≠ 0)
    {r1 r2 : Heap × Prof} (h1 : New.run h (.hg 0 0 1 win 0 0) = .ok r1) (h2 : New.run r1.1 (.lg 0 0 1 wout 1 0) = .ok r2) :
    let d := newCall (Model.DLP9500.slm wavelength focal) 4 (Real.pi / 4) none
    ∃ gi, d.slm.imageGrid = .ok gi ∧
      ShowsOnAverage d r2.1 (.prof r1.2) (.prof r2.2) (gaussianBeam d.slm 0 0 1 win)
        fun k l => Spec.laguerreGauss 0 0 1 wout 1 0 (gi.1.get k l) (gi.2.get k l) := by
  intro d
  injection h1 with h1
  injection h2 with h2
  obtain ⟨c1, c2, c3, c4, c5, c6, -⟩ := newHg_cells h 0 0 1 win 0 0
  have fr := newLg_frame r1.1 0 0 1 wout 1 0
  rw [h1] at c1 c2 c3 c4 c5 c6
  rw [h2, c2] at fr
  have hps : d.slm.ps ≠ 0 := by show (10.8 * 1e-6 : ℝ) ≠ 0; norm_num
  have hg : ∃ gi, d.slm.imageGrid = .ok gi := by
    unfold SLM.imageGrid imageGridOf
    rw [if_neg]
    · exact ⟨_, rfl⟩
    · push Not
      exact ⟨mul_ne_zero (by show ((1920 : ℕ) : ℝ) ≠ 0; norm_num) hps, mul_ne_zero (by show ((1080 : ℕ) : ℝ) ≠ 0; norm_num) hps⟩
  obtain ⟨gi, hg⟩ := hg
  refine ⟨gi, hg, ?_⟩
  obtain ⟨-, -, hx0⟩ := imageGrid_centre hg (show 1 < 1920 by norm_num) (show 0 < 1080 by norm_num) hwf
  have := C123_random (d := d) (h := r2.1) (x0 := h.next) (y0 := h.next + 1) (a := h.next + 2) (w := h.next + 3) (f := r2.2)
    (show 0 < 1920 by norm_num) (show 0 < 1080 by norm_num)
    (show (4 * (10.8 * 1e-6) : ℝ) ≠ 0 by norm_num) hwf hps (by rw [fr _ (by omega), c5]; norm_num)
    (by rw [fr _ (by omega), c6]; exact hin) (by rw [← h2]; rfl) hg
    (fun k _ l _ => C113_formula r1.1 0 0 1 wout 1 0 hout (congrArg _ h2) _ _)
    ⟨0, show 0 < 1080 by norm_num, 0, show 0 < 1920 by norm_num, ?_⟩
  · rw [fr _ (by omega), fr _ (by omega), fr _ (by omega), fr _ (by omega), c3, c4, c5, c6, ← c1] at this
    exact this
  · unfold Spec.laguerreGauss
    simp only
    refine mul_ne_zero ?_ (exp_ne_zero _)
    rw [ofReal_ne_zero]
    have hr : 0 < (gi.1.get 0 0 - 0) ^ 2 + (gi.2.get 0 0 - 0) ^ 2 := by
      have := sq_pos_of_ne_zero hx0
      rw [sub_zero, sub_zero]
      positivity
    refine mul_ne_zero (mul_ne_zero (mul_ne_zero one_ne_zero (pow_ne_zero _ (div_ne_zero ?_ hout))) ?_) (Real.exp_pos _).ne'
    · exact (mul_pos (by positivity) (Real.sqrt_pos.mpr hr)).ne'
    · simp [Spec.laguerre]

/-- **C123.** The script `examples/create_multiple_gaussian_beam.py`: two Gaussian spots of opposite sign, at a distance. -/
theorem C123_spots (h : Heap) {wavelength focal win wout dist : ℝ} (hwf : wavelength * focal ≠ 0) (hin : win ≠ 0)
    (hout : wout ≠ 0) (hd : dist ≠ 0) {r1 r2 r3 : Heap × Prof} {f : Prof}
    (h1 : New.run h (.hg 0 0 1 win 0 0) = .ok r1) (h2 : New.run r1.1 (.hg 0 0 1 wout 0 0) = .ok r2)
    (h3 : New.run r2.1 (.hg dist 0 1 wout 0 0) = .ok r3) (hf : pyBinary .sub (.prof r2.2) (.prof r3.2) = .ok f) :
    let d := newCall (Model.DLP9500.slm wavelength focal) 4 (Real.pi / 4) none
    ∃ gi, d.slm.imageGrid = .ok gi ∧
      ShowsOnAverage d r3.1 (.prof r1.2) (.prof f) (gaussianBeam d.slm 0 0 1 win)
        fun k l => ((Real.exp (-((gi.1.get k l ^ 2 + gi.2.get k l ^ 2) / wout ^ 2)) -
          Real.exp (-(((gi.1.get k l - dist) ^ 2 + gi.2.get k l ^ 2) / wout ^ 2)) : ℝ) : ℂ) := by
  intro d
  injection h1 with h1
  injection h2 with h2
  injection h3 with h3
  obtain ⟨c1, c2, c3, c4, c5, c6, -⟩ := newHg_cells h 0 0 1 win 0 0
  obtain ⟨d1, d2, d3, d4, d5, d6, d7⟩ := newHg_cells r1.1 0 0 1 wout 0 0
  obtain ⟨e1, e2, e3, e4, e5, e6, e7⟩ := newHg_cells r2.1 dist 0 1 wout 0 0
  rw [h1] at c1 c2 c3 c4 c5 c6
  rw [h2, c2] at d1 d2 d3 d4 d5 d6 d7
  rw [h3, d2] at e1 e2 e3 e4 e5 e6 e7
  rw [d1, e1] at hf
  injection hf with hf
  subst hf
  have hps : d.slm.ps ≠ 0 := by show (10.8 * 1e-6 : ℝ) ≠ 0; norm_num
  have hg : ∃ gi, d.slm.imageGrid = .ok gi := by
    unfold SLM.imageGrid imageGridOf
    rw [if_neg]
    · exact ⟨_, rfl⟩
    · push Not
      exact ⟨mul_ne_zero (by show ((1920 : ℕ) : ℝ) ≠ 0; norm_num) hps, mul_ne_zero (by show ((1080 : ℕ) : ℝ) ≠ 0; norm_num) hps⟩
  obtain ⟨gi, hg⟩ := hg
  refine ⟨gi, hg, ?_⟩
  obtain ⟨hx0, hy0, -⟩ := imageGrid_centre hg (show 1 < 1920 by norm_num) (show 0 < 1080 by norm_num) hwf
  have := C123_random (d := d) (h := r3.1) (x0 := h.next) (y0 := h.next + 1) (a := h.next + 2) (w := h.next + 3)
    (f := .bin .sub (.hg (h.next + 4) (h.next + 4 + 1) (h.next + 4 + 2) (h.next + 4 + 3) 0 0)
      (.hg (h.next + 4 + 4) (h.next + 4 + 4 + 1) (h.next + 4 + 4 + 2) (h.next + 4 + 4 + 3) 0 0)) (gi := gi)
    (T := fun k l => ((Real.exp (-((gi.1.get k l ^ 2 + gi.2.get k l ^ 2) / wout ^ 2)) -
      Real.exp (-(((gi.1.get k l - dist) ^ 2 + gi.2.get k l ^ 2) / wout ^ 2)) : ℝ) : ℂ))
    (show 0 < 1920 by norm_num) (show 0 < 1080 by norm_num)
    (show (4 * (10.8 * 1e-6) : ℝ) ≠ 0 by norm_num) hwf hps
    (by rw [e7 _ (by omega), d7 _ (by omega), c5]; norm_num)
    (by rw [e7 _ (by omega), d7 _ (by omega), c6]; exact hin) rfl hg ?_ ?_
  · rw [e7 _ (by omega), e7 _ (by omega), e7 _ (by omega), e7 _ (by omega), d7 _ (by omega), d7 _ (by omega), d7 _ (by omega),
      d7 _ (by omega), c3, c4, c5, c6, ← c1] at this
    exact this
  · intro k _ l _
    rw [eval, eval_gaussian _ _ _ _ _ (by rw [e7 _ (by omega), d6]; exact hout), eval_gaussian _ _ _ _ _ (by rw [e6]; exact hout)]
    rw [e7 _ (by omega), e7 _ (by omega), e7 _ (by omega), e7 _ (by omega), d3, d4, d5, d6, e3, e4, e5, e6]
    simp [applyAttr]
  · refine ⟨1080 / 2, show 1080 / 2 < 1080 by norm_num, 1920 / 2, show 1920 / 2 < 1920 by norm_num, ?_⟩
    have hx : gi.1.get (1080 / 2) (1920 / 2) = 0 := hx0
    have hy : gi.2.get (1080 / 2) (1920 / 2) = 0 := hy0
    rw [hx, hy, ofReal_ne_zero, sub_ne_zero]
    intro hc
    have := Real.exp_injective hc
    have h9 : dist ^ 2 / wout ^ 2 ≠ 0 := div_ne_zero (pow_ne_zero 2 hd) (pow_ne_zero 2 hout)
    apply h9
    simp at this ⊢
    tauto

/-- C123: the numbers of the scripts. -/
example : (369e-9 : ℝ) * 200e-3 ≠ 0 ∧ (5e-3 : ℝ) ≠ 0 ∧ (10e-6 : ℝ) ≠ 0 ∧ (30e-6 : ℝ) ≠ 0 := by norm_num

/-- C123: the objects of the scripts exist. -/
example (h : Heap) : ∃ r1 r2 r3 f, New.run h (.hg 0 0 1 5e-3 0 0) = .ok r1 ∧ New.run r1.1 (.hg 0 0 1 10e-6 0 0) = .ok r2 ∧
    New.run r2.1 (.hg 30e-6 0 1 10e-6 0 0) = .ok r3 ∧ pyBinary .sub (.prof r2.2) (.prof r3.2) = .ok f :=
  ⟨_, _, _, _, rfl, rfl, rfl, rfl⟩

end PySLM2.DMD
