import Verif.Props.RandomOrders
import Verif.Lemmas.Simulation

/-!
# C120, C121: the window of `calculate_dmd_state`, and what `eta` says about power
-/

noncomputable section

open MeasureTheory ProbabilityTheory Finset Complex Filter Topology

namespace PySLM2.DMD

open Lib Sim Spec

/-! ### C120: windows -/

/-- **C120**, the mirrors: where the window is zero, the pattern is dark, for the methods that work mirror by
mirror: transmission 0 (`ideal`), mirror off (`simple`, and `random` for draws that are not negative). -/
theorem C120_dark {d : DMD} {h : Profile.Heap} {inp target : ProfArg} {window : Option ProfArg}
    {u T w : ℕ → ℕ → ℂ} (m : Matching d h inp target window u T w) (hp : d.p ≠ 0)
    (hsc : d.slm.wavelength * d.slm.focal ≠ 0)
    (hlit : ∀ i < d.slm.Ny, ∀ j < d.slm.Nx, spectrum d.slm T i j * w i j ≠ 0 → u i j ≠ 0)
    (hne : ∃ i < d.slm.Ny, ∃ j < d.slm.Nx, spectrum d.slm T i j * w i j ≠ 0)
    (kw : CalcKwargs) (draw : ℕ → ℕ → ℝ) (hdraw : ∀ i j, 0 ≤ draw i j) :
    ∃ (eta : ℝ) (ti : Tensor XR) (ts tr : Tensor Bool),
      d.calculateDmdState h inp target "ideal" window kw draw = ⟨.rebind (.float ti), .ok (.fin eta)⟩ ∧
      d.calculateDmdState h inp target "simple" window kw draw = ⟨.rebind (.bool ts), .ok (.fin eta)⟩ ∧
      d.calculateDmdState h inp target "random" window kw draw = ⟨.rebind (.bool tr), .ok (.fin eta)⟩ ∧
      ∀ i < d.slm.Ny, ∀ j < d.slm.Nx, w i j = 0 →
        ti.get i j = .fin 0 ∧ ts.get i j = false ∧ tr.get i j = false := by
  obtain ⟨mx, hpos, -, -, hcalc⟩ := calculate_lit m ⟨hlit, hne⟩
  have hsc' : d.slm.scaling ≠ 0 := hsc
  obtain ⟨tin1, a1, pi1, po1, -, -, A1, B1, C1, e1⟩ := hcalc "ideal" kw draw
  obtain ⟨tin2, a2, pi2, po2, -, -, A2, B2, C2, e2⟩ := hcalc "simple" kw draw
  obtain ⟨tin3, a3, pi3, po3, -, -, A3, B3, C3, e3⟩ := hcalc "random" kw draw
  obtain ⟨⟨ti, g1, s1, v1⟩, -, -⟩ := grating_elementwise A1 B1 C1 { r := kw.r, N := kw.N, s := kw.s } draw
  obtain ⟨-, ⟨ts, g2, s2, v2⟩, -⟩ := grating_elementwise A2 B2 C2 { r := kw.r, N := kw.N, s := kw.s } draw
  obtain ⟨-, -, ⟨tr, g3, s3, v3⟩⟩ := grating_elementwise A3 B3 C3 { r := kw.r, N := kw.N, s := kw.s } draw
  rw [show d.forwardKwargs h tin1 "ideal" kw = .ok { r := kw.r, N := kw.N, s := kw.s } from rfl] at e1
  rw [show d.forwardKwargs h tin2 "simple" kw = .ok { r := kw.r, N := kw.N, s := kw.s } from rfl] at e2
  rw [show d.forwardKwargs h tin3 "random" kw = .ok { r := kw.r, N := kw.N, s := kw.s } from rfl] at e3
  simp only at e1 e2 e3
  rw [g1] at e1
  rw [g2] at e2
  rw [g3] at e3
  refine ⟨_, ti, ts, tr, (calculate_of_grating e1).trans (by rw [etaOf_fin hsc' hpos.ne']),
    (calculate_of_grating e2).trans (by rw [etaOf_fin hsc' hpos.ne']),
    (calculate_of_grating e3).trans (by rw [etaOf_fin hsc' hpos.ne']), fun i hi j hj hw => ?_⟩
  have hA : (XR.fin (‖wspec d.slm T w i j‖ / ‖u i j‖ / mx)) = .fin 0 := by
    unfold wspec
    rw [hw, mul_zero, norm_zero, zero_div, zero_div]
  refine ⟨?_, ?_, ?_⟩
  · rw [v1 i hi j hj]
    have := idealPixel_eq d hp (fun i j => ‖wspec d.slm T w i j‖ / ‖u i j‖ / mx) (fun i j => arg (u i j))
      (fun i j => arg (wspec d.slm T w i j)) i j
    refine this.trans ?_
    rw [XR.fin.inj hA, zero_mul]
  · rw [Bool.eq_false_iff]
    intro hc
    have h2 := (v2 i hi j hj).mp hc
    refine idealPixel_amp_zero_not ?_ h2
    exact hA
  · rw [Bool.eq_false_iff]
    intro hc
    have h3 := (v3 i hi j hj).mp hc
    refine randomDuty_dark_not ?_ (hdraw i j) h3
    left
    exact hA

/-- **C120**, the image, method `ideal`: with a window `w` the first order is `eta / 4` times the target in
which every pixel is replaced by the point spread function of the window. -/
theorem C120_ideal {d : DMD} {h : Profile.Heap} {inp target : ProfArg} {window : Option ProfArg}
    {u T w : ℕ → ℕ → ℂ} (m : Matching d h inp target window u T w) (hin : ArrayArg d.slm h inp u)
    (hp : d.p ≠ 0) (hsc : d.slm.wavelength * d.slm.focal ≠ 0) (hps : d.slm.ps ≠ 0)
    (hne : ∃ i < d.slm.Ny, ∃ j < d.slm.Nx, spectrum d.slm T i j * w i j ≠ 0)
    (hlit : ∀ i < d.slm.Ny, ∀ j < d.slm.Nx, spectrum d.slm T i j * w i j ≠ 0 → u i j ≠ 0)
    (kw : CalcKwargs) (draw : ℕ → ℕ → ℝ) :
    ∃ (st : StateArr) (eta : ℝ) (o : ℝ × ℝ) (gi : Tensor ℝ × Tensor ℝ) (κ κ' : ℂ), eta ≠ 0 ∧ ‖κ‖ = 1 ∧
      ‖κ'‖ = 1 ∧ (Even d.slm.Nx → Even d.slm.Ny → κ = 1 ∧ κ' = 1) ∧
      d.calculateDmdState h inp target "ideal" window kw draw = ⟨.rebind st, .ok (.fin eta)⟩ ∧
      d.firstOrderOrigin = .ok o ∧ d.slm.imageGrid = .ok gi ∧
      ∀ (s : Sim) (px py : ℕ), s.dev = .dmd d st → s.px = px → s.py = py →
        (s.propagate h inp).2 = .ok () ∧
        ∃ img g, (s.propagate h inp).1.imageField = some img ∧ s.imagePaddedGrid = .ok g ∧
          img.shape = .mat (d.slm.Ny + 2 * py) (d.slm.Nx + 2 * px) ∧
          ∀ k < d.slm.Ny + 2 * py, ∀ l < d.slm.Nx + 2 * px,
            img.get k l =
              (eta / 4 : ℂ) * blurred d.slm gi w T (g.1.get k l - (if d.neg then -o.1 else o.1))
                (g.2.get k l - (if d.neg then -o.2 else o.2)) * κ +
              fieldAt d.slm (zerothOf d u (fun i j => spectrum d.slm T i j * w i j) eta) (g.1.get k l) (g.2.get k l) +
              fieldAt d.slm (oppositeOf d u (fun i j => spectrum d.slm T i j * w i j) eta)
                (g.1.get k l + (if d.neg then -o.1 else o.1)) (g.2.get k l + (if d.neg then -o.2 else o.2)) * κ' := by
  have hin' : ArrayArg d.slm h inp fun i j => u i j * (fun _ _ => 1 : ℕ → ℕ → ℂ) i j := by
    simpa only [mul_one] using hin
  have hNx' : (d.slm.Nx : ℝ) ≠ 0 := by exact_mod_cast m.hNx.ne'
  have hNy' : (d.slm.Ny : ℝ) ≠ 0 := by exact_mod_cast m.hNy.ne'
  obtain ⟨gi, hgi⟩ : ∃ gi, d.slm.imageGrid = .ok gi := by
    unfold SLM.imageGrid imageGridOf
    rw [if_neg]
    · exact ⟨_, rfl⟩
    · simp only [mul_eq_zero, not_or]
      exact ⟨⟨hNx', hps⟩, ⟨hNy', hps⟩⟩
  obtain ⟨st, eta, o, κ, κ', h1, h2, h3, h4, -, h5, h6, h7⟩ := orders_window m hin' hp hsc hps hne hlit kw draw
  refine ⟨st, eta, o, gi, κ, κ', h1, h2, h3, h4, h5, h6, hgi, fun s px py a b c => ?_⟩
  obtain ⟨h8, img, g, h9, h10, h11, h12⟩ := h7 s px py a b c
  refine ⟨h8, img, g, h9, h10, h11, fun k hk l hl => ?_⟩
  rw [h12 k hk l hl]
  simp only [mul_one]
  rw [fieldAt_screen d.slm m.hNx m.hNy hsc hps hgi T w, firstAmp_eta m.hNx m.hNy hsc hps]

/-- **C120**, the image, method `random`, averaged over uniform draws: a sum over all orders; with sharp edges the
first order is `eta / pi` times the target blurred by the point spread function of the window. -/
theorem C120_random {d : DMD} {h : Profile.Heap} {inp target : ProfArg} {window : Option ProfArg}
    {u T w : ℕ → ℕ → ℂ} (m : Matching d h inp target window u T w) (hin : ArrayArg d.slm h inp u)
    (hp : d.p ≠ 0) (hsc : d.slm.wavelength * d.slm.focal ≠ 0) (hps : d.slm.ps ≠ 0)
    (hne : ∃ i < d.slm.Ny, ∃ j < d.slm.Nx, spectrum d.slm T i j * w i j ≠ 0)
    (hlit : ∀ i < d.slm.Ny, ∀ j < d.slm.Nx, spectrum d.slm T i j * w i j ≠ 0 → u i j ≠ 0) :
    ∃ (eta : ℝ) (A : ℕ → ℕ → ℝ) (o : ℝ × ℝ) (gi : Tensor ℝ × Tensor ℝ) (κ : ℤ → ℂ), eta ≠ 0 ∧
      d.firstOrderOrigin = .ok o ∧ d.slm.imageGrid = .ok gi ∧
      (∀ n, ‖κ n‖ = 1) ∧ (Even d.slm.Nx → Even d.slm.Ny → ∀ n, κ n = 1) ∧
      (∀ i < d.slm.Ny, ∀ j < d.slm.Nx, 0 ≤ A i j ∧ A i j ≤ 1 ∧ A i j * ‖u i j‖ =
        eta * (d.slm.wavelength * d.slm.focal) / (d.slm.ps ^ 2 * d.slm.Nx * d.slm.Ny) *
          ‖spectrum d.slm T i j * w i j‖) ∧
      (∀ (kw : CalcKwargs) (r : ℝ), 0 < r → kw.r.getD 10 = r →
        ∀ (Ω : Type) [MeasurableSpace Ω] (μ : Measure Ω) [IsProbabilityMeasure μ] (draw : Ω → ℕ → ℕ → ℝ),
        (∀ i < d.slm.Ny, ∀ j < d.slm.Nx, Measurable fun ω => draw ω i j) →
        (∀ i < d.slm.Ny, ∀ j < d.slm.Nx, μ.map (fun ω => draw ω i j) = volume.restrict (Set.Ico 0 1)) →
        ∀ (s : Sim) (px py : ℕ), s.px = px → s.py = py →
        ∃ (t : Ω → Tensor Bool) (img : Ω → Tensor ℂ) (g : Tensor ℝ × Tensor ℝ),
          (∀ ω, d.calculateDmdState h inp target "random" window kw (draw ω) = ⟨.rebind (.bool (t ω)), .ok (.fin eta)⟩ ∧
            ((showing s d (.bool (t ω))).propagate h inp).1.imageField = some (img ω) ∧
            (showing s d (.bool (t ω))).imagePaddedGrid = .ok g) ∧
          ∀ k < d.slm.Ny + 2 * py, ∀ l < d.slm.Nx + 2 * px,
            HasSum (fun n : ℤ => fieldAt d.slm (orderField u (fun i j => spectrum d.slm T i j * w i j) A r n)
                (g.1.get k l - n * (if d.neg then -o.1 else o.1)) (g.2.get k l - n * (if d.neg then -o.2 else o.2)) * κ n)
              (∫ ω, (img ω).get k l ∂μ)) ∧
      ∀ x y : ℝ, Tendsto (fun r => fieldAt d.slm (orderField u (fun i j => spectrum d.slm T i j * w i j) A r 1) x y) atTop
        (𝓝 (eta / Real.pi * blurred d.slm gi w T x y)) := by
  have hin' : ArrayArg d.slm h inp fun i j => u i j * (fun _ _ => 1 : ℕ → ℕ → ℂ) i j := by
    simpa only [mul_one] using hin
  have := random_orders_window m hin' hp hsc hps hne hlit
  simp only [mul_one] at this
  exact this

/-- **C120**, the efficiency: a window of modulus at most 1 never lowers `eta`. -/
theorem C120_gain {d : DMD} {h : Profile.Heap} {inp target : ProfArg} {window : Option ProfArg}
    {u T w : ℕ → ℕ → ℂ} (m : Matching d h inp target window u T w)
    (hw : ∀ i < d.slm.Ny, ∀ j < d.slm.Nx, ‖w i j‖ ≤ 1) (hsc : 0 < d.slm.wavelength * d.slm.focal)
    (hlit : ∀ i < d.slm.Ny, ∀ j < d.slm.Nx, spectrum d.slm T i j ≠ 0 → u i j ≠ 0)
    (hne : ∃ i < d.slm.Ny, ∃ j < d.slm.Nx, spectrum d.slm T i j * w i j ≠ 0)
    {method method' : String} {kw kw' : CalcKwargs} {draw draw' : ℕ → ℕ → ℝ} {v v' : XR}
    (hv : (d.calculateDmdState h inp target method none kw draw).result = .ok v)
    (hv' : (d.calculateDmdState h inp target method' window kw' draw').result = .ok v') :
    ∃ eta eta' : ℝ, v = .fin eta ∧ v' = .fin eta' ∧ eta ≤ eta' := by
  have m0 : Matching d h inp target none u T (fun _ _ => 1) := ⟨m.hNx, m.hNy, m.input, m.target, fun _ _ => rfl⟩
  have hl0 : Lit d.slm u (wspec d.slm T fun _ _ => 1) := by
    refine ⟨fun i hi j hj hF => hlit i hi j hj fun h0 => hF ?_, ?_⟩
    · unfold wspec; rw [h0, zero_mul]
    · obtain ⟨i, hi, j, hj, hF⟩ := hne
      exact ⟨i, hi, j, hj, by unfold wspec; rw [mul_one]; exact left_ne_zero_of_mul hF⟩
  have hl : Lit d.slm u (wspec d.slm T w) :=
    ⟨fun i hi j hj hF => hlit i hi j hj (left_ne_zero_of_mul hF), hne⟩
  obtain ⟨mx, hpos, hle, hex, -⟩ := calculate_lit m0 hl0
  obtain ⟨mx', hpos', hle', hex', -⟩ := calculate_lit m hl
  have hmx : mx' ≤ mx := by
    obtain ⟨i, hi, j, hj, e⟩ := hex'
    rw [← e]
    refine le_trans (div_le_div_of_nonneg_right ?_ (norm_nonneg _)) (hle i hi j hj)
    unfold wspec
    rw [norm_mul, mul_one]
    exact mul_le_of_le_one_right (norm_nonneg _) (hw i hi j hj)
  refine ⟨_, _, eta_of_lit m0 hl0 hle hex hsc.ne' method kw draw hv,
    eta_of_lit m hl hle' hex' hsc.ne' method' kw' draw' hv', ?_⟩
  have : 0 < d.slm.scaling := hsc
  exact div_le_div_of_nonneg_left (by positivity) hpos' hmx

/-- C120: the hypotheses hold for a spot target, an input field that is not constant and a window that switches off
every second column. -/
example (h : Profile.Heap) :
    let d := Sim.exDmd
    let w : ℕ → ℕ → ℂ := fun _ j => if j % 2 = 0 then 1 else 0
    Matching d h (exArray fun i j => i + j * I + 1) (exArray exSpot) (some (exArray w)) (fun i j => i + j * I + 1) exSpot w ∧
    ArrayArg d.slm h (exArray fun i j => i + j * I + 1) (fun i j => i + j * I + 1) ∧
    d.p ≠ 0 ∧ 0 < d.slm.wavelength * d.slm.focal ∧ d.slm.ps ≠ 0 ∧
    (∃ i < d.slm.Ny, ∃ j < d.slm.Nx, spectrum d.slm exSpot i j * w i j ≠ 0) ∧
    (∃ i < d.slm.Ny, ∃ j < d.slm.Nx, w i j = 0) ∧
    (∀ i < d.slm.Ny, ∀ j < d.slm.Nx, ‖w i j‖ ≤ 1) ∧
    ∀ i < d.slm.Ny, ∀ j < d.slm.Nx, spectrum d.slm exSpot i j ≠ 0 → (i + j * I + 1 : ℂ) ≠ 0 := by
  refine ⟨⟨by decide, by decide, ⟨_, rfl, Tensor.denotes_of_mat rfl fun _ _ _ _ => rfl⟩,
    ⟨_, rfl, rfl, fun _ _ _ _ => rfl⟩, ⟨_, rfl, Tensor.denotes_of_mat rfl fun _ _ _ _ => rfl⟩⟩,
    ⟨_, rfl, rfl, fun _ _ _ _ => rfl⟩, by norm_num [Sim.exDmd], by norm_num [Sim.exDmd], by norm_num [Sim.exDmd],
    ⟨0, by decide, 0, by decide, ?_⟩, ⟨0, by decide, 1, by decide, ?_⟩, fun i _ j _ => ?_, fun i _ j _ _ hc => ?_⟩
  · simp only [Nat.zero_mod, if_true, mul_one]
    exact exSpot_spectrum 0 0
  · simp
  · beta_reduce
    split_ifs <;> simp
  · have := congrArg Complex.re hc
    simp at this
    have h0 : (0 : ℝ) ≤ i := Nat.cast_nonneg i
    linarith

/-! ### C121: power -/

/-- Parseval for the transform of the target. -/
theorem spectrum_parseval (s : SLM) (T : ℕ → ℕ → ℂ) :
    ∑ i ∈ range s.Ny, ∑ j ∈ range s.Nx, ‖spectrum s T i j‖ ^ 2 =
      (s.Ny * s.Nx : ℝ) * ∑ k ∈ range s.Ny, ∑ l ∈ range s.Nx, ‖T k l‖ ^ 2 := by
  rw [Finset.sum_congr rfl fun i hi => Finset.sum_congr rfl fun j hj => by
    rw [← spectrum_eq s T (mem_range.mp hi) (mem_range.mp hj)], ← centredIdft_parseval]
  congr 1
  exact Finset.sum_congr rfl fun k hk => Finset.sum_congr rfl fun l hl => by
    rw [centredIdft_targetFp T (mem_range.mp hk) (mem_range.mp hl)]

/-- **C121**, what the number returned by `calculate_dmd_state` says about power, for every method: `eta ^ 2` times the
power of the target is at most the power of the input, with equality exactly if the modulus of the input is
proportional to that of the transform of the target. -/
theorem C121_efficiency {d : DMD} {h : Profile.Heap} {inp target : ProfArg} {u T : ℕ → ℕ → ℂ}
    (m : Matching d h inp target none u T fun _ _ => 1) (hsc : d.slm.wavelength * d.slm.focal ≠ 0) (hps : d.slm.ps ≠ 0)
    (hlit : ∀ i < d.slm.Ny, ∀ j < d.slm.Nx, spectrum d.slm T i j ≠ 0 → u i j ≠ 0)
    (hne : ∃ k < d.slm.Ny, ∃ l < d.slm.Nx, T k l ≠ 0)
    {method : String} {kw : CalcKwargs} {draw : ℕ → ℕ → ℝ} {v : XR}
    (hv : (d.calculateDmdState h inp target method none kw draw).result = .ok v) :
    ∃ eta : ℝ, v = .fin eta ∧ eta ^ 2 * targetPower d.slm T ≤ slmPower d.slm u ∧
      (eta ^ 2 * targetPower d.slm T = slmPower d.slm u ↔
        ∃ c : ℝ, ∀ i < d.slm.Ny, ∀ j < d.slm.Nx, ‖spectrum d.slm T i j‖ = c * ‖u i j‖) := by
  have hw : wspec d.slm T (fun _ _ => 1) = spectrum d.slm T := by
    funext i j; unfold wspec; rw [mul_one]
  have hl : Lit d.slm u (wspec d.slm T fun _ _ => 1) := by
    rw [hw]; exact ⟨hlit, spectrum_ne_zero d.slm hne⟩
  obtain ⟨mx, hpos, hle, hex, -⟩ := calculate_lit m hl
  have heta := eta_of_lit m hl hle hex hsc method kw draw hv
  rw [hw] at hle hex
  have hNx : (0 : ℝ) < d.slm.Nx := by exact_mod_cast m.hNx
  have hNy : (0 : ℝ) < d.slm.Ny := by exact_mod_cast m.hNy
  have hsc' : d.slm.scaling ≠ 0 := hsc
  have hps2 : 0 < d.slm.ps ^ 2 := by positivity
  -- the fields on the SLM
  have hF : ∀ i < d.slm.Ny, ∀ j < d.slm.Nx, ‖spectrum d.slm T i j‖ ≤ mx * ‖u i j‖ := by
    intro i hi j hj
    by_cases hu : u i j = 0
    · by_cases hF0 : spectrum d.slm T i j = 0
      · rw [hF0, hu, norm_zero, mul_zero]
      · exact absurd hu (hlit i hi j hj hF0)
    · exact (div_le_iff₀ (norm_pos_iff.mpr hu)).mp (hle i hi j hj)
  have hpow : (d.slm.ps ^ 2 / d.slm.scaling * d.slm.Nx * d.slm.Ny / mx) ^ 2 * targetPower d.slm T =
      (∑ i ∈ range d.slm.Ny, ∑ j ∈ range d.slm.Nx, (‖spectrum d.slm T i j‖ / mx) ^ 2) * d.slm.ps ^ 2 := by
    simp only [div_pow, ← Finset.sum_div]
    rw [spectrum_parseval]
    unfold targetPower
    have e : d.slm.wavelength * d.slm.focal = d.slm.scaling := rfl
    rw [e]
    generalize ∑ k ∈ range d.slm.Ny, ∑ l ∈ range d.slm.Nx, ‖T k l‖ ^ 2 = S
    field_simp
  have hterm : ∀ i < d.slm.Ny, ∀ j < d.slm.Nx, (‖spectrum d.slm T i j‖ / mx) ^ 2 ≤ ‖u i j‖ ^ 2 := by
    intro i hi j hj
    refine pow_le_pow_left₀ (by positivity) ?_ 2
    rw [div_le_iff₀ hpos, mul_comm]
    exact hF i hi j hj
  refine ⟨_, heta, ?_, ?_⟩
  · rw [hpow]
    unfold slmPower
    refine mul_le_mul_of_nonneg_right ?_ hps2.le
    exact Finset.sum_le_sum fun i hi => Finset.sum_le_sum fun j hj => hterm i (mem_range.mp hi) j (mem_range.mp hj)
  · rw [hpow]
    unfold slmPower
    rw [mul_left_inj' hps2.ne', Finset.sum_eq_sum_iff_of_le fun i hi => Finset.sum_le_sum fun j hj =>
      hterm i (mem_range.mp hi) j (mem_range.mp hj)]
    constructor
    · intro hs
      refine ⟨mx, fun i hi j hj => ?_⟩
      have h1 := (Finset.sum_eq_sum_iff_of_le fun j hj => hterm i hi j (mem_range.mp hj)).mp
        (hs i (mem_range.mpr hi)) j (mem_range.mpr hj)
      have h2 := (pow_left_inj₀ (by positivity) (norm_nonneg _) two_ne_zero).mp h1
      rw [← h2]
      field_simp
    · rintro ⟨c, hc⟩ i hi
      obtain ⟨i0, hi0, j0, hj0, e0⟩ := hex
      have hu0 : ‖u i0 j0‖ ≠ 0 := by
        intro h0
        rw [h0, div_zero] at e0
        exact hpos.ne e0
      have hcm : c = mx := by
        rw [← e0, hc i0 hi0 j0 hj0, mul_div_assoc, div_self hu0, mul_one]
      refine Finset.sum_congr rfl fun j hj => ?_
      rw [hc i (mem_range.mp hi) j (mem_range.mp hj), hcm]
      field_simp

/-- **C121**, how much light there can be: the field that makes up the first order of the `ideal` hologram (C23) carries
`(eta / 4) ^ 2` times the power of the target, at most 1/16 of the power of the input. -/
theorem C121_first_order {d : DMD} {h : Profile.Heap} {inp target : ProfArg} {u T : ℕ → ℕ → ℂ}
    (m : Matching d h inp target none u T fun _ _ => 1) (hsc : d.slm.wavelength * d.slm.focal ≠ 0) (hps : d.slm.ps ≠ 0)
    (hlit : ∀ i < d.slm.Ny, ∀ j < d.slm.Nx, spectrum d.slm T i j ≠ 0 → u i j ≠ 0)
    (hne : ∃ k < d.slm.Ny, ∃ l < d.slm.Nx, T k l ≠ 0)
    {kw : CalcKwargs} {draw : ℕ → ℕ → ℝ} {st : StateArr} {eta : ℝ}
    (hv : d.calculateDmdState h inp target "ideal" none kw draw = ⟨.rebind st, .ok (.fin eta)⟩) :
    slmPower d.slm (fun i j => spectrum d.slm T i j * firstAmp d eta) = (eta / 4) ^ 2 * targetPower d.slm T ∧
    slmPower d.slm (fun i j => spectrum d.slm T i j * firstAmp d eta) ≤ slmPower d.slm u / 16 := by
  obtain ⟨eta', e, hle, -⟩ := C121_efficiency m hsc hps hlit hne (v := .fin eta) (by rw [hv])
  obtain rfl := XR.fin.inj e
  have hNx : (d.slm.Nx : ℝ) ≠ 0 := by exact_mod_cast m.hNx.ne'
  have hNy : (d.slm.Ny : ℝ) ≠ 0 := by exact_mod_cast m.hNy.ne'
  have h1 : slmPower d.slm (fun i j => spectrum d.slm T i j * firstAmp d eta) =
      (eta / 4) ^ 2 * targetPower d.slm T := by
    unfold slmPower
    simp only [norm_mul, mul_pow, ← Finset.sum_mul]
    rw [spectrum_parseval]
    unfold firstAmp targetPower
    rw [norm_div, Complex.norm_real, Real.norm_eq_abs, div_pow, sq_abs]
    generalize ∑ k ∈ range d.slm.Ny, ∑ l ∈ range d.slm.Nx, ‖T k l‖ ^ 2 = S
    generalize d.slm.wavelength * d.slm.focal = c at *
    norm_num
    field_simp
    ring
  refine ⟨h1, ?_⟩
  rw [h1]
  have : (eta / 4) ^ 2 * targetPower d.slm T = eta ^ 2 * targetPower d.slm T / 16 := by ring
  rw [this]
  linarith

/-- C121: the hypotheses hold for a spot target and an input whose modulus is not constant. -/
example (h : Profile.Heap) :
    let d := Sim.exDmd
    Matching d h (exArray fun i j => i + j * I + 1) (exArray exSpot) none (fun i j => i + j * I + 1) exSpot (fun _ _ => 1) ∧
    d.slm.wavelength * d.slm.focal ≠ 0 ∧ d.slm.ps ≠ 0 ∧
    (∃ k < d.slm.Ny, ∃ l < d.slm.Nx, exSpot k l ≠ 0) ∧
    ∀ i < d.slm.Ny, ∀ j < d.slm.Nx, spectrum d.slm exSpot i j ≠ 0 → (i + j * I + 1 : ℂ) ≠ 0 := by
  refine ⟨exMatching h _ _, by norm_num [Sim.exDmd], by norm_num [Sim.exDmd],
    ⟨0, (by decide : 0 < 2), 1, (by decide : 1 < 4), by simp [exSpot]⟩, fun i _ j _ _ hc => ?_⟩
  have := congrArg Complex.re hc
  simp at this
  have h0 : (0 : ℝ) ≤ i := Nat.cast_nonneg i
  linarith

end PySLM2.DMD
