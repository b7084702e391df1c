import Verif.Lemmas.SimLife
import Verif.Props.Propagation

/-!
# C17 - C21: blocking the zeroth order, life cycle and construction of simulations
-/

noncomputable section

open Complex Finset

namespace PySLM2.Sim

open Lib Classical

/-! ## C17, C18 -/

/-- **C17.** `block_zeroth_order(r)` zeroes exactly the pixels strictly closer than `|r|` to the axis and
changes nothing else. -/
theorem C17_blocks_disc {s : Sim} {d : DMD} {st : StateArr} {o img : Tensor ℂ}
    {g : Tensor ℝ × Tensor ℝ} (hd : s.dev = .dmd d st) (ho : s.outputField = some o)
    (hi : s.imageField = some img) (hsh : img.shape = .mat s.Ny s.Nx)
    (hg : s.imagePaddedGrid = .ok g) (r : ℝ) :
    (s.blockZerothOrder (some r)).2 = .ok () ∧
    ∃ img', (s.blockZerothOrder (some r)).1 = { s with imageField := some img' } ∧
      img'.shape = img.shape ∧
      ∀ k < s.Ny, ∀ l < s.Nx, img'.get k l =
        if Real.sqrt (g.1.get k l ^ 2 + g.2.get k l ^ 2) < |r| then 0 else img.get k l := by
  rw [blockZerothOrder_eq hd ho hi hsh hg]
  obtain ⟨h1, h2⟩ := imagePaddedGrid_shape hg
  refine ⟨rfl, _, rfl, hsh.symm, fun k hk l hl => ?_⟩
  show (if blocked (g.1.at_ k l) (g.2.at_ k l) (.fin (r ^ 2)) then 0 else img.at_ k l) = _
  rw [Tensor.at_eq_get h1 hk hl, Tensor.at_eq_get h2 hk hl, Tensor.at_eq_get hsh hk hl]
  by_cases hb : Real.sqrt (g.1.get k l ^ 2 + g.2.get k l ^ 2) < |r|
  · rw [if_pos hb, if_pos ((blocked_fin _ _ _).mpr hb)]
  · rw [if_neg hb, if_neg (fun hc => hb ((blocked_fin _ _ _).mp hc))]

/-- **C17.** The default radius is half the distance of the diffraction orders. -/
theorem C17_default_radius {s : Sim} {d : DMD} {st : StateArr} {o img : Tensor ℂ}
    {g : Tensor ℝ × Tensor ℝ} (hd : s.dev = .dmd d st) (ho : s.outputField = some o)
    (hi : s.imageField = some img) (hsh : img.shape = .mat s.Ny s.Nx)
    (hg : s.imagePaddedGrid = .ok g) (hp : d.p ≠ 0) :
    s.blockZerothOrder none =
      s.blockZerothOrder (some (d.slm.wavelength * d.slm.focal / d.p / 2)) := by
  have h1 : s.dev.slm.scaling = d.slm.wavelength * d.slm.focal := by rw [hd]; rfl
  have h2 : usedR2 s d none = usedR2 s d (some (d.slm.wavelength * d.slm.focal / d.p / 2)) := by
    simp only [usedR2, defaultR2, if_neg hp, h1]
  rw [blockZerothOrder_eq hd ho hi hsh hg, blockZerothOrder_eq hd ho hi hsh hg, h2]

/-- **C17.** Blocking twice is blocking once. -/
theorem C17_idempotent {s : Sim} {d : DMD} {st : StateArr} {o img : Tensor ℂ}
    {g : Tensor ℝ × Tensor ℝ} (hd : s.dev = .dmd d st) (ho : s.outputField = some o)
    (hi : s.imageField = some img) (hsh : img.shape = .mat s.Ny s.Nx)
    (hg : s.imagePaddedGrid = .ok g) (r : Option ℝ) :
    ∃ img' img'', (s.blockZerothOrder r).1.imageField = some img' ∧
      ((s.blockZerothOrder r).1.blockZerothOrder r).1.imageField = some img'' ∧
      img''.Same img' := by
  rw [blockZerothOrder_eq hd ho hi hsh hg]
  let img' : Tensor ℂ := ⟨.mat s.Ny s.Nx, fun i j =>
      if blocked (g.1.at_ i j) (g.2.at_ i j) (usedR2 s d r) then 0 else img.at_ i j⟩
  let s' : Sim := { s with imageField := some img' }
  show ∃ i1 i2, s'.imageField = some i1 ∧ (s'.blockZerothOrder r).1.imageField = some i2 ∧ i2.Same i1
  rw [blockZerothOrder_eq (s := s') (img := img') hd ho rfl rfl hg]
  refine ⟨_, _, rfl, rfl, rfl, ?_⟩
  show ∀ k < s.Ny, ∀ l < s.Nx, (if blocked (g.1.at_ k l) (g.2.at_ k l) (usedR2 s' d r) then 0
    else img'.at_ k l) = img'.get k l
  intro k hk l hl
  rw [Tensor.at_eq_get (t := img') rfl hk hl]
  have : usedR2 s' d r = usedR2 s d r := by cases r <;> rfl
  rw [this]
  split_ifs with hb
  · simp [img', hb]
  · rfl

/-- **C17.** Blocking never increases the image plane power. -/
theorem C17_power {s : Sim} {d : DMD} {st : StateArr} {o img : Tensor ℂ}
    {g : Tensor ℝ × Tensor ℝ} (hd : s.dev = .dmd d st) (ho : s.outputField = some o)
    (hi : s.imageField = some img) (hsh : img.shape = .mat s.Ny s.Nx)
    (hg : s.imagePaddedGrid = .ok g) (r : Option ℝ) :
    ∃ P P', s.imagePower = .ok P ∧ (s.blockZerothOrder r).1.imagePower = .ok P' ∧ 0 ≤ P' ∧ P' ≤ P := by
  rw [blockZerothOrder_eq hd ho hi hsh hg]
  obtain ⟨hxi, hyi, -⟩ := imagePaddedGrid_inv hg
  have hne : ¬ (s.Nx * s.Ny = 0 ∨ s.dev.slm.ps ^ 2 = 0) := by
    replace hg := (imagePaddedGrid_inv hg).2.2
    unfold imageGridOf at hg
    split_ifs at hg with h0
    push Not at h0 ⊢
    refine ⟨?_, fun h => h0.1 (by simp [pow_eq_zero_iff] at h; simp [h])⟩
    intro h
    rcases Nat.mul_eq_zero.mp h with h | h
    · exact h0.1 (by simp [h])
    · exact h0.2 (by simp [h])
  have ha : ∀ f, ({ s with imageField := f } : Sim).imagePixelArea =
      .ok (s.dev.slm.scaling ^ 2 / (s.Nx * s.Ny : ℕ) / s.dev.slm.ps ^ 2) := by
    intro f
    show s.imagePixelArea = _
    unfold imagePixelArea
    rw [hxi, hyi, if_neg (by exact_mod_cast hne)]
    norm_cast
  have ha0 : s.imagePixelArea = .ok (s.dev.slm.scaling ^ 2 / (s.Nx * s.Ny : ℕ) / s.dev.slm.ps ^ 2) := ha s.imageField
  unfold imagePower
  simp only [ha0, ha, hi, intensity, Option.map]
  refine ⟨_, _, rfl, rfl, ?_, ?_⟩
  · refine mul_nonneg ?_ (by positivity)
    simp only [sumTensor, Tensor.map, intensityPixel_eq]
    exact Finset.sum_nonneg fun i _ => Finset.sum_nonneg fun j _ => by positivity
  · refine mul_le_mul_of_nonneg_right ?_ (by positivity)
    simp only [sumTensor, Tensor.map, intensityPixel_eq, hsh]
    refine Finset.sum_le_sum fun k hk => Finset.sum_le_sum fun l hl => ?_
    rw [Tensor.at_eq_get hsh (mem_range.mp hk) (mem_range.mp hl)]
    split_ifs
    · simp
    · exact le_rfl

/-- **C18.** With the default radius, no pixel at least as far from the axis as the first order origin is
changed, nor any pixel that is at least as close to the first order origin (or its mirror image) as half
the distance between the orders. -/
theorem C18_first_order_spared {s : Sim} {d : DMD} {st : StateArr} {o img : Tensor ℂ}
    {g : Tensor ℝ × Tensor ℝ} (hd : s.dev = .dmd d st) (ho : s.outputField = some o)
    (hi : s.imageField = some img) (hsh : img.shape = .mat s.Ny s.Nx)
    (hg : s.imagePaddedGrid = .ok g) {x0 y0 : ℝ} (h0 : d.firstOrderOrigin = .ok (x0, y0)) :
    ∃ img', (s.blockZerothOrder none).1.imageField = some img' ∧
      ∀ k < s.Ny, ∀ l < s.Nx,
        (Real.sqrt (x0 ^ 2 + y0 ^ 2) ≤ Real.sqrt (g.1.get k l ^ 2 + g.2.get k l ^ 2) ∨
         Real.sqrt ((g.1.get k l - x0) ^ 2 + (g.2.get k l - y0) ^ 2) ≤ Real.sqrt (x0 ^ 2 + y0 ^ 2) / 2 ∨
         Real.sqrt ((g.1.get k l + x0) ^ 2 + (g.2.get k l + y0) ^ 2) ≤
           Real.sqrt (x0 ^ 2 + y0 ^ 2) / 2) →
        img'.get k l = img.get k l := by
  unfold DMD.firstOrderOrigin at h0
  split_ifs at h0 with hp
  have h0' := Except.ok.inj h0
  have hx : x0 = Real.cos d.theta * d.slm.scaling / d.p := (congrArg Prod.fst h0').symm
  have hy : y0 = Real.sin d.theta * d.slm.scaling / d.p := (congrArg Prod.snd h0').symm
  have hR2 : x0 ^ 2 + y0 ^ 2 = (d.slm.scaling / d.p) ^ 2 := by
    have := Real.sin_sq_add_cos_sq d.theta
    rw [hx, hy]
    calc (Real.cos d.theta * d.slm.scaling / d.p) ^ 2 + (Real.sin d.theta * d.slm.scaling / d.p) ^ 2
        = (Real.sin d.theta ^ 2 + Real.cos d.theta ^ 2) * (d.slm.scaling / d.p) ^ 2 := by ring
      _ = _ := by rw [this, one_mul]
  have hR : Real.sqrt (x0 ^ 2 + y0 ^ 2) = |d.slm.scaling / d.p| := by
    rw [hR2, Real.sqrt_sq_eq_abs]
  rw [C17_default_radius hd ho hi hsh hg hp]
  obtain ⟨-, img', h1, -, h2⟩ := C17_blocks_disc hd ho hi hsh hg
    (d.slm.wavelength * d.slm.focal / d.p / 2)
  refine ⟨img', by rw [h1], fun k hk l hl hc => ?_⟩
  rw [h2 k hk l hl, if_neg]
  rw [not_lt]
  have hr : |d.slm.wavelength * d.slm.focal / d.p / 2| = Real.sqrt (x0 ^ 2 + y0 ^ 2) / 2 := by
    rw [hR, abs_div]
    norm_num [SLM.scaling]
  rw [hr]
  set x := g.1.get k l
  set y := g.2.get k l
  -- triangle inequality through complex numbers
  have nrm : ∀ a b : ℝ, Real.sqrt (a ^ 2 + b ^ 2) = ‖(⟨a, b⟩ : ℂ)‖ := by
    intro a b
    rw [Complex.norm_def, Complex.normSq_mk]; congr 1; ring
  rw [nrm, nrm] at *
  rcases hc with hc | hc | hc
  · have := norm_nonneg (⟨x0, y0⟩ : ℂ)
    linarith
  · rw [nrm] at hc
    have e : (⟨x0, y0⟩ : ℂ) = ⟨x, y⟩ - ⟨x - x0, y - y0⟩ := by
      apply Complex.ext <;> simp
    have := norm_sub_le (⟨x, y⟩ : ℂ) ⟨x - x0, y - y0⟩
    rw [← e] at this
    linarith
  · rw [nrm] at hc
    have e : (⟨x0, y0⟩ : ℂ) = ⟨x + x0, y + y0⟩ - ⟨x, y⟩ := by
      apply Complex.ext <;> simp
    have := norm_sub_le (⟨x + x0, y + y0⟩ : ℂ) ⟨x, y⟩
    rw [← e] at this
    linarith

/-- The hypotheses of C17 and C18 hold after every propagation on a DMD. -/
theorem C17_reachable {s : Sim} {px py : ℕ} {h : Profile.Heap} {a : ProfArg} {u m : ℕ → ℕ → ℂ}
    {d : DMD} {st : StateArr} (hd : s.dev = .dmd d st) (r : Ready s px py h a u m) :
    ∃ o img g, (s.propagate h a).1.dev = .dmd d st ∧ (s.propagate h a).1.outputField = some o ∧
      (s.propagate h a).1.imageField = some img ∧
      img.shape = .mat (s.propagate h a).1.Ny (s.propagate h a).1.Nx ∧
      (s.propagate h a).1.imagePaddedGrid = .ok g := by
  obtain ⟨g, hg⟩ := imagePaddedGrid_ok r
  rw [propagate_ready r]
  refine ⟨_, _, g, hd, rfl, rfl, ?_, hg⟩
  show Shape.mat (s.dev.slm.Ny + 2 * py) (s.dev.slm.Nx + 2 * px) = .mat s.Ny s.Nx
  rw [Nx_eq r.hpx, Ny_eq r.hpy]

example (h : Profile.Heap) : ∃ o img g, (exSim.propagate h exInput).1.dev = .dmd exDmd (.bool exState) ∧
    (exSim.propagate h exInput).1.outputField = some o ∧
    (exSim.propagate h exInput).1.imageField = some img ∧
    img.shape = .mat (exSim.propagate h exInput).1.Ny (exSim.propagate h exInput).1.Nx ∧
    (exSim.propagate h exInput).1.imagePaddedGrid = .ok g ∧ exDmd.p ≠ 0 ∧
    exDmd.firstOrderOrigin = .ok (15 / 8, 0) := by
  obtain ⟨o, img, g, h1, h2, h3, h4, h5⟩ := C17_reachable (d := exDmd) rfl (exReady h)
  refine ⟨o, img, g, h1, h2, h3, h4, h5, by norm_num [exDmd], ?_⟩
  norm_num [DMD.firstOrderOrigin, exDmd, SLM.scaling]

/-! ## C19, C20 -/

/-- **C19.** In any history of calls (with arbitrary propagation arguments, failing or not) on a
sensible device: whether results are available is decided by the successful propagations and clears
alone; `block_zeroth_order` and the power queries raise `TypeError` exactly when there is no result. -/
theorem C19_lifecycle {dev : Device} (g : GoodDevice dev) (px py : ℕ) (ops : List Op)
    (hops : ∀ op ∈ ops, FittingOp dev.slm op) {s0 : Sim}
    (h0 : newSLM (.dev dev) (.int px) (.int py) = .ok s0) :
    let s := s0.run ops
    let b := availableAfter false (outcomes s0 ops)
    (s.outputField = none ↔ b = false) ∧ (s.imageField = none ↔ b = false) ∧
    (b = true → s.inputField ≠ none) ∧
    (∀ d st r, s.dev = .dmd d st →
      ((s.blockZerothOrder r).2 = .error .typeError ↔ b = false) ∧
      ((s.blockZerothOrder r).2 = .ok () ↔ b = true)) ∧
    (s.outputPower = .error .typeError ↔ b = false) ∧ ((∃ P, s.outputPower = .ok P) ↔ b = true) ∧
    (s.imagePower = .error .typeError ↔ b = false) ∧ ((∃ P, s.imagePower = .ok P) ↔ b = true) ∧
    (b = true → ∃ P, s.inputPower = .ok P) := by
  intro s b
  have hs0 : s0 = ⟨dev, px, py, none, none, none⟩ := (Except.ok.inj h0).symm
  have hinv : Inv s0 false := by
    rw [hs0]
    exact ⟨g, fun _ => ⟨rfl, rfl⟩, by simp, Int.natCast_nonneg px, Int.natCast_nonneg py⟩
  have hi : Inv s b := hinv.run ops (by rw [hs0]; exact hops)
  obtain ⟨gd, hoff, hon, hp⟩ := hi
  obtain ⟨gr, hgr⟩ := imagePaddedGrid_good gd hp
  have harea : ∃ A, s.imagePixelArea = .ok A := by
    rw [imagePixelArea_nat (Int.toNat_of_nonneg hp.1).symm (Int.toNat_of_nonneg hp.2).symm]
    have h1 := gd.hNx
    have h2 := gd.hNy
    rw [if_neg]
    · exact ⟨_, rfl⟩
    · push Not
      refine ⟨?_, pow_ne_zero 2 gd.hps⟩
      have : 0 < s.Nx * s.Ny := by
        rw [Nx_eq (Int.toNat_of_nonneg hp.1).symm, Ny_eq (Int.toNat_of_nonneg hp.2).symm]
        exact Nat.mul_pos (by omega) (by omega)
      omega
  obtain ⟨A, hA⟩ := harea
  cases hb : b with
  | false =>
    obtain ⟨h1, h2⟩ := hoff hb
    have hblk : ∀ d st r, s.dev = .dmd d st → (s.blockZerothOrder r).2 = .error .typeError := by
      intro d st r hd
      unfold blockZerothOrder
      rw [hd, h1]
    refine ⟨by simp [h1], by simp [h2], by simp, fun d st r hd => ?_, ?_, ?_, ?_, ?_, by simp⟩
    · simp [hblk d st r hd]
    · simp [outputPower, intensity, h1]
    · simp [outputPower, intensity, h1]
    · simp [imagePower, hA, intensity, h2]
    · simp [imagePower, hA, intensity, h2]
  | true =>
    obtain ⟨i, o, img, h1, h2, h3, h4⟩ := hon hb
    refine ⟨by simp [h2], by simp [h3], by simp [h1], fun d st r hd => ?_, ?_, ?_, ?_, ?_, ?_⟩
    · rw [blockZerothOrder_eq hd h2 h3 h4 hgr]
      simp
    · simp [outputPower, intensity, h2]
    · simp [outputPower, intensity, h2]
    · simp [imagePower, hA, intensity, h3]
    · simp [imagePower, hA, intensity, h3]
    · simp [inputPower, intensity, h1]

/-- **C19.** After a successful propagation the whole object depends only on the device with its state at
that time, the paddings and the input; whatever happened before is forgotten, also by all later calls. -/
theorem C19_history_forgotten (s t : Sim) (before before' later : List Op)
    (hd : (t.run before').dev = (s.run before).dev) (hx : t.px = s.px) (hy : t.py = s.py)
    (h : Profile.Heap) (a : ProfArg) (hok : ((s.run before).propagate h a).2 = .ok ()) :
    t.run (before' ++ .propagate h a :: later) = s.run (before ++ .propagate h a :: later) := by
  have hrun : ∀ (ops : List Op) (s : Sim), (s.run ops).px = s.px ∧ (s.run ops).py = s.py := by
    intro ops
    induction ops with
    | nil => exact fun s => ⟨rfl, rfl⟩
    | cons op ops ih =>
      intro s
      have hstep : (s.step op).1.px = s.px ∧ (s.step op).1.py = s.py := by
        cases op with
        | propagate h a =>
          simp only [step, propagate]
          split
          · exact ⟨rfl, rfl⟩
          · split
            · exact ⟨rfl, rfl⟩
            · split
              · exact ⟨rfl, rfl⟩
              · split
                · exact ⟨rfl, rfl⟩
                · split
                  · exact ⟨rfl, rfl⟩
                  · split <;> exact ⟨rfl, rfl⟩
        | block r =>
          simp only [step, blockZerothOrder]
          split
          · split
            · exact ⟨rfl, rfl⟩
            · split
              · exact ⟨rfl, rfl⟩
              · split
                · exact ⟨rfl, rfl⟩
                · split <;> exact ⟨rfl, rfl⟩
          · exact ⟨rfl, rfl⟩
        | clear => exact ⟨rfl, rfl⟩
        | setState st => simp only [step]; split <;> exact ⟨rfl, rfl⟩
        | setLcos st => simp only [step]; split <;> exact ⟨rfl, rfl⟩
      obtain ⟨h1, h2⟩ := ih (s.step op).1
      exact ⟨h1.trans hstep.1, h2.trans hstep.2⟩
  have happ : ∀ (ops ops' : List Op) (s : Sim), s.run (ops ++ ops') = (s.run ops).run ops' := by
    intro ops
    induction ops with
    | nil => exact fun _ _ => rfl
    | cons op ops ih => exact fun ops' s => ih ops' _
  rw [happ, happ]
  simp only [run, step]
  rw [propagate_success_indep hd (by rw [(hrun _ _).1, (hrun _ _).1, hx])
    (by rw [(hrun _ _).2, (hrun _ _).2, hy]) h a hok]

/-- **C19.** Changing the state of the SLM afterwards does not touch the results. -/
theorem C19_state_change (s : Sim) (st : StateArr) (st' : LcosState) :
    ((s.step (.setState st)).1.inputField = s.inputField ∧
      (s.step (.setState st)).1.outputField = s.outputField ∧
      (s.step (.setState st)).1.imageField = s.imageField) ∧
    ((s.step (.setLcos st')).1.inputField = s.inputField ∧
      (s.step (.setLcos st')).1.outputField = s.outputField ∧
      (s.step (.setLcos st')).1.imageField = s.imageField) := by
  constructor <;> simp only [step] <;> split <;> exact ⟨rfl, rfl, rfl⟩

/-- **C19.** After `clear` (as for a new simulation) there is no result in any plane, and none appears
until `propagate_to_image` is called. -/
theorem C19_clear (s : Sim) (ops : List Op) (hops : ∀ h a, Op.propagate h a ∉ ops) :
    ((s.step .clear).1.run ops).inputField = none ∧ ((s.step .clear).1.run ops).outputField = none ∧
      ((s.step .clear).1.run ops).imageField = none := by
  have key : ∀ (ops : List Op) (s : Sim), (∀ h a, Op.propagate h a ∉ ops) → s.inputField = none →
      s.outputField = none → s.imageField = none →
      (s.run ops).inputField = none ∧ (s.run ops).outputField = none ∧ (s.run ops).imageField = none := by
    intro ops
    induction ops with
    | nil => exact fun s _ h1 h2 h3 => ⟨h1, h2, h3⟩
    | cons op ops ih =>
      intro s hn h1 h2 h3
      have hn' : ∀ h a, Op.propagate h a ∉ ops := fun h a hm => hn h a (List.mem_cons_of_mem _ hm)
      simp only [run]
      cases op with
      | propagate h a => exact absurd List.mem_cons_self (hn h a)
      | block r =>
        have : (s.step (.block r)).1 = s := by
          simp only [step, blockZerothOrder]
          split
          · rw [h2]
          · rfl
        rw [this]
        exact ih s hn' h1 h2 h3
      | clear => exact ih _ hn' rfl rfl rfl
      | setState st =>
        simp only [step]
        split
        · exact ih _ hn' h1 h2 h3
        · exact ih _ hn' h1 h2 h3
      | setLcos st =>
        simp only [step]
        split
        · exact ih _ hn' h1 h2 h3
        · exact ih _ hn' h1 h2 h3
  exact key ops _ hops rfl rfl rfl

theorem exGood : GoodDevice exSim.dev := by
  refine ⟨by decide, by decide, ?_, ?_, rfl⟩
  · norm_num [exSim, Device.slm, exDmd]
  · norm_num [exSim, Device.slm, exDmd]

/-- A history that meets the hypotheses of C19: a failing and a succeeding propagation, a new state, a
block; results are available at the end. -/
example (h : Profile.Heap) :
    let ops := [Op.propagate h (.ndarray .cplx ⟨.mat 3 4, fun _ _ => 1⟩), .propagate h exInput,
      .setState (.bool ⟨.mat 2 4, fun _ _ => true⟩), .block none]
    (∀ op ∈ ops, FittingOp exSim.dev.slm op) ∧
    newSLM (.dev exSim.dev) (.int 3) (.int 1) = .ok exSim ∧
    availableAfter false (outcomes exSim ops) = true := by
  refine ⟨?_, rfl, ?_⟩
  · intro op hop
    simp only [List.mem_cons, List.not_mem_nil, or_false] at hop
    rcases hop with rfl | rfl | rfl | rfl
    · trivial
    · trivial
    · rfl
    · trivial
  · have h1 : exSim.propagate h (.ndarray .cplx ⟨.mat 3 4, fun _ _ => 1⟩) =
        ({ exSim with inputField := some ⟨.mat 5 10, pad2 3 4 1 3 fun _ _ => 1⟩ },
          .error .tensorflow) := rfl
    have h2 : (({ exSim with inputField := some ⟨.mat 5 10, pad2 3 4 1 3 fun _ _ => 1⟩ } : Sim).propagate
        h exInput).2 = .ok () := by
      have r := exReady h
      exact (C10_fraunhofer (s := { exSim with
        inputField := some ⟨.mat 5 10, pad2 3 4 1 3 fun _ _ => 1⟩ })
        ⟨r.hpx, r.hpy, r.hNx, r.hNy, r.hsc, r.hps, r.input, r.modulation⟩).1
    simp only [outcomes, step, h1, h2, availableAfter]

/-- **C20 is false.** On a sensible DMD simulation holding a successful propagation, a propagation whose
input does not fit raises and leaves the input field of the failed call next to the output and image
fields of the earlier one. -/
theorem C20_refuted (h : Profile.Heap) :
    ∃ (s : Sim) (bad : ProfArg) (e : PyErr), GoodDevice s.dev ∧
      (s.propagate h exInput).2 = .ok () ∧
      ((s.propagate h exInput).1.propagate h bad).2 = .error e ∧
      ((s.propagate h exInput).1.propagate h bad).1.inputField ≠
        (s.propagate h exInput).1.inputField ∧
      ((s.propagate h exInput).1.propagate h bad).1.outputField =
        (s.propagate h exInput).1.outputField ∧
      (∃ P P', (s.propagate h exInput).1.inputPower = .ok P ∧
        ((s.propagate h exInput).1.propagate h bad).1.inputPower = .ok P' ∧ P ≠ P') := by
  have hr := exReady h
  refine ⟨exSim, .ndarray .cplx ⟨.mat 3 4, fun _ _ => 0⟩, .tensorflow, exGood,
    (C10_fraunhofer hr).1, ?_⟩
  have h1 : (exSim.propagated 3 1 (fun i j => i + j * I + 1)
      (fun i j => if (i + j) % 2 = 0 then 1 else 0)).propagate h
      (.ndarray .cplx ⟨.mat 3 4, fun _ _ => 0⟩) =
      ({ (exSim.propagated 3 1 (fun i j => i + j * I + 1)
          (fun i j => if (i + j) % 2 = 0 then 1 else 0)) with
          inputField := some ⟨.mat 5 10, pad2 3 4 1 3 fun _ _ => 0⟩ }, .error .tensorflow) := rfl
  rw [propagate_ready hr, h1]
  refine ⟨rfl, ?_, rfl, ?_⟩
  · intro hc
    have := congrArg (fun o => o.map (Tensor.shape)) hc
    simp [propagated, exSim, Device.slm, exDmd] at this
  · refine ⟨_, _, (propagated_powers hr).1, rfl, ?_⟩
    have h0 : sumTensor (Tensor.map intensityPixel ⟨.mat 5 10, pad2 3 4 1 3 fun _ _ => 0⟩) = 0 := by
      simp [sumTensor, Tensor.map, intensityPixel, pad2]
    show _ ≠ sumTensor (Tensor.map intensityPixel ⟨.mat 5 10, pad2 3 4 1 3 fun _ _ => 0⟩) * _
    rw [h0, zero_mul]
    refine ne_of_gt ?_
    unfold slmPower
    refine mul_pos ?_ (by norm_num [exSim, Device.slm, exDmd])
    refine Finset.sum_pos (fun i hi => Finset.sum_pos (fun j hj => ?_) ?_) ?_
    · refine pow_pos (norm_pos_iff.mpr fun hz => ?_) 2
      have := congrArg Complex.re hz
      simp at this
      have hi0 : (0 : ℝ) ≤ i := Nat.cast_nonneg i
      linarith
    · exact ⟨0, by simp [exSim, Device.slm, exDmd]⟩
    · exact ⟨0, by simp [exSim, Device.slm, exDmd]⟩

/-- **C20, what holds** (missing: `input_field` and `get_input_power` after a failure inside the
multiplication, see `C20_refuted`).  A failed propagation never changes the output and image plane
fields (on a sensible device), and changes nothing at all if the input cannot be converted to a tensor or
is not two-dimensional. -/
theorem C20_partial {s : Sim} (g : GoodDevice s.dev) (h : Profile.Heap) (a : ProfArg) {e : PyErr}
    (hfail : (s.propagate h a).2 = .error e) :
    (s.propagate h a).1.outputField = s.outputField ∧
    (s.propagate h a).1.imageField = s.imageField ∧
    (s.propagate h a).1.outputPower = s.outputPower ∧
    (s.propagate h a).1.imagePower = s.imagePower ∧
    ((∀ t M N, s.dev.slm.profileToTensor h a true true = .ok t → t.shape ≠ .mat M N) →
      (s.propagate h a).1 = s) := by
  obtain ⟨h1, h2, h3, h4⟩ : (s.propagate h a).1.outputField = s.outputField ∧
      (s.propagate h a).1.imageField = s.imageField ∧
      (s.propagate h a).1.outputPower = s.outputPower ∧
      (s.propagate h a).1.imagePower = s.imagePower := by
    rcases propagate_cases g h a with ⟨e', f, he⟩ | ⟨inp, out, img, he, -, -⟩
    · rw [he]; exact ⟨rfl, rfl, rfl, rfl⟩
    · rw [he] at hfail; simp at hfail
  refine ⟨h1, h2, h3, h4, fun hp => ?_⟩
  unfold propagate
  cases ht : s.dev.slm.profileToTensor h a true true with
  | error e => rfl
  | ok t =>
    simp only
    cases hsh : t.shape with
    | scalar => simp only [pad, hsh]
    | mat M N => exact absurd hsh (hp t M N ht)

/-- The failure hypotheses of `C20_partial` occur (a constant as input; an array that does not fit). -/
example (h : Profile.Heap) :
    (exSim.propagate h (.num (.real 1))).2 = .error .tensorflow ∧
    (∀ t M N, exSim.dev.slm.profileToTensor h (.num (.real 1)) true true = .ok t → t.shape ≠ .mat M N) ∧
    (exSim.propagate h (.ndarray .cplx ⟨.mat 3 4, fun _ _ => 0⟩)).2 = .error .tensorflow := by
  refine ⟨rfl, fun t M N ht => ?_, rfl⟩
  rw [← Except.ok.inj ht]
  simp [Tensor.scalar]

/-! ## C21 -/

/-- **C21.** `SLMSimulation(slm, px, py)` can be constructed exactly for an SLM and two ints; otherwise
`TypeError`.  A new simulation has no results. -/
theorem C21_slm (dev : DevArg) (px py : PadArg) :
    ((∃ s, newSLM dev px py = .ok s) ↔ ∃ d x y, dev = .dev d ∧ px = .int x ∧ py = .int y) ∧
    (∀ e, newSLM dev px py = .error e → e = .typeError) ∧
    (∀ s d x y, dev = .dev d → px = .int x → py = .int y → newSLM dev px py = .ok s →
      s.dev = d ∧ s.px = x ∧ s.py = y ∧ s.inputField = none ∧ s.outputField = none ∧
      s.imageField = none) := by
  refine ⟨?_, ?_, ?_⟩
  · cases dev <;> cases px <;> cases py <;> simp [newSLM]
  · cases dev <;> cases px <;> cases py <;> simp [newSLM]
  · rintro s d x y rfl rfl rfl h
    rw [← Except.ok.inj h]
    exact ⟨rfl, rfl, rfl, rfl, rfl, rfl⟩

/-- **C21.** `DMDSimulation(dmd, px, py)` can be constructed exactly for a DMD and two ints; otherwise
`TypeError`. -/
theorem C21_dmd (dev : DevArg) (px py : PadArg) :
    ((∃ s, newDMD dev px py = .ok s) ↔
      ∃ d st x y, dev = .dev (.dmd d st) ∧ px = .int x ∧ py = .int y) ∧
    (∀ e, newDMD dev px py = .error e → e = .typeError) ∧
    (∀ s, newDMD dev px py = .ok s → newSLM dev px py = .ok s) := by
  refine ⟨?_, ?_, ?_⟩
  · rcases dev with (_ | _ | _) | _ <;> cases px <;> cases py <;> simp [newDMD, newSLM]
  · rcases dev with (_ | _ | _) | _ <;> cases px <;> cases py <;> simp [newDMD, newSLM]
  · rcases dev with (_ | _ | _) | _ <;> cases px <;> cases py <;> simp [newDMD, newSLM]

example : ∃ s, newDMD (.dev exSim.dev) (.int 3) (.int (-1)) = .ok s := ⟨_, rfl⟩
example : newDMD (.dev (.base exDmd.slm)) (.int 3) (.int 1) = .error .typeError := rfl

end PySLM2.Sim
