import Verif.Lemmas.Simulation

/-! Helper lemmas about blocking and about histories of a simulation. -/

noncomputable section

open Complex Finset

namespace PySLM2.Sim

open Lib Classical

theorem blocked_fin (x y r : ℝ) : blocked x y (.fin (r ^ 2)) ↔ Real.sqrt (x ^ 2 + y ^ 2) < |r| := by
  show x ^ 2 + y ^ 2 < r ^ 2 ↔ _
  rw [← Real.sqrt_sq_eq_abs, Real.sqrt_lt_sqrt_iff (by positivity)]

/-- Shape of the coordinate arrays. -/
theorem imagePaddedGrid_shape {s : Sim} {g : Tensor ℝ × Tensor ℝ} (hg : s.imagePaddedGrid = .ok g) :
    g.1.shape = .mat s.Ny s.Nx ∧ g.2.shape = .mat s.Ny s.Nx := by
  replace hg := (imagePaddedGrid_inv hg).2.2
  unfold imageGridOf at hg
  split_ifs at hg
  obtain rfl := Except.ok.inj hg
  exact ⟨rfl, rfl⟩

/-- The radius squared a call of `block_zeroth_order` uses. -/
def usedR2 (s : Sim) (d : DMD) : Option ℝ → XR
  | some r => .fin (r ^ 2)
  | none => defaultR2 s.dev.slm.scaling d.p

theorem blockZerothOrder_eq {s : Sim} {d : DMD} {st : StateArr} {o img : Tensor ℂ}
    {g : Tensor ℝ × Tensor ℝ} (hd : s.dev = .dmd d st) (ho : s.outputField = some o)
    (hi : s.imageField = some img) (hsh : img.shape = .mat s.Ny s.Nx)
    (hg : s.imagePaddedGrid = .ok g) (r : Option ℝ) :
    s.blockZerothOrder r = ({ s with imageField := some ⟨.mat s.Ny s.Nx, fun i j =>
      if blocked (g.1.at_ i j) (g.2.at_ i j) (usedR2 s d r) then 0 else img.at_ i j⟩ }, .ok ()) := by
  unfold blockZerothOrder
  simp only [hd, ho, hg, hi, hsh, bcast_self]
  cases r <;> simp only [usedR2, hd] <;> rfl

/-! ## Histories -/

theorem bcastDim_of {a n x : ℕ} (hn : 2 ≤ n) (h : bcastDim a n = some x) : x = n := by
  unfold bcastDim at h
  split_ifs at h with h1 h2 h3
  · exact (Option.some.inj h).symm.trans h1
  · exact (Option.some.inj h).symm
  · omega

theorem bcast_mat_of {M N M' N' : ℕ} (hM : 2 ≤ M) (hN : 2 ≤ N) {sh : Shape}
    (h : bcast (.mat M' N') (.mat M N) = some sh) : sh = .mat M N := by
  unfold bcast at h
  simp only at h
  split at h
  · next a b h1 h2 =>
    rw [bcastDim_of hM h1, bcastDim_of hN h2] at h
    exact (Option.some.inj h).symm
  · exact absurd h (by simp)

/-- The state tensor of a good device. -/
theorem GoodDevice.stateTensor {d : Device} (g : GoodDevice d) :
    (∃ st, d.stateTensor = .ok st ∧ st.shape = .mat d.slm.Ny d.slm.Nx) ∨
      ∃ e, d.stateTensor = .error e := by
  obtain ⟨-, -, -, -, hst⟩ := g
  cases d with
  | base s => exact Or.inr ⟨_, rfl⟩
  | dmd d st =>
    cases st with
    | bool t => exact Or.inl ⟨_, rfl, hst⟩
    | float t =>
      simp only [Device.stateTensor, DMD.stateTensor]
      split_ifs
      · exact Or.inl ⟨_, rfl, hst⟩
      · exact Or.inr ⟨_, rfl⟩
  | lcos l => exact Or.inl ⟨_, rfl, hst⟩

/-- A propagation on a good device either fails, touching at most the input field, or sets everything. -/
theorem propagate_cases {s : Sim} (g : GoodDevice s.dev) (h : Profile.Heap) (a : ProfArg) :
    (∃ e f, s.propagate h a = ({ s with inputField := f }, .error e)) ∨
    (∃ inp out img, s.propagate h a =
      ({ s with inputField := some inp, outputField := some out, imageField := some img }, .ok ()) ∧
      out.shape = .mat s.Ny s.Nx ∧ img.shape = .mat s.Ny s.Nx) := by
  unfold propagate
  cases hp : s.dev.slm.profileToTensor h a true true with
  | error e => exact Or.inl ⟨e, s.inputField, rfl⟩
  | ok inp =>
    simp only
    cases hpad : pad inp s.py s.px with
    | error e => exact Or.inl ⟨e, s.inputField, rfl⟩
    | ok padded =>
      simp only
      rcases g.stateTensor with ⟨st, hst, hsh⟩ | ⟨e, he⟩
      · rw [hst]
        simp only
        cases hm : Tensor.map2 (fun a b => a * b) inp st with
        | error e => exact Or.inl ⟨e, _, rfl⟩
        | ok out =>
          simp only
          have hos : out.shape = .mat s.dev.slm.Ny s.dev.slm.Nx := by
            unfold Tensor.map2 at hm
            rw [hsh] at hm
            unfold pad at hpad
            cases his : inp.shape with
            | scalar => rw [his] at hpad; simp at hpad
            | mat M N =>
              rw [his] at hm
              split at hm
              · next sh hb =>
                rw [← Except.ok.inj hm]
                exact bcast_mat_of g.hNy g.hNx hb
              · exact absurd hm (by simp)
          have hneg : ¬ (s.py < 0 ∨ s.px < 0) := by
            unfold pad at hpad
            cases his : inp.shape with
            | scalar => rw [his] at hpad; simp at hpad
            | mat M N =>
              rw [his] at hpad
              intro hc
              simp only [if_pos hc] at hpad
              exact absurd hpad (by simp)
          unfold pad
          rw [hos]
          simp only
          rw [if_neg hneg]
          simp only
          unfold imageOf
          simp only
          have h1 := g.hNx
          have h2 := g.hNy
          rw [if_neg (by omega), if_neg (show ¬ s.dev.slm.scaling = 0 from g.hsc)]
          push Not at hneg
          have ex : s.Nx = s.dev.slm.Nx + 2 * s.px.toNat := Nx_eq (Int.toNat_of_nonneg hneg.2).symm
          have ey : s.Ny = s.dev.slm.Ny + 2 * s.py.toNat := Ny_eq (Int.toNat_of_nonneg hneg.1).symm
          refine Or.inr ⟨_, _, _, rfl, ?_, ?_⟩ <;> rw [ex, ey]
      · rw [he]
        exact Or.inl ⟨e, _, rfl⟩

/-- A successful propagation depends on the device and the paddings only. -/
theorem propagate_success_indep {s t : Sim} (hd : t.dev = s.dev) (hx : t.px = s.px) (hy : t.py = s.py)
    (h : Profile.Heap) (a : ProfArg) (hok : (s.propagate h a).2 = .ok ()) :
    t.propagate h a = s.propagate h a := by
  obtain ⟨dev, px, py, f1, f2, f3⟩ := s
  obtain ⟨dev', px', py', f1', f2', f3'⟩ := t
  simp only at hd hx hy
  subst hd hx hy
  unfold propagate at hok ⊢
  simp only at hok ⊢
  cases hp : dev'.slm.profileToTensor h a true true with
  | error e => simp [hp] at hok
  | ok inp =>
    simp only [hp] at hok ⊢
    cases hpad : pad inp py' px' with
    | error e => simp [hpad] at hok
    | ok padded =>
      simp only [hpad] at hok ⊢
      cases hst : dev'.stateTensor with
      | error e => simp [hst] at hok
      | ok st =>
        simp only [hst] at hok ⊢
        cases hm : Tensor.map2 (fun a b => a * b) inp st with
        | error e => simp [hm] at hok
        | ok out =>
          simp only [hm] at hok ⊢
          cases hpo : pad out py' px' with
          | error e => simp [hpo] at hok
          | ok outP =>
            simp only [hpo] at hok ⊢
            have himg : ∀ f1 f2 f3, imageOf ⟨dev', px', py', f1, f2, f3⟩ outP =
              imageOf ⟨dev', px', py', some padded, some outP, none⟩ outP := fun _ _ _ => rfl
            rw [himg (some padded) (some outP) f3] at hok
            rw [himg (some padded) (some outP) f3, himg (some padded) (some outP) f3']
            cases hi : imageOf ⟨dev', px', py', some padded, some outP, none⟩ outP with
            | error e => simp [hi] at hok
            | ok img => rfl

/-- The invariant behind C19. -/
structure Inv (s : Sim) (b : Bool) : Prop where
  good : GoodDevice s.dev
  off : b = false → s.outputField = none ∧ s.imageField = none
  on : b = true → ∃ i o img, s.inputField = some i ∧ s.outputField = some o ∧
    s.imageField = some img ∧ img.shape = .mat s.Ny s.Nx
  pads : 0 ≤ s.px ∧ 0 ≤ s.py

theorem Nx_of_slm {s t : Sim} (hd : t.dev.slm = s.dev.slm) (hx : t.px = s.px) : t.Nx = s.Nx := by
  unfold Nx NxInt; rw [hd, hx]
theorem Ny_of_slm {s t : Sim} (hd : t.dev.slm = s.dev.slm) (hx : t.py = s.py) : t.Ny = s.Ny := by
  unfold Ny NyInt; rw [hd, hx]

theorem imagePaddedGrid_good {s : Sim} (g : GoodDevice s.dev) (hp : 0 ≤ s.px ∧ 0 ≤ s.py) :
    ∃ gr, s.imagePaddedGrid = .ok gr := by
  rw [imagePaddedGrid_nat (Int.toNat_of_nonneg hp.1).symm (Int.toNat_of_nonneg hp.2).symm]
  unfold imageGridOf
  have h1 := g.hNx
  have h2 := g.hNy
  have h3 : ((s.Nx : ℕ) : ℝ) ≠ 0 := by rw [Nx_eq (Int.toNat_of_nonneg hp.1).symm]; exact_mod_cast (by omega)
  have h4 : ((s.Ny : ℕ) : ℝ) ≠ 0 := by rw [Ny_eq (Int.toNat_of_nonneg hp.2).symm]; exact_mod_cast (by omega)
  rw [if_neg]
  · exact ⟨_, rfl⟩
  · simp only [mul_eq_zero, not_or]
    exact ⟨⟨h3, g.hps⟩, ⟨h4, g.hps⟩⟩

theorem Inv.step {s : Sim} {b : Bool} (i : Inv s b) (op : Op) (hop : FittingOp s.dev.slm op) :
    Inv (s.step op).1 (availableAfter b [(op, (s.step op).2)]) ∧ (s.step op).1.dev.slm = s.dev.slm := by
  obtain ⟨g, hoff, hon, hp⟩ := i
  cases op with
  | propagate h a =>
    simp only [Sim.step]
    rcases propagate_cases g h a with ⟨e, f, he⟩ | ⟨inp, out, img, he, ho, hi⟩
    · rw [he]
      simp only [availableAfter]
      refine ⟨⟨g, hoff, fun hb => ?_, hp⟩, trivial⟩
      obtain ⟨i, o, img, h1, h2, h3, h4⟩ := hon hb
      -- the input field may have been replaced, but is still there
      have hsome : ∃ i', f = some i' := by
        have h5 := congrArg (fun p => p.1.inputField) he
        simp only at h5
        rw [← h5]
        unfold propagate
        split
        · exact ⟨i, h1⟩
        · split
          · exact ⟨i, h1⟩
          · next padded _ =>
            simp only
            split
            · exact ⟨padded, rfl⟩
            · split
              · exact ⟨padded, rfl⟩
              · split
                · exact ⟨padded, rfl⟩
                · split
                  · exact ⟨padded, rfl⟩
                  · exact ⟨padded, rfl⟩
      obtain ⟨i', hi'⟩ := hsome
      exact ⟨i', o, img, hi', h2, h3, h4⟩
    · rw [he]
      simp only [availableAfter]
      exact ⟨⟨g, by simp, fun _ => ⟨inp, out, img, rfl, rfl, rfl, hi⟩, hp⟩, trivial⟩
  | block r =>
    simp only [Sim.step, availableAfter]
    cases hd : s.dev with
    | base sl =>
      have : s.blockZerothOrder r = (s, .error .assertionError) := by
        unfold blockZerothOrder; rw [hd]
      rw [this]
      exact ⟨⟨g, hoff, hon, hp⟩, by rw [hd]⟩
    | lcos l =>
      have : s.blockZerothOrder r = (s, .error .assertionError) := by
        unfold blockZerothOrder; rw [hd]
      rw [this]
      exact ⟨⟨g, hoff, hon, hp⟩, by rw [hd]⟩
    | dmd d st =>
      cases b with
      | false =>
        obtain ⟨h1, h2⟩ := hoff rfl
        have : s.blockZerothOrder r = (s, .error .typeError) := by
          unfold blockZerothOrder; rw [hd, h1]
        rw [this]
        exact ⟨⟨g, hoff, hon, hp⟩, by rw [hd]⟩
      | true =>
        obtain ⟨i, o, img, h1, h2, h3, h4⟩ := hon rfl
        obtain ⟨gr, hgr⟩ := imagePaddedGrid_good g hp
        rw [blockZerothOrder_eq hd h2 h3 h4 hgr r]
        exact ⟨⟨g, by simp, fun _ => ⟨i, o, _, h1, h2, rfl, rfl⟩, hp⟩, by rw [hd]⟩
  | clear =>
    simp only [Sim.step, availableAfter]
    exact ⟨⟨g, fun _ => ⟨rfl, rfl⟩, by simp, hp⟩, rfl⟩
  | setState st =>
    simp only [Sim.step]
    cases hd : s.dev with
    | base sl => exact ⟨⟨g, hoff, hon, hp⟩, by rw [hd]⟩
    | lcos l => exact ⟨⟨g, hoff, hon, hp⟩, by rw [hd]⟩
    | dmd d st' =>
      simp only [availableAfter]
      have hs : s.dev.slm = d.slm := by rw [hd]; rfl
      refine ⟨⟨⟨?_, ?_, ?_, ?_, ?_⟩, hoff, fun hb => ?_, hp⟩, rfl⟩
      · show 2 ≤ d.slm.Nx; rw [← hs]; exact g.hNx
      · show 2 ≤ d.slm.Ny; rw [← hs]; exact g.hNy
      · show d.slm.wavelength * d.slm.focal ≠ 0; rw [← hs]; exact g.hsc
      · show d.slm.ps ≠ 0; rw [← hs]; exact g.hps
      · show st.shape = .mat d.slm.Ny d.slm.Nx; rw [← hs]; exact hop
      · obtain ⟨i, o, img, h1, h2, h3, h4⟩ := hon hb
        refine ⟨i, o, img, h1, h2, h3, ?_⟩
        rw [h4]
        simp only [Nx, Ny, NxInt, NyInt, hd, Device.slm]
  | setLcos st =>
    simp only [Sim.step]
    cases hd : s.dev with
    | base sl => exact ⟨⟨g, hoff, hon, hp⟩, by rw [hd]⟩
    | dmd l st => exact ⟨⟨g, hoff, hon, hp⟩, by rw [hd]⟩
    | lcos l =>
      simp only [availableAfter]
      have hs : s.dev.slm = l.slm := by rw [hd]; rfl
      refine ⟨⟨⟨?_, ?_, ?_, ?_, ?_⟩, hoff, fun hb => ?_, hp⟩, rfl⟩
      · show 2 ≤ l.slm.Nx; rw [← hs]; exact g.hNx
      · show 2 ≤ l.slm.Ny; rw [← hs]; exact g.hNy
      · show l.slm.wavelength * l.slm.focal ≠ 0; rw [← hs]; exact g.hsc
      · show l.slm.ps ≠ 0; rw [← hs]; exact g.hps
      · show st.arr.shape = .mat l.slm.Ny l.slm.Nx; rw [← hs]; exact hop
      · obtain ⟨i, o, img, h1, h2, h3, h4⟩ := hon hb
        refine ⟨i, o, img, h1, h2, h3, ?_⟩
        rw [h4]
        simp only [Nx, Ny, NxInt, NyInt, hd, Device.slm]

theorem availableAfter_cons (b : Bool) (p : Op × Except PyErr Unit)
    (l : List (Op × Except PyErr Unit)) :
    availableAfter b (p :: l) = availableAfter (availableAfter b [p]) l := by
  obtain ⟨op, res⟩ := p
  cases op <;> cases res <;> rfl

theorem Inv.run {s : Sim} {b : Bool} (i : Inv s b) (ops : List Op)
    (hops : ∀ op ∈ ops, FittingOp s.dev.slm op) :
    Inv (s.run ops) (availableAfter b (outcomes s ops)) := by
  induction ops generalizing s b with
  | nil => exact i
  | cons op ops ih =>
    obtain ⟨h1, h2⟩ := i.step op (hops op (by simp))
    simp only [Sim.run, outcomes]
    rw [availableAfter_cons]
    exact ih h1 fun o ho => by rw [h2]; exact hops o (by simp [ho])

end PySLM2.Sim
