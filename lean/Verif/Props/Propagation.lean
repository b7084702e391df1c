import Verif.Lemmas.Simulation

/-!
# C10 - C16: propagation to the image plane

`Ready s px py h a u m` (in `Verif/Spec/Simulation.lean`) says: `s` is a simulation with paddings `px`,
`py` of a device with pixels and non-zero optical constants, its argument `a` denotes the field `u` and
the device shows the modulation `m`.
-/

noncomputable section

open Complex Finset

namespace PySLM2.Sim

open Lib

/-- **C10.** After `propagate_to_image` the field at every image plane pixel is the Fraunhofer
diffraction integral of `input * modulation` at the advertised coordinates: equal for even device sizes,
equal up to a phase for all sizes. -/
theorem C10_fraunhofer {s : Sim} {px py : ℕ} {h : Profile.Heap} {a : ProfArg} {u m : ℕ → ℕ → ℂ}
    (r : Ready s px py h a u m) :
    (s.propagate h a).2 = .ok () ∧
    ∃ img g, (s.propagate h a).1.imageField = some img ∧ s.imagePaddedGrid = .ok g ∧
      img.shape = .mat (s.dev.slm.Ny + 2 * py) (s.dev.slm.Nx + 2 * px) ∧
      ∀ k < s.dev.slm.Ny + 2 * py, ∀ l < s.dev.slm.Nx + 2 * px,
        ‖img.get k l‖ =
          ‖fraunhofer s.dev.slm (fun i j => u i j * m i j) (g.1.get k l) (g.2.get k l)‖ ∧
        (Even s.dev.slm.Nx → Even s.dev.slm.Ny → img.get k l =
          fraunhofer s.dev.slm (fun i j => u i j * m i j) (g.1.get k l) (g.2.get k l)) := by
  obtain ⟨g, hg⟩ := imagePaddedGrid_ok r
  rw [propagate_ready r]
  refine ⟨rfl, _, g, rfl, hg, rfl, fun k hk l hl => ⟨?_, fun hx hy => ?_⟩⟩
  · simp only
    rw [propagated_image_fieldAt r hg hk hl, norm_fieldAt]
  · simp only
    rw [propagated_image_fieldAt r hg hk hl, fieldAt_even _ _ _ _ hx hy]

/-- **C10**, intensities: `image_plane_intensity` is the squared modulus of the diffraction integral, for
every parity of the sizes. -/
theorem C10_intensity {s : Sim} {px py : ℕ} {h : Profile.Heap} {a : ProfArg} {u m : ℕ → ℕ → ℂ}
    (r : Ready s px py h a u m) :
    ∃ int g, intensity (s.propagate h a).1.imageField = some int ∧ s.imagePaddedGrid = .ok g ∧
      int.shape = .mat (s.dev.slm.Ny + 2 * py) (s.dev.slm.Nx + 2 * px) ∧
      ∀ k < s.dev.slm.Ny + 2 * py, ∀ l < s.dev.slm.Nx + 2 * px, int.get k l =
        ‖fraunhofer s.dev.slm (fun i j => u i j * m i j) (g.1.get k l) (g.2.get k l)‖ ^ 2 := by
  obtain ⟨-, img, g, h1, h2, h3, h4⟩ := C10_fraunhofer r
  refine ⟨img.map intensityPixel, g, by rw [h1]; rfl, h2, h3, fun k hk l hl => ?_⟩
  rw [← (h4 k hk l hl).1]
  exact intensityPixel_eq _

/-- **C10**, the other planes: the input field and the field behind the SLM are the given field and its
product with the modulation, inside a frame of zeros. -/
theorem C10_slm_planes {s : Sim} {px py : ℕ} {h : Profile.Heap} {a : ProfArg} {u m : ℕ → ℕ → ℂ}
    (r : Ready s px py h a u m) :
    ∃ inp out, (s.propagate h a).1.inputField = some inp ∧ (s.propagate h a).1.outputField = some out ∧
      inp.shape = .mat (s.dev.slm.Ny + 2 * py) (s.dev.slm.Nx + 2 * px) ∧ out.shape = inp.shape ∧
      (∀ i < s.dev.slm.Ny, ∀ j < s.dev.slm.Nx,
        inp.get (i + py) (j + px) = u i j ∧ out.get (i + py) (j + px) = u i j * m i j) ∧
      (∀ i j, i < py ∨ s.dev.slm.Ny + py ≤ i ∨ j < px ∨ s.dev.slm.Nx + px ≤ j →
        inp.get i j = 0 ∧ out.get i j = 0) := by
  rw [propagate_ready r]
  refine ⟨_, _, rfl, rfl, rfl, rfl, fun i hi j hj => ⟨?_, ?_⟩, fun i j hij => ⟨?_, ?_⟩⟩ <;>
    simp only [pad2]
  · rw [if_pos (by omega)]; simp
  · rw [if_pos (by omega)]; simp
  · rw [if_neg (by omega)]
  · rw [if_neg (by omega)]

/-- **C11.** Simulations of the same device and input with whatever paddings agree wherever their image
plane grids share a point. -/
theorem C11_padding_invariance {s s' : Sim} {px py px' py' : ℕ} {h h' : Profile.Heap} {a a' : ProfArg}
    {u m : ℕ → ℕ → ℂ} (r : Ready s px py h a u m) (r' : Ready s' px' py' h' a' u m)
    (hdev : s'.dev.slm = s.dev.slm) {g g' : Tensor ℝ × Tensor ℝ}
    (hg : s.imagePaddedGrid = .ok g) (hg' : s'.imagePaddedGrid = .ok g') :
    ∃ img img', (s.propagate h a).1.imageField = some img ∧
      (s'.propagate h' a').1.imageField = some img' ∧
      ∀ k < s.dev.slm.Ny + 2 * py, ∀ l < s.dev.slm.Nx + 2 * px,
      ∀ k' < s.dev.slm.Ny + 2 * py', ∀ l' < s.dev.slm.Nx + 2 * px',
        g.1.get k l = g'.1.get k' l' → g.2.get k l = g'.2.get k' l' →
          img.get k l = img'.get k' l' := by
  rw [propagate_ready r, propagate_ready r']
  refine ⟨_, _, rfl, rfl, fun k hk l hl k' hk' l' hl' hx hy => ?_⟩
  simp only
  rw [propagated_image_fieldAt r hg hk hl, propagated_image_fieldAt r' hg' (by rw [hdev]; exact hk')
    (by rw [hdev]; exact hl'), hx, hy, hdev]

/-- **C12.** `get_image_plane_power() == get_output_power()` after every propagation. -/
theorem C12_energy {s : Sim} {px py : ℕ} {h : Profile.Heap} {a : ProfArg} {u m : ℕ → ℕ → ℂ}
    (r : Ready s px py h a u m) :
    ∃ P, (s.propagate h a).1.outputPower = .ok P ∧ (s.propagate h a).1.imagePower = .ok P ∧
      P = slmPower s.dev.slm fun i j => u i j * m i j := by
  rw [propagate_ready r]
  exact ⟨_, (propagated_powers r).2.1, (propagated_powers r).2.2, rfl⟩

/-- **C13.** The reported powers are those of the unpadded fields, so the paddings do not matter. -/
theorem C13_padding_power {s s' : Sim} {px py px' py' : ℕ} {h h' : Profile.Heap} {a a' : ProfArg}
    {u m : ℕ → ℕ → ℂ} (r : Ready s px py h a u m) (r' : Ready s' px' py' h' a' u m)
    (hdev : s'.dev.slm = s.dev.slm) :
    (s.propagate h a).1.inputPower = .ok (slmPower s.dev.slm u) ∧
    (s.propagate h a).1.inputPower = (s'.propagate h' a').1.inputPower ∧
    (s.propagate h a).1.outputPower = (s'.propagate h' a').1.outputPower ∧
    (s.propagate h a).1.imagePower = (s'.propagate h' a').1.imagePower := by
  rw [propagate_ready r, propagate_ready r']
  obtain ⟨h1, h2, h3⟩ := propagated_powers r
  obtain ⟨h1', h2', h3'⟩ := propagated_powers r'
  rw [hdev] at h1' h2' h3'
  exact ⟨h1, h1.trans h1'.symm, h2.trans h2'.symm, h3.trans h3'.symm⟩

/-- The same simulation with the DMD in another state. -/
def withState (s : Sim) (d : DMD) (st : StateArr) : Sim := { s with dev := .dmd d st }

/-- **C14.** A boolean DMD state is passive; all-on passes everything, all-off nothing, and a state and
its complement share the input power. -/
theorem C14_passive {s : Sim} {px py : ℕ} {h : Profile.Heap} {a : ProfArg} {u m : ℕ → ℕ → ℂ}
    {d : DMD} {t : Tensor Bool} (hdev : s.dev = .dmd d (.bool t)) (r : Ready s px py h a u m) :
    ∃ Pin Pout Pcompl,
      (s.propagate h a).1.inputPower = .ok Pin ∧ (s.propagate h a).1.outputPower = .ok Pout ∧
      ((withState s d (.bool (t.map (!·)))).propagate h a).1.outputPower = .ok Pcompl ∧
      Pout ≤ Pin ∧ Pout + Pcompl = Pin ∧
      ((∀ i < d.slm.Ny, ∀ j < d.slm.Nx, t.get i j = true) → Pout = Pin) ∧
      ((∀ i < d.slm.Ny, ∀ j < d.slm.Nx, t.get i j = false) → Pout = 0) := by
  have hslm : s.dev.slm = d.slm := by rw [hdev]; rfl
  obtain ⟨tm, htm, hsh, -⟩ := r.modulation
  rw [hdev] at htm
  have htm : tm = t.map fun b => if b then 1 else 0 := (Except.ok.inj htm).symm
  rw [htm] at hsh
  have hsh : t.shape = .mat d.slm.Ny d.slm.Nx := by rw [← hslm]; exact hsh
  -- the modulation is the state
  have hmod : Modulation s.dev (fun i j => if t.get i j then 1 else 0) :=
    ⟨t.map fun b => if b then 1 else 0, by rw [hdev]; rfl, by rw [hslm]; exact hsh, fun _ _ _ _ => rfl⟩
  have hm := Modulation.unique r.modulation hmod
  rw [hslm] at hm
  have r' : Ready (withState s d (.bool (t.map (!·)))) px py h a u
      (fun i j => if t.get i j then 0 else 1) := by
    refine ⟨r.hpx, r.hpy, ?_, ?_, ?_, ?_, ?_, ?_⟩
    · show 0 < d.slm.Nx; rw [← hslm]; exact r.hNx
    · show 0 < d.slm.Ny; rw [← hslm]; exact r.hNy
    · show d.slm.wavelength * d.slm.focal ≠ 0; rw [← hslm]; exact r.hsc
    · show d.slm.ps ≠ 0; rw [← hslm]; exact r.hps
    · have := r.input
      unfold InputField at this ⊢
      rw [hslm] at this
      exact this
    · refine ⟨_, rfl, hsh, fun i _ j _ => ?_⟩
      simp only [Tensor.map]
      by_cases hb : t.get i j = true <;> simp [hb]
  rw [propagate_ready r, propagate_ready r']
  obtain ⟨h1, h2, -⟩ := propagated_powers r
  obtain ⟨-, h2', -⟩ := propagated_powers r'
  have hslm' : (withState s d (.bool (t.map (!·)))).dev.slm = d.slm := rfl
  rw [hslm] at h1 h2
  rw [hslm'] at h2'
  refine ⟨_, _, _, h1, h2, h2', ?_, ?_, ?_, ?_⟩
  · refine slmPower_le fun i hi j hj => ?_
    rw [hm i hi j hj, norm_mul]
    split_ifs <;> simp
  · unfold slmPower
    rw [← add_mul]
    congr 1
    rw [← Finset.sum_add_distrib]
    refine Finset.sum_congr rfl fun i hi => ?_
    rw [← Finset.sum_add_distrib]
    refine Finset.sum_congr rfl fun j hj => ?_
    simp only
    rw [hm i (mem_range.mp hi) j (mem_range.mp hj)]
    split_ifs <;> simp
  · intro hall
    refine slmPower_congr fun i hi j hj => ?_
    rw [hm i hi j hj, hall i hi j hj]
    simp
  · intro hall
    have : slmPower d.slm (fun i j => u i j * m i j) = slmPower d.slm (fun _ _ => 0) :=
      slmPower_congr fun i hi j hj => by rw [hm i hi j hj, hall i hi j hj]; simp
    rw [this]
    simp [slmPower]

/-- **C15.** An LCOS SLM showing a real phase is lossless, pixel by pixel. -/
theorem C15_lossless {s : Sim} {px py : ℕ} {h : Profile.Heap} {a : ProfArg} {u m : ℕ → ℕ → ℂ}
    {l : LCOS} (hdev : s.dev = .lcos l) (r : Ready s px py h a u m)
    (hreal : ∀ i < l.slm.Ny, ∀ j < l.slm.Nx, (l.state.arr.get i j).im = 0) :
    (∃ P, (s.propagate h a).1.inputPower = .ok P ∧ (s.propagate h a).1.outputPower = .ok P ∧
      (s.propagate h a).1.imagePower = .ok P) ∧
    ∃ inp out, intensity (s.propagate h a).1.inputField = some inp ∧
      intensity (s.propagate h a).1.outputField = some out ∧
      ∀ i j, out.get i j = inp.get i j := by
  have hslm : s.dev.slm = l.slm := by rw [hdev]; rfl
  obtain ⟨tm, htm, hsh, htv⟩ := r.modulation
  rw [hdev] at htm
  have htm : tm = LCOS.stateTensor l.state := (Except.ok.inj htm).symm
  have hnorm : ∀ i < s.dev.slm.Ny, ∀ j < s.dev.slm.Nx, ‖u i j * m i j‖ = ‖u i j‖ := by
    intro i hi j hj
    rw [← htv i hi j hj, htm, norm_mul]
    have h0 := hreal i (by rwa [← hslm]) j (by rwa [← hslm])
    simp only [LCOS.stateTensor, Tensor.map, Complex.norm_exp]
    simp [h0]
  rw [propagate_ready r]
  obtain ⟨h1, h2, h3⟩ := propagated_powers r
  have hP : slmPower s.dev.slm (fun i j => u i j * m i j) = slmPower s.dev.slm u :=
    slmPower_congr hnorm
  rw [hP] at h2 h3
  refine ⟨⟨_, h1, h2, h3⟩, _, _, rfl, rfl, fun i j => ?_⟩
  simp only [Tensor.map, intensityPixel_eq, pad2]
  split_ifs with hij
  · rw [hnorm _ (by omega) _ (by omega)]
  · rfl

/-- **C15.** Adding integer multiples of `2 pi` to pixels of an LCOS hologram changes nothing. -/
theorem C15_two_pi (s : Sim) (h : Profile.Heap) (a : ProfArg) (l : LCOS) (hdev : s.dev = .lcos l)
    (n : ℕ → ℕ → ℤ) :
    let l' : LCOS := { l with state := ⟨l.state.kind, ⟨l.state.arr.shape,
      fun i j => l.state.arr.get i j + 2 * Real.pi * n i j⟩⟩ }
    let s' : Sim := { s with dev := .lcos l' }
    (s'.propagate h a).2 = (s.propagate h a).2 ∧
    (s'.propagate h a).1.inputField = (s.propagate h a).1.inputField ∧
    (s'.propagate h a).1.outputField = (s.propagate h a).1.outputField ∧
    (s'.propagate h a).1.imageField = (s.propagate h a).1.imageField := by
  intro l' s'
  obtain ⟨dev, px, py, f1, f2, f3⟩ := s
  simp only at hdev
  subst hdev
  have hst : LCOS.stateTensor l'.state = LCOS.stateTensor l.state := by
    unfold LCOS.stateTensor Tensor.map
    congr 1
    funext i j
    simp only [l']
    rw [Complex.exp_eq_exp_iff_exists_int]
    exact ⟨-n i j, by push_cast; ring⟩
  have hslm : l'.slm = l.slm := rfl
  simp only [s', propagate, Device.slm, Device.stateTensor, hst, imageOf, hslm]
  have hN : ∀ f1 f2 f3, Sim.Nx ⟨.lcos l', px, py, f1, f2, f3⟩ = Sim.Nx ⟨.lcos l, px, py, f1, f2, f3⟩ :=
    fun _ _ _ => rfl
  have hN' : ∀ f1 f2 f3, Sim.Ny ⟨.lcos l', px, py, f1, f2, f3⟩ = Sim.Ny ⟨.lcos l, px, py, f1, f2, f3⟩ :=
    fun _ _ _ => rfl
  have hA : ∀ f1 f2 f3, Sim.fourierPixelArea ⟨.lcos l', px, py, f1, f2, f3⟩ =
      Sim.fourierPixelArea ⟨.lcos l, px, py, f1, f2, f3⟩ := fun _ _ _ => rfl
  simp only [hN, hN', hA]
  cases l.slm.profileToTensor h a true true with
  | error e => simp
  | ok inp =>
    simp only
    cases pad inp py px with
    | error e => simp
    | ok p =>
      simp only
      cases Tensor.map2 (fun a b => a * b) inp (LCOS.stateTensor l.state) with
      | error e => simp
      | ok o =>
        simp only
        cases pad o py px with
        | error e => simp
        | ok o =>
          simp only
          cases o.shape with
          | scalar => simp
          | mat M N =>
            by_cases h1 : M = 0 ∨ N = 0 <;> by_cases h2 : l.slm.scaling = 0 <;>
              simp only [h1, h2, if_true, if_false, and_self]

/-- **C16.** Superposition: for a fixed SLM state, all three fields are linear in the input. -/
theorem C16_superposition {s : Sim} {px py : ℕ} {h h' h'' : Profile.Heap} {a a' a'' : ProfArg}
    {u v w m : ℕ → ℕ → ℂ} (α β : ℂ)
    (r : Ready s px py h a u m) (r' : Ready s px py h' a' v m) (r'' : Ready s px py h'' a'' w m)
    (hw : ∀ i < s.dev.slm.Ny, ∀ j < s.dev.slm.Nx, w i j = α * u i j + β * v i j) :
    ∀ field ∈ [Sim.inputField, Sim.outputField, Sim.imageField],
      ∃ f f' f'', field (s.propagate h a).1 = some f ∧ field (s.propagate h' a').1 = some f' ∧
        field (s.propagate h'' a'').1 = some f'' ∧ f''.shape = f.shape ∧ f''.shape = f'.shape ∧
        ∀ k l, f''.get k l = α * f.get k l + β * f'.get k l := by
  rw [propagate_ready r, propagate_ready r', propagate_ready r'']
  have hin : pad2 s.dev.slm.Ny s.dev.slm.Nx py px w = fun i j =>
      α * pad2 s.dev.slm.Ny s.dev.slm.Nx py px u i j + β * pad2 s.dev.slm.Ny s.dev.slm.Nx py px v i j := by
    rw [pad2_congr hw, pad2_lin]
  have hout : pad2 s.dev.slm.Ny s.dev.slm.Nx py px (fun i j => w i j * m i j) = fun i j =>
      α * pad2 s.dev.slm.Ny s.dev.slm.Nx py px (fun i j => u i j * m i j) i j +
      β * pad2 s.dev.slm.Ny s.dev.slm.Nx py px (fun i j => v i j * m i j) i j := by
    rw [← pad2_lin]
    exact pad2_congr fun i hi j hj => by rw [hw i hi j hj]; ring
  intro field hf
  simp only [List.mem_cons, List.not_mem_nil, or_false] at hf
  rcases hf with rfl | rfl | rfl
  · exact ⟨_, _, _, rfl, rfl, rfl, rfl, rfl, fun k l => congrFun (congrFun hin k) l⟩
  · exact ⟨_, _, _, rfl, rfl, rfl, rfl, rfl, fun k l => congrFun (congrFun hout k) l⟩
  · refine ⟨_, _, _, rfl, rfl, rfl, rfl, rfl, fun k l => ?_⟩
    simp only
    rw [hout, centredIdft_lin]
    ring

/-! ## Concrete cases meeting the hypotheses -/

/-- A 4 x 2 DMD (period 4 pixels, angle 0) with pixel size 2, wavelength 3 and focal length 5. -/
def exDmd : DMD := ⟨⟨3, 5, 4, 2, 2⟩, 8, 0, false⟩

/-- A chequerboard state. -/
def exState : Tensor Bool := ⟨.mat 2 4, fun i j => decide ((i + j) % 2 = 0)⟩

/-- A simulation with paddings 3 and 1, and an input field that is not constant. -/
def exSim : Sim := ⟨.dmd exDmd (.bool exState), 3, 1, none, none, none⟩

/-- An input field that is not constant. -/
def exInput : ProfArg := .ndarray .cplx ⟨.mat 2 4, fun i j => i + j * I + 1⟩

theorem exReady (h : Profile.Heap) :
    Ready exSim 3 1 h exInput (fun i j => i + j * I + 1) (fun i j => if (i + j) % 2 = 0 then 1 else 0) := by
  refine ⟨rfl, rfl, by decide, by decide, ?_, ?_, ⟨_, rfl, rfl, fun _ _ _ _ => rfl⟩,
    ⟨_, rfl, rfl, fun i _ j _ => ?_⟩⟩
  · norm_num [exSim, Device.slm, exDmd]
  · norm_num [exSim, Device.slm, exDmd]
  · simp [exState, Tensor.map]

/-- The same with paddings 1 and 0 (for C11, C13), which share the axis point. -/
example (h : Profile.Heap) :
    Ready { exSim with px := 1, py := 0 } 1 0 h exInput (fun i j => i + j * I + 1)
      (fun i j => if (i + j) % 2 = 0 then 1 else 0) ∧
    ({ exSim with px := 1, py := 0 } : Sim).dev.slm = exSim.dev.slm :=
  ⟨⟨rfl, rfl, (exReady h).hNx, (exReady h).hNy, (exReady h).hsc, (exReady h).hps, (exReady h).input,
    (exReady h).modulation⟩, rfl⟩

/-- C14: the hypotheses hold for the chequerboard. -/
example (h : Profile.Heap) : exSim.dev = .dmd exDmd (.bool exState) ∧
    ∃ u m, Ready exSim 3 1 h exInput u m := ⟨rfl, _, _, exReady h⟩

/-- C15: an LCOS SLM with a non-trivial real phase. -/
example (h : Profile.Heap) :
    let l : LCOS := ⟨⟨3, 5, 4, 2, 2⟩, ⟨.real, ⟨.mat 2 4, fun i j => ((i + 2 * j : ℝ) : ℂ)⟩⟩⟩
    Ready ⟨.lcos l, 3, 1, none, none, none⟩ 3 1 h exInput (fun i j => i + j * I + 1)
      (fun i j => cexp (-I * ((i + 2 * j : ℝ) : ℂ))) ∧
    ∀ i < l.slm.Ny, ∀ j < l.slm.Nx, (l.state.arr.get i j).im = 0 := by
  refine ⟨⟨rfl, rfl, by decide, by decide, ?_, ?_, ⟨_, rfl, rfl, fun _ _ _ _ => rfl⟩,
    ⟨_, rfl, rfl, fun i _ j _ => rfl⟩⟩, fun i _ j _ => Complex.ofReal_im _⟩
  · norm_num [Device.slm]
  · norm_num [Device.slm]

/-- C16: a second input and the sum with coefficients 2 and i. -/
example (h : Profile.Heap) :
    Ready exSim 3 1 h (.ndarray .cplx ⟨.mat 2 4, fun i _ => i⟩) (fun i _ => i)
      (fun i j => if (i + j) % 2 = 0 then 1 else 0) ∧
    Ready exSim 3 1 h (.ndarray .cplx ⟨.mat 2 4, fun i j => 2 * (i + j * I + 1) + I * i⟩)
      (fun i j => 2 * (i + j * I + 1) + I * i)
      (fun i j => if (i + j) % 2 = 0 then 1 else 0) :=
  ⟨⟨rfl, rfl, (exReady h).hNx, (exReady h).hNy, (exReady h).hsc, (exReady h).hps,
    ⟨_, rfl, rfl, fun _ _ _ _ => rfl⟩, (exReady h).modulation⟩,
   ⟨rfl, rfl, (exReady h).hNx, (exReady h).hNy, (exReady h).hsc, (exReady h).hps,
    ⟨_, rfl, rfl, fun _ _ _ _ => rfl⟩, (exReady h).modulation⟩⟩

end PySLM2.Sim
