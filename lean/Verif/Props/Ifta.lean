import Verif.Lemmas.Ifta
import Verif.Props.Grating
import Verif.Props.ModeMatching

/-!
# C34 - C36: method `ifta`
-/

noncomputable section

open Complex Finset

namespace PySLM2.DMD

open Lib

/-- Well-formed keyword arguments for method `ifta` of `set_dmd_grating_state`: the input field `u` and an
array of the shape of the device holding the signal window `W`. -/
structure IftaKwargs (s : SLM) (kw : Kwargs) (u W : ℕ → ℕ → ℂ) : Prop where
  input : ∃ t, kw.inputProfile = some t ∧ t.Denotes s.Ny s.Nx u
  window : ∃ t, kw.signalWindow = some t ∧ t.shape = .mat s.Ny s.Nx ∧ ∀ i < s.Ny, ∀ j < s.Nx, t.get i j = W i j

/-- **C34.** `set_dmd_grating_state(..., method='ifta', N)` with at least one iteration yields a boolean state
of the shape of the device in which every mirror without light is off - whatever the amplitudes, phases,
grating constants and signal window. -/
theorem C34_ifta {d : DMD} {h : Profile.Heap} {amp phaseIn phaseOut : ProfArg} {A φin φout : ℕ → ℕ → ℝ}
    {kw : Kwargs} {u W : ℕ → ℕ → ℂ} (ga : GratingArgs d h amp phaseIn phaseOut A φin φout)
    (hk : IftaKwargs d.slm kw u W) (hNx : 0 < d.slm.Nx) (hNy : 0 < d.slm.Ny) (hN : 1 ≤ kw.N.getD 200)
    (draw : ℕ → ℕ → ℝ) :
    ∃ t : Tensor Bool, d.setDmdGratingState h amp phaseIn phaseOut "ifta" kw draw =
        ⟨.rebind (.bool t), .ok ()⟩ ∧ t.shape = .mat d.slm.Ny d.slm.Nx ∧
      ∀ i < d.slm.Ny, ∀ j < d.slm.Nx, u i j = 0 → t.get i j = false := by
  obtain ⟨ta, ti, tj, g1, g2, g3, g4⟩ := setGrating_of_grating ga
  obtain ⟨⟨t1, h1, h2⟩, ⟨t2, h3, h4, h5⟩⟩ := hk
  obtain ⟨t, h6, h7, h8, -, -⟩ := grating_ifta hNx hNy g1 g2 g3 draw h1 h2 h3 h4 h5
  refine ⟨t, ?_, h7, h8 hN⟩
  rw [g4, h6]

/-- **C34** for `calculate_dmd_state(..., method='ifta', signal_window, N)`: the same. -/
theorem C34_calculate {d : DMD} {h : Profile.Heap} {inp target : ProfArg} {window : Option ProfArg}
    {u T w W : ℕ → ℕ → ℂ} (m : Matching d h inp target window u T w) {kw : CalcKwargs} {sw : ProfArg}
    (hsw : kw.signalWindow = some sw) (hw : TargetArg d.slm h sw W) (hN : 1 ≤ kw.N.getD 200)
    (draw : ℕ → ℕ → ℝ) :
    ∃ t : Tensor Bool,
      (d.calculateDmdState h inp target "ifta" window kw draw).effect = .rebind (.bool t) ∧
      t.shape = .mat d.slm.Ny d.slm.Nx ∧ ∀ i < d.slm.Ny, ∀ j < d.slm.Nx, u i j = 0 → t.get i j = false := by
  obtain ⟨tin, amp, pin, pout, h1, h2, h3, h4, h5, h6⟩ := calcGrating_eq m "ifta" kw draw
  obtain ⟨tw, hw1, hw2, hw3⟩ := hw
  have h7 : d.forwardKwargs h tin "ifta" kw =
      .ok { r := kw.r, N := kw.N, s := kw.s, inputProfile := some tin, signalWindow := some tw } := by
    unfold forwardKwargs
    rw [if_pos rfl, hsw]
    simp only
    rw [hw1]
  obtain ⟨t, h8, h9, h10, -, -⟩ := grating_ifta m.hNx m.hNy h3 h4 h5 
    (kw := { r := kw.r, N := kw.N, s := kw.s, inputProfile := some tin, signalWindow := some tw }) draw rfl h2 rfl hw2 hw3
  rw [h7] at h6
  simp only at h6
  rw [h8] at h6
  rw [calculate_of_grating h6]
  exact ⟨t, rfl, h9, h10 hN⟩

/-- **C35.** With `N = 0`, or a signal window that is 1 everywhere, or one that is 0 everywhere, IFTA switches
an illuminated mirror on exactly if `s` times its ideal grating value exceeds 0.5. -/
theorem C35_degenerate {d : DMD} {h : Profile.Heap} {amp phaseIn phaseOut : ProfArg} {A φin φout : ℕ → ℕ → ℝ}
    {kw : Kwargs} {u W : ℕ → ℕ → ℂ} (ga : GratingArgs d h amp phaseIn phaseOut A φin φout)
    (hk : IftaKwargs d.slm kw u W) (hNx : 0 < d.slm.Nx) (hNy : 0 < d.slm.Ny) (hp : d.p ≠ 0)
    (hdeg : kw.N.getD 200 = 0 ∨ (∀ i < d.slm.Ny, ∀ j < d.slm.Nx, W i j = 1) ∨
      (∀ i < d.slm.Ny, ∀ j < d.slm.Nx, W i j = 0)) (draw : ℕ → ℕ → ℝ) :
    ∃ (t : Tensor Bool) (tid : Tensor XR),
      d.setDmdGratingState h amp phaseIn phaseOut "ifta" kw draw = ⟨.rebind (.bool t), .ok ()⟩ ∧
      d.setDmdGratingState h amp phaseIn phaseOut "ideal" kw draw = ⟨.rebind (.float tid), .ok ()⟩ ∧
      t.shape = .mat d.slm.Ny d.slm.Nx ∧
      ∀ i < d.slm.Ny, ∀ j < d.slm.Nx, u i j ≠ 0 →
        ∃ v, tid.get i j = .fin v ∧ (t.get i j = true ↔ 1 / 2 < kw.s.getD 1 * v) := by
  obtain ⟨ta, ti, tj, g1, g2, g3, g4⟩ := setGrating_of_grating ga
  obtain ⟨⟨t1, h1, h2⟩, ⟨t2, h3, h4, h5⟩⟩ := hk
  obtain ⟨t, h6, h7, -, h8, h9⟩ := grating_ifta hNx hNy g1 g2 g3 draw h1 h2 h3 h4 h5
  obtain ⟨⟨tid, i1, i2, i3⟩, -, -⟩ := grating_elementwise g1 g2 g3 kw draw
  have hfin : ∀ i < d.slm.Ny, ∀ j < d.slm.Nx, ∃ x, idealPixel d.p d.theta d.neg
      (d.pixelX (fun i j => .fin (A i j)) φin φout i j) = .fin x :=
    fun i _ j _ => ⟨_, idealPixel_eq d hp A φin φout i j⟩
  refine ⟨t, tid, by rw [g4, h6], by rw [g4, i1], h7, fun i hi j hj hu => ?_⟩
  obtain ⟨v, hv⟩ := hfin i hi j hj
  refine ⟨v, by rw [i3 i hi j hj, hv], ?_⟩
  have : t.get i j = true ↔ ((XR.fin (kw.s.getD 1)).mul (idealPixel d.p d.theta d.neg
      (d.pixelX (fun i j => .fin (A i j)) φin φout i j))).gtFin (1 / 2) := by
    rcases hdeg with hd | hd
    · exact h8 hd i hi j hj
    · exact h9 hd hfin i hi j hj hu
  rw [this, hv]
  exact Iff.rfl

/-- **C35**, hence with the default `s = 1`: the same mirrors as method `simple`, where there is light. -/
theorem C35_simple {d : DMD} {h : Profile.Heap} {amp phaseIn phaseOut : ProfArg} {A φin φout : ℕ → ℕ → ℝ}
    {kw : Kwargs} {u W : ℕ → ℕ → ℂ} (ga : GratingArgs d h amp phaseIn phaseOut A φin φout)
    (hk : IftaKwargs d.slm kw u W) (hNx : 0 < d.slm.Nx) (hNy : 0 < d.slm.Ny) (hp : d.p ≠ 0)
    (hdeg : kw.N.getD 200 = 0 ∨ (∀ i < d.slm.Ny, ∀ j < d.slm.Nx, W i j = 1) ∨
      (∀ i < d.slm.Ny, ∀ j < d.slm.Nx, W i j = 0)) (hs : kw.s.getD 1 = 1) (draw : ℕ → ℕ → ℝ) :
    ∃ t ts : Tensor Bool,
      d.setDmdGratingState h amp phaseIn phaseOut "ifta" kw draw = ⟨.rebind (.bool t), .ok ()⟩ ∧
      d.setDmdGratingState h amp phaseIn phaseOut "simple" kw draw = ⟨.rebind (.bool ts), .ok ()⟩ ∧
      ∀ i < d.slm.Ny, ∀ j < d.slm.Nx, u i j ≠ 0 → t.get i j = ts.get i j := by
  obtain ⟨t, tid, h1, h2, -, h3⟩ := C35_degenerate ga hk hNx hNy hp hdeg draw
  obtain ⟨ta, ti, tj, g1, g2, g3, g4⟩ := setGrating_of_grating ga
  obtain ⟨⟨tid', i1, i2, i3⟩, ⟨ts, j1, j2, j3⟩, -⟩ := grating_elementwise g1 g2 g3 kw draw
  refine ⟨t, ts, h1, by rw [g4, j1], fun i hi j hj hu => ?_⟩
  rw [g4, i1] at h2
  have e : tid' = tid := by
    injection h2 with h2 _
    injection h2 with h2
    injection h2
  obtain ⟨v, hv, hiff⟩ := h3 i hi j hj hu
  rw [hs, one_mul] at hiff
  rw [Bool.eq_iff_iff, hiff, j3 i hi j hj, ← i3 i hi j hj, e, hv]
  show _ ↔ (0.5 : ℝ) < v
  norm_num

/-- **C36**, one binarisation: for thresholds `t` in `[0, 1/2]` it is idempotent, keeps `[0, 1]`, rounds
values below `t` to 0 and above `1 - t` to 1, moves nothing else, and is absorbed by a later one with a larger
threshold; with the last threshold 1/2 the result is 0, 1 or 1/2. -/
theorem C36_binarize {t t' : ℝ} (h0 : 0 ≤ t) (ht : t ≤ t') (ht' : t' ≤ 1 / 2) (x : ℝ) :
    iftaBinarize (iftaBinarize x t) t = iftaBinarize x t ∧
    (0 ≤ x → x ≤ 1 → 0 ≤ iftaBinarize x t ∧ iftaBinarize x t ≤ 1) ∧
    (x < t → iftaBinarize x t = 0) ∧ (1 - t < x → iftaBinarize x t = 1) ∧
    (t ≤ x → x ≤ 1 - t → iftaBinarize x t = x) ∧
    iftaBinarize (iftaBinarize x t) t' = iftaBinarize x t' ∧
    (iftaBinarize x (1 / 2) = 0 ∨ iftaBinarize x (1 / 2) = 1 ∨ iftaBinarize x (1 / 2) = 1 / 2) := by
  have habs : ∀ s s' : ℝ, 0 ≤ s → s ≤ s' → s' ≤ 1 / 2 →
      iftaBinarize (iftaBinarize x s) s' = iftaBinarize x s' := by
    intro s s' a b c
    rcases bin_cases x s with ⟨h1, h2⟩ | ⟨h1, h2, h3⟩ | ⟨h1, h2, h3⟩
    · rw [h2]
      rcases bin_cases x s' with ⟨h4, h5⟩ | ⟨h4, h5, h6⟩ | ⟨h4, h5, h6⟩
      · rw [h5]
        rcases bin_cases 0 s' with ⟨_, h7⟩ | ⟨h7, h8, _⟩ | ⟨_, _, h7⟩
        · exact h7
        · linarith
        · exact h7
      · linarith
      · linarith
    · rw [h3]
      rcases bin_cases x s' with ⟨h4, h5⟩ | ⟨h4, h5, h6⟩ | ⟨h4, h5, h6⟩
      · linarith
      · rw [h6]
        rcases bin_cases 1 s' with ⟨h7, _⟩ | ⟨_, _, h7⟩ | ⟨_, _, h7⟩
        · linarith
        · exact h7
        · exact h7
      · linarith
    · rw [h3]
  refine ⟨habs t t h0 (le_refl _) (ht.trans ht'), fun a b => ?_, fun h => ?_, fun h => ?_, fun a b => ?_,
    habs t t' h0 ht ht', ?_⟩
  · rcases bin_cases x t with ⟨_, h2⟩ | ⟨_, _, h2⟩ | ⟨_, _, h2⟩ <;> rw [h2]
    · norm_num
    · norm_num
    · exact ⟨a, b⟩
  · rcases bin_cases x t with ⟨_, h2⟩ | ⟨h1, _, _⟩ | ⟨h1, _, _⟩
    · exact h2
    · linarith
    · linarith
  · rcases bin_cases x t with ⟨h2, _⟩ | ⟨_, _, h2⟩ | ⟨_, h1, _⟩
    · linarith
    · exact h2
    · linarith
  · rcases bin_cases x t with ⟨h2, _⟩ | ⟨_, h2, _⟩ | ⟨_, _, h1⟩
    · linarith
    · linarith
    · exact h1
  · rcases bin_cases x (1 / 2) with ⟨_, h2⟩ | ⟨_, _, h2⟩ | ⟨h1, h3, h2⟩
    · exact Or.inl h2
    · exact Or.inr (Or.inl h2)
    · right; right; rw [h2]; linarith

/-- **C36**, the schedule of `N` thresholds is positive, strictly increasing, and ends at exactly 1/2. -/
theorem C36_schedule {N : ℕ} (hN : 1 ≤ N) :
    (∀ n < N, 0 < iftaThreshold N n ∧ iftaThreshold N n ≤ 1 / 2) ∧
    (∀ n n', n < n' → iftaThreshold N n < iftaThreshold N n') ∧ iftaThreshold N (N - 1) = 1 / 2 := by
  have hN' : (0 : ℝ) < N := by exact_mod_cast hN
  refine ⟨fun n hn => ⟨by unfold iftaThreshold; positivity, iftaThreshold_le hn⟩, fun n n' h => ?_, ?_⟩
  · unfold iftaThreshold
    have : (n : ℝ) < n' := by exact_mod_cast h
    have h2 : (0 : ℝ) < 0.5 / N := by positivity
    nlinarith
  · unfold iftaThreshold
    rw [Nat.cast_sub hN]
    field_simp
    norm_num
    ring

/-- The hypotheses of C34 and C35 can be met: a window, an input field with a dark pixel. -/
example (h : Profile.Heap) : GratingArgs exGrating h
      (.ndarray .real ⟨.mat 2 4, fun i j => (((i + j) / 8 : ℝ) : ℂ)⟩) (.num (.real 0)) (.num (.real 1))
      (fun i j => ((i : ℝ) + j) / 8) (fun _ _ => 0) (fun _ _ => 1) ∧
    IftaKwargs exGrating.slm 
      { inputProfile := some ⟨.mat 2 4, fun i j => (i : ℂ) + j⟩, signalWindow := some ⟨.mat 2 4, fun i _ => (i : ℂ)⟩ } (fun i j => (i : ℂ) + j) (fun i _ => i) ∧
    IftaKwargs exGrating.slm 
      { inputProfile := some ⟨.mat 2 4, fun i j => (i : ℂ) + j⟩, signalWindow := some ⟨.mat 2 4, fun _ _ => 1⟩ } (fun i j => (i : ℂ) + j) (fun _ _ => 1) ∧
    0 < exGrating.slm.Nx ∧ 0 < exGrating.slm.Ny ∧ exGrating.p ≠ 0 :=
  ⟨exGratingArgs h, ⟨⟨_, rfl, Tensor.denotes_of_mat rfl fun _ _ _ _ => rfl⟩, _, rfl, rfl, fun _ _ _ _ => rfl⟩,
    ⟨⟨_, rfl, Tensor.denotes_of_mat rfl fun _ _ _ _ => rfl⟩, _, rfl, rfl, fun _ _ _ _ => rfl⟩, (by decide : 0 < 4),
    (by decide : 0 < 2), by norm_num [exGrating, DMD.new]⟩

/-- C34_calculate: a signal window array. -/
example (h : Profile.Heap) : Matching Sim.exDmd h (exArray fun i j => i + j * I) (exArray exSpot) none
      (fun i j => i + j * I) exSpot (fun _ _ => 1) ∧
    TargetArg Sim.exDmd.slm h (exArray fun i _ => i) (fun i _ => i) :=
  ⟨exMatching h _ _, _, rfl, rfl, fun _ _ _ _ => rfl⟩

end PySLM2.DMD
