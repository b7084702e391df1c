import Verif.Props.IftaMore
import Verif.Props.HologramSymmetry
import Verif.Props.RoundTrip

/-!
# C138: binary gratings and the signal window of method `ifta`
-/

noncomputable section

open Complex Finset

namespace PySLM2.DMD

open Lib
open LCOS (predicted predicted_eq backPropagated backPropagated_eq reflect reflect_lt reflect_ifftshift fftshift_reflect
  nidx nidx_lt nidx_nidx idft2_conj dft2_conj)

theorem backPropagated_add (s : SLM) (F G : ℕ → ℕ → ℂ) (i j : ℕ) :
    backPropagated s (fun k l => F k l + G k l) i j = backPropagated s F i j + backPropagated s G i j := by
  unfold backPropagated
  simp only [add_mul, Finset.sum_add_distrib]

theorem backPropagated_congr {s : SLM} {F G : ℕ → ℕ → ℂ} (h : ∀ k < s.Ny, ∀ l < s.Nx, F k l = G k l) (i j : ℕ) :
    backPropagated s F i j = backPropagated s G i j :=
  Finset.sum_congr rfl fun k hk => Finset.sum_congr rfl fun l hl => by
    rw [h k (mem_range.mp hk) l (mem_range.mp hl)]

theorem predicted_congr {s : SLM} {U V : ℕ → ℕ → ℂ} (h : ∀ i < s.Ny, ∀ j < s.Nx, U i j = V i j) (k l : ℕ) :
    predicted s U k l = predicted s V k l := by
  unfold predicted
  congr 1
  exact Finset.sum_congr rfl fun k hk => Finset.sum_congr rfl fun l hl => by
    rw [h k (mem_range.mp hk) l (mem_range.mp hl)]

theorem backPropagated_predicted {s : SLM} (U : ℕ → ℕ → ℂ) {i j : ℕ} (hi : i < s.Ny) (hj : j < s.Nx) :
    backPropagated s (predicted s U) i j = U i j := by
  rw [backPropagated_eq, dft2_congr (v := idft2 s.Ny s.Nx U) fun a ha b hb => ?_, dft2_idft2 U hi hj]
  unfold ifftshift2
  rw [predicted_eq _ (ifftshiftIdx_lt ha) (ifftshiftIdx_lt hb), fftshift_ifftshift ha, fftshift_ifftshift hb]

theorem predicted_sub (s : SLM) (U V : ℕ → ℕ → ℂ) (k l : ℕ) :
    predicted s (fun i j => U i j - V i j) k l = predicted s U k l - predicted s V k l := by
  unfold predicted
  simp only [sub_mul, Finset.sum_sub_distrib, mul_sub]

theorem predicted_smul (s : SLM) (c : ℂ) (U : ℕ → ℕ → ℂ) (k l : ℕ) :
    predicted s (fun i j => c * U i j) k l = c * predicted s U k l := by
  unfold predicted
  simp only [mul_assoc, ← Finset.mul_sum]
  ring

theorem backPropagated_smul (s : SLM) (c : ℂ) (F : ℕ → ℕ → ℂ) (i j : ℕ) :
    backPropagated s (fun k l => c * F k l) i j = c * backPropagated s F i j := by
  unfold backPropagated
  simp only [mul_assoc, ← Finset.mul_sum]

/-- The predicted image of a real field at opposite pixels. -/
theorem predicted_real {s : SLM} (y : ℕ → ℕ → ℝ) {k l : ℕ} (hk : k < s.Ny) (hl : l < s.Nx) :
    predicted s (fun i j => (y i j : ℂ)) (reflect s.Ny k) (reflect s.Nx l) =
      starRingEnd ℂ (predicted s (fun i j => (y i j : ℂ)) k l) := by
  rw [predicted_eq _ (reflect_lt hk) (reflect_lt hl), predicted_eq _ hk hl,
    idft2_conj (v := fun i j => (y i j : ℂ)) (fun i _ j _ => (conj_ofReal _).symm) (fftshiftIdx_lt (reflect_lt hk))
      (fftshiftIdx_lt (reflect_lt hl)), fftshift_reflect hk, fftshift_reflect hl]

/-- An image that changes into its negative conjugate when turned by 180 degrees belongs to an imaginary field. -/
theorem backPropagated_re_zero {s : SLM} {F : ℕ → ℕ → ℂ}
    (h : ∀ k < s.Ny, ∀ l < s.Nx, starRingEnd ℂ (F (reflect s.Ny k) (reflect s.Nx l)) = -F k l) (i j : ℕ) :
    (backPropagated s F i j).re = 0 := by
  have key : backPropagated s (fun k l => -1 * F k l) i j = starRingEnd ℂ (backPropagated s F i j) := by
    rw [backPropagated_eq, backPropagated_eq]
    refine dft2_conj (fun a ha b hb => ?_) i j
    have e : ∀ {n a : ℕ}, a < n → reflect n (ifftshiftIdx n a) = ifftshiftIdx n (nidx n a) := fun ha => by
      have := reflect_ifftshift (nidx_lt ha)
      rwa [nidx_nidx ha] at this
    unfold ifftshift2
    rw [← e ha, ← e hb, h _ (ifftshiftIdx_lt ha) _ (ifftshiftIdx_lt hb)]
    ring
  rw [backPropagated_smul] at key
  have := congrArg Complex.re key
  simp only [neg_mul, one_mul, neg_re, conj_re] at this
  linarith

/-- An iteration adds to the clipped hologram what is missing of the wanted image inside the signal window. -/
theorem IftaStep.value {s : SLM} {u W : ℕ → ℕ → ℂ} {g₀ : ℕ → ℕ → ℝ} {t : ℝ} {g g' : ℕ → ℕ → ℝ}
    (hs : IftaStep s u W g₀ t g g') {i j : ℕ} (hi : i < s.Ny) (hj : j < s.Nx) (hu : u i j ≠ 0) :
    g' i j = clip t (g i j) + (backPropagated s (fun k l => W k l *
      predicted s (fun i j => u i j * (g₀ i j - clip t (g i j) : ℝ)) k l) i j / u i j).re := by
  rw [(hs i hi j hj).2 hu, backPropagated_congr (G := fun k l => predicted s (fun i j => u i j * clip t (g i j)) k l +
    W k l * predicted s (fun i j => u i j * (g₀ i j - clip t (g i j) : ℝ)) k l) fun k _ l _ => ?_, backPropagated_add,
    backPropagated_predicted _ hi hj, add_div, mul_div_cancel_left₀ _ hu, add_re, ofReal_re]
  rw [predicted_congr (U := fun i j => u i j * (g₀ i j - clip t (g i j) : ℝ))
    (V := fun i j => u i j * g₀ i j - u i j * clip t (g i j)) fun i _ j _ => by push_cast; ring, predicted_sub]
  ring

theorem clip_zero {t : ℝ} (ht : t ≤ 1) : clip t 0 = 0 := by
  unfold clip
  split_ifs <;> linarith

theorem clip_one {t : ℝ} (ht : t ≤ 1) : clip t 1 = 1 := by
  unfold clip
  split_ifs <;> linarith

theorem threshold_le {n N : ℕ} (hn : n < N) : ((n : ℝ) + 1) / (2 * (N : ℕ)) ≤ 1 / 2 := by
  have h1 : ((n : ℝ) + 1) ≤ N := by exact_mod_cast hn
  have h2 : (0 : ℝ) < N := by exact_mod_cast (by omega : 0 < N)
  rw [div_le_div_iff₀ (by positivity) (by norm_num)]
  linarith

/-- **C138.** A hologram that is binary needs no correction: if `s` times the ideal grating is 0 or 1 at every illuminated
mirror, method `ifta` switches exactly the illuminated mirrors on where it is 1, for every number of iterations and
every signal window. -/
theorem C138_binary {d : DMD} {h : Profile.Heap} {amp phaseIn phaseOut : ProfArg} {A φin φout : ℕ → ℕ → ℝ}
    {kw : Kwargs} {u W : ℕ → ℕ → ℂ} (ga : GratingArgs d h amp phaseIn phaseOut A φin φout)
    (hk : IftaKwargs d.slm kw u W) (hNx : 0 < d.slm.Nx) (hNy : 0 < d.slm.Ny) (hp : d.p ≠ 0) (draw : ℕ → ℕ → ℝ)
    {tid : Tensor XR} (hid : d.setDmdGratingState h amp phaseIn phaseOut "ideal" kw draw = ⟨.rebind (.float tid), .ok ()⟩)
    (hbin : ∀ i < d.slm.Ny, ∀ j < d.slm.Nx, u i j ≠ 0 → ∃ v, tid.get i j = .fin v ∧
      (kw.s.getD 1 * v = 0 ∨ kw.s.getD 1 * v = 1)) :
    ∃ t : Tensor Bool, d.setDmdGratingState h amp phaseIn phaseOut "ifta" kw draw = ⟨.rebind (.bool t), .ok ()⟩ ∧
      t.shape = .mat d.slm.Ny d.slm.Nx ∧
      ∀ i < d.slm.Ny, ∀ j < d.slm.Nx, u i j ≠ 0 →
        ∃ v, tid.get i j = .fin v ∧ (t.get i j = true ↔ kw.s.getD 1 * v = 1) := by
  obtain ⟨t, tid', g, h1, h2, h3, h4, h5, h6⟩ := C87_ifta ga hk hNx hNy hp draw
  have e : tid' = tid := by
    rw [hid] at h2
    injection h2 with h2 _
    injection h2 with h2
    injection h2 with h2
    exact h2.symm
  subst e
  have hb : ∀ i < d.slm.Ny, ∀ j < d.slm.Nx, u i j ≠ 0 → g 0 i j = 0 ∨ g 0 i j = 1 := by
    intro i hi j hj hu
    obtain ⟨v, hv, hg⟩ := h4 i hi j hj
    obtain ⟨v', hv', hg'⟩ := hbin i hi j hj hu
    rw [hv] at hv'
    injection hv' with hv'
    subst hv'
    rwa [hg]
  have hfix : ∀ n ≤ kw.N.getD 200, ∀ i < d.slm.Ny, ∀ j < d.slm.Nx, u i j ≠ 0 → g n i j = g 0 i j := by
    intro n
    induction n with
    | zero => intro _ i _ j _ _; rfl
    | succ n ih =>
      intro hn i hi j hj hu
      have ih := ih (by omega)
      have ht := threshold_le (show n < kw.N.getD 200 by omega)
      have hc : ∀ i < d.slm.Ny, ∀ j < d.slm.Nx, u i j ≠ 0 →
          clip (((n : ℕ) + 1) / (2 * (kw.N.getD 200 : ℕ))) (g n i j) = g 0 i j := by
        intro i hi j hj hu
        rw [ih i hi j hj hu]
        rcases hb i hi j hj hu with hb | hb <;> rw [hb]
        · exact clip_zero (by linarith)
        · exact clip_one (by linarith)
      rw [(h5 n (by omega)).value hi hj hu, hc i hi j hj hu, backPropagated_congr (G := fun _ _ => 0) fun k _ l _ => ?_]
      · simp [backPropagated]
      · rw [predicted_congr (V := fun _ _ => 0) fun i hi j hj => ?_]
        · simp [predicted]
        · rcases eq_or_ne (u i j) 0 with h0 | h0
          · rw [h0, zero_mul]
          · rw [hc i hi j hj h0, sub_self, ofReal_zero, mul_zero]
  refine ⟨t, h1, h3, fun i hi j hj hu => ?_⟩
  obtain ⟨v, hv, hg⟩ := h4 i hi j hj
  refine ⟨v, hv, ?_⟩
  rw [h6 i hi j hj, hfix _ le_rfl i hi j hj hu, ← hg]
  rcases hb i hi j hj hu with hb | hb <;> rw [hb] <;> norm_num

/-- One iteration does not distinguish two signal windows with the same symmetric part if the phase of the input field
is the same at every mirror. -/
theorem IftaStep.window {s : SLM} {u W W' : ℕ → ℕ → ℂ} {c : ℂ} {ρ : ℕ → ℕ → ℝ}
    (hu : ∀ i < s.Ny, ∀ j < s.Nx, u i j = c * ρ i j)
    (hW : ∀ k < s.Ny, ∀ l < s.Nx, W' k l + starRingEnd ℂ (W' (reflect s.Ny k) (reflect s.Nx l)) =
      W k l + starRingEnd ℂ (W (reflect s.Ny k) (reflect s.Nx l)))
    {g₀ g₀' : ℕ → ℕ → ℝ} {t : ℝ} {g g' f f' : ℕ → ℕ → ℝ} (h₀ : ∀ i < s.Ny, ∀ j < s.Nx, g₀' i j = g₀ i j)
    (hg : ∀ i < s.Ny, ∀ j < s.Nx, f i j = g i j) (h1 : IftaStep s u W g₀ t g g') (h2 : IftaStep s u W' g₀' t f f') :
    ∀ i < s.Ny, ∀ j < s.Nx, f' i j = g' i j := by
  intro i hi j hj
  rcases eq_or_ne (u i j) 0 with h0 | h0
  · rw [(h1 i hi j hj).1 h0, (h2 i hi j hj).1 h0]
  have hc : c ≠ 0 := by
    rintro rfl
    exact h0 (by rw [hu i hi j hj, zero_mul])
  rw [h1.value hi hj h0, h2.value hi hj h0, hg i hi j hj]
  congr 1
  set y : ℕ → ℕ → ℝ := fun i j => ρ i j * (g₀ i j - clip t (g i j)) with hy
  have e1 : ∀ V : ℕ → ℕ → ℂ, ∀ z z' : ℕ → ℕ → ℝ, (∀ i < s.Ny, ∀ j < s.Nx, z i j = g₀ i j) →
      (∀ i < s.Ny, ∀ j < s.Nx, z' i j = g i j) →
      (backPropagated s (fun k l => V k l * predicted s (fun i j => u i j * (z i j - clip t (z' i j) : ℝ)) k l) i j /
        u i j).re = (backPropagated s (fun k l => V k l * predicted s (fun i j => (y i j : ℂ)) k l) i j).re / ρ i j := by
    intro V z z' hz hz'
    rw [backPropagated_congr (G := fun k l => c * (V k l * predicted s (fun i j => (y i j : ℂ)) k l)) fun k _ l _ => ?_,
      backPropagated_smul, hu i hi j hj, mul_div_mul_left _ _ hc, div_ofReal_re]
    rw [predicted_congr (V := fun i j => c * (y i j : ℂ)) fun i hi j hj => ?_, predicted_smul]
    · ring
    · rw [hu i hi j hj, hz i hi j hj, hz' i hi j hj, hy]
      push_cast
      ring
  rw [e1 W g₀ g (fun _ _ _ _ => rfl) (fun _ _ _ _ => rfl), e1 W' g₀' f h₀ hg]
  congr 1
  have e2 := backPropagated_re_zero (s := s)
    (F := fun k l => (W' k l - W k l) * predicted s (fun i j => (y i j : ℂ)) k l) (fun k hk l hl => by
      rw [map_mul, predicted_real y hk hl, conj_conj, map_sub]
      linear_combination (hW k hk l hl) * predicted s (fun i j => (y i j : ℂ)) k l) i j
  have e3 : backPropagated s (fun k l => W' k l * predicted s (fun i j => (y i j : ℂ)) k l) i j =
      backPropagated s (fun k l => W k l * predicted s (fun i j => (y i j : ℂ)) k l) i j +
      backPropagated s (fun k l => (W' k l - W k l) * predicted s (fun i j => (y i j : ℂ)) k l) i j := by
    rw [← backPropagated_add]
    exact backPropagated_congr (fun k _ l _ => by ring) i j
  rw [e3, add_re, e2, add_zero]

/-- **C138.** For an input field of one phase (in particular a real one) method `ifta` uses only the symmetric part of
the signal window: two windows `W` and `W'` whose sums with their own conjugate turned by 180 degrees about the origin of
the image plane agree give the same mirrors, for every `N` and `s`. -/
theorem C138_window {d : DMD} {h : Profile.Heap} {amp phaseIn phaseOut : ProfArg} {A φin φout : ℕ → ℕ → ℝ}
    {kw : Kwargs} {sw : Tensor ℂ} {u W W' : ℕ → ℕ → ℂ} (ga : GratingArgs d h amp phaseIn phaseOut A φin φout)
    (hk : IftaKwargs d.slm kw u W) (hk' : IftaKwargs d.slm { kw with signalWindow := some sw } u W')
    (hNx : 0 < d.slm.Nx) (hNy : 0 < d.slm.Ny) (hp : d.p ≠ 0)
    (hu : ∃ (c : ℂ) (ρ : ℕ → ℕ → ℝ), ∀ i < d.slm.Ny, ∀ j < d.slm.Nx, u i j = c * ρ i j)
    (hW : ∀ k < d.slm.Ny, ∀ l < d.slm.Nx, W' k l + starRingEnd ℂ (W' (reflect d.slm.Ny k) (reflect d.slm.Nx l)) =
      W k l + starRingEnd ℂ (W (reflect d.slm.Ny k) (reflect d.slm.Nx l))) (draw : ℕ → ℕ → ℝ) :
    ∃ t t' : Tensor Bool, d.setDmdGratingState h amp phaseIn phaseOut "ifta" kw draw = ⟨.rebind (.bool t), .ok ()⟩ ∧
      d.setDmdGratingState h amp phaseIn phaseOut "ifta" { kw with signalWindow := some sw } draw = ⟨.rebind (.bool t'), .ok ()⟩ ∧
      t.shape = .mat d.slm.Ny d.slm.Nx ∧ t'.shape = .mat d.slm.Ny d.slm.Nx ∧
      ∀ i < d.slm.Ny, ∀ j < d.slm.Nx, t'.get i j = t.get i j := by
  obtain ⟨c, ρ, hu⟩ := hu
  obtain ⟨t, tid, g, h1, h2, h3, h4, h5, h6⟩ := C87_ifta ga hk hNx hNy hp draw
  obtain ⟨t', tid', g', h1', h2', h3', h4', h5', h6'⟩ := C87_ifta ga hk' hNx hNy hp draw
  have e : tid' = tid := by
    have e : d.setDmdGratingState h amp phaseIn phaseOut "ideal" { kw with signalWindow := some sw } draw =
        d.setDmdGratingState h amp phaseIn phaseOut "ideal" kw draw := by
      obtain ⟨ta, ti, tj, g1, g2, g3, g4⟩ := setGrating_of_grating ga
      rw [g4, g4]
      rfl
    rw [e, h2] at h2'
    injection h2' with h2' _
    injection h2' with h2'
    injection h2' with h2'
    exact h2'.symm
  subst e
  have h0 : ∀ i < d.slm.Ny, ∀ j < d.slm.Nx, g' 0 i j = g 0 i j := by
    intro i hi j hj
    obtain ⟨v, hv, hg⟩ := h4 i hi j hj
    obtain ⟨v', hv', hg'⟩ := h4' i hi j hj
    rw [hv] at hv'
    injection hv' with hv'
    rw [hg, hg', hv']
  have hall : ∀ n ≤ kw.N.getD 200, ∀ i < d.slm.Ny, ∀ j < d.slm.Nx, g' n i j = g n i j := by
    intro n
    induction n with
    | zero => intro _; exact h0
    | succ n ih =>
      intro hn
      exact IftaStep.window hu hW h0 (ih (by omega)) (h5 n (by omega)) (h5' n (by simp only; omega))
  refine ⟨t, t', h1, h1', h3, h3', fun i hi j hj => ?_⟩
  rw [Bool.eq_iff_iff, h6 i hi j hj, h6' i hi j hj]
  simp only
  rw [hall _ le_rfl i hi j hj]

/-- **C138**, hence the first order around which the signal window lies does not matter: for an input field of one phase
the real window turned by 180 degrees gives the same mirrors, and so does half of each. -/
theorem C138_orders {d : DMD} {h : Profile.Heap} {amp phaseIn phaseOut : ProfArg} {A φin φout : ℕ → ℕ → ℝ}
    {kw : Kwargs} {sw : Tensor ℂ} {u W' : ℕ → ℕ → ℂ} {w : ℕ → ℕ → ℝ} (ga : GratingArgs d h amp phaseIn phaseOut A φin φout)
    (hk : IftaKwargs d.slm kw u (fun k l => (w k l : ℂ))) (hk' : IftaKwargs d.slm { kw with signalWindow := some sw } u W')
    (hNx : 0 < d.slm.Nx) (hNy : 0 < d.slm.Ny) (hp : d.p ≠ 0)
    (hu : ∃ (c : ℂ) (ρ : ℕ → ℕ → ℝ), ∀ i < d.slm.Ny, ∀ j < d.slm.Nx, u i j = c * ρ i j)
    (hW : (∀ k < d.slm.Ny, ∀ l < d.slm.Nx, W' k l = (w (reflect d.slm.Ny k) (reflect d.slm.Nx l) : ℂ)) ∨
      (∀ k < d.slm.Ny, ∀ l < d.slm.Nx, W' k l = (((w k l + w (reflect d.slm.Ny k) (reflect d.slm.Nx l)) / 2 : ℝ) : ℂ)))
    (draw : ℕ → ℕ → ℝ) :
    ∃ t t' : Tensor Bool, d.setDmdGratingState h amp phaseIn phaseOut "ifta" kw draw = ⟨.rebind (.bool t), .ok ()⟩ ∧
      d.setDmdGratingState h amp phaseIn phaseOut "ifta" { kw with signalWindow := some sw } draw = ⟨.rebind (.bool t'), .ok ()⟩ ∧
      t.shape = .mat d.slm.Ny d.slm.Nx ∧ t'.shape = .mat d.slm.Ny d.slm.Nx ∧
      ∀ i < d.slm.Ny, ∀ j < d.slm.Nx, t'.get i j = t.get i j := by
  refine C138_window ga hk hk' hNx hNy hp hu (fun k hk l hl => ?_) draw
  rcases hW with hW | hW
  · rw [hW k hk l hl, hW _ (reflect_lt hk) _ (reflect_lt hl), LCOS.reflect_reflect hk, LCOS.reflect_reflect hl, conj_ofReal,
      conj_ofReal, add_comm]
  · rw [hW k hk l hl, hW _ (reflect_lt hk) _ (reflect_lt hl), LCOS.reflect_reflect hk, LCOS.reflect_reflect hl, conj_ofReal,
      conj_ofReal]
    push_cast
    ring

theorem same_symm {a b : StateArr} (h : a.Same b) : b.Same a := by
  have key : ∀ {α : Type} {x y : Tensor α}, x.Same y → y.Same x := by
    rintro α ⟨sx, gx⟩ ⟨sy, gy⟩ ⟨e, v⟩
    simp only at e
    subst e
    refine ⟨rfl, ?_⟩
    cases sx
    · exact v.symm
    · exact fun i hi j hj => (v i hi j hj).symm
  cases a <;> cases b <;> simp only [StateArr.Same] at h ⊢
  all_goals exact key h

/-- **C138** for `calculate_dmd_state(..., method='ifta', signal_window)`: for an input field of one phase, two signal windows with
the same symmetric part give the same hologram and the same efficiency. -/
theorem C138_calculate {d : DMD} {h : Profile.Heap} {inp target : ProfArg} {window : Option ProfArg}
    {u T w W W' : ℕ → ℕ → ℂ} (m : Matching d h inp target window u T w)
    (hsc : 0 < d.slm.wavelength * d.slm.focal) (hps : d.slm.ps ≠ 0) (hp : d.p ≠ 0)
    (hlit : ∀ i < d.slm.Ny, ∀ j < d.slm.Nx, spectrum d.slm T i j * w i j ≠ 0 → u i j ≠ 0)
    (hne : ∃ i < d.slm.Ny, ∃ j < d.slm.Nx, spectrum d.slm T i j * w i j ≠ 0)
    (hu : ∃ (c : ℂ) (ρ : ℕ → ℕ → ℝ), ∀ i < d.slm.Ny, ∀ j < d.slm.Nx, u i j = c * ρ i j)
    (kw : CalcKwargs) {sw sw' : ProfArg} (hw : TargetArg d.slm h sw W) (hw' : TargetArg d.slm h sw' W')
    (hW : ∀ k < d.slm.Ny, ∀ l < d.slm.Nx, W' k l + starRingEnd ℂ (W' (reflect d.slm.Ny k) (reflect d.slm.Nx l)) =
      W k l + starRingEnd ℂ (W (reflect d.slm.Ny k) (reflect d.slm.Nx l))) (draw : ℕ → ℕ → ℝ) :
    ∃ st st' eta, d.calculateDmdState h inp target "ifta" window { kw with signalWindow := some sw } draw = ⟨.rebind st, .ok (.fin eta)⟩ ∧
      d.calculateDmdState h inp target "ifta" window { kw with signalWindow := some sw' } draw = ⟨.rebind st', .ok (.fin eta)⟩ ∧
      st'.Same st := by
  obtain ⟨A, eta, -, -, -, hall⟩ := C25_normalised m hsc hps hlit hne
  obtain ⟨tin, i1, i2⟩ := m.input
  obtain ⟨tw, w1, w2, w3⟩ := hw
  obtain ⟨tw', w1', w2', w3'⟩ := hw'
  have ga := gratingArgs_realArray d h A (fun i j => arg (u i j)) (fun i j => arg (spectrum d.slm T i j * w i j))
  set k1 : Kwargs := { r := kw.r, N := kw.N, s := kw.s, inputProfile := some tin, signalWindow := some tw } with hk1
  obtain ⟨t, t', s1, s2, s3, s4, s5⟩ := C138_window (kw := k1) (sw := tw') (u := u) (W := W) (W' := W') ga
    ⟨⟨tin, rfl, i2⟩, tw, rfl, w2, w3⟩ ⟨⟨tin, rfl, i2⟩, tw', rfl, w2', w3'⟩ m.hNx m.hNy hp hu hW draw
  have f1 : Forwarded d h inp "ifta" { kw with signalWindow := some sw } k1 :=
    ⟨rfl, rfl, rfl, fun _ => ⟨sw, tw, tin, rfl, w1, rfl, i1, rfl⟩⟩
  have f2 : Forwarded d h inp "ifta" { kw with signalWindow := some sw' } { k1 with signalWindow := some tw' } :=
    ⟨rfl, rfl, rfl, fun _ => ⟨sw', tw', tin, rfl, w1', rfl, i1, rfl⟩⟩
  rcases hall "ifta" _ _ draw f1 with ⟨st, st1, c1, c2, c3⟩ | ⟨e, -, c2⟩
  · rcases hall "ifta" _ _ draw f2 with ⟨st', st2, c1', c2', c3'⟩ | ⟨e, -, c2'⟩
    · rw [s1] at c2
      rw [s2] at c2'
      have e1 : st1 = .bool t := by injection c2 with c2; injection c2 with c2; exact c2.symm
      have e2 : st2 = .bool t' := by injection c2' with c2'; injection c2' with c2'; exact c2'.symm
      subst e1 e2
      refine ⟨st, st', eta, c1, c1', ?_⟩
      have e3 : StateArr.Same (.bool t') (.bool t) := ⟨s4.trans s3.symm, by rw [s4]; exact s5⟩
      exact same_trans c3' (same_trans e3 (same_symm c3))
    · rw [s2] at c2'
      injection c2' with c2'
      cases c2'
  · rw [s1] at c2
    injection c2 with c2
    cases c2

/-! ## The hypotheses can be met -/

/-- C138_binary: amplitudes 0 and 1, the phase of the carrier itself. -/
example (h : Profile.Heap) (draw : ℕ → ℕ → ℝ) : ∃ (amp phaseOut : ProfArg) (A φout : ℕ → ℕ → ℝ) (kw : Kwargs) (u W : ℕ → ℕ → ℂ) (tid : Tensor XR),
    GratingArgs exGrating h amp (realArray exGrating.slm fun _ _ => 0) phaseOut A (fun _ _ => 0) φout ∧
    IftaKwargs exGrating.slm kw u W ∧ kw.N = some 3 ∧ (∀ i j, W i j = if j = 1 then 1 else 0) ∧
    exGrating.setDmdGratingState h amp (realArray exGrating.slm fun _ _ => 0) phaseOut "ideal" kw draw = ⟨.rebind (.float tid), .ok ()⟩ ∧
    (∀ i < 2, ∀ j < 4, u i j ≠ 0 → ∃ v, tid.get i j = .fin v ∧ (kw.s.getD 1 * v = 0 ∨ kw.s.getD 1 * v = 1)) ∧
    tid.get 0 0 = .fin 1 ∧ tid.get 0 1 = .fin 0 := by
  let φ : ℕ → ℕ → ℝ := exGrating.detuning (fun _ _ => 0) (fun _ _ => 0)
  let A : ℕ → ℕ → ℝ := fun _ j => if j = 0 then 1 else 0
  let kw : Kwargs := { N := some 3, inputProfile := some ⟨.mat 2 4, fun i j => (i : ℂ) + j⟩, signalWindow := some ⟨.mat 2 4, fun _ l => if l = 1 then 1 else 0⟩ }
  have ga := gratingArgs_realArray exGrating h A (fun _ _ => 0) φ
  have hp : exGrating.p ≠ 0 := by norm_num [exGrating, DMD.new]
  have hz : ∀ i j, exGrating.detuning (fun _ _ => 0) φ i j = 0 := fun i j => by
    simp [φ, detuning, exGrating, DMD.new]
  obtain ⟨ta, ti, tj, g1, g2, g3, g4⟩ := setGrating_of_grating ga
  obtain ⟨⟨tid, i1, i2, i3⟩, -, -⟩ := grating_elementwise g1 g2 g3 kw draw
  have hv : ∀ i < 2, ∀ j < 4, tid.get i j = .fin (A i j) := fun i hi j hj => by
    rw [i3 i hi j hj]
    refine (idealPixel_eq exGrating hp A (fun _ _ => 0) φ i j).trans ?_
    rw [hz, Real.cos_zero]
    norm_num
  refine ⟨_, _, A, φ, kw, _, _, tid, ga, ⟨⟨_, rfl, Tensor.denotes_of_mat rfl fun _ _ _ _ => rfl⟩, _, rfl, rfl, fun _ _ _ _ => rfl⟩, rfl,
    fun _ _ => rfl, by rw [g4, i1], fun i hi j hj _ => ⟨_, hv i hi j hj, ?_⟩, by simp [hv 0 (by decide) 0 (by decide), A],
    by simp [hv 0 (by decide) 1 (by decide), A]⟩
  by_cases h0 : j = 0 <;> simp [A, kw, h0]

/-- C138_window, C138_orders: a window around column 1 of the image plane and one around column 3. -/
example (h : Profile.Heap) : GratingArgs exGrating h
      (.ndarray .real ⟨.mat 2 4, fun i j => (((i + j) / 8 : ℝ) : ℂ)⟩) (.num (.real 0)) (.num (.real 1))
      (fun i j => ((i : ℝ) + j) / 8) (fun _ _ => 0) (fun _ _ => 1) ∧
    (∃ (kw : Kwargs) (sw : Tensor ℂ), kw.N = some 3 ∧
      IftaKwargs exGrating.slm kw (fun i j => (i : ℂ) + j) (fun _ l => ((if l = 1 then 1 else 0 : ℝ) : ℂ)) ∧
      IftaKwargs exGrating.slm { kw with signalWindow := some sw } (fun i j => (i : ℂ) + j) (fun _ l => if l = 3 then 1 else 0)) ∧
    (∃ (c : ℂ) (ρ : ℕ → ℕ → ℝ), ∀ i < exGrating.slm.Ny, ∀ j < exGrating.slm.Nx, (i : ℂ) + j = c * ρ i j) ∧
    ∀ k < exGrating.slm.Ny, ∀ l < exGrating.slm.Nx, (if l = 3 then 1 else 0 : ℂ) =
      ((if reflect exGrating.slm.Nx l = 1 then 1 else 0 : ℝ) : ℂ) := by
  refine ⟨exGratingArgs h, ⟨{ N := some 3, inputProfile := some ⟨.mat 2 4, fun i j => (i : ℂ) + j⟩, signalWindow := some ⟨.mat 2 4, fun _ l => ((if l = 1 then 1 else 0 : ℝ) : ℂ)⟩ }, ⟨.mat 2 4, fun _ l => if l = 3 then 1 else 0⟩, rfl, ?_, ?_⟩, ?_, ?_⟩
  · exact ⟨⟨_, rfl, Tensor.denotes_of_mat rfl fun _ _ _ _ => rfl⟩, _, rfl, rfl, fun _ _ _ _ => rfl⟩
  · exact ⟨⟨_, rfl, Tensor.denotes_of_mat rfl fun _ _ _ _ => rfl⟩, _, rfl, rfl, fun _ _ _ _ => rfl⟩
  · exact ⟨1, fun i j => i + j, fun i _ j _ => by push_cast; ring⟩
  · intro k _ l hl
    change l < 4 at hl
    show _ = ((if reflect 4 l = 1 then 1 else 0 : ℝ) : ℂ)
    interval_cases l <;> simp [reflect]

end PySLM2.DMD
