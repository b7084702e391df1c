import Verif.Lemmas.Ranks
import Verif.Lemmas.Simulation

/-!
# C145: array arguments of any rank
-/

noncomputable section

namespace PySLM2.Ranks

open Spec Classical Lib

/-- **C145.** What the model calls broadcasting: the result is the smallest shape that both operands fit, and there is one exactly if there is a
shape that both fit. -/
theorem C145_broadcast (a b : Dims) :
    (∀ c, bcast a b = some c ↔ Least [a, b] c) ∧ (bcast a b = none ↔ ¬∃ c, Fits a c ∧ Fits b c) := by
  refine ⟨fun c => bcast_iff, ?_⟩
  constructor
  · rintro h ⟨c, h1, h2⟩
    obtain ⟨c', hc, -⟩ := bcast_of_fits h1 h2
    rw [h] at hc
    cases hc
  · intro h
    rcases e : bcast a b with _ | c
    · rfl
    · exact (h ⟨c, bcast_fits e⟩).elim

theorem grating_ok {s : SLM} {amp pin pout g : Dims} {method : String} {inp win : Option Dims}
    (h : grating s amp pin pout method inp win = .ok g) : Least [amp, pin, pout, grid s, grid s] g := by
  unfold grating at h
  split_ifs at h with h1 h2
  · split at h
    · rename_i g' hg
      obtain rfl := Except.ok.inj h
      exact bcastAll_iff.mp hg
    · cases h
  · split at h
    · split at h
      · rename_i g' hg
        split_ifs at h
        obtain rfl := Except.ok.inj h
        exact bcastAll_iff.mp hg
      · cases h
    · cases h

theorem calculate_ok {s : SLM} {inp target g : Dims} {method : String} {window sw : Option Dims}
    (h : calculate s inp target method window sw = .ok g) : Least (inp :: target :: window.toList ++ [grid s]) g := by
  unfold calculate at h
  split at h
  · cases h
  · rename_i amp pin pout hap
    have hg : Least [amp, pin, pout, grid s, grid s] g := by
      split_ifs at h
      · split at h
        · cases h
        · exact grating_ok h
      · exact grating_ok h
    unfold calcAmpPhase at hap
    split_ifs at hap
    split at hap
    · cases hap
    · rename_i fp hfp
      split at hap
      · cases hap
      · rename_i ratio hr
        obtain ⟨rfl, rfl, rfl⟩ : ratio = amp ∧ inp = pin ∧ fp = pout := by simpa using hap
        obtain ⟨hr1, hr2⟩ := bcast_iff.mp hr
        have hfp' : Least (target :: window.toList) fp := by
          rcases window with _ | w
          · obtain rfl := Option.some.inj (show some target = some fp from hfp)
            exact ⟨by simp [Fits.refl], fun c hc => hc _ (by simp)⟩
          · exact bcast_iff.mp hfp
        refine ⟨fun a ha => ?_, fun c hc => hg.2 c fun a ha => ?_⟩
        · simp only [List.cons_append, List.mem_cons, List.mem_append, List.not_mem_nil, or_false] at ha
          rcases ha with rfl | rfl | ha | rfl
          · exact hg.1 _ (by simp)
          · exact (hfp'.1 _ (by simp)).trans (hg.1 fp (by simp))
          · exact (hfp'.1 _ (by simp [ha])).trans (hg.1 fp (by simp))
          · exact hg.1 _ (by simp)
        · have hi : Fits inp c := hc _ (by simp)
          have hf : Fits fp c := hfp'.2 c fun q hq => hc q (by simp at hq ⊢; tauto)
          simp only [List.mem_cons, List.not_mem_nil, or_false] at ha
          rcases ha with rfl | rfl | rfl | rfl | rfl
          · exact hr2 c (by simp [hi, hf])
          · exact hi
          · exact hf
          · exact hc _ (by simp)
          · exact hc _ (by simp)

/-- **C145**, whole-array updates: after a call that replaces the array, `dmd_state` has the smallest shape that all array arguments and the grid
fit.  So it has the shape of the device exactly if every array argument fits the grid. -/
theorem C145_replace (s : SLM) (cur : Dims) (c : Call) (hc : Replaces c) {g : Dims} (h : call s cur c = .ok g) :
    Least (args c ++ [grid s]) g ∧ (g = grid s ↔ ∀ a ∈ args c, Fits a (grid s)) := by
  have key : Least (args c ++ [grid s]) g := by
    cases c with
    | off =>
      obtain rfl := Except.ok.inj (show Except.ok (grid s) = Except.ok g from h)
      exact ⟨by simp [args, Fits.refl], fun c hc => hc _ (by simp)⟩
    | on =>
      obtain rfl := Except.ok.inj (show Except.ok (grid s) = Except.ok g from h)
      exact ⟨by simp [args, Fits.refl], fun c hc => hc _ (by simp)⟩
    | setGrating amp pin pout method inp window =>
      obtain ⟨h1, h2⟩ := grating_ok h
      exact ⟨fun a ha => h1 a (by simp [args] at ha ⊢; tauto), fun c hc => h2 c fun a ha => hc a (by simp [args] at ha ⊢; tauto)⟩
    | patch => exact hc.elim
    | calculate inp target method window sw => exact calculate_ok h
  refine ⟨key, ?_, fun hall => ?_⟩
  · rintro rfl a ha
    exact key.1 a (by simp [ha])
  · refine (key.2 _ fun a ha => ?_).antisymm (key.1 _ (by simp))
    rcases List.mem_append.mp ha with ha | ha
    · exact hall a ha
    · rw [List.mem_singleton.mp ha]
      exact Fits.refl _

/-- **C145**, the other calls: `circular_patch` and calls that raise do not change the shape of `dmd_state`. -/
theorem C145_keep (s : SLM) (cur : Dims) (c : Call) (h : ¬Replaces c ∨ ∃ e, call s cur c = .error e) :
    run s cur [c] = cur := by
  show (match call s cur c with | .ok g => g | .error _ => cur) = cur
  rcases e : call s cur c with err | g
  · rfl
  · rcases h with h | ⟨err, herr⟩
    · cases c with
      | patch k amp pin pout method inp window =>
        simp only [call] at e
        split at e
        · cases e
        · unfold assign at e
          split at e
          · cases e
          · split at e
            · cases e
            · split_ifs at e
              exact (Except.ok.inj e).symm
      | _ => exact (h trivial).elim
    · rw [e] at herr
      cases herr

/-- **C145**, patches: on a `dmd_state` of the shape of the device, `circular_patch` succeeds only if all its array arguments fit that shape; a stack
of patterns is never patched into a single one. -/
theorem C145_patch (s : SLM) {k : ℕ} {amp pin pout : Dims} {method : String} {inp window : Option Dims} {g : Dims}
    (h : call s (grid s) (.patch k amp pin pout method inp window) = .ok g) :
    g = grid s ∧ ∀ a ∈ [amp, pin, pout], Fits a (grid s) := by
  simp only [call] at h
  rcases hg : grating s amp pin pout method inp window with e | new
  · rw [hg] at h
    exact absurd h (by simp)
  rw [hg] at h
  simp only [assign] at h
  have hcur : masked s (grid s) = .ok [] := by simp [masked, grid]
  rw [hcur] at h
  rcases hm : masked s new with e | b
  · rw [hm] at h
    exact absurd h (by simp)
  rw [hm] at h
  simp only at h
  split_ifs at h with hb
  refine ⟨(Except.ok.inj h).symm, ?_⟩
  have hlen := (bcast_fits hb).1.1
  have hb0 : b = [] := by
    simp at hlen
    exact hlen
  subst hb0
  have hnew : new = grid s := by
    unfold masked at hm
    split at hm
    · rename_i m n rest hrev
      split_ifs at hm with hc
      have hrest : rest = [] := by simpa using Except.ok.inj hm
      rw [hrest, hc.1, hc.2] at hrev
      have := congrArg List.reverse hrev
      rw [List.reverse_reverse] at this
      rw [this]
      rfl
    · exact absurd hm (by simp)
  intro a ha
  have := (grating_ok hg).1 a (by simp at ha ⊢; tauto)
  rwa [hnew] at this

theorem run_append (s : SLM) (cur : Dims) (cs ds : List Call) : run s cur (cs ++ ds) = run s (run s cur cs) ds := by
  induction cs generalizing cur with
  | nil => rfl
  | cons c cs ih => exact ih _

/-- **C145**, histories: whatever arrays are passed, the grid of the device always fits the shape of `dmd_state`; for a device with more than one
row and column this means that its last two axes have the lengths `Ny` and `Nx`.  If all arrays passed fit the grid, `dmd_state` has exactly the
shape of the device. -/
theorem C145_history (s : SLM) (cs : List Call) :
    Fits (grid s) (run s (grid s) cs) ∧
    (s.Nx ≠ 1 → s.Ny ≠ 1 → ∃ rest, run s (grid s) cs = s.Nx :: s.Ny :: rest) ∧
    ((∀ c ∈ cs, ∀ a ∈ args c, Fits a (grid s)) → run s (grid s) cs = grid s) := by
  have h1 : Fits (grid s) (run s (grid s) cs) := by
    induction cs using List.reverseRecOn with
    | nil => exact Fits.refl _
    | append_singleton cs c ih =>
      rw [run_append]
      by_cases hk : ¬Replaces c ∨ ∃ e, call s (run s (grid s) cs) c = .error e
      · rw [C145_keep _ _ _ hk]
        exact ih
      · push Not at hk
        rcases e : call s (run s (grid s) cs) c with err | g
        · exact (hk.2 err e).elim
        · have := (C145_replace s _ c hk.1 e).1.1 (grid s) (by simp)
          show Fits (grid s) (match call s (run s (grid s) cs) c with | .ok g => g | .error _ => _)
          rwa [e]
  refine ⟨h1, fun hx hy => ?_, fun hall => ?_⟩
  · rcases hr : run s (grid s) cs with _ | ⟨a, _ | ⟨b, rest⟩⟩
    · rw [hr] at h1
      exact absurd h1 not_fits_nil
    · rw [hr] at h1
      exact absurd (fits_cons.mp h1).2 not_fits_nil
    · rw [hr] at h1
      have h2 := fits_cons.mp h1
      have h3 := fits_cons.mp h2.2
      refine ⟨rest, ?_⟩
      rw [h2.1.resolve_left hx, h3.1.resolve_left hy]
  · clear h1
    induction cs using List.reverseRecOn with
    | nil => rfl
    | append_singleton cs c ih =>
      rw [run_append, ih fun c' hc' => hall c' (by simp [hc'])]
      by_cases hk : ¬Replaces c ∨ ∃ e, call s (grid s) c = .error e
      · exact C145_keep _ _ _ hk
      · push Not at hk
        rcases e : call s (grid s) c with err | g
        · exact (hk.2 err e).elim
        · have := (C145_replace s _ c hk.1 e).2.mpr (hall c (by simp))
          show (match call s (grid s) c with | .ok g => g | .error _ => _) = _
          rw [e]
          exact this

/-- **C145**: a stack of `k > 1` arrays of the shape of the device is accepted as an amplitude, and `dmd_state` becomes a stack of `k` patterns. -/
theorem C145_stack (s : SLM) (cur : Dims) {k : ℕ} (hk : k ≠ 1) {method : String}
    (hm : method = "ideal" ∨ method = "simple" ∨ method = "random") :
    run s cur [.setGrating [s.Nx, s.Ny, k] [] [] method none none] = [s.Nx, s.Ny, k] ∧
    run s cur [.setGrating [s.Nx, s.Ny, k] [] [] method none none] ≠ grid s := by
  have h : call s cur (.setGrating [s.Nx, s.Ny, k] [] [] method none none) = .ok [s.Nx, s.Ny, k] := by
    simp only [call, grating, if_pos hm]
    have : bcastAll [[s.Nx, s.Ny, k], [], [], grid s, grid s] = some [s.Nx, s.Ny, k] := by
      refine bcastAll_iff.mpr ⟨?_, fun c hc => hc _ (by simp)⟩
      have := Fits.refl [s.Nx, s.Ny, k]
      have hg : Fits (grid s) [s.Nx, s.Ny, k] := by
        unfold grid
        rw [fits_cons, fits_cons]
        exact ⟨.inr rfl, .inr rfl, fits_nil _⟩
      simp [this, hg, fits_nil]
    rw [this]
  have e : run s cur [.setGrating [s.Nx, s.Ny, k] [] [] method none none] = [s.Nx, s.Ny, k] := by
    show (match call s cur _ with | .ok g => g | .error _ => cur) = _
    rw [h]
  refine ⟨e, ?_⟩
  rw [e]
  simp [grid]

/-- **C145**, LCOS: the hologram has the shape of the input, whatever the shape of the device, and the target and the signal window must fit
it. -/
theorem C145_hologram {inp target g : Dims} {method : String} {steps : ℕ} {window : Option Dims}
    (h : hologram inp target method steps window = .ok g) :
    g = inp ∧ 2 ≤ inp.length ∧ Fits target inp ∧ (method = "mraf" → ∃ w, window = some w ∧ Fits w inp) := by
  unfold hologram at h
  simp only at h
  split_ifs at h with h1 h2 h3 h4
  · obtain rfl := Except.ok.inj h
    push Not at h2
    refine ⟨rfl, h2.2.1, bcast_eq_right.mp (h2.2.2.2 _ (by simp)), fun hm => ?_⟩
    rw [h1] at hm
    exact absurd hm (by decide)
  · split at h
    · cases h
    · rename_i w
      split_ifs at h with h4
      obtain rfl := Except.ok.inj h
      push Not at h4
      exact ⟨rfl, h4.2.1, bcast_eq_right.mp (h4.2.2.2 _ (by simp)), fun _ => ⟨w, rfl, bcast_eq_right.mp (h4.2.2.2 _ (by simp))⟩⟩

theorem pad_ok {px py : ℕ} {a b : Dims} (h : pad px py a = .ok b) : ∃ n m, a = [n, m] ∧ b = [n + 2 * px, m + 2 * py] := by
  unfold pad at h
  split at h
  · rename_i n m
    exact ⟨n, m, rfl, (Except.ok.inj h).symm⟩
  · cases h

theorem propagate_ok {px py : ℕ} {f f' : Fields} {inp state : Dims} (h : propagate px py f inp state = (f', .ok ())) :
    ∃ n m o, inp = [n, m] ∧ bcast inp state = some o ∧ f'.input = some [n + 2 * px, m + 2 * py] ∧
      (∃ n' m', o = [n', m'] ∧ f'.output = some [n' + 2 * px, m' + 2 * py]) ∧ f'.image = f'.output := by
  unfold propagate at h
  split at h
  · cases h
  · rename_i i hi
    obtain ⟨n, m, rfl, rfl⟩ := pad_ok hi
    simp only at h
    split at h
    · cases h
    · rename_i o ho
      split at h
      · cases h
      · rename_i o' ho'
        obtain ⟨n', m', rfl, rfl⟩ := pad_ok ho'
        split_ifs at h
        · cases (Prod.mk.inj h).2
        obtain ⟨rfl, -⟩ := Prod.mk.inj h
        exact ⟨n, m, _, rfl, ho, rfl, ⟨n', m', rfl, rfl⟩, rfl⟩

/-- **C145**, simulation: `propagate_to_image` returns normally only for an input of rank 2 and a state of rank at most 2.  On a DMD with more than
one row and column, after any history of calls, all fields that a successful propagation leaves have the padded shape, except that the input field
is a single row or column (plus the padding) if the input is; if `dmd_state` has not the shape of the device, every propagation raises. -/
theorem C145_propagate (s : SLM) (hx : s.Nx ≠ 1) (hy : s.Ny ≠ 1) (cs : List Call) (px py : ℕ) (f f' : Fields) (inp : Dims) :
    (propagate px py f inp (run s (grid s) cs) = (f', .ok ()) →
      run s (grid s) cs = grid s ∧
      (∃ n m, inp = [n, m] ∧ (n = 1 ∨ n = s.Nx) ∧ (m = 1 ∨ m = s.Ny) ∧ f'.input = some [n + 2 * px, m + 2 * py]) ∧
      f'.output = some [s.Nx + 2 * px, s.Ny + 2 * py] ∧ f'.image = some [s.Nx + 2 * px, s.Ny + 2 * py]) ∧
    (run s (grid s) cs ≠ grid s → ∃ e, (propagate px py f inp (run s (grid s) cs)).2 = .error e) := by
  constructor
  · intro h
    obtain ⟨n, m, o, rfl, hb, hin, hout, himg⟩ := propagate_ok h
    obtain ⟨rest, hr⟩ := (C145_history s cs).2.1 hx hy
    obtain ⟨n', m', rfl, hout⟩ := hout
    rw [hr] at hb
    obtain ⟨h1, h2⟩ := bcast_fits hb
    obtain ⟨h3, h4⟩ := fits_cons.mp h2
    obtain ⟨h5, h6⟩ := fits_cons.mp h4
    obtain rfl : rest = [] := by
      cases rest with
      | nil => rfl
      | cons => exact absurd h6 not_fits_nil
    obtain rfl := h3.resolve_left hx
    obtain rfl := h5.resolve_left hy
    obtain ⟨h7, h8⟩ := fits_cons.mp h1
    exact ⟨hr, ⟨n, m, rfl, h7, (fits_cons.mp h8).1, hin⟩, hout, himg.trans hout⟩
  · intro hne
    rcases e : propagate px py f inp (run s (grid s) cs) with ⟨f'', err | u⟩
    · exact ⟨err, rfl⟩
    · exfalso
      obtain ⟨n, m, o, rfl, hb, hin, hout, himg⟩ := propagate_ok e
      obtain ⟨rest, hr⟩ := (C145_history s cs).2.1 hx hy
      obtain ⟨n', m', rfl, -⟩ := hout
      rw [hr] at hb
      have h6 := (fits_cons.mp (fits_cons.mp (bcast_fits hb).2).2).2
      cases rest with
      | nil => exact hne hr
      | cons => exact absurd h6 not_fits_nil

/-! ## Agreement with the model for scalars and matrices -/

theorem dims_eq_nil (a : Shape) : dims a = [] ↔ a = .scalar := by cases a <;> simp [dims]

theorem gratingShape_mat {s : SLM} {amp : Tensor XR} {pin pout : Tensor ℝ} {g : Shape}
    (h : gratingShape amp pin pout s.fourierGrid.1 s.fourierGrid.2 = some g) : ∃ M N, g = .mat M N := by
  cases g with
  | mat M N => exact ⟨M, N, rfl⟩
  | scalar =>
    exfalso
    have h1 := dims_bcastAll [amp.shape, pin.shape, pout.shape, s.fourierGrid.1.shape, s.fourierGrid.2.shape]
    unfold gratingShape at h
    rw [h] at h1
    have := (bcastAll_iff.mp h1).1 (dims s.fourierGrid.1.shape) (by simp)
    exact not_fits_nil this

/-- **C145**: for scalars and matrices the shapes of this model are those of the model of the values. -/
theorem C145_agree_grating (d : DMD) (h : Profile.Heap) {amp pin pout : ProfArg} {A P Q : Tensor ℝ}
    (hA : d.slm.profileToReal h amp true = .ok A) (hP : d.slm.profileToReal h pin true = .ok P)
    (hQ : d.slm.profileToReal h pout true = .ok Q) (method : String) (kw : Kwargs) (draw : ℕ → ℕ → ℝ) :
    (d.gratingOfArgs h amp pin pout method kw draw).map (fun g => dims g.shape) =
      grating d.slm (dims A.shape) (dims P.shape) (dims Q.shape) method (kw.inputProfile.map fun t => dims t.shape)
        (kw.signalWindow.map fun t => dims t.shape) := by
  unfold DMD.gratingOfArgs
  rw [hA]
  simp only
  rw [hP]
  simp only
  rw [hQ]
  simp only
  exact agree_grating d (A.map XR.fin) P Q method kw draw
where
  agree_grating (d : DMD) (A : Tensor XR) (P Q : Tensor ℝ) (method : String) (kw : Kwargs) (draw : ℕ → ℕ → ℝ) :
      (d.grating A P Q method kw draw).map (fun g => dims g.shape) =
        grating d.slm (dims A.shape) (dims P.shape) (dims Q.shape) method (kw.inputProfile.map fun t => dims t.shape)
          (kw.signalWindow.map fun t => dims t.shape) := by
    have hb := dims_bcastAll [A.shape, P.shape, Q.shape, d.slm.fourierGrid.1.shape, d.slm.fourierGrid.2.shape]
    change Ranks.bcastAll [dims A.shape, dims P.shape, dims Q.shape, grid d.slm, grid d.slm] = _ at hb
    unfold DMD.grating calculateDmdGrating grating
    simp only
    by_cases h1 : method = "ideal"
    · subst h1
      rw [if_pos rfl, if_pos (.inl rfl), hb]
      unfold gratingShape
      rcases PySLM2.bcastAll _ with _ | g <;> rfl
    by_cases h2 : method = "simple"
    · subst h2
      rw [if_neg (by decide), if_pos rfl, if_pos (.inr (.inl rfl)), hb]
      unfold gratingShape
      rcases PySLM2.bcastAll _ with _ | g <;> rfl
    by_cases h3 : method = "random"
    · subst h3
      rw [if_neg (by decide), if_neg (by decide), if_pos rfl, if_pos (.inr (.inr rfl)), hb]
      unfold gratingShape
      rcases PySLM2.bcastAll _ with _ | g <;> rfl
    rw [if_neg h1, if_neg h2, if_neg h3, if_neg (by tauto : ¬(method = "ideal" ∨ method = "simple" ∨ method = "random"))]
    by_cases h4 : method = "ifta"
    · rw [if_pos h4, if_pos h4]
      unfold gratingIfta
      rcases kw.inputProfile with _ | inp
      · rfl
      rcases kw.signalWindow with _ | win
      · rfl
      simp only [Option.map_some]
      rw [hb]
      rcases e : gratingShape A P Q d.slm.fourierGrid.1 d.slm.fourierGrid.2 with _ | g
      · unfold gratingShape at e
        rw [e]
        rfl
      · obtain ⟨M, N, rfl⟩ := gratingShape_mat e
        unfold gratingShape at e
        rw [e]
        simp only [Option.map_some]
        have hc : (M = 0 ∨ N = 0 ∨ win.shape = .scalar ∨ PySLM2.bcast inp.shape (.mat M N) ≠ some (.mat M N) ∨
            PySLM2.bcast win.shape (.mat M N) ≠ some (.mat M N)) ↔
            (0 ∈ (dims (.mat M N)).take 2 ∨ dims win.shape = [] ∨ bcast (dims inp.shape) (dims (.mat M N)) ≠ some (dims (.mat M N)) ∨
              bcast (dims win.shape) (dims (.mat M N)) ≠ some (dims (.mat M N))) := by
          rw [dims_eq_nil, Ne, Ne, Ne, Ne, dims_bcast_eq, dims_bcast_eq]
          have : 0 ∈ (dims (.mat M N)).take 2 ↔ M = 0 ∨ N = 0 := by
            simp [dims]
            omega
          rw [this, or_assoc]
        by_cases hcond : M = 0 ∨ N = 0 ∨ win.shape = .scalar ∨ PySLM2.bcast inp.shape (.mat M N) ≠ some (.mat M N) ∨
            PySLM2.bcast win.shape (.mat M N) ≠ some (.mat M N)
        · rw [if_pos hcond, if_pos (hc.mp hcond)]
          rfl
        · rw [if_neg hcond, if_neg fun h => hcond (hc.mpr h)]
          split_ifs <;> rfl
    · rw [if_neg h4, if_neg h4]
      rfl

theorem agree_calculate (d : DMD) {h : Profile.Heap} {inp target : ProfArg} {window : Option ProfArg} {I T : Tensor ℂ} {W S : Option (Tensor ℂ)}
    (hI : d.slm.profileToTensor h inp true true = .ok I) (hT : d.slm.profileToTensor h target false true = .ok T)
    (hW : d.windowTensor h window = .ok W) (kw : DMD.CalcKwargs)
    (hS : match kw.signalWindow, S with
      | none, none => True
      | some a, some t => d.slm.profileToTensor h a false true = .ok t
      | _, _ => False) (method : String) (draw : ℕ → ℕ → ℝ) :
    (d.calcGrating h inp target method window kw draw).map (fun g => dims g.1.shape) =
      calculate d.slm (dims I.shape) (dims T.shape) method (W.map fun t => dims t.shape) (S.map fun t => dims t.shape) := by
  unfold DMD.calcGrating
  rw [hI]
  simp only
  rw [hT]
  simp only
  rw [hW]
  simp only
  have hap : (DMD.calcAmpPhase I T W).map (fun ap => (dims ap.ampScaled.shape, dims ap.phaseIn.shape, dims ap.phaseOut.shape)) =
      calcAmpPhase (dims I.shape) (dims T.shape) (W.map fun t => dims t.shape) := by
    unfold DMD.calcAmpPhase calcAmpPhase
    rcases hTs : T.shape with _ | ⟨M, N⟩
    · simp [dims, Except.map]
    · simp only
      have hc : (M = 0 ∨ N = 0) ↔ ((dims (.mat M N)).length < 2 ∨ 0 ∈ (dims (.mat M N)).take 2) := by
        simp [dims]
        omega
      by_cases h0 : M = 0 ∨ N = 0
      · rw [if_pos h0, if_pos (hc.mp h0)]
        rfl
      · rw [if_neg h0, if_neg fun h => h0 (hc.mpr h)]
        rcases W with _ | w
        · simp only [DMD.applyWindow, Option.map_none, Tensor.map2]
          rw [dims_bcast]
          rcases hr : PySLM2.bcast (.mat M N) I.shape with _ | ⟨_ | ⟨M', N'⟩⟩
          · rfl
          · have h1 := dims_bcast (.mat M N) I.shape
            rw [hr] at h1
            exact absurd (bcast_fits h1).1 not_fits_nil
          · rfl
        · simp only [DMD.applyWindow, Option.map_some, Tensor.map2]
          rw [dims_bcast]
          rcases hw : PySLM2.bcast (.mat M N) w.shape with _ | fp
          · rfl
          · simp only [Option.map_some]
            rw [dims_bcast]
            rcases hr : PySLM2.bcast fp I.shape with _ | ⟨_ | ⟨M', N'⟩⟩
            · rfl
            · have h1 := dims_bcast (.mat M N) w.shape
              have h2 := dims_bcast fp I.shape
              rw [hw] at h1
              rw [hr] at h2
              exact absurd ((bcast_fits h1).1.trans (bcast_fits h2).1) not_fits_nil
            · rfl
  unfold calculate
  rw [← hap]
  rcases DMD.calcAmpPhase I T W with e | ap
  · rfl
  · simp only [Except.map]
    unfold DMD.forwardKwargs
    by_cases hm : method = "ifta"
    · rw [if_pos hm, if_pos hm]
      rcases hk : kw.signalWindow with _ | a <;> rcases S with _ | t <;> rw [hk] at hS
      · rfl
      · exact hS.elim
      · exact hS.elim
      · simp only at hS ⊢
        rw [hS]
        simp only [Option.map_some]
        have := C145_agree_grating.agree_grating d ap.ampScaled ap.phaseIn ap.phaseOut method
          { r := kw.r, N := kw.N, s := kw.s, inputProfile := some I, signalWindow := some t } draw
        simp only [Option.map_some] at this
        rw [← this]
        rcases d.grating ap.ampScaled ap.phaseIn ap.phaseOut method _ draw with e | g <;> rfl
    · rw [if_neg hm, if_neg hm]
      simp only
      have := C145_agree_grating.agree_grating d ap.ampScaled ap.phaseIn ap.phaseOut method
        { r := kw.r, N := kw.N, s := kw.s } draw
      simp only [Option.map_none] at this
      rw [← this]
      rcases d.grating ap.ampScaled ap.phaseIn ap.phaseOut method _ draw with e | g <;> rfl

theorem agree_masked (s : SLM) (a : Shape) : masked s (dims a) = if a = .mat s.Ny s.Nx then .ok [] else .error .indexError := by
  rcases a with _ | ⟨M, N⟩
  · rfl
  · simp [masked, dims]

/-- **C145**: for scalars, matrices and profiles, `dmd_state` has after every history of calls the shape that this model gives. -/
theorem C145_agree (d : DMD) {cs : List DMD.Call} {ds : List Call} (h : List.Forall₂ (Abstracts d) cs ds) (cur : StateArr) :
    dims (d.runCalls cur cs).shape = run d.slm (dims cur.shape) ds := by
  induction h generalizing cur with
  | nil => rfl
  | @cons c e cs ds hc _ ih =>
    show dims (d.runCalls ((d.call cur c).state cur) cs).shape = run d.slm (match call d.slm (dims cur.shape) e with | .ok g => g | .error _ => _) ds
    rw [ih]
    congr 1
    cases hc with
    | off => rfl
    | on => rfl
    | setGrating hA hP hQ method kw draw =>
      simp only [DMD.call, DMD.setDmdGratingState, call]
      rw [← C145_agree_grating d _ hA hP hQ method kw draw]
      rcases d.gratingOfArgs _ _ _ _ method kw draw with e | g <;> rfl
    | patch hA hP hQ i j dia k method kw draw =>
      simp only [DMD.call, DMD.circularPatch, call]
      rw [← C145_agree_grating d _ hA hP hQ method kw draw]
      rcases d.gratingOfArgs _ _ _ _ method kw draw with e | g
      · rfl
      · simp only [Except.map]
        unfold assign
        rw [agree_masked, agree_masked]
        by_cases h1 : g.shape = .mat d.slm.Ny d.slm.Nx
        · by_cases h2 : cur.shape = .mat d.slm.Ny d.slm.Nx
          · rw [if_pos ⟨h1, h2⟩, if_pos h1, if_pos h2]
            simp only
            rw [if_pos (bcast_eq_right.mpr (Fits.refl _))]
            show dims (DMD.assignMasked _ cur g).shape = _
            cases cur <;> cases g <;> rfl
          · rw [if_neg fun h => h2 h.2, if_pos h1, if_neg h2]
            rfl
        · rw [if_neg fun h => h1 h.1, if_neg h1]
          rfl
    | calculate hI hT hW kw hS method draw =>
      simp only [DMD.call, DMD.calculateDmdState, call]
      rw [← agree_calculate d hI hT hW kw hS method draw]
      rcases d.calcGrating _ _ _ method _ kw draw with e | g <;> rfl

/-- **C145**: the same for holograms. -/
theorem C145_agree_hologram (inp : Tensor ℂ) (target : Tensor ℝ) (method : String) (kw : HoloKwargs) (u : ℕ → ℕ → ℝ) :
    (calculateLcosSlmHologram inp target method kw u).map (fun t => dims t.shape) =
      hologram (dims inp.shape) (dims target.shape) method (kw.N.getD 200) (kw.signalWindow.map fun t => dims t.shape) := by
  have hb : ∀ (t : Shape) (M N : ℕ), (PySLM2.bcast t (.mat M N) ≠ some (.mat M N)) =
      (bcast (dims t) (dims (.mat M N)) ≠ some (dims (.mat M N))) := fun t M N => by rw [Ne, Ne, dims_bcast_eq]
  unfold calculateLcosSlmHologram hologram
  simp only
  by_cases h1 : method = "gs"
  · rw [if_pos h1, if_pos h1]
    unfold hologramGs ifftshift
    rcases ht : target.shape with _ | ⟨M', N'⟩
    · simp [dims, Except.map]
    · rcases hi : inp.shape with _ | ⟨M, N⟩
      · simp [dims, Except.map]
      · simp only
        have hc : (kw.N.getD 200 ≠ 0 ∧ (M = 0 ∨ N = 0) ∨ PySLM2.bcast (.mat M' N') (.mat M N) ≠ some (.mat M N)) ↔
            ([] ∈ [dims (.mat M' N')] ∨ (dims (.mat M N)).length < 2 ∨ kw.N.getD 200 ≠ 0 ∧ 0 ∈ (dims (.mat M N)).take 2 ∨
              ∃ a ∈ [dims (.mat M' N')], bcast a (dims (.mat M N)) ≠ some (dims (.mat M N))) := by
          rw [hb]
          have : 0 ∈ (dims (.mat M N)).take 2 ↔ M = 0 ∨ N = 0 := by
            simp [dims]
            omega
          rw [this]
          simp [dims]
        by_cases h0 : kw.N.getD 200 ≠ 0 ∧ (M = 0 ∨ N = 0) ∨ PySLM2.bcast (.mat M' N') (.mat M N) ≠ some (.mat M N)
        · rw [if_pos h0, if_pos (hc.mp h0)]
          rfl
        · rw [if_neg h0, if_neg fun h => h0 (hc.mpr h)]
          rfl
  rw [if_neg h1, if_neg h1]
  by_cases h2 : method = "mraf"
  · rw [if_pos h2, if_pos h2]
    unfold hologramMraf ifftshift
    rcases ht : target.shape with _ | ⟨M', N'⟩
    · rcases kw.signalWindow with _ | w <;> simp [dims, Except.map]
    · rcases kw.signalWindow with _ | w
      · rfl
      · rcases hw : w.shape with _ | ⟨M'', N''⟩
        · simp only [hw, Option.map_some]
          simp [dims, Except.map, hw]
        · rcases hi : inp.shape with _ | ⟨M, N⟩
          · simp [dims, Except.map, hw]
          · simp only [Option.map_some, hw]
            have hc : (kw.N.getD 200 ≠ 0 ∧ (M = 0 ∨ N = 0) ∨ PySLM2.bcast (.mat M' N') (.mat M N) ≠ some (.mat M N) ∨
                PySLM2.bcast (.mat M'' N'') (.mat M N) ≠ some (.mat M N)) ↔
                ([] ∈ [dims (.mat M' N'), dims (.mat M'' N'')] ∨ (dims (.mat M N)).length < 2 ∨
                  kw.N.getD 200 ≠ 0 ∧ 0 ∈ (dims (.mat M N)).take 2 ∨
                  ∃ a ∈ [dims (.mat M' N'), dims (.mat M'' N'')], bcast a (dims (.mat M N)) ≠ some (dims (.mat M N))) := by
              rw [hb, hb]
              have : 0 ∈ (dims (.mat M N)).take 2 ↔ M = 0 ∨ N = 0 := by
                simp [dims]
                omega
              rw [this]
              simp [dims]
            by_cases h0 : kw.N.getD 200 ≠ 0 ∧ (M = 0 ∨ N = 0) ∨ PySLM2.bcast (.mat M' N') (.mat M N) ≠ some (.mat M N) ∨
                PySLM2.bcast (.mat M'' N'') (.mat M N) ≠ some (.mat M N)
            · rw [if_pos h0, if_pos (hc.mp h0)]
              rfl
            · rw [if_neg h0, if_neg fun h => h0 (hc.mpr h)]
              rfl
  · rw [if_neg h2, if_neg h2]
    rfl

/-- The shapes of the fields of a simulation. -/
def fieldsOf (s : Sim) : Fields :=
  ⟨s.inputField.map fun t => dims t.shape, s.outputField.map fun t => dims t.shape, s.imageField.map fun t => dims t.shape⟩

theorem agree_pad (t : Tensor ℂ) (px py : ℕ) : (Sim.pad t py px).map (fun p => dims p.shape) = pad px py (dims t.shape) := by
  unfold Sim.pad pad
  rcases t.shape with _ | ⟨M, N⟩
  · rfl
  · simp only
    rw [if_neg (by omega)]
    rfl

/-- **C145**: the same for simulations. -/
theorem C145_agree_propagate (s : Sim) {px py : ℕ} (hpx : s.px = px) (hpy : s.py = py) (hsc : s.dev.slm.scaling ≠ 0) {h : Profile.Heap}
    {input : ProfArg} {inp st : Tensor ℂ} (hi : s.dev.slm.profileToTensor h input true true = .ok inp) (hst : s.dev.stateTensor = .ok st) :
    propagate px py (fieldsOf s) (dims inp.shape) (dims st.shape) = (fieldsOf (s.propagate h input).1, (s.propagate h input).2) := by
  unfold propagate Sim.propagate
  rw [hi]
  simp only
  rw [hpx, hpy, ← agree_pad]
  rcases Sim.pad inp py px with e | padded
  · rfl
  simp only [Except.map, hst, Tensor.map2]
  rw [dims_bcast]
  rcases PySLM2.bcast inp.shape st.shape with _ | o
  · rfl
  simp only [Option.map_some]
  have hp := agree_pad ⟨o, fun i j => inp.at_ i j * st.at_ i j⟩ px py
  rw [← hp]
  rcases hpd : Sim.pad ⟨o, fun i j => inp.at_ i j * st.at_ i j⟩ py px with e | out
  · rfl
  simp only [Except.map]
  unfold Sim.imageOf
  rcases ho : out.shape with _ | ⟨M, N⟩
  · exfalso
    unfold Sim.pad at hpd
    split at hpd
    · cases hpd
    · split_ifs at hpd
      rw [← Except.ok.inj hpd] at ho
      cases ho
  · simp only
    by_cases h0 : M = 0 ∨ N = 0
    · rw [if_pos h0, if_pos (by simp [dims]; omega)]
      simp [fieldsOf, ho]
    · rw [if_neg h0, if_neg (by simp [dims]; omega), if_neg hsc]
      simp [fieldsOf, ho]

/-! ## The hypotheses can be met -/

/-- A call that combines a column, a row and a scalar on a device of 2 rows and 4 columns. -/
example : call ⟨1, 1, 4, 2, 1⟩ [4, 2] (.setGrating [1, 2] [4] [] "random" none none) = .ok [4, 2] := rfl

/-- A stack of three targets with a signal window that applies to all. -/
example : call ⟨1, 1, 4, 2, 1⟩ [4, 2] (.calculate [4, 2] [4, 2, 3] "ifta" none (some [4, 2])) = .ok [4, 2, 3] := by
  simp [call, calculate, calcAmpPhase, bcast, bcastDim, grating, bcastAll, grid]

/-- A patch on a state that is a stack raises. -/
example : call ⟨1, 1, 4, 2, 1⟩ [4, 2, 3] (.patch 5 [] [] [] "random" none none) = .error .indexError := rfl

example : hologram [4, 2, 3] [4, 2] "mraf" 5 (some [1, 2]) = .ok [4, 2, 3] := by
  simp [hologram, bcast, bcastDim]

/-- C145_propagate: a row as the input, padding 1 and 2. -/
example : propagate 1 2 ⟨none, none, none⟩ [4, 1] (run ⟨1, 1, 4, 2, 1⟩ [4, 2] [.on]) = (⟨some [6, 5], some [6, 6], some [6, 6]⟩, .ok ()) := by
  simp [propagate, pad, run, call, grid, bcast, bcastDim]

/-- C145_agree: a history with a profile, a number and a matrix. -/
example (h : Profile.Heap) (t : Tensor ℂ) (kw : Kwargs) (draw : ℕ → ℕ → ℝ) :
    List.Forall₂ (Abstracts ⟨⟨3, 5, 4, 2, 2⟩, 8, 0, false⟩) [.setGrating h (.num (.real 1)) (.ndarray .real t) (.num (.real 0)) "random" kw draw, .on]
      [.setGrating [] (dims t.shape) [] "random" (kw.inputProfile.map fun t => dims t.shape) (kw.signalWindow.map fun t => dims t.shape), .on] :=
  .cons (.setGrating (A := ⟨.scalar, _⟩) (P := ⟨t.shape, _⟩) (Q := ⟨.scalar, _⟩) rfl rfl rfl _ _ _) (.cons .on .nil)

end PySLM2.Ranks
