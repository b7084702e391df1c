import Verif.Props.SimLife

/-!
# Histories of `block_zeroth_order` (C183)
-/

noncomputable section

open PySLM2.Lib

namespace PySLM2.Sim

/-- The radius of a call of `block_zeroth_order`: the argument, or half the distance of the diffraction orders if it is omitted. -/
def blockRadius (d : DMD) (r : Option ℝ) : ℝ := r.getD (d.slm.wavelength * d.slm.focal / d.p / 2)

/-- The pixel at `(x, y)` is strictly inside the disc of one of the calls of `block_zeroth_order` in the history. -/
def InBlockedDisc (d : DMD) (ops : List Op) (x y : ℝ) : Prop :=
  ∃ r, Op.block r ∈ ops ∧ Real.sqrt (x ^ 2 + y ^ 2) < |blockRadius d r|

/-- The calls that leave a propagation in force: blocking, and changes of the SLM. -/
def KeepsResult : Op → Prop
  | .propagate _ _ => False
  | .clear => False
  | _ => True

theorem block_history {d : DMD} (hp : d.p ≠ 0) {o : Tensor ℂ} {g : Tensor ℝ × Tensor ℝ} (ops : List Op) (hops : ∀ op ∈ ops, KeepsResult op) :
    ∀ {s : Sim} {st : StateArr} {img : Tensor ℂ} (_ : s.dev = .dmd d st) (_ : s.outputField = some o) (_ : s.imageField = some img)
      (_ : img.shape = .mat s.Ny s.Nx) (_ : s.imagePaddedGrid = .ok g),
    ∃ img', (s.run ops).imageField = some img' ∧ img'.shape = img.shape ∧ (s.run ops).inputField = s.inputField ∧
      (s.run ops).outputField = s.outputField ∧
      (∀ k < s.Ny, ∀ l < s.Nx, (InBlockedDisc d ops (g.1.get k l) (g.2.get k l) → img'.get k l = 0) ∧
        (¬InBlockedDisc d ops (g.1.get k l) (g.2.get k l) → img'.get k l = img.get k l)) := by
  induction ops with
  | nil =>
    intro s st img hd ho hi hsh hg
    refine ⟨img, hi, rfl, rfl, rfl, fun k _ l _ => ⟨?_, fun _ => rfl⟩⟩
    rintro ⟨r, hr, -⟩
    cases hr
  | cons op ops ih =>
    intro s st img hd ho hi hsh hg
    have ih := @ih fun o h => hops o (List.mem_cons_of_mem _ h)
    have other : ∀ op : Op, (∀ r, op ≠ .block r) → ∀ x y, (InBlockedDisc d (op :: ops) x y ↔ InBlockedDisc d ops x y) := by
      intro op hne x y
      constructor
      · rintro ⟨r, hr, h⟩
        rcases List.mem_cons.mp hr with h' | h'
        · exact absurd h'.symm (hne r)
        · exact ⟨r, h', h⟩
      · rintro ⟨r, hr, h⟩
        exact ⟨r, List.mem_cons_of_mem _ hr, h⟩
    cases op with
    | propagate h a => exact (hops _ List.mem_cons_self).elim
    | clear => exact (hops _ List.mem_cons_self).elim
    | setState st' =>
      have e : (s.step (.setState st')).1 = { s with dev := .dmd d st' } := by
        simp only [step, hd]
      obtain ⟨dev, qx, qy, fi, fo, fm⟩ := s
      subst hd
      obtain ⟨img', h1, h2, h3, h4, h5⟩ := @ih ⟨.dmd d st', qx, qy, fi, fo, fm⟩ st' img rfl ho hi hsh hg
      refine ⟨img', by rw [run, e]; exact h1, h2, by rw [run, e]; exact h3, by rw [run, e]; exact h4, fun k hk l hl => ?_⟩
      rw [other _ (fun r h => by cases h)]
      exact h5 k hk l hl
    | setLcos st' =>
      have e : (s.step (.setLcos st')).1 = s := by
        simp only [step, hd]
      obtain ⟨img', h1, h2, h3, h4, h5⟩ := ih hd ho hi hsh hg
      refine ⟨img', by rw [run, e]; exact h1, h2, by rw [run, e]; exact h3, by rw [run, e]; exact h4, fun k hk l hl => ?_⟩
      rw [other _ (fun r h => by cases h)]
      exact h5 k hk l hl
    | block r =>
      have e : s.step (.block r) = s.blockZerothOrder (some (blockRadius d r)) := by
        cases r with
        | some r => rfl
        | none => exact C17_default_radius hd ho hi hsh hg hp
      obtain ⟨-, img₁, e₁, e₂, e₃⟩ := C17_blocks_disc hd ho hi hsh hg (blockRadius d r)
      obtain ⟨img', h1, h2, h3, h4, h5⟩ := @ih { s with imageField := some img₁ } st img₁ hd ho rfl (e₂.trans hsh) hg
      have hr : (s.step (.block r)).1 = { s with imageField := some img₁ } := by rw [e, e₁]
      refine ⟨img', by rw [run, hr]; exact h1, h2.trans e₂, by rw [run, hr]; exact h3, by rw [run, hr]; exact h4, fun k hk l hl => ⟨?_, fun h => ?_⟩⟩
      · rintro ⟨r', hr', hlt⟩
        by_cases hm : InBlockedDisc d ops (g.1.get k l) (g.2.get k l)
        · exact (h5 k hk l hl).1 hm
        · rw [(h5 k hk l hl).2 hm, e₃ k hk l hl]
          rcases List.mem_cons.mp hr' with h' | h'
          · cases h'
            exact if_pos hlt
          · exact absurd ⟨r', h', hlt⟩ hm
      · rw [(h5 k hk l hl).2 fun ⟨r', hr', hlt⟩ => h ⟨r', List.mem_cons_of_mem _ hr', hlt⟩, e₃ k hk l hl]
        exact if_neg fun hlt => h ⟨r, List.mem_cons_self, hlt⟩

/-- **C183.** After a propagation followed by any number of `block_zeroth_order` calls and changes of the DMD, the fields on the SLM are those of
the propagation, and the image is that of the propagation except that it is zero in the discs of all the calls. -/
theorem C183_history {s : Sim} {d : DMD} {st : StateArr} (hd : s.dev = .dmd d st) (hp : d.p ≠ 0) {px py : ℕ} {h : Profile.Heap} {a : ProfArg}
    {u m : ℕ → ℕ → ℂ} (rdy : Ready s px py h a u m) (ops : List Op) (hops : ∀ op ∈ ops, KeepsResult op) :
    ((s.run (.propagate h a :: ops)).inputField = (s.propagate h a).1.inputField ∧
      (s.run (.propagate h a :: ops)).outputField = (s.propagate h a).1.outputField) ∧
    ∃ img img' g, (s.propagate h a).1.imageField = some img ∧ (s.run (.propagate h a :: ops)).imageField = some img' ∧
      s.imagePaddedGrid = .ok g ∧ img.shape = .mat (d.slm.Ny + 2 * py) (d.slm.Nx + 2 * px) ∧ img'.shape = img.shape ∧
      ∀ k < d.slm.Ny + 2 * py, ∀ l < d.slm.Nx + 2 * px,
        (InBlockedDisc d ops (g.1.get k l) (g.2.get k l) → img'.get k l = 0) ∧
        (¬InBlockedDisc d ops (g.1.get k l) (g.2.get k l) → img'.get k l = img.get k l) := by
  obtain ⟨o, img, g, h1, h2, h3, h4, h5⟩ := C17_reachable hd rdy
  obtain ⟨img', k1, k2, k3, k4, k5⟩ := block_history hp ops hops h1 h2 h3 h4 h5
  have ex : (s.propagate h a).1.Nx = d.slm.Nx + 2 * px ∧ (s.propagate h a).1.Ny = d.slm.Ny + 2 * py := by
    rw [propagate_ready rdy]
    have e1 := Nx_eq rdy.hpx
    have e2 := Ny_eq rdy.hpy
    simp only [hd] at e1 e2
    exact ⟨e1, e2⟩
  have eg : s.imagePaddedGrid = .ok g := by
    rw [← h5, propagate_ready rdy]
    rfl
  rw [ex.1, ex.2] at k5 h4
  exact ⟨⟨k3, k4⟩, img, img', g, h3, k1, eg, h4, k2, k5⟩

/-- **C183.** Neither the order of the calls nor repetitions matter: histories that block the same discs give the same image, and only the largest
disc counts. -/
theorem C183_largest {s : Sim} {d : DMD} {st : StateArr} (hd : s.dev = .dmd d st) (hp : d.p ≠ 0) {px py : ℕ} {h : Profile.Heap} {a : ProfArg}
    {u m : ℕ → ℕ → ℂ} (rdy : Ready s px py h a u m) (ops : List Op) (hops : ∀ op ∈ ops, KeepsResult op) (r : Option ℝ) (hr : Op.block r ∈ ops)
    (hmax : ∀ r', Op.block r' ∈ ops → |blockRadius d r'| ≤ |blockRadius d r|) :
    ∃ img' img'', (s.run (.propagate h a :: ops)).imageField = some img' ∧ ((s.propagate h a).1.blockZerothOrder r).1.imageField = some img'' ∧
      img'.Same img'' := by
  obtain ⟨-, img, img', g, h1, h2, h3, h4, h5, h6⟩ := C183_history hd hp rdy ops hops
  obtain ⟨-, img₂, img'', g', k1, k2, k3, k4, k5, k6⟩ := C183_history hd hp rdy [.block r] (fun op ho => by
    rw [List.mem_singleton.mp ho]
    trivial)
  cases Option.some.inj (h1.symm.trans k1)
  cases h3.symm.trans k3
  refine ⟨img', img'', h2, k2, h5.trans k5.symm, ?_⟩
  rw [h5, h4]
  intro k hk l hl
  by_cases hb : Real.sqrt (g.1.get k l ^ 2 + g.2.get k l ^ 2) < |blockRadius d r|
  · rw [(h6 k hk l hl).1 ⟨r, hr, hb⟩, (k6 k hk l hl).1 ⟨r, List.mem_singleton.mpr rfl, hb⟩]
  · rw [(h6 k hk l hl).2 fun ⟨r', hr', hlt⟩ => hb (hlt.trans_le (hmax r' hr')), (k6 k hk l hl).2 fun ⟨r', hr', hlt⟩ => ?_]
    cases List.mem_singleton.mp hr'
    exact hb hlt

/-- **C183.** Calls with the radius 0 and changes of the DMD leave the image as it is. -/
theorem C183_nothing_blocked {s : Sim} {d : DMD} {st : StateArr} (hd : s.dev = .dmd d st) (hp : d.p ≠ 0) {px py : ℕ} {h : Profile.Heap} {a : ProfArg}
    {u m : ℕ → ℕ → ℂ} (rdy : Ready s px py h a u m) (ops : List Op) (hops : ∀ op ∈ ops, KeepsResult op)
    (hzero : ∀ r, Op.block r ∈ ops → blockRadius d r = 0) :
    ∃ img img', (s.propagate h a).1.imageField = some img ∧ (s.run (.propagate h a :: ops)).imageField = some img' ∧ img'.Same img := by
  obtain ⟨-, img, img', g, h1, h2, h3, h4, h5, h6⟩ := C183_history hd hp rdy ops hops
  refine ⟨img, img', h1, h2, h5, ?_⟩
  rw [h5, h4]
  intro k hk l hl
  refine (h6 k hk l hl).2 ?_
  rintro ⟨r, hr, hlt⟩
  rw [hzero r hr, abs_zero] at hlt
  exact absurd hlt (Real.sqrt_nonneg _).not_gt

/-- The hypotheses hold for three calls and a change of the DMD in between. -/
example (h : Profile.Heap) : ∃ img' img'', (exSim.run [.propagate h exInput, .block (some 1), .setState (.bool exState), .block (some (-3)),
    .block (some 2)]).imageField = some img' ∧ ((exSim.propagate h exInput).1.blockZerothOrder (some (-3))).1.imageField = some img'' ∧
    img'.Same img'' := by
  refine C183_largest (d := exDmd) rfl (by norm_num [exDmd]) (exReady h) _ ?_ (some (-3)) (by simp) ?_
  · intro op ho
    simp only [List.mem_cons, List.not_mem_nil, or_false] at ho
    rcases ho with rfl | rfl | rfl | rfl <;> trivial
  · intro r hr
    simp only [List.mem_cons, List.not_mem_nil, or_false, Op.block.injEq, reduceCtorEq, false_or] at hr
    rcases hr with rfl | rfl | rfl <;> norm_num [blockRadius]

end PySLM2.Sim
