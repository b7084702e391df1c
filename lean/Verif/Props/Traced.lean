import Verif.Lemmas.Traced

/-!
# Compiled profiles
-/

noncomputable section

namespace PySLM2.Traced

open Profile

/-- **C164.** Whatever a program did before (profiles made, attributes assigned, profiles called with arguments of any shapes), calling a profile
with arguments that broadcast succeeds, and at every point where the profile has a finite value with the variables as they are now, the result is this
value; if the arguments do not broadcast, the call raises unless the profile is made of constants only. -/
theorem C164_fresh (h : Heap) (as : List Act) {k : ℕ} {f : Prof} (hf : ((World.start h).run as).prof.objs[k]? = some f) (x y : Tensor ℝ) :
    (∀ sh, bcast x.shape y.shape = some sh → ∃ t, ((World.start h).run as).result k x y = .ok t ∧
      t.shape = (if rankZero f then .scalar else sh) ∧
      ∀ i j v, eval ((World.start h).run as).prof.heap f (x.at_ i j) (y.at_ i j) = some v → t.get i j = some v) ∧
    (bcast x.shape y.shape = none → rankZero f = false → ∃ e, ((World.start h).run as).result k x y = .error e) := by
  have hs := (run_sound (start_sound h) as).1
  generalize (World.start h).run as = w at *
  obtain ⟨⟨-, -, h3, h4⟩, -⟩ := concrete_builds f ⟨x.shape, y.shape⟩ w.table hs
  have hr : w.result k x y = (Traced.call w.table w.prof.heap f x y).1 := by simp only [World.result, hf]
  rw [hr]
  unfold Traced.call
  generalize concrete f ⟨x.shape, y.shape⟩ w.table = r at *
  obtain ⟨r, t'⟩ := r
  constructor
  · intro sh hb
    cases r with
    | error e => exact absurd (h4 e rfl) (by simp [hb])
    | ok e =>
      obtain ⟨h5, h6⟩ := h3 e rfl
      obtain ⟨g, s⟩ := e
      refine ⟨_, rfl, ?_, fun i j v hv => h6 _ _ _ _ hv⟩
      simp only [hb] at h5
      split at h5
      · rename_i hz
        simpa [hz] using h5
      · rename_i hz
        simp only [hz, Bool.false_eq_true, if_false]
        exact (Option.some.inj h5).symm
  · intro hb hz
    cases r with
    | error e => exact ⟨e, rfl⟩
    | ok e =>
      obtain ⟨h5, -⟩ := h3 e rfl
      simp [hz, hb] at h5

/-- Non-trivial case of `C164_fresh`: a beam, called once, moved, and called again; the second call gives the moved beam. -/
example (h : Heap) (x y : Tensor ℝ) (hs : bcast x.shape y.shape = some (.mat 2 3)) :
    ∃ t, ((World.start h).run [.act (.new (.circ 0 0 1)), .call 0 x y, .act (.setattr 0 .x0 (.real 5))]).result 0 x y = .ok t ∧
      t.shape = .mat 2 3 ∧ ∀ i j, t.get i j = some ((circFunc 5 0 1 (x.at_ i j) (y.at_ i j) : ℝ) : ℂ) := by
  have hobj : ((World.start h).run [.act (.new (.circ 0 0 1)), .call 0 x y, .act (.setattr 0 .x0 (.real 5))]).prof.objs[0]? =
      some (.circ h.next (h.next + 1) (h.next + 2)) := by
    simp [World.run, World.step, World.start, AWorld.start, AWorld.step, AWorld.make, Profile.World.exec, New.run, newCirc, AWorld.set, setattr,
      descriptor, assign, allocRe]
  obtain ⟨t, h1, h2, h3⟩ := (C164_fresh h _ hobj x y).1 _ hs
  refine ⟨t, h1, h2, fun i j => h3 i j _ ?_⟩
  simp [eval, World.run, World.step, World.start, AWorld.start, AWorld.step, AWorld.make, Profile.World.exec, New.run, newCirc, AWorld.set, setattr,
      descriptor, assign, assignRe, allocRe]

/-- **C164.** The result of a call is the same, errors and undefined values included, as if nothing had been called before. -/
theorem C164_same (h : Heap) (as : List Act) (k : ℕ) (x y : Tensor ℝ) :
    ((World.start h).run as).result k x y = ({ (World.start h).run as with table := (World.start h).table } : World).result k x y := by
  have hs := run_exact (w := World.start h) exact_empty as
  generalize (World.start h).run as = w at *
  unfold World.result
  dsimp only
  cases w.prof.objs[k]? with
  | none => rfl
  | some f => exact (call_exact hs _ f x y).2

/-- **C164.** Calls leave no other trace: the profiles and their variables are those of the program without the calls. -/
theorem C164_pure (h : Heap) (as : List Act) :
    ((World.start h).run as).prof =
      AWorld.run (.start h) (as.filterMap fun a => match a with | .act a => some a | .call _ _ _ => none) := by
  have : ∀ w : World, (w.run as).prof = w.prof.run (as.filterMap fun a => match a with | .act a => some a | .call _ _ _ => none) := by
    unfold World.run AWorld.run
    induction as with
    | nil => intro w; rfl
    | cons a as ih =>
      intro w
      rw [List.foldl_cons, ih]
      cases a with
      | act a => rfl
      | call k x y =>
        simp only [World.step, List.filterMap_cons]
        cases w.prof.objs[k]? <;> rfl
  exact this _

/-- **C164.** After a call that succeeded the profile is not compiled again for arguments of the same shapes, whatever the program does next, in
particular after its attributes were assigned: such a call leaves the kept graphs as they are. -/
theorem C164_once (h : Heap) (as bs : List Act) {k : ℕ} {x y x' y' : Tensor ℝ} {t : Tensor (Option ℂ)}
    (hok : ((World.start h).run as).result k x y = .ok t) (hx : x'.shape = x.shape) (hy : y'.shape = y.shape) :
    ((World.start h).run (as ++ .call k x y :: bs ++ [.call k x' y'])).table = ((World.start h).run (as ++ .call k x y :: bs)).table := by
  have hrun : ∀ (w : World) (l l' : List Act), w.run (l ++ l') = (w.run l).run l' := fun w l l' => List.foldl_append
  have hs := (run_sound (start_sound h) as).1
  rw [hrun, hrun]
  generalize (World.start h).run as = w at *
  unfold World.result at hok
  cases hf : w.prof.objs[k]? with
  | none => simp [hf] at hok
  | some f =>
    simp only [hf] at hok
    obtain ⟨hbld, hst⟩ := concrete_builds f ⟨x.shape, y.shape⟩ w.table hs
    have hcall := call_builds hs w.prof.heap f x y
    have hkept : ∃ e, (w.step (.call k x y)).table f ⟨x.shape, y.shape⟩ = some e := by
      simp only [World.step, hf]
      rw [hcall.2.2]
      unfold Traced.call at hok
      generalize concrete f ⟨x.shape, y.shape⟩ w.table = r at *
      obtain ⟨r, t1⟩ := r
      cases r with
      | error e => cases hok
      | ok e => exact ⟨e, hst e rfl⟩
    obtain ⟨e, he⟩ := hkept
    have hs1 := (step_sound hs (.call k x y)).1
    have he' := (run_sound hs1 bs).2 _ _ _ he
    have hf1 : (w.step (.call k x y)).prof.objs[k]? = some f := by simp only [World.step, hf]
    have hf' := objs_run hf1 bs
    show ((World.run (w.step (.call k x y)) bs).step (.call k x' y')).table = (World.run (w.step (.call k x y)) bs).table
    generalize World.run (w.step (.call k x y)) bs = w' at *
    simp only [World.step, hf', Traced.call, hx, hy, concrete_kept he']

/-- Non-trivial case of `C164_once`: a beam that is called, moved and called at other points of the same number. -/
example (h : Heap) (x y x' y' : Tensor ℝ) (hs : bcast x.shape y.shape = some (.mat 2 3)) (hx : x'.shape = x.shape) (hy : y'.shape = y.shape) :
    ((World.start h).run ([.act (.new (.circ 0 0 1))] ++ .call 0 x y :: [.act (.setattr 0 .x0 (.real 5))] ++ [.call 0 x' y'])).table =
      ((World.start h).run ([.act (.new (.circ 0 0 1))] ++ .call 0 x y :: [.act (.setattr 0 .x0 (.real 5))])).table := by
  obtain ⟨t, ht, -⟩ := (C164_fresh h [.act (.new (.circ 0 0 1))] (k := 0) (f := .circ h.next (h.next + 1) (h.next + 2))
    (by simp [World.run, World.step, World.start, AWorld.start, AWorld.step, AWorld.make, Profile.World.exec, New.run, newCirc, allocRe]) x y).1 _ hs
  exact C164_once h _ _ ht hx hy

/-- The first call of a profile does compile it. -/
example (h : Heap) (x y : Tensor ℝ) (hs : bcast x.shape y.shape = some (.mat 2 3)) :
    ((World.start h).run [.act (.new (.circ 0 0 1)), .call 0 x y]).table ≠ ((World.start h).run [.act (.new (.circ 0 0 1))]).table := by
  intro he
  have := congrFun (congrFun he (.circ h.next (h.next + 1) (h.next + 2))) ⟨x.shape, y.shape⟩
  simp [World.run, World.step, World.start, AWorld.start, AWorld.step, AWorld.make, Profile.World.exec, New.run, newCirc, allocRe, Traced.call,
    concrete, lookupOr, leaf, hs, Table.set] at this

end PySLM2.Traced
