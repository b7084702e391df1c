import Verif.Props.Patches

/-!
# C105: the last writer wins
-/

noncomputable section

namespace PySLM2.DMD

open Lib

theorem bool_of_isFloat {g : StateArr} (h : g.isFloat = false) : ∃ t, g = .bool t := by
  cases g with
  | bool t => exact ⟨t, rfl⟩
  | float t => cases h

/-- One call on a boolean state. -/
theorem call_writes {d : DMD} (hx : d.slm.Nx ≠ 1) (hy : d.slm.Ny ≠ 1) {c : Call} (hc : c.binary) (t : Tensor Bool)
    (ht : t.shape = .mat d.slm.Ny d.slm.Nx) :
    ∃ t' : Tensor Bool, t'.shape = .mat d.slm.Ny d.slm.Nx ∧ (d.call (.bool t) c).state (.bool t) = .bool t' ∧
      ∀ a b, t'.get a b = (d.writes a b c).getD (t.get a b) := by
  classical
  cases c with
  | off => exact ⟨⟨.mat d.slm.Ny d.slm.Nx, fun _ _ => false⟩, rfl, rfl, fun _ _ => rfl⟩
  | on => exact ⟨⟨.mat d.slm.Ny d.slm.Nx, fun _ _ => true⟩, rfl, rfl, fun _ _ => rfl⟩
  | setGrating h amp pin pout method kw draw =>
    cases hg : d.gratingOfArgs h amp pin pout method kw draw with
    | error e =>
      refine ⟨t, ht, ?_, fun a b => ?_⟩
      · simp only [call, setDmdGratingState, hg]; rfl
      · simp only [writes, shows, call, setDmdGratingState, hg]; rfl
    | ok g =>
      obtain ⟨ta, ti, tj, h1⟩ := gratingOfArgs_ok hg
      obtain ⟨n, rfl⟩ := bool_of_isFloat ((grating_isFloat h1).trans (decide_eq_false hc))
      refine ⟨n, grating_shape hx hy h1, ?_, fun a b => ?_⟩
      · simp only [call, setDmdGratingState, hg]; rfl
      · simp only [writes, shows, call, setDmdGratingState, hg]; rfl
  | patch h i j amp pin pout dia method kw draw =>
    cases hg : d.gratingOfArgs h amp pin pout method kw draw with
    | error e =>
      refine ⟨t, ht, ?_, fun a b => ?_⟩
      · simp only [call, circularPatch, hg]; rfl
      · have : d.shows (.setGrating h amp pin pout method kw draw) a b = none := by
          simp only [shows, call, setDmdGratingState, hg]; rfl
        rw [writes, this, ite_self]; rfl
    | ok g =>
      obtain ⟨ta, ti, tj, h1⟩ := gratingOfArgs_ok hg
      obtain ⟨n, rfl⟩ := bool_of_isFloat ((grating_isFloat h1).trans (decide_eq_false hc))
      have hs : (StateArr.bool n).shape = .mat d.slm.Ny d.slm.Nx := grating_shape hx hy h1
      refine ⟨⟨t.shape, fun a b => if circularMask i j dia a b then n.get a b else t.get a b⟩, ht, ?_, fun a b => ?_⟩
      · simp only [call, circularPatch, hg]
        rw [if_pos ⟨hs, ht⟩]
        rfl
      · have : d.shows (.setGrating h amp pin pout method kw draw) a b = some (n.get a b) := by
          simp only [shows, call, setDmdGratingState, hg]
        rw [writes, this]
        by_cases hm : circularMask i j dia a b
        · rw [if_pos ((circularMask_iff _ _ _ _ _).mp hm)]
          exact if_pos hm
        · rw [if_neg fun h => hm ((circularMask_iff _ _ _ _ _).mpr h)]
          exact if_neg hm
  | calculate h inp target method window kw draw =>
    cases hg : d.calcGrating h inp target method window kw draw with
    | error e =>
      refine ⟨t, ht, ?_, fun a b => ?_⟩
      · simp only [call, calculateDmdState, hg]; rfl
      · simp only [writes, shows, call, calculateDmdState, hg]; rfl
    | ok g =>
      obtain ⟨g, m⟩ := g
      obtain ⟨ta, ti, tj, kw', h1⟩ := calcGrating_ok hg
      obtain ⟨n, rfl⟩ := bool_of_isFloat ((grating_isFloat h1).trans (decide_eq_false hc))
      refine ⟨n, grating_shape hx hy h1, ?_, fun a b => ?_⟩
      · simp only [call, calculateDmdState, hg]; rfl
      · simp only [writes, shows, call, calculateDmdState, hg]; rfl

/-- **C105.** After any history of calls with the binary methods, successful or not, every mirror shows what the last
call that wrote to it wrote, and is off if none did.  What a call writes does not depend on the history. -/
theorem C105_last_writer {d : DMD} (hx : d.slm.Nx ≠ 1) (hy : d.slm.Ny ≠ 1) {cs : List Call} (hc : ∀ c ∈ cs, c.binary) :
    ∃ t : Tensor Bool, d.runCalls d.initialState cs = .bool t ∧ t.shape = .mat d.slm.Ny d.slm.Nx ∧
      ∀ a b, t.get a b = (cs.filterMap (d.writes a b)).getLastD false := by
  have : ∀ t : Tensor Bool, t.shape = .mat d.slm.Ny d.slm.Nx →
      ∃ t' : Tensor Bool, d.runCalls (.bool t) cs = .bool t' ∧ t'.shape = .mat d.slm.Ny d.slm.Nx ∧
        ∀ a b, t'.get a b = (cs.filterMap (d.writes a b)).getLastD (t.get a b) := by
    induction cs with
    | nil => exact fun t ht => ⟨t, rfl, ht, fun _ _ => rfl⟩
    | cons c cs ih =>
      intro t ht
      obtain ⟨t1, h1, h2, h3⟩ := call_writes hx hy (hc c (List.mem_cons_self ..)) t ht
      obtain ⟨t', h4, h5, h6⟩ := ih (fun c' h => hc c' (List.mem_cons_of_mem _ h)) t1 h1
      refine ⟨t', by rw [runCalls, h2]; exact h4, h5, fun a b => ?_⟩
      rw [h6, h3]
      cases hw : d.writes a b c with
      | none => rw [List.filterMap_cons_none hw]; rfl
      | some v => rw [List.filterMap_cons_some hw, List.getLastD_cons]; rfl
  exact this _ rfl

/-- **C105.** Repeating a call right away changes nothing (with the same draws), and calls before one that wrote the whole
array have no effect. -/
theorem C105_overwrite {d : DMD} (hx : d.slm.Nx ≠ 1) (hy : d.slm.Ny ≠ 1) {cs cs' : List Call} {c : Call}
    (hcs : ∀ c ∈ cs, c.binary) (hcs' : ∀ c ∈ cs', c.binary) (hc : c.binary) :
    (d.runCalls d.initialState (cs ++ c :: c :: cs')).Same (d.runCalls d.initialState (cs ++ c :: cs')) ∧
    ((∀ a b, (d.writes a b c).isSome) →
      (d.runCalls d.initialState (cs ++ c :: cs')).Same (d.runCalls d.initialState (c :: cs'))) := by
  have mem : ∀ {l : List Call}, (∀ x ∈ l, x ∈ cs ∨ x = c ∨ x ∈ cs') → ∀ x ∈ l, x.binary := by
    intro l hl x hx
    rcases hl x hx with h | h | h
    · exact hcs x h
    · exact h ▸ hc
    · exact hcs' x h
  obtain ⟨t2, e2, s2, g2⟩ := C105_last_writer hx hy (mem (l := cs ++ c :: c :: cs') fun x hx => by
    simp only [List.mem_append, List.mem_cons] at hx; tauto)
  obtain ⟨t1, e1, s1, g1⟩ := C105_last_writer hx hy (mem (l := cs ++ c :: cs') fun x hx => by
    simp only [List.mem_append, List.mem_cons] at hx; tauto)
  obtain ⟨t0, e0, s0, g0⟩ := C105_last_writer hx hy (mem (l := c :: cs') fun x hx => by
    simp only [List.mem_cons] at hx; tauto)
  rw [e2, e1, e0]
  have last : ∀ (l l' : List Bool) (x y : Bool), (l ++ x :: l').getLastD y = l'.getLastD x := by
    intro l l' x y
    induction l generalizing y with
    | nil => rw [List.nil_append, List.getLastD_cons]
    | cons a l ih => rw [List.cons_append, List.getLastD_cons]; exact ih a
  have same : ∀ {t t' : Tensor Bool}, t.shape = .mat d.slm.Ny d.slm.Nx → t'.shape = .mat d.slm.Ny d.slm.Nx →
      (∀ a b, t.get a b = t'.get a b) → (StateArr.bool t).Same (.bool t') := by
    intro t t' ht ht' hg
    refine ⟨ht.trans ht'.symm, ?_⟩
    rw [ht]
    exact fun i _ j _ => hg i j
  refine ⟨same s2 s1 fun a b => ?_, fun hall => same s1 s0 fun a b => ?_⟩
  · rw [g2, g1, List.filterMap_append, List.filterMap_append]
    cases hw : d.writes a b c with
    | none => rw [List.filterMap_cons_none hw, List.filterMap_cons_none hw]
    | some v =>
      rw [List.filterMap_cons_some hw, List.filterMap_cons_some hw, last, last, List.getLastD_cons]
  · rw [g1, g0, List.filterMap_append]
    obtain ⟨v, hw⟩ := Option.isSome_iff_exists.mp (hall a b)
    rw [List.filterMap_cons_some hw, last, List.getLastD_cons]

/-- C105: on a 4 x 2 device, `set_dmd_state_on` followed by a patch of amplitude 1/2 with diameter 1 around mirror
`(0, 0)`: that mirror is off, mirror `(1, 3)` is on. -/
example (h : Profile.Heap) (draw : ℕ → ℕ → ℝ) : ∃ t : Tensor Bool,
    exGrating.runCalls exGrating.initialState [.on, .patch h 0 0 (.num (.real (1 / 2))) (.num (.real 0)) (.num (.real 1))
      1 "simple" {} draw] = .bool t ∧ t.get 0 0 = false ∧ t.get 1 3 = true := by
  have ga : GratingArgs exGrating h (.num (.real (1 / 2))) (.num (.real 0)) (.num (.real 1))
      (fun _ _ => 1 / 2) (fun _ _ => 0) (fun _ _ => 1) := by
    refine ⟨⟨_, rfl, rfl, fun i _ j _ => ?_⟩, ⟨_, rfl, rfl, fun i _ j _ => ?_⟩,
      ⟨_, rfl, rfl, fun i _ j _ => ?_⟩⟩ <;> simp [Tensor.at_, Tensor.map, Tensor.scalar]
  obtain ⟨n, n1, -, n3⟩ := C29_consequences ga (by norm_num [exGrating, DMD.new]) {} draw
  obtain ⟨t, t1, -, t3⟩ := C105_last_writer (d := exGrating) (cs := [.on, .patch h 0 0 (.num (.real (1 / 2)))
    (.num (.real 0)) (.num (.real 1)) 1 "simple" {} draw]) (by norm_num [exGrating, DMD.new]) (by norm_num [exGrating, DMD.new])
    (fun c hc => by
      simp only [List.mem_cons, List.not_mem_nil, or_false] at hc
      rcases hc with rfl | rfl
      · trivial
      · show "simple" ≠ "ideal"; decide)
  have hs : ∀ a b, exGrating.shows (.setGrating h (.num (.real (1 / 2))) (.num (.real 0)) (.num (.real 1)) "simple" {} draw) a b =
      some (n.get a b) := by
    intro a b
    simp only [shows, call, n1]
  refine ⟨t, t1, ?_, ?_⟩
  · rw [t3]
    have w : exGrating.writes 0 0 (.patch h 0 0 (.num (.real (1 / 2))) (.num (.real 0)) (.num (.real 1)) 1 "simple" {} draw) =
        some (n.get 0 0) := by
      rw [writes, if_pos, hs]
      norm_num [DMD.dist]
    rw [List.filterMap_cons_some (show exGrating.writes 0 0 .on = some true from rfl), List.filterMap_cons_some w]
    exact (n3 0 (by norm_num [exGrating, DMD.new]) 0 (by norm_num [exGrating, DMD.new])).1 le_rfl
  · rw [t3]
    have w : exGrating.writes 1 3 (.patch h 0 0 (.num (.real (1 / 2))) (.num (.real 0)) (.num (.real 1)) 1 "simple" {} draw) =
        none := by
      rw [writes, if_neg]
      have : (1 : ℝ) / 2 < √(1 + 3 ^ 2) := Real.lt_sqrt_of_sq_lt (by norm_num)
      norm_num [DMD.dist] at this ⊢
      linarith
    rw [List.filterMap_cons_some (show exGrating.writes 1 3 .on = some true from rfl), List.filterMap_cons_none w]
    rfl

end PySLM2.DMD
