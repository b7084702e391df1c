import Verif.Lemmas.Profile
import Verif.Spec.ProfileHistory
import Mathlib.Data.List.GetD

/-!
# Lemmas on histories of profile objects
-/

noncomputable section

open Complex

namespace PySLM2.Profile

/-- All variables a profile reads. -/
def cells : Prof → List ℕ
  | .const c _ => [c]
  | .lit _ => []
  | .hg x0 y0 a w _ _ => [x0, y0, a, w]
  | .lg x0 y0 a w _ _ => [x0, y0, a, w]
  | .sg x0 y0 a w p => [x0, y0, a, w, p]
  | .zernike a _ _ _ _ _ _ => [a]
  | .rect x0 y0 wx wy => [x0, y0, wx, wy]
  | .circ x0 y0 r => [x0, y0, r]
  | .bin _ f g => cells f ++ cells g
  | .binNum _ f _ => cells f
  | .rotate f _ | .shift f _ _ | .rescaleX f _ | .rescaleY f _ | .asComplex f => cells f

/-- The variables created by the constructor of the object. -/
def own : Prof → List ℕ
  | .const c _ => [c]
  | .hg x0 y0 a w _ _ => [x0, y0, a, w]
  | .lg x0 y0 a w _ _ => [x0, y0, a, w]
  | .sg x0 y0 a w p => [x0, y0, a, w, p]
  | .zernike a _ _ _ _ _ _ => [a]
  | .rect x0 y0 wx wy => [x0, y0, wx, wy]
  | .circ x0 y0 r => [x0, y0, r]
  | _ => []

/-- The heaps agree on these variables. -/
def Agree (h h' : Heap) (l : List ℕ) : Prop := ∀ c ∈ l, h.re c = h'.re c ∧ h.cx c = h'.cx c

theorem eval_congr {h h' : Heap} (f : Prof) : Agree h h' (cells f) → ∀ x y, eval h f x y = eval h' f x y := by
  induction f with
  | lit => intros; rfl
  | const c i => intro ha x y; simp [eval, ha c (by simp [cells])]
  | hg x0 y0 a w =>
    intro ha x y
    simp only [eval]
    rw [(ha x0 (by simp [cells])).1, (ha y0 (by simp [cells])).1, (ha a (by simp [cells])).1, (ha w (by simp [cells])).1]
  | lg x0 y0 a w =>
    intro ha x y
    simp only [eval]
    rw [(ha x0 (by simp [cells])).1, (ha y0 (by simp [cells])).1, (ha a (by simp [cells])).1, (ha w (by simp [cells])).1]
  | sg x0 y0 a w p =>
    intro ha x y
    simp only [eval]
    rw [(ha x0 (by simp [cells])).1, (ha y0 (by simp [cells])).1, (ha a (by simp [cells])).1, (ha w (by simp [cells])).1,
      (ha p (by simp [cells])).1]
  | zernike a =>
    intro ha x y
    simp only [eval]
    rw [(ha a (by simp [cells])).1]
  | rect x0 y0 a w =>
    intro ha x y
    simp only [eval]
    rw [(ha x0 (by simp [cells])).1, (ha y0 (by simp [cells])).1, (ha a (by simp [cells])).1, (ha w (by simp [cells])).1]
  | circ x0 y0 r =>
    intro ha x y
    simp only [eval]
    rw [(ha x0 (by simp [cells])).1, (ha y0 (by simp [cells])).1, (ha r (by simp [cells])).1]
  | bin attr f g ihf ihg =>
    intro ha x y
    simp only [eval]
    rw [ihf (fun c hc => ha c (by simp [cells, hc])), ihg (fun c hc => ha c (by simp [cells, hc]))]
  | binNum attr f c ihf => intro ha x y; simp only [eval]; rw [ihf ha]
  | rotate f t ih => intro ha x y; simp only [eval]; rw [ih ha]
  | shift f t u ih => intro ha x y; simp only [eval]; rw [ih ha]
  | rescaleX f t ih => intro ha x y; simp only [eval]; rw [ih ha]
  | rescaleY f t ih => intro ha x y; simp only [eval]; rw [ih ha]
  | asComplex f ih => intro ha x y; simp only [eval]; rw [ih ha]

/-- What a constructor does to the heap: it returns fresh variables. -/
theorem new_spec {n : New} {h : Heap} {r : Heap × Prof} (hr : n.run h = .ok r) :
    h.next ≤ r.1.next ∧ cells r.2 = own r.2 ∧ (own r.2).Nodup ∧ ∀ c ∈ own r.2, h.next ≤ c ∧ c < r.1.next := by
  cases n with
  | const c => cases c <;> (injection hr with hr; subst hr; simp [newConstant, allocRe, allocCx, cells, own])
  | hg | lg | sg | rect | circ =>
    injection hr with hr
    subst hr
    simp [newHermiteGaussian, newLaguerreGaussian, newSuperGaussian, newRect, newCirc, allocRe, cells, own]
    try omega
  | zernike a radius n m nrm ex =>
    simp only [New.run, newZernike] at hr
    split at hr
    · cases hr
    · injection hr with hr
      subst hr
      simp [allocRe, cells, own]

theorem update_comm_ne {α : Type} {f : ℕ → α} {a b : ℕ} (h : a ≠ b) (v w : α) :
    Function.update (Function.update f a v) b w = Function.update (Function.update f b w) a v :=
  Function.update_comm h v w f

/-- Assigning an old variable and constructing a profile commute. -/
theorem new_assign {n : New} {h h' : Heap} {p : ℕ × Kind} {v : PyNum} (hp : p.1 < h.next)
    (ha : assign h p v = .ok h') :
    h'.next = h.next ∧ match n.run h with
      | .ok r => ∃ h'', assign r.1 p v = .ok h'' ∧ n.run h' = .ok (h'', r.2)
      | .error e => n.run h' = .error e := by
  obtain ⟨c, k⟩ := p
  simp only at hp
  have hne : ∀ j, c ≠ h.next + j := fun j => by omega
  have hne0 : c ≠ h.next := by omega
  have hre : ∀ r : ℝ, k = .real → v = .real r → h' = assignRe h c r := by
    intro r hk hv
    subst hk hv
    injection ha with ha
    exact ha.symm
  have hcx : k = .cplx → h' = assignCx h c v.val := by
    intro hk
    subst hk
    cases v <;> (injection ha with ha; exact ha.symm)
  cases k with
  | real =>
    cases v with
    | cplx z => cases ha
    | real r =>
      have h1 := hre r rfl rfl
      subst h1
      refine ⟨rfl, ?_⟩
      cases n with
      | const c => cases c <;> exact ⟨_, rfl, by simp [New.run, newConstant, allocRe, allocCx, assignRe, update_comm_ne hne0]⟩
      | hg | lg | sg | rect | circ =>
        refine ⟨_, rfl, ?_⟩
        simp [New.run, newHermiteGaussian, newLaguerreGaussian, newSuperGaussian, newRect, newCirc, allocRe, assignRe, update_comm_ne hne0, update_comm_ne (hne _), add_assoc]
      | zernike a radius n m nrm ex =>
        simp only [New.run, newZernike]
        cases zernikeData n m nrm with
        | error e => rfl
        | ok d => exact ⟨_, rfl, by simp [allocRe, assignRe, update_comm_ne hne0]⟩
  | cplx =>
    have h1 := hcx rfl
    subst h1
    refine ⟨rfl, ?_⟩
    have e : ∀ h : Heap, assign h (c, .cplx) v = .ok (assignCx h c v.val) := by intro h; cases v <;> rfl
    simp only [e]
    cases n with
    | const c => cases c <;> exact ⟨_, rfl, by simp [New.run, newConstant, allocRe, allocCx, assignCx, update_comm_ne hne0]⟩
    | hg | lg | sg | rect | circ => exact ⟨_, rfl, rfl⟩
    | zernike a radius n m nrm ex =>
      simp only [New.run, newZernike]
      cases zernikeData n m nrm with
      | error e => rfl
      | ok d => exact ⟨_, rfl, rfl⟩

theorem assign_error {h h' : Heap} {p : ℕ × Kind} {v : PyNum} {e : PyErr} (ha : assign h p v = .error e) :
    assign h' p v = .error e := by
  obtain ⟨c, k⟩ := p
  cases k <;> cases v <;> first | exact ha | cases ha

/-- Assignments of different variables commute. -/
theorem assign_assign {h h1 h2 : Heap} {p q : ℕ × Kind} {v w : PyNum} (hne : p.1 ≠ q.1)
    (h1e : assign h p v = .ok h1) (h2e : assign h q w = .ok h2) :
    ∃ h3, assign h1 q w = .ok h3 ∧ assign h2 p v = .ok h3 := by
  obtain ⟨c, k⟩ := p
  obtain ⟨c', k'⟩ := q
  cases k <;> cases v <;> cases k' <;> cases w <;> cases h1e <;> cases h2e <;>
    exact ⟨_, rfl, by simp [assign, assignRe, assignCx, update_comm_ne hne]⟩

theorem assign_next {h h' : Heap} {p : ℕ × Kind} {v : PyNum} (ha : assign h p v = .ok h') : h'.next = h.next := by
  obtain ⟨c, k⟩ := p
  cases k <;> cases v <;> cases ha <;> rfl

theorem assign_agree {h h' : Heap} {p : ℕ × Kind} {v : PyNum} (ha : assign h p v = .ok h') {l : List ℕ}
    (hl : p.1 ∉ l) : Agree h h' l := by
  obtain ⟨c, k⟩ := p
  intro a hac
  have hne : a ≠ c := fun h => hl (h ▸ hac)
  cases k <;> cases v <;> cases ha <;> simp [assignRe, assignCx, Function.update_of_ne hne]

theorem params_own {f : Prof} {p : ℕ × Kind} {n : ℕ} (h : (params f)[n]? = some p) : (own f)[n]? = some p.1 := by
  cases f <;> simp only [params, List.getElem?_nil, reduceCtorEq] at h <;> simp only [own]
  all_goals
    rcases n with _ | _ | _ | _ | _ | n <;> simp at h <;> simp [← h]

/-- The invariant of histories: every variable an object reads was created by exactly one of the objects it
contains. -/
structure Inv (s : World × List (Set ℕ)) : Prop where
  len : s.2.length = s.1.objs.length
  fresh : ∀ {r : ℕ} {f : Prof}, s.1.objs[r]? = some f → ∀ c ∈ cells f, c < s.1.heap.next ∧
    ∃ (j : ℕ) (g : Prof), j ∈ s.2.getD r ∅ ∧ s.1.objs[j]? = some g ∧ c ∈ own g
  uniq : ∀ {j k : ℕ} {f g : Prof} {c : ℕ}, s.1.objs[j]? = some f → s.1.objs[k]? = some g → c ∈ own f → c ∈ own g → j = k
  nodup : ∀ {r : ℕ} {f : Prof}, s.1.objs[r]? = some f → (own f).Nodup

theorem own_sub (f : Prof) : ∀ c ∈ own f, c ∈ cells f := by
  cases f <;> simp [own, cells]

theorem inv_init (h : Heap) : Inv (⟨h, [], []⟩, []) :=
  ⟨rfl, by simp, by simp, by simp⟩

theorem inv_push {w : World} {d : List (Set ℕ)} (hi : Inv (w, d)) {f : Prof} {D : Set ℕ} (hown : own f = [])
    (hc : ∀ c ∈ cells f, c < w.heap.next ∧ ∃ (j : ℕ) (g : Prof), j ∈ D ∧ w.objs[j]? = some g ∧ c ∈ own g) :
    Inv ({ w with objs := w.objs ++ [f] }, d ++ [D]) := by
  have hl : d.length = w.objs.length := hi.len
  have old : ∀ {r : ℕ} {g : Prof}, (w.objs ++ [f])[r]? = some g → w.objs[r]? = some g ∨ r = w.objs.length ∧ g = f := by
    intro r g h
    rw [List.getElem?_append] at h
    split_ifs at h with hr
    · exact .inl h
    · right
      rw [List.getElem?_singleton] at h
      split_ifs at h with h0
      injection h with h
      exact ⟨by omega, h.symm⟩
  have keep : ∀ {r : ℕ} {g : Prof}, w.objs[r]? = some g → (w.objs ++ [f])[r]? = some g := by
    intro r g h
    rw [List.getElem?_append_left (List.getElem?_eq_some_iff.mp h).1]
    exact h
  refine ⟨by simp [hl], ?_, ?_, ?_⟩
  · intro r g hg c hcg
    rcases old hg with h | ⟨rfl, rfl⟩
    · obtain ⟨h1, j, g', h2, h3, h4⟩ := hi.fresh h c hcg
      refine ⟨h1, j, g', ?_, keep h3, h4⟩
      have hr : r < d.length := by rw [hl]; exact (List.getElem?_eq_some_iff.mp h).1
      rw [List.getD_append _ _ _ _ hr]
      exact h2
    · obtain ⟨h1, j, g', h2, h3, h4⟩ := hc c hcg
      refine ⟨h1, j, g', ?_, keep h3, h4⟩
      rw [List.getD_append_right _ _ _ _ (by rw [hl])]
      simpa [hl] using h2
  · intro j k f' g c hj hk h1 h2
    rcases old hj with h | ⟨rfl, rfl⟩
    · rcases old hk with h' | ⟨rfl, rfl⟩
      · exact hi.uniq h h' h1 h2
      · rw [hown] at h2; cases h2
    · rw [hown] at h1; cases h1
  · intro r g hg
    rcases old hg with h | ⟨rfl, rfl⟩
    · exact hi.nodup h
    · rw [hown]; exact List.nodup_nil

theorem inv_new {w : World} {d : List (Set ℕ)} (hi : Inv (w, d)) {h' : Heap} {f : Prof} (hn : w.heap.next ≤ h'.next)
    (hcells : cells f = own f) (hnd : (own f).Nodup) (hc : ∀ c ∈ own f, w.heap.next ≤ c ∧ c < h'.next) :
    Inv ({ w with heap := h', objs := w.objs ++ [f] }, d ++ [{d.length}]) := by
  have hl : d.length = w.objs.length := hi.len
  have old : ∀ {r : ℕ} {g : Prof}, (w.objs ++ [f])[r]? = some g → w.objs[r]? = some g ∨ r = w.objs.length ∧ g = f := by
    intro r g h
    rw [List.getElem?_append] at h
    split_ifs at h with hr
    · exact .inl h
    · right
      rw [List.getElem?_singleton] at h
      split_ifs at h with h0
      injection h with h
      exact ⟨by omega, h.symm⟩
  have keep : ∀ {r : ℕ} {g : Prof}, w.objs[r]? = some g → (w.objs ++ [f])[r]? = some g := by
    intro r g h
    rw [List.getElem?_append_left (List.getElem?_eq_some_iff.mp h).1]
    exact h
  refine ⟨by simp [hl], ?_, ?_, ?_⟩
  · intro r g hg c hcg
    rcases old hg with h | ⟨rfl, rfl⟩
    · obtain ⟨h1, j, g', h2, h3, h4⟩ := hi.fresh h c hcg
      refine ⟨by exact lt_of_lt_of_le h1 hn, j, g', ?_, keep h3, h4⟩
      have hr : r < d.length := by rw [hl]; exact (List.getElem?_eq_some_iff.mp h).1
      rw [List.getD_append _ _ _ _ hr]
      exact h2
    · rw [hcells] at hcg
      refine ⟨(hc c hcg).2, w.objs.length, g, ?_, by simp, hcg⟩
      rw [List.getD_append_right _ _ _ _ (by rw [hl])]
      simp [hl]
  · intro j k f' g c hj hk h1 h2
    rcases old hj with h | ⟨rfl, rfl⟩
    · rcases old hk with h' | ⟨rfl, rfl⟩
      · exact hi.uniq h h' h1 h2
      · have a1 := (hi.fresh h c (own_sub _ _ h1)).1
        have a2 := (hc c h2).1
        simp only at a1
        omega
    · rcases old hk with h' | ⟨rfl, rfl⟩
      · have a1 := (hi.fresh h' c (own_sub _ _ h2)).1
        have a2 := (hc c h1).1
        simp only at a1
        omega
      · rfl
  · intro r g hg
    rcases old hg with h | ⟨rfl, rfl⟩
    · exact hi.nodup h
    · exact hnd

theorem pyBinary_cells {op : PyOp} {a b : PyVal} {r : Prof} (h : pyBinary op a b = .ok r) :
    own r = [] ∧ ∀ c ∈ cells r, (∃ f, a = .prof f ∧ c ∈ cells f) ∨ ∃ g, b = .prof g ∧ c ∈ cells g := by
  cases a with
  | other => cases h
  | prof f =>
    cases b with
    | other => cases op <;> cases h
    | prof g => cases op <;> (injection h with h; subst h; simp [own, cells])
    | num n => cases op <;> (injection h with h; subst h; simp [own, cells])
  | num n =>
    cases b with
    | other => cases h
    | num m => cases h
    | prof g => cases op <;> first | (injection h with h; subst h; simp [own, cells]) | cases h

theorem inv_step {s : World × List (Set ℕ)} (hi : Inv s) (c : Cmd) : Inv (World.depsStep s c) := by
  obtain ⟨w, d⟩ := s
  have same : ∀ w' : World, w' = w → Inv (w', if w'.objs.length = w.objs.length then d else d ++ [c.deps d]) := by
    rintro w' rfl
    rw [if_pos rfl]
    exact hi
  have pushed : ∀ f : Prof, own f = [] →
      (∀ x ∈ cells f, x < w.heap.next ∧ ∃ (j : ℕ) (g : Prof), j ∈ c.deps d ∧ w.objs[j]? = some g ∧ x ∈ own g) →
      Inv ({ w with objs := w.objs ++ [f] },
        if ({ w with objs := w.objs ++ [f] } : World).objs.length = w.objs.length then d else d ++ [c.deps d]) := by
    intro f h1 h2
    rw [if_neg (by simp)]
    exact inv_push hi h1 h2
  show Inv (w.exec c, if (w.exec c).objs.length = w.objs.length then d else d ++ [c.deps d])
  generalize hw : w.exec c = w'
  cases c with
  | new n =>
    cases hr : n.run w.heap with
    | error e => simp only [World.exec, hr] at hw; exact same _ hw.symm
    | ok r =>
      simp only [World.exec, hr] at hw
      subst hw
      obtain ⟨h1, h2, h3, h4⟩ := new_spec hr
      rw [if_neg (by simp)]
      exact inv_new hi h1 h2 h3 h4
  | binary op a b =>
    cases ha : w.operand a with
    | none => simp only [World.exec, ha] at hw; exact same _ hw.symm
    | some va =>
      cases hb : w.operand b with
      | none => simp only [World.exec, ha, hb] at hw; exact same _ hw.symm
      | some vb =>
        simp only [World.exec, ha, hb] at hw
        cases hr : pyBinary op va vb with
        | error e => simp only [hr, World.push] at hw; exact same _ hw.symm
        | ok r =>
          simp only [hr, World.push] at hw
          subst hw
          obtain ⟨h1, h2⟩ := pyBinary_cells hr
          refine pushed r h1 fun x hx => ?_
          have key : ∀ (o : Operand) (f : Prof), w.operand o = some (.prof f) → x ∈ cells f →
              x < w.heap.next ∧ ∃ (j : ℕ) (g : Prof), j ∈ o.deps d ∧ w.objs[j]? = some g ∧ x ∈ own g := by
            intro o f ho hf
            cases o with
            | num c => simp [World.operand] at ho
            | obj k =>
              simp only [World.operand, Option.map_eq_some_iff] at ho
              obtain ⟨f', hk, hf'⟩ := ho
              injection hf' with hf'
              subst hf'
              exact hi.fresh hk x hf
          rcases h2 x hx with ⟨f, rfl, hf⟩ | ⟨g, rfl, hg⟩
          · obtain ⟨k1, j, g, k2, k3⟩ := key a f ha hf
            exact ⟨k1, j, g, .inl k2, k3⟩
          · obtain ⟨k1, j, g, k2, k3⟩ := key b g hb hg
            exact ⟨k1, j, g, .inr k2, k3⟩
  | neg k =>
    cases hk : w.objs[k]? with
    | none => simp only [World.exec, hk] at hw; exact same _ hw.symm
    | some f =>
      simp only [World.exec, hk] at hw
      subst hw
      exact pushed _ rfl fun x hx => hi.fresh hk x (by simpa [cells] using hx)
  | transform tr k =>
    cases hk : w.objs[k]? with
    | none => simp only [World.exec, hk] at hw; exact same _ hw.symm
    | some f =>
      simp only [World.exec, hk] at hw
      subst hw
      cases tr <;> exact pushed _ rfl fun x hx => hi.fresh hk x hx
  | asComplex k =>
    cases hk : w.objs[k]? with
    | none => simp only [World.exec, hk] at hw; exact same _ hw.symm
    | some f =>
      simp only [World.exec, hk] at hw
      subst hw
      exact pushed _ rfl fun x hx => hi.fresh hk x hx
  | set k p v =>
    cases hk : w.objs[k]? with
    | none => simp only [World.exec, hk] at hw; exact same _ hw.symm
    | some f =>
      cases hp : (params f)[p]? with
      | none => simp only [World.exec, hk, hp] at hw; exact same _ hw.symm
      | some q =>
        cases ha : assign w.heap q v with
        | error e => simp only [World.exec, hk, hp, ha] at hw; exact same _ hw.symm
        | ok h' =>
          simp only [World.exec, hk, hp, ha] at hw
          subst hw
          rw [if_pos rfl]
          have hn := assign_next ha
          exact ⟨hi.len, fun hr c hc => by
            obtain ⟨a1, a2⟩ := hi.fresh hr c hc
            exact ⟨by simp only at a1 ⊢; omega, a2⟩, hi.uniq, hi.nodup⟩
  | sample k =>
    cases hk : w.objs[k]? with
    | none => simp only [World.exec, hk] at hw; exact same _ hw.symm
    | some f =>
      simp only [World.exec, hk] at hw
      subst hw
      rw [if_pos rfl]
      exact ⟨hi.len, hi.fresh, hi.uniq, hi.nodup⟩

theorem inv_run (h : Heap) (cs : List Cmd) : Inv (World.runDeps h cs) := by
  unfold World.runDeps
  generalize hs : ((⟨h, [], []⟩, []) : World × List (Set ℕ)) = s
  have hi : Inv s := hs ▸ inv_init h
  clear hs
  induction cs generalizing s with
  | nil => exact hi
  | cons c cs ih => exact ih _ (inv_step hi c)

theorem runDeps_fst (h : Heap) (cs : List Cmd) : (World.runDeps h cs).1 = World.run ⟨h, [], []⟩ cs := by
  unfold World.runDeps World.run
  generalize ([] : List (Set ℕ)) = d
  generalize (⟨h, [], []⟩ : World) = w
  induction cs generalizing w d with
  | nil => rfl
  | cons c cs ih => exact ih _ _

/-- Assigning a parameter of an existing object commutes with independent statements that sample nothing. -/
theorem set_comm {w : World} {d : List (Set ℕ)} (hi : Inv (w, d)) {k param : ℕ} {v : PyNum}
    (hk : k < w.objs.length) {c : Cmd} (hc : c.Independent k param) (hs : ∀ r, c ≠ .sample r) :
    (w.exec c).exec (.set k param v) = (w.exec (.set k param v)).exec c := by
  obtain ⟨f, hf⟩ : ∃ f, w.objs[k]? = some f := ⟨_, List.getElem?_eq_getElem hk⟩
  have hpush : ∀ g : Prof, (w.objs ++ [g])[k]? = some f := by
    intro g
    rw [List.getElem?_append_left hk, hf]
  cases hp : (params f)[param]? with
  | none =>
    have e1 : w.exec (.set k param v) = w := by simp only [World.exec, hf, hp]
    have e2 : ∀ w' : World, w'.objs[k]? = some f → w'.exec (.set k param v) = w' := by
      intro w' h'
      simp only [World.exec, h', hp]
    rw [e1, e2]
    cases c with
    | sample r => exact absurd rfl (hs r)
    | new n => simp only [World.exec]; split <;> simp [hpush, hf]
    | binary op a b => simp only [World.exec]; split <;> (try exact hf); unfold World.push; split <;> simp [hpush, hf]
    | neg j => simp only [World.exec]; split <;> (try exact hf); unfold World.push; split <;> simp [hpush, hf]
    | transform tr j => simp only [World.exec]; split <;> (try exact hf); unfold World.push; simp [hpush]
    | asComplex j => simp only [World.exec]; split <;> (try exact hf); unfold World.push; simp [hpush]
    | set j q u => simp only [World.exec]; split <;> (try exact hf); split <;> (try exact hf); split <;> exact hf
  | some p =>
    have hpo : (own f)[param]? = some p.1 := params_own hp
    cases ha : assign w.heap p v with
    | error e =>
      have e1 : w.exec (.set k param v) = w := by simp only [World.exec, hf, hp, ha]
      have e2 : ∀ w' : World, w'.objs[k]? = some f → w'.exec (.set k param v) = w' := by
        intro w' h'
        simp only [World.exec, h', hp, assign_error ha]
      rw [e1, e2]
      cases c with
      | sample r => exact absurd rfl (hs r)
      | new n => simp only [World.exec]; split <;> simp [hpush, hf]
      | binary op a b => simp only [World.exec]; split <;> (try exact hf); unfold World.push; split <;> simp [hpush, hf]
      | neg j => simp only [World.exec]; split <;> (try exact hf); unfold World.push; split <;> simp [hpush, hf]
      | transform tr j => simp only [World.exec]; split <;> (try exact hf); unfold World.push; simp [hpush]
      | asComplex j => simp only [World.exec]; split <;> (try exact hf); unfold World.push; simp [hpush]
      | set j q u => simp only [World.exec]; split <;> (try exact hf); split <;> (try exact hf); split <;> exact hf
    | ok h' =>
      have e1 : w.exec (.set k param v) = { w with heap := h' } := by simp only [World.exec, hf, hp, ha]
      have e2 : ∀ w' : World, w'.objs[k]? = some f → w'.heap = w.heap →
          w'.exec (.set k param v) = { w' with heap := h' } := by
        intro w' h1 h2
        simp only [World.exec, h1, hp, h2, ha]
      rw [e1]
      have pushcase : ∀ r : Except PyErr Prof, (w.push r).exec (.set k param v) = World.push { w with heap := h' } r := by
        intro r
        cases r with
        | error e => exact e2 w hf rfl
        | ok g => exact e2 { w with objs := w.objs ++ [g] } (hpush g) rfl
      cases c with
      | sample r => exact absurd rfl (hs r)
      | new n =>
        have hlt := (hi.fresh hf p.1 (own_sub _ _ (List.mem_of_getElem? hpo))).1
        have h3 := (new_assign (n := n) hlt ha).2
        simp only [World.exec]
        cases hr : n.run w.heap with
        | error e =>
          rw [hr] at h3
          simp only at h3
          simp only [h3]
          exact e2 w hf rfl
        | ok r =>
          rw [hr] at h3
          obtain ⟨h'', h4, h5⟩ := h3
          simp only [h5, hpush, hp, h4]
      | binary op a b =>
        have ho : ∀ o, World.operand { w with heap := h' } o = w.operand o := by intro o; cases o <;> rfl
        simp only [World.exec, ho]
        cases w.operand a with
        | none => exact e2 w hf rfl
        | some va =>
          cases w.operand b with
          | none => exact e2 w hf rfl
          | some vb => exact pushcase _
      | neg j =>
        simp only [World.exec]
        cases w.objs[j]? with
        | none => exact e2 w hf rfl
        | some g => exact pushcase _
      | transform tr j =>
        simp only [World.exec]
        cases w.objs[j]? with
        | none => exact e2 w hf rfl
        | some g => exact pushcase (.ok _)
      | asComplex j =>
        simp only [World.exec]
        cases w.objs[j]? with
        | none => exact e2 w hf rfl
        | some g => exact pushcase (.ok _)
      | set j q u =>
        cases hj : w.objs[j]? with
        | none =>
          simp only [World.exec, hj]
          exact e2 w hf rfl
        | some g =>
          cases hq : (params g)[q]? with
          | none =>
            simp only [World.exec, hj, hq]
            exact e2 w hf rfl
          | some pq =>
            cases hau : assign w.heap pq u with
            | error e =>
              simp only [World.exec, hj, hq, hau, assign_error hau]
              exact e2 w hf rfl
            | ok h2 =>
              have hqo : (own g)[q]? = some pq.1 := params_own hq
              have hne : p.1 ≠ pq.1 := by
                intro he
                have hjk := hi.uniq hf hj (List.mem_of_getElem? hpo) (he ▸ List.mem_of_getElem? hqo)
                subst hjk
                rw [hf] at hj
                injection hj with hj
                subst hj
                have hq2 : param ≠ q := by
                  intro h
                  subst h
                  exact hc rfl
                obtain ⟨l1, g1⟩ := List.getElem?_eq_some_iff.mp hpo
                obtain ⟨l2, g2⟩ := List.getElem?_eq_some_iff.mp hqo
                exact hq2 ((hi.nodup hf).getElem_inj_iff.mp (g1.trans (he.trans g2.symm)))
              obtain ⟨h3, k1, k2⟩ := assign_assign hne ha hau
              simp only [World.exec, hj, hq, hau, hf, hp, k1, k2]

theorem exec_length (w : World) (c : Cmd) : w.objs.length ≤ (w.exec c).objs.length := by
  have hp : ∀ r, w.objs.length ≤ (w.push r).objs.length := by
    intro r
    cases r <;> simp [World.push]
  cases c with
  | new n => simp only [World.exec]; split <;> simp
  | binary op a b => simp only [World.exec]; split <;> first | exact hp _ | exact le_refl _
  | neg j => simp only [World.exec]; split <;> first | exact hp _ | exact le_refl _
  | transform tr j => simp only [World.exec]; split <;> first | exact hp _ | exact le_refl _
  | asComplex j => simp only [World.exec]; split <;> first | exact hp _ | exact le_refl _
  | set j q u => simp only [World.exec]; split <;> (try exact le_refl _); split <;> (try exact le_refl _); split <;> exact le_refl _
  | sample j => simp only [World.exec]; split <;> exact le_refl _

/-- Two worlds that differ in the samples only. -/
def Eqv (w w' : World) : Prop := w.heap = w'.heap ∧ w.objs = w'.objs

theorem exec_samples (w : World) (l : List (ℝ → ℝ → Option ℂ)) (c : Cmd) : Eqv (w.exec c) (World.exec { w with samples := l } c) := by
  have ho : ∀ o, World.operand { w with samples := l } o = w.operand o := by intro o; cases o <;> rfl
  have hp : ∀ r, Eqv (w.push r) (World.push { w with samples := l } r) := by
    intro r
    cases r <;> exact ⟨rfl, rfl⟩
  cases c with
  | new n => simp only [World.exec]; cases n.run w.heap <;> exact ⟨rfl, rfl⟩
  | binary op a b =>
    simp only [World.exec, ho]
    cases w.operand a with
    | none => exact ⟨rfl, rfl⟩
    | some va =>
      cases w.operand b with
      | none => exact ⟨rfl, rfl⟩
      | some vb => exact hp _
  | neg j =>
    simp only [World.exec]
    cases w.objs[j]? with
    | none => exact ⟨rfl, rfl⟩
    | some va => exact hp _
  | transform tr j =>
    simp only [World.exec]
    cases w.objs[j]? with
    | none => exact ⟨rfl, rfl⟩
    | some va => exact hp (.ok _)
  | asComplex j =>
    simp only [World.exec]
    cases w.objs[j]? with
    | none => exact ⟨rfl, rfl⟩
    | some va => exact hp (.ok _)
  | set j q u =>
    simp only [World.exec]
    cases w.objs[j]? with
    | none => exact ⟨rfl, rfl⟩
    | some f =>
      simp only
      cases (params f)[q]? with
      | none => exact ⟨rfl, rfl⟩
      | some p => simp only; cases assign w.heap p u <;> exact ⟨rfl, rfl⟩
  | sample j =>
    simp only [World.exec]
    cases w.objs[j]? <;> exact ⟨rfl, rfl⟩

theorem Eqv.exec {w w' : World} (h : Eqv w w') (c : Cmd) : Eqv (w.exec c) (w'.exec c) := by
  obtain ⟨h1, h2⟩ := h
  have e : w' = { w with samples := w'.samples } := by
    cases w; cases w'; simp_all
  rw [e]
  exact exec_samples w _ c

theorem Eqv.run {w w' : World} (h : Eqv w w') (cs : List Cmd) : Eqv (w.run cs) (w'.run cs) := by
  unfold World.run
  induction cs generalizing w w' with
  | nil => exact h
  | cons c cs ih => exact ih (h.exec c)

theorem Eqv.trans {u v w : World} (h : Eqv u v) (h' : Eqv v w) : Eqv u w := ⟨h.1.trans h'.1, h.2.trans h'.2⟩

theorem Eqv.symm {u v : World} (h : Eqv u v) : Eqv v u := ⟨h.1.symm, h.2.symm⟩

theorem exec_sample_eqv (w : World) (k : ℕ) : Eqv (w.exec (.sample k)) w := by
  simp only [World.exec]
  cases w.objs[k]? <;> exact ⟨rfl, rfl⟩

theorem set_comm_eqv {w : World} {d : List (Set ℕ)} (hi : Inv (w, d)) {k param : ℕ} {v : PyNum}
    (hk : k < w.objs.length) {c : Cmd} (hc : c.Independent k param) :
    Eqv ((w.exec c).exec (.set k param v)) ((w.exec (.set k param v)).exec c) := by
  by_cases hs : ∃ r, c = .sample r
  · obtain ⟨r, rfl⟩ := hs
    exact ((exec_sample_eqv w r).exec _).trans (exec_sample_eqv _ r).symm
  · push Not at hs
    rw [set_comm hi hk hc hs]
    exact ⟨rfl, rfl⟩

theorem set_run_eqv {w : World} {d : List (Set ℕ)} (hi : Inv (w, d)) {k param : ℕ} {v : PyNum}
    (hk : k < w.objs.length) {cs : List Cmd} (hc : ∀ c ∈ cs, c.Independent k param) :
    Eqv ((w.run cs).exec (.set k param v)) ((w.exec (.set k param v)).run cs) := by
  induction cs generalizing w d with
  | nil => exact ⟨rfl, rfl⟩
  | cons c cs ih =>
    have h1 := ih (inv_step hi c) (lt_of_lt_of_le hk (exec_length w c)) fun c' hc' => hc c' (List.mem_cons_of_mem _ hc')
    have h2 := (set_comm_eqv hi (v := v) hk (hc c List.mem_cons_self)).run cs
    exact h1.trans h2

theorem value_eqv {w w' : World} (h : Eqv w w') (r : ℕ) : w.value r = w'.value r := by
  funext x y
  simp only [World.value, h.1, h.2]

/-- Samples are only ever appended. -/
theorem exec_samples_prefix (w : World) (c : Cmd) : w.samples <+: (w.exec c).samples := by
  have hp : ∀ r, w.samples <+: (w.push r).samples := by
    intro r
    cases r <;> exact List.prefix_rfl
  cases c with
  | new n => simp only [World.exec]; split <;> exact List.prefix_rfl
  | binary op a b => simp only [World.exec]; split <;> first | exact hp _ | exact List.prefix_rfl
  | neg j => simp only [World.exec]; split <;> first | exact hp _ | exact List.prefix_rfl
  | transform tr j => simp only [World.exec]; split <;> first | exact hp _ | exact List.prefix_rfl
  | asComplex j => simp only [World.exec]; split <;> first | exact hp _ | exact List.prefix_rfl
  | set j q u => simp only [World.exec]; split <;> (try exact List.prefix_rfl); split <;> (try exact List.prefix_rfl); split <;> exact List.prefix_rfl
  | sample j => simp only [World.exec]; split <;> first | exact List.prefix_append _ _ | exact List.prefix_rfl

theorem run_samples_prefix (w : World) (cs : List Cmd) : w.samples <+: (w.run cs).samples := by
  unfold World.run
  induction cs generalizing w with
  | nil => exact List.prefix_rfl
  | cons c cs ih => exact (exec_samples_prefix w c).trans (ih _)

theorem getParam_congr {h h' : Heap} {p : ℕ × Kind} {l : List ℕ} (ha : Agree h h' l) (hp : p.1 ∈ l) : getParam h p = getParam h' p := by
  obtain ⟨c, k⟩ := p
  obtain ⟨h1, h2⟩ := ha c hp
  cases k <;> simp [getParam, h1, h2]

theorem assign_get {h h' : Heap} {p : ℕ × Kind} {v : PyNum} (ha : assign h p v = .ok h') : getParam h' p = v.val := by
  obtain ⟨c, k⟩ := p
  cases k <;> cases v <;> cases ha <;> simp [getParam, assignRe, assignCx, PyNum.val]

end PySLM2.Profile
